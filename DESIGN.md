# Formal model of aquascope: design

Everything below concerns the source in `/repo` (aquascope at the pinned commit).
The model is written in Lean 4 under `lean/Verif/`, one directory per area:

| file | contents |
|---|---|
| `Verif/<Area>/Model.lean`  | executable model, every definition cites file and lines in `/repo` and states simplifications |
| `Verif/<Area>/Spec.lean`   | small independent specification (where the property needs vocabulary of its own) |
| `Verif/<Area>/Lemmas.lean` | helper lemmas |
| `Verif/<Area>/Props.lean`  | the property theorems `C..`, each with a non-vacuity `example` beside it |

Front-end files are named by topic (`Verif/Frontend/<Topic>.lean`, `<Topic>Spec.lean`, `<Topic>Props.lean`).
`MANIFEST.json` maps each property to its theorems; `seeded/LOG.jsonl` records the mutation tests;
`AXIOMS.md` lists the axioms each theorem depends on. `tools/manifest.py` and `tools/axioms.py` regenerate them.

## Plan per property

| id | modelled | proof method |
|---|---|---|
| C01 | `parse_annotations` on `List Char`, the regex as a leftmost marker finder | refinement: output line = concatenation of the kept fragments; reconstruction theorem by induction on the line |
| C02 | same, with byte offsets | invariant: running index = byte length of output so far; split theorem. Character offsets: equality on ASCII, negation with a witness otherwise |
| C03 | same | induction over the lines |
| C04 | `parse_all` as a scanning loop over an arbitrary block parser, instantiated with the model of `parse` | induction on the remaining text |
| C05 | the nom combinators as functions on `List Char` | round trip print/parse by induction on the lists |
| C06 | the regex as a matcher, the HTML printer | induction on the text |
| C07 | both scanners together | negation by witness; partial theorem for documents in which no tag lies inside a block |
| C08 | cache operations; codec and hash are parameters | refinement of a map by induction over histories |
| C09 | file-system calls of `save` as a list of atomic steps, prefixes of the byte string | case analysis over the crash points, codec laws as hypotheses on parameters |
| C10 | `get`/`set`/`save` | invariant dirty = false |
| C11 | `process_code` as read-lock / run / write-lock micro-steps of threads | invariant over the interleaving transition system |
| C12 | `run_aquascope` over an arbitrary outcome per operation and a JSON type | decision logic + induction over operations |
| C13, C14 | `group_steps` on lists with partial mapping | induction, spec via maximal runs |
| C15 | `Abbreviated` | case analysis + induction over the read loop |
| C16 | `read_pointer`/`read` over a memory graph with fuel-free well-founded recursion | invariant by induction |
| C17, C21 | `AddressLocator` over a layout tree | induction over the path; negations for padding and for slices |
| C18 | `remap_alloc_id` | invariant: insertion-ordered injective numbering; negation for the reset |
| C19 | `MovedPlaces`, `collect_moves`, `handle_moves` | invariant over histories; marks of one statement from its operands; negation for re-initialisation, parts, memory, calls |
| C20 | `eval`/`step` over an abstract machine | induction over the run |
| C22, C29, C40, C41, C53 | decision logic, complete | case analysis |
| C23–C25 | the datalog rules as a terminating semi-naive/naive evaluation on finite fact lists | evaluation = least fixpoint = path characterisation |
| C26 | `insert_facts` | fold invariant |
| C27 | path predicates over projection lists with types | induction over projections |
| C28 | `JoinSemiLattice` | algebra; negation for the domain join |
| C30 | the filters | list lemmas |
| C31 | `select_candidate_location` | list lemmas |
| C32, C33 | `flow_kind`, reachability by finite closure | closure = `ReflTransGen` |
| C34 | `smooth_elements` | induction over the sorted list |
| C35 | `key_to_spans` | from C34; `as_local` is any function from spans to spans |
| C36 | `construct_move_info` filter | negation by witness |
| C37 | `AllPostDominators` over an abstract dominator function meeting its specification | path argument on the reversed graph |
| C38 | `CleanedBody` | case analysis; negation for imaginary edges |
| C39 | `get_mir_locations` | list lemmas over dominance relations |
| C42, C43 | `prettify_permission_steps` | fold invariants |
| C44 | `insert_branch` | structural recursion; negation by witness |
| C45–C48 | `SegmentedMirBuilder` as a state machine | invariants over operation histories |
| C49 | `find_next_switchint` | negation for cycles, partial correctness otherwise |
| C50 | diagnostics state | induction over histories |
| C51 | `Container` pipeline | decision logic |
| C52 | `filterSteps` | list lemmas |
| C54 | `uniqBy` | list lemmas |
| C55 | rendering of values as sets of selectors | structural induction; negations for abbreviation and ZST fields |
| C56 | `after_expansion` | list lemmas |
| C57 | `split_test_source` | round trip by induction |
| C58 | `new_path` etc. | invariant over registrations |
| C59, C60 | the reader of C16 with value trees and explicit fuel for the call stack | structural induction over the read; negations: references in vectors, cycles, string literals |
| C61 | the HIR visitor of the boundaries on an expression grammar | induction over expressions; negations for indices and temporaries |
| C62 | the region graph of C32/C33 with its components | closure argument; negation for cycles |
| C63 | entry and exit location of a body | path arguments; negation for endless loops |
| C64, C65, C66 | the insertion loop of the segment builder | well-founded recursion on the body when no switch lies ahead; divergence and panics by witnesses |
| C67 | callbacks of the interpreter command | decision logic |
| C68 | least post-dominator | characterised by paths only |
| C69, C70, C81 | page state, buttons, requests and answers as a transition system | invariant; exact description of the events that break it; witnesses |
| C71 | primitive values from memory to text | arithmetic (rounding to 53 bits), induction over digits and characters |
| C72 | class names and arrows of the diagram | structural induction over value trees, injectivity of the names |
| C73, C76, C77 | rows, cells and letters | decision tables and list lemmas |
| C74 | `linecolToPosition` | induction over the text, UTF-16 lengths |
| C75 | error marker at a step | list lemmas; negation by witness |
| C78 | tags and highlighted ranges | list lemmas |
| C79 | pointers of a step to options of lines, heights as fractions | index of a counting fold, arithmetic; negations for one and for five arrows |
| C80, C90 | from the block to what each reader of an option does; the page as a fold over elements and operations | invariant over operations; negations by spelling, by an empty program and by hidden code |
| C91 | HIR as a parent function, the set of nodes as a list in any order, the map as the last pair | ancestors of a node form a chain, so at most one top-level statement contains it |
| C92 | two groupings of a trace, composed | sublist of a mapped list; C13, C14 for each stage; congruence of grouping for totality |
| C93 | child as a list of writes, bounded pipes, timeline of turns and seconds | conservation of bytes, progress if all fits, otherwise stuck by an invariant |
| C94 | field of widgets under edits and answers, equality as the code defines it | induction over the history from its end; negation for one line |
| C95 | the variables of a frame by state, layout and initialised bytes | induction over frames and variables; layouts as trees; negations for padding, enums, unions, empty types |
| C96 | the slots recorded for the variables found, and the whole state read by the model of C16 | invariant of the recording; composition with C16 |
| C97 | the whole way from segments and states of places to rows | composition of C22, C40, C43, C44, C46, C76, C89; contents of tables by case; which steps leave a variable out, by induction over the source (`HirSteps/Around`); negation for a block as initialiser |
| C98 | the whole way from source and facts to stacks of letters | relational specification of uses with positions and contexts, both directions by induction; composition of C22, C31, C32, C39, C54, C77; negations for hash order and for uses judged elsewhere |
| C99 | the steps of a function from its statements and the attribution of locations to nodes | order along a path decided by dominance and post-dominance (`Cfg/Chain`); what is due by induction over the tree; composition of C39, C89, C97; negation for another layout |
| C100 | nested two-way conditionals: control flow as a tree (`Cfg/Flow`), the walk along it (`HirSteps/Nested`), a small language with its translation (`HirSteps/Programs`) | dominators and post-dominators of the tree by induction over paths; the builder's state along a walk as an invariant (which collections are apart from the level); the walk of every program by induction |
| C101 | every step and branch is listed (`Segments/Filing`), ends of programs (`Pipeline/Programs`), pages of programs (`Pipeline/ProgramProps`) | invariant over histories; counting of ends by induction over programs; composition of C100, C44, C97; induction along steps that follow each other |
| C102 | the visitor's wishes for every construct and a walk along any control flow (`Walk/Model`), a language with `let`, `match`, `while` and `for` and its translation (`Walk/Lang`) | the builder's state along a walk as an invariant, any number of arms (`Walk/Builder`); regions with one entry and one exit, dominance by paths through or around them (`Walk/Region`, `Walk/Shape`, `Walk/Descent`); the walk of every program by induction (`Walk/Course`, `Walk/Programs`); where nodes begin and end, from dominance in regions (`Walk/Source`) |
| C103 | tables that share an end (`Pipeline/Kept`), ends and beginnings of the steps of programs (`Walk/Ends`, `Walk/Lefts`), their pages (`Pipeline/WalkProps`) | invariant over the insertion of tables; counting of ends by mutual induction over programs and arms; composition of C102, C97; induction along steps that follow each other |
| C104 | facts of accepted programs (`Facts/Live`) | induction over the derivation of liveness, two points per location; C22 |
| C105 | pages of variables that are never borrowed (`Pipeline/Living`) | composition of C104, C97, C103; points of locations are distinct (C58) |
| C108 | where ways come together (`Walk/Merges`), ways as steps and jumps (`Pipeline/Ways`), runs (`Pipeline/Runs`) | composition of C105, C103; a run and the way that follows it as an invariant over programs and arms; the locations of parts of a program do not overlap |
| C109 | liveness of a variable over the language of C102 (`Walk/Value`), compared with the facts (`Pipeline/Value`, `Pipeline/Source`, `Pipeline/SourceProps`) | a fixed point for loops: two passes suffice; both directions by mutual induction with counted paths; composition of C104, C105 |
| C110 | the rules of the naive algorithm of Polonius, and holders of loans (`Facts/Lent`); permissions from which variables are of use (`Pipeline/Borrowed`, `Pipeline/BorrowedProps`) | loans last as long as holders are of use: induction along the control flow, resp. over the derivation; then C109 for each variable that matters |
| C111 | the rules of the borrow checker for one use (`Boundaries/Checked`: `Rejected`), compared with the letters of C98 | by cases on the rule; five concrete uses where the borrow checker is more lenient (`Boundaries/CheckedExamples`) |
| C112 | C98 and C110 together (`Pipeline/Letters`) | live loans where a step begins, by C110; not moved and not uninitialised since used |
| C113 | `places_conflict` on projections over types given as a graph (`Overlap`), cells of memory as lists of steps | both directions by induction over the borrowed place; positions in slices by arithmetic with a length that makes them meet; composition with C23, C25 |
| C114 | `check_for_invalidation_at_exit` (`Flow/Exit`) | the root of a place is a prefix of it; flows into regions of the caller never have the last kind |
| C115 | JSON and HTML as text, writers and readers (`Wire`) | reading after writing is the identity, by induction over values with what follows as a parameter; lists with distinct keys stand for hash maps |
| C116 | the types of traces and results as JSON, writers as serde derives them and readers as the page takes them apart (`Wire/Trace`, `Wire/Analysis`) | reading after writing is the identity by structural induction, the depth of reading bounded by the size of the JSON; hash maps are lists up to order; depth of nesting counted against the limit of `serde_json` |
| C117 | the bytes of the cache file: JSON of the entries, UTF-8, gzip as a parameter on bytes (`Cache/Text`) | what the reader makes of a text does not change when more text follows (`Wire/Prefix`), so a strict prefix of an object is refused; no letter's UTF-8 begins another's; then the laws of the codec of C08 and C09 are theorems |
| C118 | requests and answers of the playground as bytes (`Live/Model`), with the server of `Serve` and the types of `Wire` | composition of C51, C115 and C116; an error text begins with a letter that no JSON begins with |
| C119 | the exported TypeScript types and what it is for a JSON value to have one (`Wire/TypeScript`), translated from the Rust types as ts-rs does | the check computes to the conjunction of the checks of the parts; for values by induction, with the depth of unfolding of the recursive type as a parameter |
| C120 | the parser of the command line, the arguments as JSON in the environment, `run` (`Cli/Model`); the two callers are those of `Preproc` and `Serve` | the parser is followed over the at most four words that the callers write; the JSON by C115's reader; composed with C12 for whole blocks |
| C121 | `replacements` and the way in which they are put into the chapter (`Chapter/Model`) | sorted ranges that do not overlap are spliced, by induction from the last to the first; C04, C06 and C07 give the ranges |
| C122 | `AquascopePreprocessorWrapper` and the life of the cache over a whole build (`Book/Model`) | C26–C28 and C118 give each worker's answer as if it were alone; C121 puts the chapters together, C115 reads them |
| C123 | the runner of the tests: loading, checking annotations, snapshots, directories (`TestRun/Model`) | induction over the bodies; the specification speaks of the first body with something at the range and of the bodies before the first fatal error |
| C124 | the visitor and the builder of segments, for any source (`HirSteps/Leaves`) | an invariant of the builder: of the open stretches only that of the arm may be before the place; it gets stuck at the conditional, and the next step opens a branch that nothing closes. Closed under every part of a visit; the position in the source is an inductive predicate |
| C125 | the reports of an answer and the cards of the playground with their timers (`Live/Cards`) | an invariant that lists the timers still running; C118 for what the page reads |
| C126 | the evaluation and both groupings, composed (`Story`); a story is a tree of calls, visits and steps | C20 for the recorded states, C91 for the places; states with the same call stack in a row are joined; mutual induction on stories |
| C127 | `Story` and the marks of the page (`Frontend/Trace`), composed | the last covering state survives the joining of states with the same place; C52 for the page; in a story the states of a visit end with the state in which it is done |
| C128 | the visitor and the builder on a language of conditionals whose arms may panic (`Walk/Panics`) | post-dominance asks for every exit to be reached; a walk with branches that do not come together (`Goes.apart`), and C102; all edges go forward and the blocks between conditionals are cuts |
| C129 | the facts about moves and initialisation, with parts of places (`Facts/Parts`) | parts are an order in which the wholes of a part are comparable; the rule of Polonius as ways without a value; C22, C23 |
| C130 | boundaries and the check of rustc for values that are not there (`Boundaries/Absent`) | the smallest move path around a place; C129 for the facts, C98 for the stacks |
| C131 | pop-ups and buttons of the blocks of a page (`Controls`) | induction over the events from the end; the listeners are those of the open pop-ups |
| C132 | the check of steps used in the repository's tests (`Segments/Check`) | each part of the check succeeds exactly under a condition and adds exactly some locations; composed over lists and over the tree; all listed steps are in the tree (C47, C101); for the programs of C102, C84 (`Walk/Accepted`) and C128 (`Walk/PanicsAccepted`), locations up to the first fork by their steps, then all by the fork |
| C133 | the unit tests of the steps (`Walk/UnitTest`) | induction over the bodies; C132 for structured functions, C84 and C86 for those that fail |
| C134 | the variables of the server, the address in the page and the address of a request (`Serve/Config`) | the checked loop against numerals; the parser of addresses against `Nat.toDigits`, with finite tables for one number; the router of C51 |
| C135 | the timer and the undoing of `renderArrows`, the states that draw a diagram again, the root for each diagram (`Frontend/Follow`) | induction on the ticks of the timer and on the events of the page |
| C136 | `suppressKeyEvents` of the embedded editors, movements of the focus, dispatch of keys (`Keys/Model`) | the listeners after any sequence of movements; membership in the dispatch, split at the root element |
| C137 | `EditorComponent` and `Editor.destroy` on top of `renderOperation` of C80 (`Embed/Component`) | cases on the values given; induction on what happens to the component |
| C138 | `triggerAnimation` of `PermStack`, its timers and what it sees of the state (`Animate/Model`) | the timers that run after any events; those not seen are not cleared |
| C139 | handlers dropped at an `await`, on top of the server of C51 (`Serve/Leave`) | the same server in which those who left meet an environment that drops them; invariant of C51 |
| C106 | the machine as a function from commands to replies (`Toolchain`) | case analysis; trimming by induction |
| C107 | texts as lists of characters (`Permissions/Debug`) | decision table over all permissions; induction over states |
| C82, C88, C86 | the visitor that places the steps, over a grammar of expressions, recording its calls to the builder | closure of a predicate under the visitor's combinators; a recursive specification of what is due |
| C83, C85 | the visitor on top of the segment builder | invariant over runs (open branches are counted); equivalences |
| C84 | the same, and the language of C102 with an early `return` | regions closed under successors; witnesses for what is lost; walks in which steps are lost |
| C87 | the iteration order of the maps of branch starts is a parameter | simulation of two walks; witness |
| C89 | the same without conditionals | total correctness with a closed form |

## Trusted base

* **Lean's kernel** (4.33.0). No theorem uses `sorry`, `native_decide`, `bv_decide`, `implemented_by` or an axiom of
  its own. `decide +kernel` is used for concrete witnesses and for whole finite decision tables; it is checked by the
  kernel.
* **Axioms.** Every theorem depends on a subset of `propext`, `Classical.choice` and `Quot.sound`; the exact subset
  of each claimed theorem is in `AXIOMS.md`.
* **The reading of the source.** The model was written by hand from the text in `/repo`; nothing was compiled or run.
  That each definition says what the cited lines do is trusted. `seeded/LOG.jsonl` shows that the theorems notice
  edits of the definitions; it cannot show that the definitions match the source.
* **Behaviour of external code**, which enters as parameters or as the assumptions listed here:

| external code | how it enters |
|---|---|
| Rust standard library: strings, `HashMap` iteration order, file system calls, threads | strings are lists of characters with UTF-8 sizes; maps are lists in an arbitrary order or partial functions; file operations are atomic steps with partial writes; locks are exclusive |
| `regex`, `nom`, `fluid_let`, `serde_json`, `flate2` | the patterns and combinators that occur are modelled; gzip with JSON is a codec with the laws of `Verif.Cache.Codec`, which `Cache/TextProps` (C117) proves from laws of gzip on bytes; `serde_json` writes integers exactly and non-finite floats as `null` |
| `DefaultHasher` | a parameter; the cache theorems are about histories without colliding keys |
| rustc: MIR, HIR, types, spans, borrow checker facts, dominators | inputs or parameters; dominators are defined by paths |
| Polonius facts (`loan_live_at`, `path_maybe_uninitialized_on_exit`, ...) | inputs |
| `datafrog` | modelled from memory of the library, whose source is not in this sandbox (sorted relations, semi-naive iteration), proved to compute the least fixpoint |
| `ena` union-find | root function with ranks; on equal ranks the second argument becomes the root (`secondWins`, from memory of the library, not from source in this sandbox). C48 is stated for both rules |
| `rustc_utils` (`PlaceExt`, `PostDominators`, `as_local`, visibility of places) | parameters, `PostDominators` by paths |
| Miri | an arbitrary machine with a stack, a step function and a memory |
| `tokio`, `axum`, `tempfile`, `wait_timeout` | requests run undisturbed between `await` points; a fresh directory is one not in use; a dropped future does not kill its child; the future of a handler is dropped when its connection is closed (C139) |
| CodeMirror | a widget equal (by its `eq`) to the one at the same position keeps the old element; positions are UTF-16 offsets; `line(n)` throws for a missing line; a mark with an empty range throws; decorations move with edits |
| lodash, React, DOM | `sortBy` is stable, `uniqBy` keeps the first, `querySelector` gives the first element in document order, an exception during rendering removes the whole tree |
| JavaScript regular expressions | a parameter, except for escaped literals, which match iff the text contains them |
| random tag names | distinct (a collision is possible in the program with small probability) |

## What is modelled

| source | module | remarks |
|---|---|---|
| `mdbook-aquascope/src/annotations.rs` | `Annotations` | complete |
| `mdbook-aquascope/src/block.rs` | `Block` | complete |
| `mdbook-aquascope/src/permissions.rs` | `InlinePerms` | complete |
| `mdbook-aquascope/src/cache.rs` | `Cache` | complete |
| `mdbook-aquascope/src/preprocessor.rs`, `main.rs` | `Preproc`, `Wire`, `Chapter`, `Book` | `run_aquascope`, `process_code`, `replacements`, `save_cache`; the text of the element in `Wire` |
| `aquascope/src/interpreter/mapper.rs`, `interpret` of `mod.rs` | `Group`, `Mapper` | `location_to_hir_id`, spans and `as_local` are parameters |
| `aquascope/src/interpreter/mvalue.rs`, `miri_utils.rs` | `Value`, `Wire/Trace` | reading, paths, labels; layouts in `Value/Layout`; as JSON in `Wire/Trace` |
| `aquascope/src/interpreter/step.rs` | `Trace`, `Value` | moves, frames, the evaluation loop, which variables are shown; one thread; state, layout and initialised bytes of variables are parameters |
| `aquascope/src/interpreter/mod.rs` | `Driver`, `Mapper`, `Story` | callbacks; `interpret` |
| `aquascope/src/analysis/permissions/mod.rs`, `utils.rs`, `context.rs`, `output.rs` | `Permissions`, `Facts` | |
| `aquascope/src/analysis/permissions/flow.rs` | `Flow` | |
| `aquascope/src/analysis/boundaries/` | `Boundaries` | `Boundaries/Whole` from source, locations, facts and flows to the letters on the page; `fuzzy_match` is a parameter |
| `aquascope/src/analysis/mod.rs` | `Ranges`, `Driver`, `Wire/Analysis` | the output as JSON in `Wire/Analysis` |
| `aquascope/src/analysis/ir_mapper/` | `Graph`, `Cfg`, `Mapper` (the visitor) | |
| `aquascope/src/analysis/stepper/mod.rs`, `table_builder.rs` | `Steps`, `Segments`, `Pipeline` | |
| `aquascope/src/analysis/stepper/segmented_mir.rs` | `Segments` | the builder's operations with any sequence of calls; the check of its tests (`validate`) |
| `aquascope/src/analysis/stepper/hir_steps.rs` | `HirSteps`, `HirSource`, `Walk` | the visitor; a `loop` is one of the two desugared forms or opaque; patterns have no expressions |
| `aquascope/src/errors/mod.rs` | `Driver` | |
| `aquascope/src/test_utils.rs`, `aquascope/tests/*.rs` | `TestSource`, `TestRun` | annotated sources, the permission check, and the runner of the tests; the compiler and the stored snapshots are parameters |
| `aquascope_front/src/plugin.rs` | `Driver`, `Cli` | arguments, permissions and interpreter commands |
| `aquascope_workspace_utils/src/lib.rs`, start of the preprocessor | `Toolchain` | |
| `aquascope_serve/src/container.rs`, `server.rs`, `main.rs`; `aquascope-standalone/vite.config.ts` | `Serve` | |
| `aquascope-editor/src/editor-utils/*.tsx` | `Frontend/*` | positions, steps, boundaries, regions, values, diagram, arrows |
| `aquascope-editor/src/lib.tsx`, `aquascope-standalone/src/index.tsx`, `aquascope-embed/src/main.tsx` | `Frontend/Editor`, `Live/Cards`, `Embed`, `Controls` | state of the page; error cards; opening the blocks of a page; pop-ups and buttons |

## What is not modelled

* The translations of programs to blocks and to source trees in `HirSteps/Programs` (C100, C101) and `Walk/Lang` (C102, C103) describe what rustc does for these programs; they are assumptions. The simplifications are at the head of each file.
* C104 and C105 assume of rustc and Polonius what `Facts/Live` states as `Analysed` and `Accepted` and `Pipeline/Living` as `Flow`: the rules for liveness and initialisation, the order of the two points of a location, and that the program is accepted. rustc records an assignment in the middle of its location, that of a call at the start of the location the call returns to, and that of an argument at the start of the function (`Sets`; from memory of rustc). At the location a call returns to the theorems speak only of paths that do not get their value there (`InPlace`, resp. `Rests` for all ends of steps); what happens to the others is `C104_landing`. The theorems do not speak of paths whose parts are assigned again one by one after a move; C129 does, under `Tree` and `Ruled`, and `Careful` for one direction.
* C108 and C109 assume the same, and that what the compiler adds does not mention the variable (`Silent`), resp. which locations use and set it (`Mentions`). `SourceExample` shows that these assumptions can be met for every program.
* C110 assumes that Polonius computes `loan_live_at` by its naive rules (`Facts/Lent`: `Within`, `Carries`, `Owed`), which are stated from memory of the library since its source is not in the sandbox; and of the facts that each loan of the variable is `Held`: its holders are variables without destructor that are set to nothing but the borrow or other holders, used by nobody else, and the variable is not assigned while they are of use. `C110_possible` shows that these assumptions can be met for every program.
* C111 and C112 state the rules of the borrow checker for one use (`Rejected`) from memory of rustc; which loans are pending, which borrows are two-phase, and what is only reached through a place are parameters (`Checker`).
* C130 states the check of rustc for moved and uninitialised values (`Absent`) from memory: the smallest move path around the place, and the parts of a move path. `Rejected` of C111 takes these two cases from the facts the tool uses.
* `serde_json`, `html_escape`, `HtmlElementBuilder` of `mdbook_preprocessor_utils`, `JSON.parse` and the syntax of start tags of HTML (C115) are stated from memory (`Wire/Json`, `Wire/Html`). That Markdown passes a line that begins with `<div` through unchanged is assumed.
* The code that `#[derive(Serialize)]` makes for the types of traces and results (C116), with the attributes `tag`, `content`, `skip`, `skip_serializing_if`, and the limit of 128 levels of `serde_json::from_str`, are stated from memory (`Wire/Trace`, `Wire/Analysis`). Texts of floats are a parameter with the law that reading gives the float back. `for … in` goes through property names that are numbers in their order.
* C131 takes from memory that React draws the page again after each event and undoes an effect before it is done again, that a key event passes the root element before the document, and how CodeMirror splits a text into lines. That all shortcuts of mdBook are listeners at the document is what a comment in main.tsx says.
* `post_order_from_to` of rustc (C132) is stated from memory: the blocks that can be reached from the first one without entering the last one, none if they are equal.
* `places_conflict` of rustc (C113, C114) is stated from memory (`Overlap/Model`), without opaque casts and coroutines. Elsewhere it is a parameter (`conflict` of `Facts.Input`).
* `location_to_hir_id` of `rustc_utils` (which node a location belongs to): the parameter `hirOf` of `Mapper` and `HirSource`. The trees of `HirSteps` have entries and exits as parameters; `HirSource` computes them.
* `analysis/scrape_hir.rs`, `analysis/find_bindings.rs` (dead code), `errors/silent.rs`, `bin/`, `aquascope_serve/src/shell.rs` (not compiled).
* The translation of Rust types to TypeScript by `ts-rs` (C119) is stated from memory (`Wire/TypeScript`).
* `SimplePreprocessor` of `mdbook_preprocessor_utils` (C121) is stated from memory (`Chapter/Model`), without the links to script and style; so is the order in which it makes the preprocessor, asks for the replacements and ends it (C122, `Book/Model`).
* `clap` 3.2 and the part of `rustc_plugin` that carries the arguments (C120) are stated from memory (`Cli/Model`).
* Logging, telemetry, styles, key bindings of the editor, animations,
  the drawing of arrows by the `leader-line` library.
* Concurrency of the interpreted program; floating-point arithmetic and the text of floats.
* The parser of URLs of the browser, addresses of version 6, and which addresses the system lets the server have (C134).
* The dispatch of events and the order of `focusout` and `focusin` in a browser (C136) are stated from memory (`Keys/Model`); which
  browsers tell an editor that is removed that it loses the focus is left open.
* React's treatment of states (C138), of effects (C135, C137) and of a second root in a container, and what a style sheet does with a value it cannot read (C135), are
  stated from memory (`Frontend/Follow`).
* Time: durations are not modelled except for the timer of C135; a timeout is one of the possible ends of a command.

## The model against the repository's own tests

The repository holds outputs of the real tool (`crates/aquascope/tests/snapshots`) and unit tests with expected answers.
Since the code cannot be run here, these are the evidence that the model does what the code does; they are tests, not proofs,
and no property rests on them.
* `Recorded/Units`: the unit tests of `group_steps`, of post-dominators, of the cleaned body, and of the parsers of
  annotations, blocks and inline tags, with the same inputs and answers.
* `Boundaries/Recorded`: the uses found, and what they need, for the programs of `tests/boundaries`.
* `Story/Recorded`: the states shown, with the call stack and the place of each function, for all programs of
  `tests/interpreter`; the recorded paths of pointers.
* `Pipeline/Refinements`: the expected permissions in fifteen of the eighteen programs of `tests/refinement`, computed from
  the statements: declared maxima, conflicts of places, moves, initialisation, loans.
* `Pipeline/Recorded`: all rows the stepper shows, with their lines, places, permissions and the facts behind them, for
  fourteen functions of `tests/steps`. Written by hand are the MIR, the node of each location, the loans and where they
  are kept; facts, steps, tables and lines are computed by the model. These use `#guard`, which evaluates and proves nothing.

## Where the code and the properties disagree

Each item is proved in Lean for a concrete program state (or in general); the theorem is named. A partial theorem states
what does hold.

Book preprocessor
* Markers are recorded as byte offsets, but the editor takes them as UTF-16 positions: `C02_not_char_position`, `C74_emoji`.
* An option value with `=` puts the rest of the info string into the program: `C05_leak`.
* An unknown letter in an inline tag stops the book build: `C06_only_known`. A tag inside a code block overlaps it and
  the two replacements collide: `C07_overlap`; the end of the block stays in the chapter: `C121_leak`, `C121_leaks`, or the build panics: `C121_panics`.
* As long as one block of a book fails, the answers of all the others are thrown away at the end, and the next build asks the
  analyser for each of them again: `C122_forgotten`.
* Options: `k=false` switches an option on, readers disagree about other values: `C80_false_is_on`, `C80_false_witness`,
  `C80_empty_differs`, `C80_yes_differs`.
* `showFlows` is passed to every operation of a block; `interpreter` does not know it, and the block is never answered:
  `C120_flows_refused`.
* The output of the analyser is read only after it has exited: more than 64 KiB ends in a timeout: `C93_large`,
  `C93_never_analysed`.
* A value from the environment keeps white space at its end, unlike printed ones: `C106_not_trimmed`.
* Pages: an empty program stops the later blocks (`C90_stops`); hiding the code breaks later operations (`C90_hidden`).

Interpreter
* Calls made inside a function whose body is not a block are not shown: `C91_no_block`, `C92_nothing`, `C126_hidden`.
* After a recursive call from one statement only the outermost activation is shown with its result: `C126_recursion`.
* A mark inside a closure that is written in the statement that calls it shows the function around the closure, not the closure: `C127_closure`.
* Collapsing steps twice is not the same as once for the combined mapping: `C14_two_stage_limit`.
* Finding the part of a value at an address ignores field offsets: `C17_wrong_field`, `C17_padding_panic`,
  `C17_packed`, `C17_outcome`. Sub-slices of
  elements larger than a byte get wrong bounds or underflow: `C21_larger_elements`, `C21_underflow`.
* The allocation named in a use-after-free error is always number 0: `C18_error_wrong`.
* Marks for moved variables: `C19_reassigned`, `C19_addressed`, `C19_call_moves`; a move of one field marks the whole variable
  (`C19_part`); variables in memory and arguments of calls are never marked (`C19_unmarked`).
* Variables: padding inside a part hides a variable (`C95_padding`); an enum is shown once its tag is written
  (`C95_enum`); a union stops the recording (`C95_union`); an empty type is shown too early (`C95_empty`).
* A pointer to a temporary that is alive is drawn like a dangling one: `C96_temporary`.
* References inside vectors are read with the wrong kind: `C59_vec_of_refs`, `C59_vec_of_one_ref`.
* Cyclic data and string literals overflow the stack of the tool: `C60_cycle_overflows`, `C60_literal_overflows`; in general they
  are never read: `C60_cycle_never`, `C60_literal_never`.

Permissions
* Raw pointers and boxes: `C27_raw_pointer`, `C27_box_behind_mut_ref`, `C27_box_content`.
* The merge of states is not a join and reports changes that are none: `C28_not_a_join`, `C28_false_change`.
* A place can have two paths: `C58_duplicate`. The debug text of a difference hides new places if nothing else
  changed, and places that are gone: `C107_new_hidden`, `C107_gone`; a generic type in a place breaks its table: `C107_angle`.
* Boundaries: `C29_flow_not_counted`, `C29_assignment_ignored`, `C29_field_copy`, `C31_none_chosen`,
  `C31_not_most_specific`, `C61_index_lost`, `C61_temporary_lost`.
* Uses that the borrow checker accepts although a letter is missing: `C111_two_phase`, `C111_reserved`, `C111_match`,
  `C111_behind`, `C111_box`.
* A part of a variable that was never initialised is shown as readable if the function neither moves nor assigns that part by itself: `C130_part_of_blank`.
* A report of a bug contains the program of the book even if the reader has changed it before: `C131_stale`.
* The check that the tests run on steps does not see that a statement is on no step, if it is behind a fork: `C132_blind`, `C132_lost`; this happens for every function with an early return after which nothing branches, and for the arms that panic: `C132_early`, `C132_panics`. Its test for straightness never decides: `C132_before`.
* Where a call has just returned the value of a variable, the variable has no permissions yet, although its value is there: `C104_landing`.
* Overlapping places: `C113_empty_array`, `C113_behind_shared`, `C113_reinit_part`. Loans of what the caller lent are taken to end
  with the function (`C114_reborrow`), but this never shows (`C114_never_shown`, `C114_no_effect`).
* Region flow: `C33_unused_middle`, `C32_no_constraints_panics`, `C62_cycle_accepted`.
* Ranges: empty spans `C34_empty_span`, `C35_empty_overlaps`; the visibility test is inverted, so the point of a move is lost exactly when it
  is visible: `C36_inverted`, `C36_visible_lost`, `C36_no_region`; statements from macros are lost: `C35_macro_lost`.

Graph and steps
* Imaginary edges are kept: `C38_imaginary_kept`, `C38_imaginary_witness`, `C38_imaginary_postdominance`. Bodies without
  an exit: `C37_no_exits`, `C37_partial_reach`, `C63_endless_loop`.
* Steps: `C40_refiner_change`, `C43_order_dependent`, `C43_not_total`, `C43_unchanged_vanishes`,
  `C30_rows_same_line_lost`.
* Segments: `C44_lost`, `C45_restart`, `C47_no_splits`, `C48_child_keeps_open`, `C48_never_finished`,
  `C49_endless_loop`, `C64_stuck`, `C64_diverges`, `C65_no_grandchild`, `C65_panics`, `C66_backwards`, `C68_shared`.
* Whole functions: after `if c { return; }` the following statements get no steps (`C84_lost`, `C84_programs`) and a following `if`
  is an internal error (`C84_later`, `C84_branching`). `let … else` and `&&` with a block, inside a conditional, make the function fail:
  `C85_left_open`. The gain of `x` in `let x = { e };` is never shown: `C97_block_hides`. What is lost where branches come together is never shown: `C101_lost_at_join`. Code of an early statement at the end of a block takes the steps of later ones: `C99_out_of_order`. Hash order decides at which statement a use is judged if there are statements in two blocks: `C98_order_matters`; a use without statements is judged by another one's: `C98_elsewhere`. Arms that share a switch target compete, and hash order decides: `C87_shared`.
* A panic (`assert!`, `panic!`, an endless loop) anywhere behind a conditional leaves the conditional without a join: the first step after it
  begins at the condition and shows what happened in the arms once more. Statements in the arm that panics, and the function as a whole, get no step:
  `C128_joins`, `C128_restart`, `C128_later`, `C128_no_exit`.
* A `break`, `continue`, `return` or `?` in a conditional that is inside an arm or a loop, with anything after it: the whole function gets no
  steps (`C124_no_steps`; `while c { s; if d { break; } q; } r;` is `C124_while_break`).

Driver, server, test sources
* **A test whose program does not compile passes.** The result of the compiler is thrown away (test_utils.rs:523), and if it
  stops before the analysis the callback with all the assertions is never called: `C123_unchecked`, `C123_broken_passes`.
  A fatal error while a body is analysed leaves the rest unchecked in the same way: `C123_fatal`.  Two functions of the
  same name in one file share a snapshot, so such a file cannot pass unless their results are equal: `C123_same_name`.
  The unit tests of the steps pass in the same way: `C133_plain`; with an early return they say nothing about what follows it: `C133_early`.
* `C50_other_body`, `C50_outside_hides`, `C50_warnings_counted`, `C56_fatal`, `C56_panic`, `C56_unparsed`, `C67_crash`.
* `C51_warning_drops` (output that is not UTF-8, or anything on standard error of `cargo new`), `C51_timeout_runs_on`.
* A port that cannot be read is replaced by 8008 without a message (`C134_port`), while an address that cannot be read, such as `localhost`,
  stops the server (`C134_down`). Server and page have different variables: `C134_apart`.
* Each run of the interpreter in the playground makes a new root in the same container; the timers of the diagrams before are never
  stopped: `C135_timers`.  Arrows do not follow what moves inside a diagram (`C135_inside`), nor a diagram with a negative coordinate,
  since `translate(--5px, …)` is no value (`C135_negative`).
* An editor that is removed while it has the focus may leave its listener behind, and the book hears no keys: `C136_stuck`.
* The component of the editor ignores later values, and a destroyed editor leaves its diagram where it was: `C137_first`, `C137_left`.
* The mouse enters and leaves a stack of permissions before it is rendered: the animation ends too early (`C138_cut_short`).
* A client goes away while its tool runs: nobody stops the tool (`C139_runs_on`, `C139_processes`).
* `C57_bracket_before`: an annotation directly after a closing bracket is rejected.

Front end
* Diagram: `C55_abbreviated`, `C55_slice_lost`, `C55_zero_sized`, `C55_iter_name`, `C72_zero_sized`, `C72_element_100`,
  `C72_shadowed`, `C75_wrong_step`, `C79_single`, `C79_outside`, `C79_all_counted`.
* Values: `C71_wide`, `C71_large`, `C71_char`, `C71_string`, `C71_not_finite`, `C116_not_finite`.
* Types: numbers of 64 bits are declared as `bigint` and are numbers: `C119_bigint`.
* A value nested 59 deep cannot get into a book: `C116_deep`.
* A new step table does not replace the one shown for the same line: `C94_stale`, `C94_stale_forever`.
* Steps and boundaries: `C73_substring`, `C54_second_lost`, `C78_empty_point`.
* The server's explanations are not shown: `C118_lost`, `C118_refusal`. Error cards: `C125_cut_short`, `C125_several`, `C125_stale`, `C125_until`.
* Page: `C69_ignored`, `C70_stale_answer`, `C70_failed_redraws`, `C70_panel`, `C70_banner_stays`, `C81_clears`,
  `C81_out_of_order`.
