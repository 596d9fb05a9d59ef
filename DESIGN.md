# Design: a Lean 4 model of ricejasonf/nbdl and proofs about it

## Layout

* `properties.jsonl` — the properties in English (C01 ...).
* `lean/Verif/<Area>/Model.lean` — the model: small total functions, each citing
  the `/repo` file and lines it models and its simplifications.
* `lean/Verif/<Area>/Spec.lean` — the independent specification used in theorem
  statements (only where the statement needs one).
* `lean/Verif/<Area>/Lemmas.lean` — helper lemmas.
* `lean/Verif/<Area>/Props.lean` — the property theorems only, each beside
  `example`s showing that its hypotheses are met by non-trivial data.
* `MANIFEST.json` — property to theorem map. `seeded/LOG.jsonl` — wrong-program tests.

## Conventions

* Compile-time metaprogramming (hana tuples, mp11 lists, type tags) is modelled by
  ordinary lists / inductive types: "for every program that instantiates the
  template" becomes "for every value of the model type".
* Undefined behaviour (out-of-range shift or read, use after free) is a distinct
  outcome of the model, never assumed away.
* External code (sockets, the DOM, SQLite, jsoncpp's text layer, `std` containers)
  is a parameter or a small documented state machine.
* Where the code violates a property, a theorem `..._violated` / `not_...` gives a concrete
  witness, and a `..._partial` theorem gives what does hold.

## Per property plan

| Id | Model | Proof |
|---|---|---|
| C01 | `base64_encode`, `base64_decode` on lists of bytes / characters | round trip by induction on groups of three; lemma on one quantum by `BitVec`/`Nat` arithmetic |
| C02 | same | equality with a bit-string specification (RFC 4648 sections 4) |
| C03 | `validate` and both entry points | iff with a grammar; negation for the two-argument entry point |
| C04 | `decode` | negation by witness; exactly which texts decode alike, by bits; re-encoding law exactly for canonical texts |
| C05 | `send_message_impl` loop, `message_reader` state machine on byte lists | composition; negation at length 125; partial: no payload length is a positive multiple of 125 |
| C06 | `encoded_length_buffer`, `get_payload_length` with C++ `int` shift rules | case split on the three encodings; negation (UB) for the 64-bit form |
| C07 | `read_payload` | negation (two fragments), partial: exactly the messages whose masked fragments come first, by induction on fragments and on the octets of a fragment from its end |
| C08 | `opcode_dispatch` | negation (ping with payload), partial: empty control payloads; what is made of any payload |
| C09 | whole reader on arbitrary streams; specification: frames as whole pieces and what they carry | induction on reader steps; unique reading of the octets as frames |
| C10–C15 | endpoint as a state machine: API calls, reader events, completion events | inductive invariants over all event sequences |
| C16 | request/response text generation and parsing | composition lemma on `read_until`; SHA-1 and base64 of the fixed key evaluated in the kernel |
| C17, C18 | cookie scanners on character lists | induction on the cookie list |
| C19, C20 | `beast_sha1` with buffer state | refinement: state after `update` = fold of blocks + remainder |
| C21, C22 | pipelines as lists of steps with resolve/reject/terminate | induction on the pipeline, fuel-free trace semantics |
| C23 | `match_if` | induction on the list |
| C24–C26 | `map_store` as association map | refinement to `Path -> Option Value` over histories |
| C27–C29 | context with arbitrary actors, stores, listeners, emitting a trace | trace characterisation |
| C30, C31 | `delta` as list of optional members | induction on members |
| C32–C34 | `local_version` | invariants over histories; negation by witness when stale pending data overrides |
| C35, C36 | message tuples with optional fields and index-based accessors | case analysis on all actions and fields |
| C37 | echo producer counter | induction over histories |
| C38 | `hash` on bound value trees, 64-bit arithmetic | structural induction |
| C39, C40 | jsoncpp writer/reader over a universe of bindable types | structural induction over types and values; negations |
| C41 | `variant` | case analysis |
| C42 | `string_concat` trees | structural induction |
| C43, C44 | `store_compose`, `store_range`, `get_path`, `match_path` | induction on nesting (compositions and ranges in any mix) / path |
| C45, C46 | `route_map` on character lists | induction on parameters |
| C47, C48 | flatten + renderer over an abstract DOM (tree with cursor) | structural induction on the specification; for updates an invariant over the history of states, with the last value of each path; negations |
| C49 | statement text generation | counting placeholders by induction; negation for comma-joined criteria |
| C50 | `insert` over entity trees against a log of rows | structural induction |
| C51, C52 | `mpdef` and access point enumeration over trees | structural induction |
| C53 | tile game | permutation invariant; negation of bounds at the bottom-left cell |
| C54 | deserialiser | negation; partial on well-formed input |
| C55 | `split_address` | negation; partial for host and port |
| C56 | `params_view` | structural induction |
| C57–C59, C69 | the endpoint state machine of C10–C15 with failing writes | inductive invariants over all input sequences; witnesses |
| C60–C62 | the handshake model of C16 with what follows the header; header lines | composition over all segmentations; case split on the header line; witnesses |
| C63 | trees of pipes | structural induction: only the leaves matter |
| C64 | `context_store` in the context of C27 | induction over histories |
| C65, C66 | the metaprograms that build stores, listeners and messages of a context, over lists of definitions | structural induction; counting of message types |
| C67, C68 | text of select with joins and update for nested entities | structural induction over entity trees |
| C70–C72 | length-prefixed JSON messages over a byte stream, connecting with retries | arithmetic on four length bytes; induction on stream pieces and tries |
| C73, C74 | navigator store over an abstract browser history | invariants over histories of sets, steps and pops |
| C75, C76 | the compiler from descriptions (Scheme syntax) to C++: translation to MLIR-like operations, printing of C++ trees, meaning of source and of the C++ tree | simulation by structural induction; exact acceptance |
| C77, C78 | definitions of stores in the same language, generated classes | structural induction over members; witnesses |
| C79–C82 | binder to JavaScript values, with UTF-8/UTF-16 conversion, composed with the jsoncpp binder | structural induction over types; for C82 also exactly which values are refused, by mutual induction over types |
| C83, C84 | listeners of the browser's client over `EventTarget` | invariants over histories of events |
| C85 | reference-counted table of JavaScript values | refinement to independent variables |
| C86–C88 | servers: list of connections, accept loop, the JavaScript server | invariants over histories; witnesses |
| C89–C91 | paths and parameters of user interface specifications | structural induction |
| C92–C94 | the browser's WebSocket endpoint | invariants over histories; witnesses |
| C95 | event handlers in pages, with rendering from inside of handlers | invariants over histories |
| C96, C97 | promises made by macros of JavaScript code | induction on captures; invariants over histories |
| C98, C99 | identifiers of 128 bits; the browser's random source with float rounding | bit arithmetic; pigeonhole; rational arithmetic |
| C100 | lazily held values inside of pipelines | invariants over histories |
| C101 | named arguments of `make_context` | induction on lists |
| C102 | tags of bindable types, their printed names, SHA-1 of these | unique readability of printed template names, by mutual induction; the sizes of buffers are read off written values, by mutual induction on tags |
| C103 | `path_promise` on top of `Path` and `Promise` | induction on the steps |
| C104 | the deserialiser in the browser on top of `JsBind` and `Deser` | composition of C54, C80, C81 |
| C105 | server and clients, each a `Context` with map stores, joined by queues; any interleaving | invariant over all histories relating what is shown and what is on the way to states of the server |
| C106 | as C105 | induction on the history from any state: what was forwarded and what is on the way is what was asked |
| C107 | a small preprocessor (splitting, parameters, variadic arguments, pasting of numbers) and the tables of the headers, row by row | regularity of all rows by the kernel, then induction on the list of members |
| C108 | as C107, and meta structs as lists with lookup by deduction | as C107; permutations of keys |
| C109 | two `Endpoint`s joined by streams of octets which pass through the sender and the reader of `Ws`; any interleaving, fragments of any size | octets of a side are those of a beginning of its messages and perhaps a close frame (invariant); the reader's reports of any beginning of them; invariant over all histories |
| C110 | as C109 | as C109; both directions composed with the endpoint's progress (C57) |
| C111 | as C109, steps of the network alone | a measure that every step of the network decreases; a side at which nothing more arrives has everything |
| C112 | a tokenizer and a recursive-descent parser for the C++ that is generated (a specification), composed with the compiler of C75 | the tokens of every plain tree are those of its text; parsing them gives the tree back (induction with fuel); the compiler makes plain trees of plain descriptions (invariant of the continuation-passing front end) |
| C113 | `Replica` with connections that carry documents, made and read by the models of the serializers (`Deser`, `DeserJs`) for clients in browsers or not | simulation: the system is the image of the one of C105 in every history of messages that fit (invariant: only such are on their way or in the server's stores); then C105 and C106 carry over |
| C114 | candidates, viability, ranking of reference bindings and the best viable function of [over.match]; the constructors and assignments of the aliases and of generated classes | for lists of arguments of any length: which candidates are viable; the rest by cases over constness and value category |
| C115 | a parser of class declarations (a specification) on the tokens of C112, composed with the compiler of C77 | the tokens of every plain class are those of its text; parsing them gives the class back (locality of reading types and arguments, induction with fuel); the compiler makes plain classes of plain definitions; then `Implements` of C77 |
| C116 | a machine with a stack of what is still to do: programs of actors, pushes, calls, listening stores (`Nested`); calls are numbered by the push they belong to | invariant: the calls made for a push followed by those on the stack are those of a single push in `Context` |
| C117 | the same machine with a log of pushes and calls, each with the stores found | invariant: stores = effect of the log; the same at every split of the log |
| C118 | the same machine | generic invariant on the order of numbers in log and stack (`Order.lean`), instantiated for calls of one consumer; witness; in every context where another actor is called first, by running the machine; in each execution by the invariant of C121 with the calls of the consumer that are left |
| C119 | the same machine, stores that report changes when they make them | invariant: at each path the stores show what they showed at the last notification, or one is on the stack |
| C120 | the same machine, `look` | the calls for a read request leave the stores alone; witness with a store that asks; exactly when, by running both kinds of actors |
| C121 | the same machine | exactly: what the store has been shown followed by what it is going to be shown by the tasks left is sorted just as long as no push came before its turn, a push puts its number in between; the generic invariant of C118 for the listening store; witness; for every context with the echo producer, by running the machine |
| C122 | the same machine | induction on the rank, inside it on the program; a consumer, and in every context a producer, that never stops, by an invariant; exactly: between two pushes there are finitely many steps, by induction on programs, so a bound on the pushes bounds the steps |
| C123 | `echo`, the producer that pushes the downstream message at once | symbolic execution; the remaining tasks are idle |
| C124 | `Page`: the renderer of C47, C48 as a state consumer in the machine of C116: the page is updated with the stores found at each notification of the log | invariant: the stores show what they showed when the renderer was last called, or it will be called; then C48, and congruence of the trees in the stores |
| C125 | the constructor of the context: actors, then stores, then `init_actors`; constructors as programs, or as rendering a specification | induction on actors and programs; the negation for every page with a path |
| C126 | `Refs`: the map store with its objects: an assignment keeps the object if the alternative is the same, otherwise it is another one; references by path and object | refinement to `MapStore.apply`; invariant: objects are distinct and not used again; induction on messages; exactly which messages leave the value; the negation by witness |
| C127 | `Lifetime`: the endpoint of C10 to C15 with its owners: the user, the loop of the reader, the loop of the sender | invariant: destroyed iff no owner; refinement to `Endpoint.exec`; invariant: what is being written is a message; negations by witness |
| C128 | `SqlDb`: a reader for the generated text and an evaluator for it on tables (insert, inner joins, one condition); `store` and `fetch` are C50 and C67 on it | the text is read as what was meant; invariant of the joins: every alias is bound to the row of the entity at its path; induction on entities; the negation by witness; exactly which entities are accepted and read back, by the same induction |
| C129 | `modify`: the update of `Sql` on the same tables | uniqueness of keys; the negation by witness |
| C130 | `Optimist`: any number of clients with a `local_version` each, a server, a queue in each direction between them | invariant over every step: the outstanding requests of a client are those of its own in its inbox, then its outbox; the invariant of C33 holds for them; the messages under way lead from what the client was told to what the server has |
| C131 | the same | the invariant of C32 for one member; negations by witness and by induction |
| C132 | `Async`: a pipeline as a state that waits for one operation; outcomes of operations are inputs | induction over runs, compared with the model of C21 whose operations complete at once |
| C133 | the same, with functions that may throw and classes of exceptions | induction over runs; negations by witness |
| C134 | `Pipes`: the client as a pipeline of `Async`, the server as the receiver of C71, a stream of bytes between them that arrives in any pieces | invariant over every step; a measure that every event decreases; negations in general form |
| C135 | `Cond`: what each form of `match-cond` expands to in the statements of C75, with a path put in the place of the procedure's parameter | a substitution lemma by induction over statements; composed with C75; negations for every position of the clause |
| C136 | `Link/Farewell`: the program of `test/nbdl/websocket/endpoint.cpp` on top of the model of two connected endpoints: each user sends its messages when ready and closes on the farewell; octets arrive one by one, in any schedule | Invariant that ties what each user did to what it was handed; the general lemmas on settled conversations; a measure of the work left; two schedules as witnesses of the violations |
| C137 | `Tiles/Play`: the context of the tiles example on top of `Nested` (a context whose actors push while they are called): the echo producer with its counter, the store of the game that listens to moves, any number of other actors | One move is followed through the machine step by step; induction over the moves with the rules of the game as a separate inductive relation; tiles as permutations |
| C138 | `Async/Release`: the pipelines of C132 with the memory they live in; operations are numbered as they are started and complete in any order and any number of times | Invariant: as long as the pipeline runs, one more operation has been started than completed, else as many; counting arguments on the numbers of operations |
| C139 | `Relay`: the program of the server/client test for any number of clients; the contexts of server and clients are machines of `Nested`, connections are queues | What a step does to one client, then induction over the history for what was sent, what was taken and what is on its way; a measure for the end |
| C140 | `Session`: `Handshake` and `Link` put together: both directions as streams of octets from the request and the response on, the endpoints usable from the beginning | A part of the request leaves the server waiting (induction over the lines); invariant that the client's stream is the request until it is ready; refinement of `Link.talk`, whose theorems then apply |
| C141 | `Held`: steps hand on references to held values (cells of the pipeline) or to temporaries; an operation keeps the reference it was given; a log of all accesses | Induction over steps and completions: each cell goes through its accesses one after the other; the argument of each step is the nearest hold's; a static condition under which no operation is given a temporary; without it a run that fails is built step by step |
| C142 | `Held`: a list of runs, each with its copy; a pipeline in a variable and what `promise_join` leaves of it | Projection of an interleaving onto each run; induction over the steps |
| C143 | `Entity`: classes with base classes and fields, declarations as specializations keyed by class and by member; values are trees | Induction over declarations, then over pairs of values and over paths |
| C144 | `Session`: the program of the test on top of the session and of `Link`'s farewell; the pipeline that holds an endpoint, and when it is gone | Simulation: every run is a run of the farewell of C136, with the handshake before it; a measure for the rest |
| C145 | `Keys`: keys of 32 bits made from the ids of a database, their assignment; the insertion of C50 with such keys | Renaming keys in what is stored; induction over the entity for the ids given |
| C146 | Lists of types over any world of types with their new objects: making, unpacking, transforming, places, dropping with the wrapping difference of lengths, joining, comparison | Map laws, induction on the lists, `mapM` over a range |
| C147 | Interspersing, folding and the function that waits for texts | Induction on the texts; cutting at the first delimiter |
| C148 | A holder with or without a value, assignment with an exception at each point, visiting; what the templates provide for the serializers | Case analysis and induction on the history |
| C149 | Objects and their types (tuples, pairs, arrays, Hana's sequences and pairs, reference wrappers), the choice of the implementation by tag and headers, reading with keys and paths | Case analysis on the implementation, induction on wrappers and on lists of elements |
| C150 | The arguments left by the filter of empty types, and assignment through them | Induction on the elements against an element-by-element relation |
| C151 | Printable values with the text of `operator<<` at the leaves, and the recursive printer | Unique division of the text at the first character that ends an element, by mutual induction; witnesses in general form |
| C152 | Pages with paths and parameters, compiled to what the actions of the renderer find; stores of elements | `compile` agrees with the meaning of the page wherever the paths are fine, by mutual induction on the page, then C47 and C48; the default alternative in general form |
| C153 | The notifications of the contexts of `Replica` given to the pages of `Dom` | The renderer has found the stores as they are, up to what is shown, by induction on the history; then C48 and C105; witnesses by evaluation |
| C154 | The machine of C116 with map stores, and the effect of a message on a client of `Replica` | What was sent and what is left to send, applied to the client, give what the server shows: invariant beside that of C118; witness by evaluation |

## Trusted base

* Lean 4.33.0's kernel (and the elaborator for the meaning of the statements). No Mathlib module is used.
* Axioms: at most `propext`, `Classical.choice`, `Quot.sound`; the table below gives those of each theorem. No own axioms, no `sorry`, no `native_decide`/`bv_decide`.
* The faithfulness of the model: the code cannot be run here, so each definition cites the lines it was transcribed from and its simplifications. As a check of the model, `Verif/Tests` makes the checks of the project's own test suite of it, file by file; those are tests and not part of any claim. Among them are the digests of `api_signature.cpp`, which depend on every byte of the text a type is given.
* C++ semantics as the models state it: `int` has 32 bits, shifts by the width or more, reads outside of arrays, use after deletion and conversions of floats out of range are undefined (an outcome of its own).

Assumptions about code that is not part of /repo:

* `std` containers, `std::hash` (a parameter), `std::function`, `std::mt19937` (an arbitrary engine that is a function of its seed).
* boost::asio: completion handlers are called once, not from within the initiating call; `read_until` may read more than the delimiter. boost::beast: a request read into an object that already holds one is undefined.
* JsonCpp: `asInt`, `asUInt`, `asString`, `isMember` and so on as documented for the versions in use; its parser and writer of text are parameters with a round trip law where composition needs it.
* full_duplex (the author's promise library, used by the newer endpoints): promises keep their endpoint alive while they wait.
* Browsers: `EventTarget` dispatches as in the DOM standard (and, as an alternative, as in the `ws` package of the tests); `WebSocket` as in the WHATWG standard; history and percent-encoding as described in `Nav/Model.lean` (`Sane`); JavaScript runs one event at a time; conversions of values as in ECMAScript (`JsBind` has the engine as a parameter); `Math.random` yields numbers in [0,1).
* Databases (C128, C129): keywords, quoted names and placeholders are read as in `SqlDb/Model.lean`; `JOIN … ON` is an inner join; a table `t` has the primary key `t_id`, which it assigns by itself, and the columns the statements name; a statement that names a column twice fails.
* MLIR's verifier refuses operations after a terminator and terminators missing, as described in `Dsl/Model.lean`. A C++ compiler reads the generated match functions as the reader of `Reader/Spec.lean` does (C112), and other generated text as the tree whose text it is.
* Compile-time metaprogramming does what Boost.Hana, Boost.MP11 and the C++ standard say; "does not compile" is an outcome of the models.

### Axioms of each theorem

As printed by `#print axioms`. P = `propext`, C = `Classical.choice`, Q = `Quot.sound`; the theorems of each area are grouped by the set they depend on.

| Area | Axioms | Theorems |
|---|---|---|
| Base64 | P, C, Q | `roundtrip`, `roundtrip_exact`, `roundtrip_long_violated`, `encode_all_sizes`, `encodeAny_short`, `decodeAny1_short`, `decodeAny2_short`, `roundtrip_signed_char_violated`, `roundtrip_signed_char_partial`, `encode_is_rfc4648`, `validate_iff`, `decode1_spec`, `decode1_bits`, `decode2_accepts_malformed_violated`, `decode2_partial`, `decode2_fixed_partial`, `decode_long_violated`, `decode_all_sizes`, `unique_text_violated`, `same_bytes_exact`, `reencode_exact`, `reencode_partial`, `unique_text_partial` |
| Ws | P, Q | `length_field_violated`, `length_field_x86_violated`, `collect_unmasked`, `stream_resume`, `delivered_le` |
| Ws | P, C, Q | `send_receive_exact`, `send_receive_partial`, `send_receive_violated`, `send_receive_glued_violated`, `length_field_partial`, `length_field_x86_partial`, `length_field_exact`, `reader_refines_spec_partial`, `masked_message_partial`, `masked_exact_partial`, `masked_fragments_violated`, `control_interleaving_partial`, `control_exact`, `ping_payload_violated`, `stream_exact`, `pieces_unique` |
| Endpoint | P | `close_notes_three_violated`, `close_note_early_violated`, `send_after_stop_violated`, `early_close_stalls_violated`, `close_failure_ub_violated`, `no_ub_partial`, `usable_after_failure` |
| Endpoint | P, Q | `queue_fifo_lossless`, `nothing_after_close`, `close_note_causes_partial`, `close_notes_partial`, `close_notes_twice_violated`, `close_once_if_stopped_partial`, `quiet_after_stop`, `no_send_after_stop_partial`, `one_write_at_a_time`, `ping_never_answered_violated`, `failed_write_reported_partial`, `nothing_before_start` |
| Endpoint | P, C, Q | `close_told_exact`, `send_after_stop_exact`, `no_stall_partial`, `stall_exact`, `end_to_end_partial`, `end_to_end_exact`, `end_to_end_violated`, `queue_drains`, `ub_exact`, `nothing_new_after_close`, `written_after_close_exact` |
| Session | P, C, Q | `stop_told_violated`, `session_rest`, `session_talks`, `session_told`, `session_ready`, `session_in_order_partial`, `session_outcome_exact`, `session_delivers_partial`, `early_close_violated`, `program_sane`, `program_partial`, `program_exact`, `program_ends`, `program_released_partial`, `program_released_exact`, `program_lost_violated`, `program_twice_violated` |
| Handshake | P, C, Q | `handshake_agrees`, `long_origin_rejected`, `wrong_request_line`, `client_accepts_iff`, `client_keeps_data`, `server_drops_data_violated`, `server_drops_exact`, `server_answers`, `header_ub_iff`, `header_ub_violated` |
| Cookies | P | `trim_quotes`, `trim_quotes_violated` |
| Cookies | P, C, Q | `auth_token_partial`, `auth_token_exact`, `auth_token_absent_violated`, `auth_token_empty_violated`, `session_cookie_partial`, `session_cookie_exact`, `session_cookie_hidden_violated` |
| Sha1 | P, Q | `chunk_independent`, `chunk_independent'` |
| Sha1 | P, C, Q | `is_fips180` |
| Promise | P, Q | `run_outcome`, `outcome_unique`, `freed_once`, `loop_repeats`, `loop_stops`, `pass_cases`, `nesting_irrelevant`, `nesting_irrelevant'` |
| Promise | P, C, Q | `deleted_once`, `pending`, `double_resolve_violated`, `match_if_first`, `match_if_spec` |
| MapStore | P | `apply_other`, `report_violated`, `late_answer_ignored` |
| MapStore | P, Q | `answer_fills`, `resolved_stable` |
| MapStore | P, C, Q | `behaves_as_map`, `report_exact`, `report_right_iff`, `changes_reported_partial` |
| Context | P | `push_incomplete`, `mapOps_lawful`, `contextStoreOps_lawful`, `nullOps_lawful`, `match_never_requests_violated` |
| Context | P, Q | `push_write`, `push_read`, `read_answered_partial`, `match_requests`, `placeholder_blocks_read_violated`, `init_order`, `context_store_last`, `context_store_report`, `context_store_in_context` |
| Context | P, C, Q | `read_never_forwarded_violated`, `actorsWith_spec`, `context_store_notified` |
| Delta | P | `stale_pending_violated`, `message_reports_violated` |
| Delta | Q | `delta_monoid` |
| Delta | P, Q | `diff_patch`, `full_patch`, `diff_minimal`, `apply_frame`, `apply_idempotent`, `delta_compose`, `no_flicker` |
| Delta | P, C, Q | `apply_reports`, `converges_partial`, `rejected_change_stays_violated`, `settled_exact`, `converges_exact`, `local_reports_partial` |
| Message | none | `private_payload_held` |
| Message | P | `echo_update_delete`, `echo_create_full`, `echo_create_uid`, `echo_create_key`, `echo_read`, `echo_kind`, `private_stays`, `echo_answers`, `accessors_partial`, `has_uid`, `kind_unique`, `private_payload_violated`, `has_private_payload_violated`, `read_confirmed_violated` |
| Message | P, Q | `requires_key`, `keys_independent`, `keys_collide_violated` |
| Message | P, C, Q | `keys_exact`, `keys_unique_partial`, `keys_wrap_violated`, `keys_all_types_partial`, `keys_overflow_violated` |
| Hash | P | `variant_not_hashable_violated` |
| Hash | P, Q | `hash_leaves`, `hash_equal`, `combine_injective`, `last_leaf_visited`, `hashable_exact` |
| Hash | P, C, Q | `leaves_determine`, `nesting_collides` |
| Bind | P, Q | `read_appends_violated`, `unknown_alternative_violated`, `empty_accepts_violated` |
| Bind | P, C, Q | `json_roundtrip_partial`, `written_document_partial`, `reader_complete_partial`, `empty_container_violated`, `nul_string_violated`, `negative_enum_violated`, `reader_exact`, `reader_sound_partial`, `reader_rejects_partial`, `bad_base64_violated`, `wrong_size_violated` |
| Variant | P, Q | `variant_equal`, `variant_equal_iff`, `visit_first`, `visit_exact`, `visit_total`, `match_when`, `mapped_overload`, `make_optional_if`, `is_exact`, `made_holds`, `made_matched`, `made_twice`, `conversion_wins_violated`, `key_ignored_violated` |
| Variant | P, C, Q | `match_by_type` |
| Concat | P | `length_text`, `text_assoc`, `text_flatten`, `makeView_text` |
| Concat | P, Q | `copy_text`, `toString_text`, `stringConcat_text`, `view_text`, `compare_leaf_exact` |
| Concat | P, C, Q | `equal_text`, `equal_whole`, `short_text_violated`, `compare_exact`, `nesting_violated` |
| Path | P | `lookup_routes`, `action_routes`, `action_report`, `range_lookup`, `layer_action_routes`, `layer_element_routes`, `match_path_append`, `match_path_opened`, `map_lookup`, `match_path_stepwise`, `rest_of_path_dropped_violated`, `nested_map_violated` |
| Path | P, Q | `action_underlying`, `action_frame`, `layer_underlying`, `inner_element_unreachable_violated`, `range_hides_composed_violated`, `get_path_append`, `match_path_get`, `match_path_opens`, `prefix_rejected_iff` |
| Route | P, Q | `parse_safe` |
| Route | P, C, Q | `round_trip_iff`, `round_trip_violated`, `parse_exact`, `parse_not_found`, `overflow_accepted_violated`, `many_members_ub_violated` |
| Dom | P, C, Q | `render_correct_partial`, `render_exact`, `render_right_iff`, `loop_siblings_violated`, `html_siblings_violated`, `branch_concat_violated`, `branch_noop_violated`, `branch_noop_first_violated`, `branch_attr_violated`, `loop_erases_violated`, `branch_empty_violated`, `update_correct_partial`, `update_shows_partial`, `update_right_iff`, `hidden_remembers_violated`, `nested_branch_violated`, `hidden_match_violated`, `late_match_violated`, `stale_text_violated`, `twice_attr_violated` |
| Sql | P, Q | `joins_exact`, `update_complete`, `update_nested` |
| Sql | P, C, Q | `insert_statement`, `update_statement_partial`, `select_statement_partial`, `holes_sep`, `criteria_not_conjunction_violated`, `update_statement_exact`, `select_statement_exact`, `insert_entity_partial`, `moved_key_violated`, `insert_moved_exact`, `insert_short_partial`, `second_row_violated`, `columns_exact`, `joins_introduced`, `aliases_distinct`, `select_text_partial`, `rows_refused`, `flat_entity_violated`, `nested_rows_ignored_violated`, `update_accepted`, `update_without_key_violated`, `update_exact` |
| Mpdef | P | `append_if_filter`, `double_setting_violated` |
| Mpdef | P, Q | `firsts_exact` |
| Mpdef | P, C, Q | `find_exact`, `positions_determined`, `settings_inherited`, `group_exact`, `collectors_independent` |
| Def | P | `access_point_lost_violated`, `stores_exact`, `consumers_lost_violated` |
| Def | P, Q | `compiles_exact`, `lookup_exact`, `consumers_exact_partial`, `message_ids_stable`, `message_ids_by_access_point`, `message_types_distinct` |
| Def | P, C, Q | `access_points_exact`, `access_points_all_iff`, `access_points_sound`, `access_points_partial`, `listeners_exact`, `consumers_all_iff`, `messages_exact` |
| Tiles | P | `look_shows` |
| Tiles | P, Q | `played_tiles`, `outcome_tiles`, `tiles_kept_iff`, `play_violated` |
| Tiles | P, C, Q | `move_spec_partial`, `move_outside`, `move_permutes_partial`, `move_one_empty_partial`, `move_undo`, `corner_violated`, `tile_leaves_board_violated`, `reads_outside_violated`, `move_exact`, `play_partial`, `keys_violated` |
| Deser | P, Q | `unknown_index_once` |
| Deser | P, C, Q | `answered_once_partial`, `deserialize_serialize_partial`, `answers`, `answered_twice_violated` |
| Address | P, Q | `find_spec` |
| Address | P, C, Q | `split_host_port_partial`, `split_no_port_partial`, `split_no_scheme`, `protocol_violated`, `ipv6_violated`, `split_exact`, `split_no_scheme_exact` |
| Params | P, Q | `unpack_build`, `unpack_exact`, `concat_assoc`, `state_lost_violated` |
| RawMsg | P, Q | `write_read_partial`, `write_read_prefix_partial`, `receive_correct`, `send_receive_partial`, `receive_all_partial`, `settled_once`, `error_reported`, `connect_attempts_violated`, `connect_first_success_partial`, `connect_bounded_partial`, `tries_violated` |
| RawMsg | P, C, Q | `long_body_violated`, `write_read_exact`, `receive_long_violated`, `send_receive_exact`, `connect_exact` |
| Nav | P | `set_not_found`, `all_announced`, `mirrors_partial`, `stores_agree`, `short_path_violated` |
| Nav | P, Q | `mirrors_exact`, `set_text_stale_violated`, `step_fails_partial` |
| Nav | P, C, Q | `set_route_partial`, `set_route_exact`, `set_route_encoded_violated`, `set_route_nul_violated`, `foreign_path_violated` |
| Dsl | P, C, Q | `generated_function_does_what_source_says_partial`, `string_means_itself_iff`, `string_with_backslash_violated`, `string_with_quote_violated`, `clauses_of_one_type_violated`, `compiler_takes_exactly`, `match_if_without_else_violated`, `match_cond_without_else_violated`, `noop_after_statement_violated`, `plain_condition_after_statement_violated` |
| StoreDef | P, C, Q | `store_implements`, `store_no_use_after_move`, `store_accepted_iff`, `store_single_exact`, `store_tag`, `store_name_iff`, `store_single_args_violated`, `store_base_violated`, `store_param_violated`, `store_variant_member_violated`, `store_name_violated` |
| JsBind | P, C, Q | `js_roundtrip_partial`, `js_text_violated`, `js_nul_violated`, `to_server_partial`, `to_server_unsigned_violated`, `to_server_enum_violated`, `to_client_partial`, `to_client_text_violated`, `to_client_collide_violated`, `to_client_empty_violated`, `js_null_refused_partial`, `js_refused_iff_partial`, `js_reader_accepts_violated`, `js_missing_member_violated`, `js_number_cut_violated`, `js_truth_violated`, `js_string_violated`, `js_container_violated`, `js_variant_violated`, `js_extra_elements_violated` |
| ClientJs | P, Q | `client_hears_exact`, `client_hears`, `client_hears_all`, `client_busy_message_violated`, `client_busy_close_violated`, `client_safe` |
| JsVal | P | `val_self_move_violated` |
| JsVal | P, Q | `vals_independent_partial`, `vals_equal_partial` |
| JsVal | P, C, Q | `vals_no_leak`, `val_fresh`, `vals_exact`, `self_move_exact` |
| Server | P | `broadcast_end_violated`, `accept_second_violated`, `js_server_json_violated` |
| Server | P, Q | `accept_exact`, `accept_half_violated`, `accept_first_partial`, `accept_after_silent_partial`, `accept_after_bad_partial`, `accept_silent_violated`, `accept_one_violated`, `accept_leftover_violated`, `js_server_partial`, `js_server_exact`, `js_server_close_violated` |
| Server | P, C, Q | `broadcast_exact`, `broadcast_partial`, `js_server_all_iff` |
| UiPath | P | `get_means`, `get_of_means`, `match_when_means` |
| UiPath | P, Q | `path_found_partial`, `path_found_exact`, `path_right_iff`, `path_key_violated`, `path_void_violated`, `params_found_partial`, `match_alternative`, `params_found_exact`, `params_right_iff`, `match_default_violated`, `branch_missing_violated`, `branch_undefined_violated`, `concat_text_partial`, `concat_text_exact`, `concat_values_partial`, `concat_apply_violated` |
| WsApi | none | `token_violated` |
| WsApi | P | `destroyed_violated`, `send_early_violated`, `receive_bytes_violated` |
| WsApi | P, Q | `reported_partial`, `open_exact`, `values_arrive`, `receive_text_violated` |
| WsApi | P, C, Q | `reported_exact`, `send_bytes_violated` |
| Events | P, Q | `handlers_partial`, `handlers_exact`, `fixed_handlers`, `loop_send_violated`, `nested_event_violated` |
| JsPromise | P, Q | `c_func`, `settles_once_violated` |
| JsPromise | P, C, Q | `captured`, `delivered_partial`, `settles_once_exact`, `own_calls_exact`, `released_violated` |
| Uid | P, Q | `all_bits`, `in_order`, `equal_hash`, `sharing_violated` |
| Uid | P, C, Q | `browser_partial`, `browser_reaches`, `browser_violated` |
| HoldLazy | none | `loop_leaks_violated`, `fires_twice_violated` |
| HoldLazy | P, Q | `kept_exact`, `resolves_now_violated` |
| HoldLazy | P, C, Q | `loop_exact`, `kept_partial` |
| MakeContext | P | `different_exact`, `same_type_violated` |
| MakeContext | P, Q | `own_argument`, `any_order`, `accepted_exact`, `unknown_exact`, `unknown_name_violated` |
| ApiSig | P, C, Q | `text_written`, `signature_is_digest`, `same_text_same_wire_partial`, `same_wire_exact`, `signable_iff_violated`, `buffer_size_violated` |
| PathPromise | P, C, Q | `path_resolves`, `path_rejects`, `path_then_catch` |
| DeserJs | P, C, Q | `server_to_browser_partial`, `browser_to_server_partial`, `system_message_partial`, `browser_answers`, `browser_no_answer_violated`, `answered_exact` |
| Replica | P | `late_answer_violated` |
| Replica | P, C, Q | `founder_follows_partial`, `founder_catches_up_partial`, `late_follows_partial`, `settled_paths_agree`, `existing_never_shown_violated`, `agrees_exact`, `requests_forwarded` |
| Macros | P | `entity_comma_violated`, `make_unchecked_violated` |
| Macros | P, C, Q | `entity_declared_partial`, `entity_exact`, `ids_in_order_partial`, `ids_exact`, `ids_many_violated`, `entity_many_violated`, `entity_empty`, `keys_declared_partial`, `keys_exact`, `with_map_exact`, `metastruct_many_violated` |
| Link | P, Q | `conversation_lost_violated`, `close_overtakes_violated`, `farewell_lost_violated`, `farewell_twice_violated` |
| Link | P, C, Q | `conversation_sane`, `conversation_in_order_partial`, `conversation_delivered_partial`, `conversation_in_order_exact`, `conversation_delivered_exact`, `both_closed_partial`, `no_close_unasked`, `notes_in_order_partial`, `close_delivers_exact`, `conversation_settles`, `settled_outcome_exact`, `settled_outcome_partial`, `settled_lost_violated`, `settled_written_exact`, `farewell_sane`, `farewell_partial`, `farewell_exact`, `farewell_once_exact`, `farewell_ends` |
| Reader | P, C, Q | `generated_text_reads_as_described_partial`, `same_text_same_meaning_partial`, `symbol_captured_violated`, `member_of_number_violated`, `quote_in_text_violated`, `string_adds_call_violated` |
| App | P, C, Q | `same_as_messages_partial`, `json_founder_follows_partial`, `json_settled_paths_agree_partial`, `json_agrees_partial`, `json_requests_forwarded_partial`, `browser_text_violated`, `browser_key_violated`, `native_nul_violated` |
| Alias | P | `alias_copy_partial`, `alias_const_rvalue_violated`, `fixed_never_copied`, `members_one_param_violated`, `named_copy`, `named_base_violated`, `assign_value_violated`, `assign_alias_violated`, `alias_copy_exact` |
| Alias | P, Q | `members_copy_partial`, `named_no_conversion`, `assign_other_partial`, `members_copy_exact`, `assign_exact` |
| Alias | P, C, Q | `alias_forwards`, `members_forwards`, `members_refuses`, `named_forwards` |
| ClassReader | P, C, Q | `class_text_reads_partial`, `alias_text_reads_partial`, `tag_text_reads_partial`, `same_text_same_store_partial`, `captured_parameter_violated`, `comma_argument_violated`, `no_class_violated` |
| Nested | P | `consumer_order_violated`, `mapOps_honest`, `contextStoreOps_honest`, `match_shows_current_violated`, `askingOps_honest`, `listener_order_violated`, `echo_descending`, `served_violated` |
| Nested | P, Q | `listener_order_iff`, `listener_order_lost`, `listener_order_echo_violated`, `comes_to_rest_violated`, `never_rests_violated`, `echo_applies` |
| Nested | P, C, Q | `calls_so_far`, `each_push_is_carried_out`, `each_listener_is_shown`, `each_mark_is_made_known`, `each_submit_is_carried_out`, `numbered`, `history`, `as_if_one_after_the_other`, `consumer_order_partial`, `consumer_order_exact`, `consumer_order_iff`, `state_consumers_told`, `match_shows_current_partial`, `match_current_exact`, `listener_order_partial`, `comes_to_rest_partial`, `comes_to_rest_iff`, `served`, `served_meanwhile`, `served_first` |
| Page | none | `make_partial` |
| Page | P | `make_violated` |
| Page | P, Q | `looks_exact` |
| Page | P, C, Q | `page_follows_partial`, `page_right_iff`, `page_awaited_violated`, `page_deleted_violated`, `looks_not` |
| Refs | P, Q | `value_kept_partial`, `value_kept_exact`, `reference_follows`, `reference_exact`, `apply_values`, `value_kept_violated` |
| Lifetime | P | `destroyed_iff`, `kept_partial`, `let_go_over_partial`, `handshake_violated`, `handler_violated`, `closed_violated`, `peer_closes_violated` |
| Lifetime | P, Q | `refines`, `let_go_partial`, `used_after_exact`, `safe_exact` |
| SqlDb | P, C, Q | `store_fetch_partial`, `fetch_stored`, `store_keyed`, `columns_distinct`, `column_clash_violated`, `store_exact`, `store_fetch_exact`, `insert_miscounted`, `update_partial`, `update_exact`, `wrong_key_violated`, `several_keys_violated` |
| Optimist | P | `foreign_change_shows_violated`, `unconfirmed_flickers_violated` |
| Optimist | P, Q | `server_carries` |
| Optimist | P, C, Q | `idle_agrees`, `unconfirmed_agrees`, `own_member_partial`, `own_change_exact`, `unconfirmed_waits_violated` |
| Async | none | `exception_takes_all` |
| Async | P | `run_append`, `exact_type_violated`, `foreign_type_violated`, `late_completion_violated`, `twice_violated` |
| Async | P, Q | `async_agrees`, `ends_once`, `thrown_handled_partial`, `handled_origin`, `unguarded_crashes`, `unguarded_tap_crashes`, `live_agrees` |
| Async | P, C, Q | `one_at_a_time`, `released_once_partial`, `completed_exact` |
| Pipes | P, Q | `gave_up_violated` |
| Pipes | P, C, Q | `server_sees_partial`, `quiet_outcome_partial`, `all_acted_partial`, `gave_up`, `done_iff`, `ends_exact`, `always_ends_exact`, `busy_bound`, `quiet_reached`, `unsettled_violated` |
| Cond | P | `arrow_visit_violated` |
| Cond | P, Q | `expand_means`, `last_call_means` |
| Cond | P, C, Q | `generated_cond_partial`, `generated_last_call_partial`, `only_violated`, `arrow_noop_violated`, `arrow_late_violated` |
| Relay | P | `server_pushed`, `client_sends`, `client_hears` |
| Relay | P, C, Q | `senders_in_order`, `heard_exact`, `left_exact`, `everyone_hears`, `own_heard`, `work_decreases`, `loop_ends`, `stuck_drained`, `test_passes` |
| Held | P | `returned_gone_violated`, `argument_gone_violated`, `rerun_partial`, `lazy_not_run_violated` |
| Held | P, Q | `held_history`, `held_touched`, `held_nearest`, `loop_gathers`, `runs_apart`, `lazy_moved_violated` |
| Held | P, C, Q | `held_safe_partial`, `held_exact`, `rerun_exact` |
| Entity | P | `stored_found`, `store_where_found`, `stored_elsewhere`, `empty_violated` |
| Entity | P, C, Q | `declared_members`, `by_name_exact`, `bound_in_order`, `equal_exact_partial`, `inherited_violated` |
| Keys | P | `assign_violated` |
| Keys | P, Q | `equal_exact`, `equal_violated`, `assign_exact`, `assign_partial` |
| Keys | P, C, Q | `equal_partial`, `named_exact`, `linked_partial`, `linked_violated` |
| MpList | none | `join_none_violated`, `join_ambiguous_violated` |
| MpList | P | `equal_violated`, `join_exact`, `join_injective` |
| MpList | P, Q | `contents_exact`, `contents_violated`, `sequence`, `transform_exact` |
| MpList | P, C, Q | `drop_exact`, `drop_violated`, `equal_exact` |
| Holder | P, Q | `shows_exact`, `default_exact`, `assigned`, `valueless_exact`, `history_exact`, `last_assigned`, `index_violated`, `bind_violated` |
| Holder | P, C, Q | `index_exact` |
| TupleLike | P, Q | `path_exact`, `nested_violated`, `bindable_exact`, `array_violated` |
| TupleLike | P, C, Q | `index_exact`, `type_exact`, `sequence_exact`, `product_exact`, `wrapper_exact`, `get_typed`, `sequence_keys_violated`, `header_violated`, `bound_exact`, `bind_reads`, `bind_get`, `wrapper_violated` |
| Print | P, C, Q | `print_parts`, `print_others`, `print_tells_partial`, `print_ambiguous_violated`, `print_two_exact`, `types_ambiguous_violated` |
| WebSpec | P | `element_path`, `outer_path`, `inside_as_outside` |
| WebSpec | P, Q | `loop_shows`, `value_exact`, `attr_exact` |
| WebSpec | P, C, Q | `page_rendered_partial`, `page_updated_partial`, `page_right_iff`, `text_right_iff`, `default_alternative_violated` |
| Screen | P, C, Q | `own_page_partial`, `page_shows_server_partial`, `page_shows_past_partial`, `own_page_iff`, `server_page_iff`, `json_page_same_partial`, `json_page_partial`, `existing_not_on_page_violated`, `late_answer_on_page_violated`, `deleted_on_page_violated`, `nul_on_page_violated` |

## What is modelled

The files of /repo cited by the definitions of each area (the exact lines are in the comments).

| Area | Files |
|---|---|
| Address | n/app/client_connection.hpp |
| Alias | h/lib/Nbdl/NbdlTranslateCpp.cpp, n/concept/extras.hpp, n/strong_alias.hpp |
| ApiSig | n/api_signature.hpp, n/bind_map.hpp, n/bind_sequence.hpp, n/detail/bind_tag_of.hpp |
| App | n/app/client.hpp, n/app/client_connection_js.hpp, n/app/serializer.hpp, n/app/serializer_js.hpp, n/app/server.hpp, n/app/server_connection.hpp, n/context.hpp |
| Async | n/catch.hpp, n/detail/wrap_promise.hpp, n/fwd/detail/promise_join.hpp, n/promise.hpp, n/run_async.hpp, n/tap.hpp, n/try.hpp |
| Base64 | n/concept/Container.hpp, n/util/base64_decode.hpp, n/util/base64_encode.hpp |
| Bind | n/bind_map.hpp, n/bind_sequence.hpp, n/bind_variant.hpp, n/binder/jsoncpp.hpp, n/detail/filter_empties.hpp, n/variant.hpp |
| ClientJs | n/app/client.hpp, n/app/client_connection_js.hpp, n/fwd/js.hpp, tool/dom_test/index.js |
| Concat | n/detail/string_concat.hpp, n/detail/string_concat_view.hpp |
| Context | n/apply_action.hpp, n/apply_foreign_message.hpp, n/context.hpp, n/context_store.hpp, n/null_store.hpp |
| Cookies | n/app/detail/cookie_parser.hpp, n/websocket/detail/get_auth_token.hpp |
| Def | m/map.hpp, n/def/builder/access_point_meta.hpp, n/def/builder/consumer_meta.hpp, n/def/builder/context.hpp, n/def/builder/context_actors.hpp, n/def/builder/entity_messages.hpp, n/def/builder/enumerate_access_points.hpp, n/def/builder/enumerate_consumers.hpp, n/def/builder/enumerate_producers.hpp, n/def/builder/listener_lookup.hpp, n/def/builder/message_api.hpp, n/def/builder/producer_map.hpp, n/def/builder/producer_meta.hpp, n/def/builder/store_map.hpp, n/def/directives.hpp, n/detail/make_create_path_type.hpp, n/message_api.hpp |
| Delta | n/apply_action.hpp, n/apply_delta.hpp, n/delta.hpp, n/local_version.hpp, n/make_delta.hpp |
| Deser | n/app/serializer.hpp, n/binder/jsoncpp.hpp, n/variant.hpp |
| DeserJs | n/app/serializer_js.hpp, n/binder/js.hpp |
| Dom | n/ui_helper.hpp, n/ui_helper/match_branch.hpp, n/ui_spec.hpp, n/webui/detail/dom_manips.hpp, n/webui/detail/flatten_spec.hpp, n/webui/html.hpp, n/webui/renderer.hpp |
| Dsl | h/include/nbdl_spec/Nbdl.td, h/lib/Nbdl/Nbdl.cpp, h/lib/Nbdl/NbdlTranslateCpp.cpp, n/concept/extras.hpp |
| Endpoint | n/run_async_loop.hpp, n/websocket/detail/endpoint_impl.hpp, n/websocket/detail/message_reader.hpp, n/websocket/detail/message_sender.hpp |
| Entity | n/bind_map.hpp, n/bind_sequence.hpp, n/concept/Entity.hpp, n/entity.hpp, n/entity_members.hpp, n/fwd/entity_members.hpp, n/macros/NBDL_ENTITY.hpp, test/nbdl/core/entity.cpp |
| Events | n/webui/detail/dom_event_listener.hpp, n/webui/detail/dom_manips.hpp, n/webui/detail/event_receiver.hpp |
| Handshake | n/websocket/detail/expect_equal.hpp, n/websocket/detail/parse_handshake_request.hpp, n/websocket/detail/parse_handshake_response.hpp, n/websocket/detail/send_handshake_request.hpp, n/websocket/detail/send_handshake_response.hpp, n/websocket/server_endpoint.hpp |
| Hash | n/binder/hash.hpp, n/detail/filter_empties.hpp, n/detail/hash_combine.hpp |
| Held | n/detail/promise_join.hpp, n/detail/wrap_promise.hpp, n/fwd/detail/promise_join.hpp, n/hold.hpp, n/hold_lazy.hpp, n/promise.hpp, n/run_async.hpp, n/run_async_loop.hpp, n/run_sync.hpp, n/tap.hpp, test/nbdl/websocket_api/client_endpoint.cpp |
| HoldLazy | n/hold_lazy.hpp, n/run_async.hpp, n/run_async_loop.hpp |
| Holder | n/variant.hpp, n/variant_holder.hpp |
| JsBind | n/app/client_connection_js.hpp, n/binder/js.hpp, n/binder/jsoncpp.hpp, n/detail/filter_empties.hpp, n/detail/js_val.hpp, n/variant.hpp |
| JsPromise | n/fwd/js.hpp, n/macros/NBDL_JS_PROMISE.hpp |
| JsVal | n/detail/js_val.hpp, n/fwd/js.hpp, n/js.hpp |
| Keys | n/key.hpp, n/sql_db/insert.hpp, n/sql_db/traits.hpp |
| Lifetime | n/run_async_loop.hpp, n/websocket/client_endpoint.hpp, n/websocket/detail/message_reader.hpp, n/websocket/server_endpoint.hpp, n/websocket_api/detail/endpoint_impl.hpp |
| Link | n/websocket/detail/endpoint_impl.hpp, n/websocket/detail/message_reader.hpp, n/websocket/detail/message_sender.hpp, test/nbdl/websocket/endpoint.cpp |
| Macros | m/MPDEF_METASTRUCT.hpp, m/MPDEF_VFUNC.hpp, m/details/_MPDEF_METASTRUCT_KEYS.hpp, m/details/_MPDEF_METASTRUCT_SPEC_NAMES.hpp, m/map.hpp, m/metastruct.hpp, n/macros/NBDL_ENTITY.hpp, n/macros/NBDL_MEMBERS.hpp, n/macros/NBDL_MEMBER_IDS.hpp, n/macros/NBDL_MEMBER_NAMES.hpp, n/macros/VFUNC.hpp |
| MakeContext | n/context.hpp, n/make_context.hpp |
| MapStore | n/ext/std/unordered_map.hpp, n/fwd/map_store.hpp, n/map_store.hpp |
| Message | n/echo_producer.hpp, n/fwd/message.hpp, n/message.hpp |
| MpList | m/list.hpp, m/string.hpp |
| Mpdef | m/append_if.hpp, m/collect_settings.hpp, m/compose_collectors.hpp, m/find_in_tree.hpp, m/group_by.hpp, m/map.hpp, m/tree_node.hpp |
| Nav | n/context.hpp, n/context_store.hpp, n/fwd/webui/nav_route.hpp, n/webui/nav_route.hpp, n/webui/set_route.hpp |
| Nested | n/app/client.hpp, n/app/server.hpp, n/context.hpp, n/echo_producer.hpp, n/message.hpp |
| Optimist | n/app/client.hpp, n/app/server.hpp, n/context.hpp, n/echo_producer.hpp, n/fwd/message.hpp, n/local_version.hpp, n/message.hpp |
| Page | n/context.hpp, n/webui/renderer.hpp |
| Params | n/detail/params_view.hpp |
| Path | n/apply_action.hpp, n/concept/Store.hpp, n/entity.hpp, n/ext/std/unordered_map.hpp, n/fwd/store_range.hpp, n/get.hpp, n/get_path.hpp, n/match.hpp, n/match_path.hpp, n/store_compose.hpp, n/store_range.hpp, n/strong_alias.hpp, n/variant.hpp, test/nbdl/core/match_path.cpp |
| PathPromise | n/fwd/ui_spec.hpp, n/path_promise.hpp, n/ui_view/detail/manips.hpp, test/nbdl/core/path_promise.cpp |
| Pipes | example/pipes/accept.hpp, example/pipes/connect.hpp, example/pipes/main.cpp, example/pipes/write_raw_message.hpp, n/try.hpp |
| Print | example/pipes/hana_printable.hpp, example/pipes/main.cpp |
| Promise | n/catch.hpp, n/detail/match_if.hpp, n/detail/promise_join.hpp, n/detail/wrap_promise.hpp, n/fwd/detail/promise_join.hpp, n/pipe.hpp, n/promise.hpp, n/run_async.hpp, n/run_async_loop.hpp, n/run_sync.hpp, n/tap.hpp |
| RawMsg | example/pipes/connect.hpp, example/pipes/main.cpp, example/pipes/read_raw_message.hpp, example/pipes/receive_messages_until.hpp, example/pipes/write_raw_message.hpp, n/ext/asio_tcp.hpp, n/try.hpp |
| Refs | n/context.hpp, n/ext/std/unordered_map.hpp, n/map_store.hpp, n/variant.hpp |
| Relay | n/app/client.hpp, n/app/server.hpp, n/app/server_connection.hpp, n/def/builder/enumerate_access_points.hpp, n/echo_producer.hpp, n/message.hpp, test/include/nbdl_test/consumer.hpp, test/nbdl/app/server_client.cpp |
| Replica | n/app/client.hpp, n/app/context_endpoint.hpp, n/app/server.hpp, n/app/server_connection.hpp, n/context.hpp, n/map_store.hpp |
| Route | n/fwd/webui/route_map.hpp, n/webui/route_map.hpp, test/nbdl/webui/route_map.cpp |
| Screen | n/app/client.hpp, n/app/context_endpoint.hpp, n/app/serializer.hpp, n/app/serializer_js.hpp, n/context.hpp, n/webui/renderer.hpp |
| Server | n/app/server.hpp, n/app/server_connection.hpp, n/app/server_js.hpp, n/ext/beast_ws.hpp |
| Session | n/run_async.hpp, n/websocket/client_endpoint.hpp, n/websocket/detail/send_handshake_request.hpp, n/websocket/detail/send_handshake_response.hpp, n/websocket/server_endpoint.hpp, n/websocket_api/detail/endpoint_impl.hpp, test/nbdl/websocket/endpoint.cpp |
| Sha1 | n/detail/beast_sha1.hpp |
| Sql | n/sql_db/detail/string_sum.hpp, n/sql_db/insert.hpp, n/sql_db/select.hpp, n/sql_db/statement/detail/table_alias_list.hpp, n/sql_db/statement/insert.hpp, n/sql_db/statement/select.hpp, n/sql_db/statement/update.hpp, n/sql_db/traits.hpp, n/sql_db/update.hpp, test/nbdl/sql_db/insert.cpp, test/nbdl/sql_db/update.cpp |
| SqlDb | n/sql_db/select.hpp, n/sql_db/statement/detail/table_alias_list.hpp, n/sql_db/statement/insert.hpp, n/sql_db/traits.hpp, n/sql_db/update.hpp, test/nbdl/sql_db/insert.cpp |
| StoreDef | h/include/nbdl_spec/Nbdl.td, h/lib/Nbdl/NbdlTranslateCpp.cpp |
| Tiles | example/tiles/game.hpp, example/tiles/test/context.cpp, n/apply_message.hpp, n/def/builder/enumerate_access_points.hpp, n/echo_producer.hpp, n/message.hpp |
| TupleLike | n/bind_sequence.hpp, n/binder/js.hpp, n/concept/State.hpp, n/detail/filter_empties.hpp, n/ext/std/tuple_like.hpp, n/get.hpp, n/get_path.hpp, n/tags.hpp, n/uid.hpp, test/nbdl/core/tuple_like.cpp |
| UiPath | n/detail/match_if.hpp, n/fwd/ui_spec.hpp, n/ui_helper.hpp, n/ui_helper/match_branch.hpp, n/ui_helper/match_params_spec.hpp, n/ui_helper/match_path_spec.hpp, n/ui_helper/params_concat.hpp, n/ui_spec.hpp |
| Uid | n/uid.hpp |
| Variant | n/match.hpp, n/variant.hpp |
| WebSpec | n/detail/match_if.hpp, n/fwd/store_range.hpp, n/store_range.hpp, n/ui_helper.hpp, n/ui_helper/match_branch.hpp, n/ui_spec.hpp, n/webui/detail/dom_manips.hpp, n/webui/html.hpp |
| Ws | n/websocket/detail/message_reader.hpp, n/websocket/detail/message_sender.hpp |
| WsApi | n/fwd/websocket_api/client_endpoint.hpp, n/websocket_api/client_endpoint.hpp, n/websocket_api/detail/convert_payload.hpp, n/websocket_api/detail/endpoint_impl.hpp |

`n/` is `include/nbdl/`, `m/` is `include/mpdef/`, `h/` is `tool/heavy_plugins/`.

## What is not modelled

* Concept checks (`concept/*.hpp`), forward declarations (`fwd/*.hpp`) and tag dispatch boilerplate: they have no run-time effect; the dispatched implementations are modelled.
* `details/_MPDEF_METASTRUCT_*.hpp`, `NBDL_TRAITS_IMPORT.hpp` and similar generated macro tables.
* `ui_view/` (Objective-C user interface): its specification language is the one of `UiPath`; drawing is not modelled (the code does not compile as it is: `view.super_view`, `make_renderer<RenderSpec>()`, a redeclared `view`).
* `ext/asio_tcp.hpp`: does not compile (undeclared `self`, `accept` defined twice).
* `entity_message_*.hpp` (never called), `node_renderer.hpp` (unused), `scheme.scm` (all of it to do).
* The examples except the tile game and the pipes, the build system, metabench.
* Scheduling inside boost::asio, the network, TLS, the DOM's layout and everything else outside of the process: they are the quantified histories.
* Exceptions thrown by allocation; threads (the code uses a single `io_context` thread).

## Violations found

Where the code does not do what the property says, this is proved of the model with a witness or for a whole class of inputs. One line for each property; the theorem states the details.

* **C01** (`Base64.roundtrip_long_violated`, `Base64.roundtrip_signed_char_violated`). For containers of unsigned char the round trip holds exactly for buffers of less than 2^29 bytes (roundtrip_exact; longer ones overflow int or are cut, roundtrip_long_violated). For containers of signed char it is false (witness), and proved for 7-bit data.
* **C03** (`Base64.decode2_accepts_malformed_violated`, `Base64.decode_long_violated`). The validating one-argument decoder is characterised exactly, bit by bit; the two-argument decoder does not reject malformed text (negation proved). Both for texts with less than 2^31 / 3 characters; longer ones overflow int or are cut (decode_long_violated).
* **C04** (`Base64.unique_text_violated`). False as stated (non-zero padding bits are accepted, witness); proved for canonical padding bits. Exactly: two accepted texts decode alike if and only if their used bits agree, and re-encoding gives the text back if and only if the unused bits are zero.
* **C05** (`Ws.send_receive_violated`, `Ws.send_receive_glued_violated`). Exact behaviour proved for all message lists; the property fails exactly for lengths that are positive multiples of 125.
* **C06** (`Ws.length_field_violated`, `Ws.length_field_x86_violated`). Holds below 65536; above, the reader shifts an int by >= 32 bits (undefined), proved for every such length.
* **C07** (`Ws.masked_fragments_violated`). Holds for a message exactly if no fragment with a mask in effect comes after any octet of it (masked_exact_partial); witness where it fails.
* **C08** (`Ws.ping_payload_violated`). Holds for payload-free control frames; the payload of any ping or pong is read as the next frames (control_exact, and a witness).
* **C12** (`Endpoint.close_notes_three_violated`, `Endpoint.close_notes_twice_violated`, `Endpoint.close_note_early_violated`). Causes proved; 'once' and 'after ours was sent' are false (witnesses); exact bound of three notifications proved and reached. close_told_exact: exactly how often, and why, without failures and stops.
* **C13** (`Endpoint.send_after_stop_violated`, `Session.stop_told_violated`). Handler silence proved once the endpoint is ready; new writes can start after stop (witness): exactly when a message was being written at the time, that write succeeds, and by then there is more to send (send_after_stop_exact); and during the handshake the handler is called after stop (stop_told_violated, for every client).
* **C15** (`Endpoint.ping_never_answered_violated`). The negation is proved for every schedule: no pong is ever sent.
* **C17** (`Cookies.auth_token_absent_violated`, `Cookies.auth_token_empty_violated`). Exact behaviour proved for every well-formed header. Holds when the first auth cookie exists and no auth cookie is empty; otherwise the end iterator is dereferenced, or a later cookie is returned (both proved).
* **C18** (`Cookies.session_cookie_hidden_violated`, `Cookies.trim_quotes_violated`). Exact behaviour proved for every well-formed header. Holds when every cookie has a value; a valueless cookie hides the next one (proved).
* **C21** (`Promise.double_resolve_violated`). For pipelines whose promises complete exactly once; promises that complete twice (double deletion) or never are characterised too.
* **C25** (`MapStore.report_violated`). Every visible change except the placeholder of a read request is reported; no-op deletes and updates are reported too, so the iff is refuted with witnesses; report_right_iff says exactly for which messages and states the report is right.
* **C28** (`Context.read_never_forwarded_violated`, `Context.match_never_requests_violated`, `Context.placeholder_blocks_read_violated`). Answering from the store is proved. Forwarding is refuted: with a map store no read request ever reaches the producer.
* **C33** (`Delta.rejected_change_stays_violated`, `Delta.stale_pending_violated`). Proved when confirmations write what was requested and the value is not replaced; refuted otherwise. settled_exact, converges_exact: exactly what is visible then, for all histories without a replacement.
* **C34** (`Delta.message_reports_violated`). The two operations report exactly; apply_message drops their result.
* **C36** (`Message.private_payload_violated`, `Message.has_private_payload_violated`, `Message.read_confirmed_violated`). All fields but the private payload; the private payload accessor returns the uid, and is_confirmed of a read answer does not compile.
* **C37** (`Message.keys_collide_violated`, `Message.keys_wrap_violated`, `Message.keys_overflow_violated`). Unique for each message type until the counter wraps or, for signed keys of the size of int or more, overflows with undefined behaviour; different message types for one path have separate counters and collide. keys_exact: the keys are all different and not 0 exactly if the creates are of one type and fewer than 2^w.
* **C38** (`Hash.variant_not_hashable_violated`). std::hash is a parameter. The digest is a fold over the leaf values, so equal values hash equally; for types without strings, buffers and containers the leaves determine the value, so every part is visited. Values of nbdl::variant and nbdl::optional cannot be hashed (does not compile).
* **C39** (`Bind.empty_container_violated`, `Bind.nul_string_violated`, `Bind.negative_enum_violated`, `Bind.read_appends_violated`). Exact characterisation of the values that survive: no empty container, no NUL in a string, no negative enumerator, no buffer of 2^29 bytes. The property as stated is violated for the others, with witnesses.
* **C40** (`Bind.unknown_alternative_violated`, `Bind.bad_base64_violated`, `Bind.wrong_size_violated`, `Bind.empty_accepts_violated`, `Bind.nul_string_violated`). reader_exact says exactly what is accepted. Sound for types made of numbers, strings, containers, non-empty sequences and records and documents without NUL; violated for variants with unknown index, buffers and empty classes.
* **C41** (`Variant.conversion_wins_violated`, `Variant.key_ignored_violated`). Equality for all alternatives and values. Matching calls the first branch that accepts the held type, which is the branch of the held alternative when no earlier branch takes a type it converts to; otherwise violated with a witness.
* **C42** (`Concat.short_text_violated`, `Concat.nesting_violated`). Length, copies, conversion and nesting for all expressions; comparison for texts that are long enough, undefined for shorter ones. compare_exact, compare_leaf_exact: exactly which comparisons are defined and what they say; nesting does make a difference there (nesting_violated).
* **C43** (`Path.inner_element_unreachable_violated`, `Path.range_hides_composed_violated`). Every nesting of compositions: lookups and actions (a message is applied as an action) reach the outermost store bound to the key, else the underlying store, and change nothing else. The same for compositions and store_ranges (which compose an element with a store in the same way) around one another in any mix. Two violations for ranges: an element of an inner range cannot be reached by any action, and where a range and a composition inside it have the same key, a lookup shows the element while an action changes the composed store.
* **C44** (`Path.rest_of_path_dropped_violated`, `Path.nested_map_violated`). get_path: proved. match_path: proved where the prefix lookup compiles, and for any prefix with the store it leads to, not opened (match_path_stepwise); prefix_rejected_iff says exactly when only the longer path can be looked up; a path that goes on after a plain value is silently cut short, and unordered maps inside unordered maps do not compile.
* **C45** (`Route.round_trip_violated`). The exact condition under which a route value survives the round trip is proved (an equivalence); empty strings, strings with slashes, zero and negative numbers do not, with witnesses.
* **C46** (`Route.overflow_accepted_violated`, `Route.many_members_ub_violated`). The texts that are accepted are characterised exactly (a slash at the end and leading zeros are tolerated), all others give route_not_found and nothing is read out of bounds if routes have at most nine members. Numbers that overflow are accepted, and a route with ten members reads out of bounds.
* **C47** (`Dom.loop_siblings_violated`, `Dom.html_siblings_violated`, `Dom.branch_concat_violated`, `Dom.branch_noop_violated`, `Dom.branch_noop_first_violated`, `Dom.branch_attr_violated`, `Dom.loop_erases_violated`, `Dom.branch_empty_violated`). What is rendered for any specification whatever is given exactly, without nodes (render_exact), and so exactly when it is what was specified (render_right_iff). Rendering the flat list appends exactly the trees of the nested specification, for specifications of a stated shape and states where every match has a branch; outside that shape the property fails, with proved witnesses (loops and HTML erase siblings, branches that are not single nodes).
* **C48** (`Dom.hidden_remembers_violated`, `Dom.nested_branch_violated`, `Dom.hidden_match_violated`, `Dom.late_match_violated`, `Dom.stale_text_violated`, `Dom.twice_attr_violated`). After any sequence of updates the element shows the trees of the last state, for the same specifications and states where the shown paths match; proved witnesses where it fails. update_shows_partial: what is shown after any updates, whether paths match or not, is the specification with paths that remember; update_right_iff: it is right just if the last value of every shown path is the present one. Missing: specifications of other shapes, for which the witnesses show failures.
* **C49** (`Sql.criteria_not_conjunction_violated`). The tokens of the statements are proved for any number of columns and keys: one placeholder for each value, in order. With two or more keys the WHERE clause of update and select separates the conditions with commas, which is not a conjunction (violation); with one key it is right (an equivalence: update_statement_exact, select_statement_exact).
* **C50** (`Sql.moved_key_violated`, `Sql.second_row_violated`). Every tree, if moving from a key leaves it unchanged (integers), or if no container holds more than one element (insert_short_partial). For keys of every kind: which foreign key each row has (insert_moved_exact). The foreign key is forwarded as an rvalue for every element of a container, so keys such as strings are lost after the first element (moved_key_violated, and second_row_violated for every such kind of key).
* **C51** (`Mpdef.double_setting_violated`). Search, grouping and settings for all trees and lists; a setting that is made twice in one node is ignored, which is shown.
* **C52** (`Def.access_point_lost_violated`). Soundness, order and paths for every definition that compiles; completeness for definitions whose directives have their access points in one child. Others lose access points, with witnesses. Exactly: what is enumerated is what is reached from the root by looking into the only AccessPoints, or else the only AccessPoint, of each directive on the way.
* **C53** (`Tiles.corner_violated`, `Tiles.tile_leaves_board_violated`, `Tiles.reads_outside_violated`). All boards and places, except the lower left corner when it has no empty neighbour: there exactly what happens is proved (corner_violated): the tile leaves the board, or the array is read outside of its bounds. move_exact puts both into one equivalence.
* **C54** (`Deser.answered_twice_violated`). JsonCpp's parser is a parameter. Once for every text that can be read; every other text is answered twice.
* **C55** (`Address.protocol_violated`, `Address.ipv6_violated`). Host and port are right when neither scheme nor host holds a colon; the protocol never is, and an IPv6 host is cut. split_exact, split_no_scheme_exact: exactly which host and port are found.
* **C56** (`Params.state_lost_violated`). All expressions of references, constants and concatenations; the state of a stateful value is lost, which is shown.
* **C57** (`Endpoint.early_close_stalls_violated`). Holds unless the close is requested before messaging starts (then it is never sent, proved). stall_exact: that is exactly when work is left lying.
* **C58** (`Endpoint.end_to_end_violated`). What the peer's reader delivers is stated exactly for every schedule and every message; it is what was sent unless some length is a positive multiple of 125 (the C05 exception), and then a message is shown not to be delivered.
* **C59** (`Endpoint.close_failure_ub_violated`). A failed write of the close frame uses a deleted object; proved to be the only such case in the endpoint model. ub_exact is an equivalence.
* **C60** (`Handshake.server_drops_data_violated`). Holds on the client; on the server data arriving with the end of the request is dropped (proved): any number of bytes up to 254, exactly (server_drops_exact). Between a client and a server of the library nothing is dropped, since the client does not write before it has the response (session_rest).
* **C62** (`Handshake.header_ub_violated`). Exact set of lines with undefined behaviour: non-ASCII names, and the two known names without a colon.
* **C65** (`Def.consumers_lost_violated`). Producers, stores and listeners for every context that compiles. Consumers that are not in one Consumers directive are lost, which is shown; consumers_all_iff says exactly when none is.
* **C67** (`Sql.flat_entity_violated`, `Sql.nested_rows_ignored_violated`). Columns, joins, order and aliases: proved for every nesting, with the exact text. Entities without nested entities do not compile, and one-to-many members of nested entities are silently left out (violations).
* **C68** (`Sql.update_without_key_violated`). Proved, except that the name of the key is not checked: the static assertion uses a comma operator where a conjunction was meant (violation). update_exact says exactly which updates are accepted.
* **C70** (`RawMsg.long_body_violated`). Proved for bodies of less than 2^32 bytes; for every longer body the reader gets a different one (violation). write_read_exact: exactly those.
* **C71** (`RawMsg.receive_long_violated`). Proved for every stream. Composed with the writer for bodies of less than 2^32 bytes; no longer body is acted on as it was sent (violation). The JSON decoder is a parameter.
* **C72** (`RawMsg.connect_attempts_violated`, `RawMsg.tries_violated`). The number of tries is n + 1, not n (violation); the rest is proved with n + 1: which try succeeds, when it is rejected and when it still tries, exactly (connect_exact).
* **C73** (`Nav.set_route_encoded_violated`, `Nav.set_route_nul_violated`). Proved for routes whose text is read back (C45) and is a plain URL path, with the assumption that browsers take plain paths as they are; with a character that browsers percent-encode the store holds another route, and with a NUL the text is cut there (violations). set_route_exact: in any browser, exactly when the route ends up in the address bar and both stores.
* **C74** (`Nav.set_text_stale_violated`, `Nav.short_path_violated`, `Nav.foreign_path_violated`). Proved as long as the program does not set the text itself; setting the text leaves the stores stale, an address shorter than the prefix crashes, an address outside the prefix is misread (violations). After a text was set the stores show the address bar exactly if they show this text already (mirrors_exact, for plain texts).
* **C75** (`Dsl.string_with_backslash_violated`, `Dsl.string_with_quote_violated`, `Dsl.clauses_of_one_type_violated`). Proved for all descriptions whose strings hold no quote, backslash or line end and whose match clauses have types that exclude each other, in every world. The three violations show what goes wrong otherwise. The generated text is shown to be the text of a C++ tree, whose meaning is given by a small semantics; that the text is read as that tree is C112.
* **C76** (`Dsl.match_if_without_else_violated`, `Dsl.match_cond_without_else_violated`, `Dsl.noop_after_statement_violated`, `Dsl.plain_condition_after_statement_violated`). The accepted descriptions are characterised exactly. The property as stated fails: match-if and match-cond without else never compile, and noop or match-if on a plain condition is refused after another statement. Refusal by the MLIR verifier is modelled as described in Dsl/Model.lean.
* **C78** (`StoreDef.store_single_args_violated`, `StoreDef.store_base_violated`, `StoreDef.store_param_violated`, `StoreDef.store_variant_member_violated`, `StoreDef.store_name_violated`). The positive part is proved for definitions by members, and of a single store or variant, with an unqualified name, and acceptance is characterised for all definitions. Violated by the code: arguments of a store on its own are dropped; a base parameter before members is dropped; a parameter as the store and a variant as a later member are undefined behaviour; a qualified name gives a wrong class name.
* **C79** (`JsBind.js_text_violated`, `JsBind.js_nul_violated`). Exactly the values whose strings are ASCII without NUL survive (strings are assumed to be UTF-8 text, buffers below 2^29 bytes). Writing decodes UTF-8, reading takes the low byte of each UTF-16 unit: any other letter is corrupted (violated), NUL cuts the string (violated).
* **C80** (`JsBind.to_server_unsigned_violated`, `JsBind.to_server_enum_violated`). Exactly the values whose unsigned numbers are below 2^31, enumerators not negative and strings without NUL arrive. Unsigned numbers of 2^31 and more are sent as negative numbers and refused (violated); negative enumerators are refused (violated).
* **C81** (`JsBind.to_client_text_violated`, `JsBind.to_client_collide_violated`, `JsBind.to_client_empty_violated`). Exactly the values with ASCII strings and no empty container arrive. Other text is changed, different texts become equal (violated); an empty container is sent as null and the client raises an exception (violated).
* **C82** (`JsBind.js_reader_accepts_violated`, `JsBind.js_missing_member_violated`, `JsBind.js_number_cut_violated`, `JsBind.js_truth_violated`, `JsBind.js_string_violated`, `JsBind.js_container_violated`, `JsBind.js_variant_violated`, `JsBind.js_extra_elements_violated`). Exactly looking for a part of null or undefined, or for a negative number of parts, raises an exception; everything else is accepted: missing members are zero, numbers are cut to 32 bits, wrong kinds are converted, extra elements and unknown alternatives ignored (violated).
* **C83** (`ClientJs.client_busy_message_violated`, `ClientJs.client_busy_close_violated`). Proved for every history and for endpoints that handle each message at once, as the library's own client does. Violated for endpoints passed to client_endpoint_open that finish later: messages arriving meanwhile are lost, and an error or closing arriving meanwhile is never reported. Messages that are not JSON are skipped.
* **C85** (`JsVal.val_self_move_violated`). Proved for all sequences without a self-move: the table refines independent variables, and nothing leaks (the latter for all sequences). Violated by moving an object onto itself, which loses its value. vals_exact: all sequences, a self-move counting as storing undefined.
* **C86** (`Server.broadcast_end_violated`). Proved for all histories in which no connection is ended by the sending itself; if one is, it is erased from the vector being looped over, which is undefined behaviour (violated). Exactly when that happens is proved too.
* **C87** (`Server.accept_half_violated`, `Server.accept_silent_violated`, `Server.accept_one_violated`, `Server.accept_second_violated`, `Server.accept_leftover_violated`). The first client is served, in whatever pieces its request comes; so is the first after any number that came and went without a word, and the one after a client whose request is refused with nothing left over. Violated for the others: a silent client blocks the loop for ever; the second request is read into the object holding the first (undefined in boost::beast); bytes left after an error, or by a client that hung up in the middle of its request, are taken for the next client's. accept_exact: without errors of the parser, the client served is exactly the one with the first request, clients taken in order, each only when those before it have hung up.
* **C88** (`Server.js_server_close_violated`, `Server.js_server_json_violated`). For every history in which all that is sent is JSON, exactly who gets a message is proved (js_server_exact), and that all who are there get it if and only if no connection closed by its client comes before one of them (js_server_all_iff). The property as stated is proved while no client closes its connection or sends what is not JSON. Violated: a connection closed by its client stays in the list and sending to it throws, so later connections get nothing any more; a message that is not JSON ends the process.
* **C89** (`UiPath.path_key_violated`, `UiPath.path_void_violated`). What is found for any path whatever: path_found_exact, and exactly when it is right: path_right_iff. Proved for every path in which keys after a match_when are not looked up. Violated there: such keys are looked up in the value reached so far, not in the store (path_key_violated).
* **C90** (`UiPath.match_default_violated`, `UiPath.branch_missing_violated`, `UiPath.branch_undefined_violated`). What is found for any list whatever: params_found_exact, and exactly when it is right: params_right_iff. Proved for every list whose branches have a value at their path. Violated: the default alternative of match gets a path narrowed to void, at which nothing is found (match_default_violated); a branch on a path without a value uses -1 as the number of the alternative (branch_missing_violated).
* **C91** (`UiPath.concat_apply_violated`). The text for any list whatever: concat_text_exact. Proved for all lists without apply, under the same condition as C90; apply has a value but params_concat has no case for it (violation).
* **C92** (`WsApi.destroyed_violated`, `WsApi.token_violated`). Exactly when a destroyed endpoint is used is proved for all histories, and that otherwise all is reported (reported_exact). Proved for every history in which the endpoint is destroyed, if at all, after the connection was closed. Violated: destroyed earlier, it stays registered and is used (destroyed_violated); the token is never sent (token_violated).
* **C93** (`WsApi.send_early_violated`). Proved while the connection is open. Violated before: the call throws and nothing is kept (send_early_violated).
* **C94** (`WsApi.send_bytes_violated`, `WsApi.receive_bytes_violated`, `WsApi.receive_text_violated`). Violated for all payloads: the whole memory of the program is sent, the vector received is always empty, and the first text is written past the end of its memory. No positive part holds.
* **C95** (`Events.loop_send_violated`, `Events.nested_event_violated`). For every history exactly when something destroyed is used and what each handler sees is proved (handlers_exact). The property holds, proved, for all histories in which a handler inside a loop does nothing more after sending and no event reaches a handler that is running; without restriction for handlers outside of loops. Both exceptions are violations with proofs.
* **C97** (`JsPromise.released_violated`, `JsPromise.settles_once_violated`). Proved: nothing deleted is used and every call is delivered to its own run. Violated: the pointer to delete is captured before it is assigned, so no callbacks are ever released (released_violated); a second call of a callback settles the pipeline again (settles_once_violated); a history settles every run at most once exactly if its callbacks are called at most once (settles_once_exact).
* **C98** (`Uid.sharing_violated`). Proved except uniqueness, which is violated: the engine is seeded with 32 bits, so of 2^32+1 generators two yield the same identifiers forever (sharing_violated).
* **C99** (`Uid.browser_violated`). Proved for numbers less than 1 - 2^-25. Violated exactly for the others: they are one as a float, and the conversion of 256 to uint8_t is undefined (browser_violated).
* **C100** (`HoldLazy.resolves_now_violated`, `HoldLazy.loop_leaks_violated`, `HoldLazy.fires_twice_violated`). Proved for pipelines of run_async whose functions resolve after their value is made, and once. Violated otherwise: resolving before returning uses the deleted pipeline (resolves_now_violated); loops and repeated resolutions overwrite a held value without destroying it (loop_leaks_violated, fires_twice_violated). kept_exact and loop_exact say exactly which pipelines keep their values.
* **C101** (`MakeContext.unknown_name_violated`, `MakeContext.same_type_violated`). Proved: own argument, any order. Violated: the assertion against unknown names is disabled (unknown_name_violated); actors of the same type without names share one argument (same_type_violated). Two actors can be given different arguments exactly if their names differ (different_exact), arguments are accepted exactly if no name is given twice (accepted_exact), and one is dropped exactly if no actor has its name (unknown_exact).
* **C102** (`ApiSig.signable_iff_violated`, `ApiSig.buffer_size_violated`). Proved: the signature is SHA-1 of the printed name, and equal names mean the same wire format exactly if the sizes of fixed buffers agree (same_wire_exact, for sizes below 2^29). Violated: types with entities or enumerations have no signature (signable_iff_violated); the size of a fixed buffer is not part of it (buffer_size_violated).
* **C104** (`DeserJs.browser_no_answer_violated`). Exactly the messages whose strings are ASCII and containers not empty arrive in the browser, and exactly those with small unsigned numbers, enumerators that are not negative and no NUL on the server. Violated: an exception while reading leaves the browser without any answer, as for every empty container (browser_no_answer_violated); what happens to the other messages is C80 and C81. answered_exact: exactly which documents are answered in the browser. system_message_partial: system messages arrive as errors with this message, under the same conditions.
* **C105** (`Replica.existing_never_shown_violated`, `Replica.late_answer_violated`). Stores are map stores, and connections deliver whole messages in order (assumed). Proved for clients which join while the server shows nothing; for the others up to paths at which they show nothing, if no answer to a read is late, and exactly at paths created, updated or deleted since; agrees_exact says exactly at which paths any client that has caught up shows what the server shows. Violated: what there was before a client joined is never shown to it, whatever it asks (existing_never_shown_violated); a late answer to a read makes it show a value the server does not (late_answer_violated).
* **C107** (`Macros.ids_many_violated`, `Macros.entity_many_violated`, `Macros.entity_comma_violated`). Proved for one member or more exactly if there are at most 62 (entity_exact; 61 for the numbers, ids_exact) and names with commas only inside of parentheses. Violated: an entity with more members does not compile (entity_many_violated, ids_many_violated); a comma in the name of the record makes a member of its second half (entity_comma_violated).
* **C108** (`Macros.metastruct_many_violated`, `Macros.make_unchecked_violated`). Pairs: proved exactly. Keys: proved for one or more exactly if there are at most 63 (keys_exact), more do not compile (metastruct_many_violated). The number of values given in order is not checked (make_unchecked_violated).
* **C109** (`Link.conversation_lost_violated`). Proved for messages whose lengths are not positive multiples of 125 (see C05); others are lost or glued to the next one (conversation_lost_violated; conversation_in_order_exact and conversation_delivered_exact say what is handed over for all lengths). Everything is delivered as long as no write fails, nobody closes and nobody stops. That nothing is undefined is unconditional for what the reader gets, and else needs that no write of a close frame fails (see C59). The network keeps the order of octets (assumed).
* **C110** (`Link.close_overtakes_violated`). Both are told if no write fails and both endpoints were started before being closed and never stopped (see C57 for the others). Violated: the close frame overtakes messages that are still queued, which are then lost (close_overtakes_violated); close_delivers_exact: exactly those reach the other user that were written or being written when send_close was called.
* **C111** (`Link.settled_lost_violated`). The number of things left to do is bounded for every history in which no write failed. The outcome is stated exactly if the connection is not lost; a message of 125 bytes is not delivered (violation, the C05 exception).
* **C112** (`Reader.symbol_captured_violated`, `Reader.member_of_number_violated`, `Reader.quote_in_text_violated`, `Reader.string_adds_call_violated`). Proved, with a tokenizer and a parser for the part of C++ that is generated, for descriptions whose symbols are (qualified) names other than arg_0, get_1, ..., whose types are written without superfluous blanks, whose strings hold no quote, backslash or line end, and which call no number and no member of a number. The violations show what happens otherwise: a symbol is taken for a parameter, 5.put( is one token, a string with quotes makes the text no C++ or adds a call to it. The reader is a specification of C++, not code of the repository.
* **C113** (`App.browser_text_violated`, `App.browser_key_violated`, `App.native_nul_violated`). Proved for messages which the connection keeps, by the conditions of C39, C80 and C81, and stores that are map stores. Violated: a browser shows other text than the server unless it is ASCII (browser_text_violated), its requests for keys of 2^31 or more are lost (browser_key_violated), and texts are cut at a NUL (native_nul_violated). What C105 does not give is missing here too.
* **C114** (`Alias.alias_const_rvalue_violated`, `Alias.members_one_param_violated`, `Alias.named_base_violated`, `Alias.assign_value_violated`, `Alias.assign_alias_violated`). The rules of C++ for overloads are modelled as far as they matter here. Violated: a const rvalue of an alias is handed on instead of copied; so is every variable of a generated class with one parameter (members_one_param_violated); an alias can be assigned neither a value of its type nor an alias. The exact conditions are alias_copy_exact, members_copy_exact and assign_exact.
* **C115** (`ClassReader.captured_parameter_violated`, `ClassReader.comma_argument_violated`, `ClassReader.no_class_violated`). Proved, with a tokenizer and a parser for the part of C++ that is generated, for definitions whose names are distinct words other than those made up, whose types are (qualified) names with or without template arguments, whose strings hold no quote, backslash or line end, and whose other C++ text has commas only inside of brackets, mentions no parameter and is written without superfluous blanks. The violations show what happens otherwise: text that is the name made up for a parameter uses it after it was moved from, a comma makes two arguments of one, and equal names or a quote make the text no class. A parameter before the members leaves no trace (C78) and is left out here. The reader is a specification of C++, not code of the repository.
* **C118** (`Nested.consumer_order_violated`). Proved if no state consumer pushes when notified and no consumer declared earlier pushes when it is sent a message. Violated otherwise: a consumer that answers a message by another makes the consumers after it get the answer first (consumer_order_violated). Exactly: with map stores a consumer gets its messages in order whatever the actors do just if there is no state consumer and it is the first consumer (consumer_order_exact); and in each execution that ends the order is kept just if no message for the consumer is pushed before it has got the ones pushed earlier (consumer_order_iff).
* **C120** (`Nested.match_shows_current_violated`). Proved if those who are called for the read request do not push. Violated by a producer that answers at once: the callback is handed unresolved after the value has arrived and been shown. match_current_exact: for a type no store listens to, it holds whatever the actors do just if the store need not be asked, or nobody is called for the read request (map stores are so, C28).
* **C121** (`Nested.listener_order_violated`, `Nested.listener_order_echo_violated`). Exactly, for all actors and programs: the order is kept if and only if no message of the type is pushed before the store has been shown the ones pushed earlier (listener_order_iff); once one was, the order is lost for good (listener_order_lost). In particular it is kept if no actor pushes messages of the type while it is called. Violated otherwise: the listening store is shown the nested message first and is left with the older value. It happens in every context with a listening store and the echo producer: the request is shown after the change it led to (listener_order_echo_violated).
* **C122** (`Nested.comes_to_rest_violated`, `Nested.never_rests_violated`). Exactly: everything comes to an end if and only if finitely many messages are pushed (comes_to_rest_iff). Proved under a rank that answers lower, which echo producers respect. Without one a consumer that answers each update by an update never returns, and in every context a producer that answers each request by the same request does not (never_rests_violated).
* **C124** (`Page.page_awaited_violated`, `Page.page_deleted_violated`). Proved for specifications for which updates work (C48), whose content depends on the values in the stores only, and stores that report changes (C119). Violated by pages that tell what is not there from what has been requested: the placeholder is not made known (page_awaited_violated), and by texts whose value has been deleted (page_deleted_violated). page_right_iff: the page is right just if the last value of every shown path is the present one. A renderer cannot render when the context makes it, see C125: the page is taken to be rendered once the stores exist.
* **C125** (`Page.make_violated`). Proved if no constructor uses the handle and pages of renderers among the actors have no paths. Violated otherwise: the member actors is declared before stores, so that a renderer, which renders its page in its constructor, looks at stores that do not exist yet (undefined behaviour).
* **C126** (`Refs.value_kept_violated`). Proved for messages that neither set nor delete the value at this path; value_kept_exact says exactly for which messages it holds, reference_follows and reference_exact what the reference refers to after any messages. Violated by others: an update changes the value under the callback, and after a delete, or after the entity became not_found, the reference dangles (undefined behaviour).
* **C127** (`Lifetime.handshake_violated`, `Lifetime.handler_violated`, `Lifetime.closed_violated`, `Lifetime.peer_closes_violated`). Destroyed exactly when the user, the reader and the sender of messages are done. Not used afterwards if the user keeps the pointer, or if they let go after the handshake and nobody closes the connection. Violated if the pointer is let go of during the handshake, or while a close frame is being written after the reader has ended: those operations use the endpoint without owning it. After it was destroyed it is used exactly if one of these was under way and ends (used_after_exact, safe_exact).
* **C128** (`SqlDb.column_clash_violated`). The text of the statements is read and evaluated by a small model of SQL (words, inner joins, one condition). Proved for every nesting and every content of the tables, if the columns of a table have different names, and the entity has a nested entity (one without cannot be selected, C67) and no one-to-many members of its own (refused). Violated by a plain member foo_id next to a nested entity foo: both use one column, and the insert fails. Exactly (store_exact, store_fetch_exact): with names that C++ identifiers can be and no column with the name of the primary key, the statements are accepted just if every table has a column and no two with the same name, and the entity is read back just if, besides, it has a nested entity, no one-to-many members of its own and a plain member somewhere.
* **C129** (`SqlDb.wrong_key_violated`, `SqlDb.several_keys_violated`). Proved for one key that has the name of the primary key, and exactly then (update_exact). Violated otherwise: the assertion in update only looks at the type of the key, so that a primary key under the name of another column is accepted and another row is changed; with several keys the text is not SQL (C49).
* **C131** (`Optimist.foreign_change_shows_violated`, `Optimist.unconfirmed_flickers_violated`, `Optimist.unconfirmed_waits_violated`). Proved for members which nobody else changes, whatever happens to the other members; own_change_exact: a change stays on the screen exactly if nothing else is heard about this member from others, in every history. Violated if another client changes the same member: its older change shows in between. Violated if the server does not mark its messages as confirmed, as echo_producer does: each answer is taken for a new local change, undoes newer ones, and its uid is never given up.
* **C133** (`Async.exact_type_violated`, `Async.foreign_type_violated`). try_ rejects with the static type std::exception, or runtime_error: the first handler for that type is called, one for the exact type is passed over (violation). Other functions that throw end the process.
* **C134** (`Pipes.gave_up_violated`, `Pipes.unsettled_violated`). For bodies of less than 2^32 bytes (C70). The process does not end if the client gives up, or cannot encode a message: the server waits for ever (violation); if the connection is made and holds it ends exactly if what can be sent settles the server's pipeline (ends_exact, always_ends_exact).
* **C135** (`Cond.arrow_visit_violated`, `Cond.only_violated`, `Cond.arrow_noop_violated`, `Cond.arrow_late_violated`). Proved down to the generated C++ for clauses with results or with an arrow after a path, with a call alone allowed as the last clause, and stores in which a path leads to the same object at any time. Violated: a call before an arrow, a test alone elsewhere, and noop after an arrow are refused; a procedure gets the path, not the value, and sees later changes.
* **C136** (`Link.farewell_lost_violated`, `Link.farewell_twice_violated`). The full property does not hold: a close frame overtakes messages still queued (farewell_lost_violated), and a user who reads the other's close while its own is being written is told twice (farewell_twice_violated); farewell_exact says exactly when a user is told what they should be. Proved for all plans and schedules: no undefined behaviour, the program comes to rest, both are told of the close, each is handed exactly the messages that were written, a beginning of the other's; whoever called send_close was handed all of them, and at least one did.
* **C137** (`Tiles.play_violated`, `Tiles.keys_violated`). Proved for less than 2^31 moves and boards that do not fill the array, up to one exception that is stated exactly: a tile in the lower left corner without an empty neighbour leaves the board, at most once in a game (play_violated shows it for the game of the example), and the board keeps its tiles just if this does not happen (tiles_kept_iff). With more moves the counter of the producer overflows (keys_violated). On boards that fill the array the corner reads outside of it (C53). The actors other than the producer do not use the context when called.
* **C138** (`Async.late_completion_violated`, `Async.twice_violated`). Holds where no operation completes twice (released_once_partial, which also says that an operation that never completes leaves the pipeline in memory). If all operations have completed and there was no use after the deletion, then none completed twice (completed_exact). A completion after the end is a use of deleted memory (late_completion_violated, twice_violated).
* **C140** (`Session.early_close_violated`). All of it, except that messages are joined as C05 has it (session_outcome_exact says exactly what arrives; C111 has the witness), and that a send_close during the handshake is forgotten when nothing else is to be sent (early_close_violated).
* **C141** (`Held.returned_gone_violated`, `Held.argument_gone_violated`). Held values: held_history (nothing is lost or interposed), held_touched and held_nearest (who touches what), for all pipelines and completions. No use of a value that is gone if all operations are given held values (held_safe_partial), and exactly then (held_exact). What a function returned, and the argument of run_async, are gone when an operation completes (returned_gone_violated, argument_gone_violated).
* **C142** (`Held.lazy_not_run_violated`, `Held.lazy_moved_violated`). Runs do not influence one another (runs_apart), and a pipeline without hold_lazy is the same each time (rerun_partial); rerun_exact says exactly which pipelines and runs are. With hold_lazy run_async of a variable does not compile (lazy_not_run_violated), and the second run_sync calls a function that has been moved from (lazy_moved_violated).
* **C143** (`Entity.empty_violated`, `Entity.inherited_violated`). All of it, except that entities without members cannot be compared (empty_violated) and that a field of a base class cannot be declared for both the base and a derived class (inherited_violated).
* **C144** (`Session.program_lost_violated`, `Session.program_twice_violated`). The program is defined and comes to rest under every schedule (program_sane, program_ends); then both were told ready, a beginning of the messages and of the close, and at least one user got everything (program_partial). Messages can be lost (program_lost_violated), and a user can be told of the close twice, whose handler then resolves a promise that was deleted (program_twice_violated, program_released_partial). program_exact and program_released_exact say exactly when a user is told what the test expects, and when its pipeline is released once.
* **C145** (`Keys.equal_violated`, `Keys.assign_violated`, `Keys.linked_violated`). Proved for ids from 0 to 2^32 - 1 and for assigning keys. Violated: a key has 32 bits and its constructor converts without a check, so that larger ids become other keys and rows are linked to the wrong parent; and assigning a number to a key compiles but has no effect, since the operator is const and only returns a pair.
* **C146** (`MpList.contents_violated`, `MpList.drop_violated`, `MpList.equal_violated`). All lists of objects of any types. A list keeps only the types of what is put in: it hands out the objects exactly when each of them is what a new object of its type is (contents_exact, contents_violated: a list of the number 5 hands out 0), and the same for what a function returns (transform_exact). Length, emptiness, places and joining are those of a sequence. Dropping from the front compiles exactly when there are that many elements (drop_exact), while Hana promises the empty sequence (drop_violated). Two lists are equal exactly when new objects of their types are (equal_exact), so [5] equals [7] (equal_violated).
* **C147** (`MpList.join_none_violated`, `MpList.join_ambiguous_violated`). All delimiters and texts. Exact for one or more texts; joining none gives a function instead of the empty text (join_none_violated). Texts can be told again if the delimiter is a character that is in none of them (join_injective), otherwise they may be joined to the same (join_ambiguous_violated).
* **C148** (`Holder.index_violated`, `Holder.bind_violated`). All alternatives and all histories of assignments with exceptions at any point. The index and the value are those of the alternative held; a holder is left without a value exactly when an exception is thrown while a value of another alternative is moved in (valueless_exact), and then its index is none of its alternatives (index_exact, index_violated). Serializers cannot be used: neither function compiles, not for the holder and not for the variants it could be meant for (bind_violated). For every history: the value of the last assignment that threw nothing is held (last_assigned) unless one of the later ones was stopped while moving in a value of another alternative (history_exact).
* **C149** (`TupleLike.nested_violated`, `TupleLike.sequence_keys_violated`, `TupleLike.header_violated`). Exactly which reads compile and what they give, for all objects, keys and headers. Violated: an element that is itself a tuple, pair or array cannot be read, since the implementation for those has no function without a key (nested_violated; behind a reference wrapper it can); the keys index and type, which tags.hpp provides for sequences too, cannot be used on Hana's sequences (sequence_keys_violated); and pairs and arrays cannot be read by them any more when bind_sequence.hpp or uid.hpp is included, whose adapters of Hana change their tags (header_violated).
* **C150** (`TupleLike.wrapper_violated`, `TupleLike.array_violated`). All of it for tuples, pairs and sequences, where it is a parameter which types are empty. Violated: for an element that is a reference wrapper the function gets what it refers to instead (wrapper_violated), and arrays cannot be bound when uid.hpp is included (array_violated). Functions that keep references to their arguments are not modelled; the function object is copied.
* **C151** (`Print.print_ambiguous_violated`, `Print.types_ambiguous_violated`). All values. Values of one type are told apart if no text in them has a comma, a closing parenthesis or brace, or ' =' in it; texts are not quoted, so that others are ambiguous (violation, and exactly when for two texts in a tuple), and values of different types may print the same. What operator<< writes is given.
* **C152** (`WebSpec.default_alternative_violated`). The lookup of paths (C89-C91) and the renderer (C47, C48) put together: all pages whose paths the lookup treats rightly (finePath of C89, shown exactly in C89) and that have the shape the renderer can render (C47); after changes, if the paths shown lead somewhere, and exactly if the last value each led to is the present one (page_right_iff). For paths of any kind the actions get exactly what the lookup finds (value_exact, attr_exact), and a text is right exactly if that is what the path means (text_right_iff). Elements of containers are looked up through the stores of store_range, proved of the concrete stores: the path of the element leads to the element, other keys to where they lead outside the loop. Violated: the function of the default alternative of a match is given a path at which nothing is ever found, so that in every page a text of it stays empty (default_alternative_violated).
* **C153** (`Screen.existing_not_on_page_violated`, `Screen.late_answer_on_page_violated`, `Screen.deleted_on_page_violated`, `Screen.nul_on_page_violated`). Proved for specifications for which updates work (C48), that depend on the values at some paths only. For clients that join while the server shows nothing at those paths, or once something has been created, updated or deleted there; server_page_iff says exactly when such a page is right. json_page_partial: also in browsers and over JSON, for messages that fit the connections (C113). Violated: what there was before a client joined is never on its page, a late answer to a read puts a value there which the server does not have, a deleted value stays as a text, and a text is cut at a NUL. Stores are map stores, connections deliver whole messages in order, and actors push nothing while they are called (assumed; see C113, C124).
* **C154** (`Nested.served_violated`). For a context of map stores whose actors push while they are called: a client that showed what the server showed shows what it shows now, when its messages are sent in the order they were pushed (served), also in the middle of it all when nothing waits to be sent (served_meanwhile), in particular if no state consumer and no consumer declared earlier pushes (served_first). Without that the client may be left with an older value than the server (served_violated).

## Status

154 properties: 39 proved, 115 partial. Every partial claim says in its note what is missing; nearly all are partial because the code violates the rest.

Wrong programs: `seeded/LOG.jsonl` has 2748 lines.
