{"id": "C01", "title": "Base64 round trip", "statement": "Decoding the text that the base64 encoder produces for a byte buffer gives back exactly that buffer, and the decoder reports success.", "quantifier": "every byte sequence, of every length", "why_tests_cant": "The tests use a handful of literals; the padding logic has three length classes and 64^4 quantum values, and lengths are unbounded.", "anchors": ["include/nbdl/util/base64_encode.hpp: util::base64_encode", "include/nbdl/util/base64_decode.hpp: util::base64_decode"]}
{"id": "C02", "title": "Base64 encoding is RFC 4648", "statement": "The encoder's output is the RFC 4648 encoding: the 6-bit groups of the big-endian bit string of the input, zero-extended, mapped through the standard alphabet and padded with '=' to a multiple of four characters; its length is 4*ceil(n/3).", "quantifier": "every byte sequence whose length keeps the length computation inside int", "why_tests_cant": "Requires agreement with an independent bit-level specification on unboundedly many inputs.", "anchors": ["include/nbdl/util/base64_encode.hpp: encode_fragment, encoding_length_padded, base64_encode"]}
{"id": "C03", "title": "Base64 decoder accepts exactly well-formed text", "statement": "The decoder succeeds exactly on texts whose length is a multiple of four, made of alphabet characters followed by at most two '=' characters; anything else is refused.", "quantifier": "every text and both decode entry points", "why_tests_cant": "There are infinitely many malformed texts; the two-argument entry point tests the output size before validity, so very short garbage is accepted.", "anchors": ["include/nbdl/util/base64_decode.hpp: validate, operator()(Input), operator()(Input, Output)"]}
{"id": "C04", "title": "Base64 text of a byte buffer is unique", "statement": "Two accepted texts that decode to the same bytes are the same text (no malleability).", "quantifier": "every pair of accepted texts", "why_tests_cant": "A pairwise statement over infinitely many texts; the decoder ignores leftover bits so it fails for non-canonical text.", "anchors": ["include/nbdl/util/base64_decode.hpp: decode"]}
{"id": "C05", "title": "WebSocket send/receive round trip", "statement": "If an endpoint sends a sequence of messages, the receiver fed with the resulting byte stream delivers exactly those payloads, in that order, one delivery per message.", "quantifier": "every finite sequence of payloads of every length", "why_tests_cant": "Payload lengths interact with the fragmentation size; only a few lengths are tested. The code omits the FIN bit when the length is a positive multiple of the frame size.", "anchors": ["include/nbdl/websocket/detail/message_sender.hpp: send_message_impl, encoded_length_buffer", "include/nbdl/websocket/detail/message_reader.hpp: message_reader"]}
{"id": "C06", "title": "WebSocket payload length field", "statement": "For every payload length the length field written by the sender is read back by the receiver as the same length.", "quantifier": "every length in [0, 2^63)", "why_tests_cant": "The three length encodings meet at 126 and 65536 and the 64-bit one depends on shift widths; exhaustive testing is impossible.", "anchors": ["include/nbdl/websocket/detail/message_sender.hpp: encoded_length_buffer", "include/nbdl/websocket/detail/message_reader.hpp: get_payload_length"]}
{"id": "C07", "title": "Masked payloads are unmasked correctly", "statement": "A receiver given a message as any sequence of masked fragments delivers the concatenation of the unmasked fragments.", "quantifier": "every list of fragments, every mask key per fragment", "why_tests_cant": "Fragment boundaries relative to the 4-byte mask period vary without bound; the unmasking loop starts at index 0 of the accumulated payload rather than at the fragment's offset.", "anchors": ["include/nbdl/websocket/detail/message_reader.hpp: read_payload"]}
{"id": "C08", "title": "Control frames may interleave with fragments", "statement": "Ping and pong frames placed between the fragments of a message do not change what is delivered.", "quantifier": "every message, every split in fragments, every placement of control frames and every control payload", "why_tests_cant": "Interleavings are unbounded; the reader never consumes the payload of ping/pong frames.", "anchors": ["include/nbdl/websocket/detail/message_reader.hpp: opcode_dispatch, keep_reading"]}
{"id": "C09", "title": "Receiver never delivers data it was not sent, and stops at the first protocol error", "statement": "For an arbitrary byte stream, the receiver either waits for more input, stops with an error/close notification, or delivers messages each of which is made of the payload bytes of complete frames; after a close, unknown opcode or socket error it delivers nothing more.", "quantifier": "every byte stream, complete or truncated at any point", "why_tests_cant": "Arbitrary hostile streams and truncation points cannot be enumerated.", "anchors": ["include/nbdl/websocket/detail/message_reader.hpp: message_reader"]}
{"id": "C10", "title": "Outgoing queue is FIFO and lossless", "statement": "The data messages handed to the network are exactly the messages accepted by send_message, in order and without duplication, and every accepted message is either on the wire or still queued.", "quantifier": "every interleaving of send_message, send_close, incoming frames, send completions and failures", "why_tests_cant": "The order of asynchronous completions relative to API calls is a schedule; tests run one.", "anchors": ["include/nbdl/websocket/detail/endpoint_impl.hpp: send_message, start_send_queue"]}
{"id": "C11", "title": "Nothing is sent after the close frame", "statement": "Once an endpoint has begun to send its close frame, it never begins to send another frame, in particular no second close frame.", "quantifier": "every schedule of endpoint events", "why_tests_cant": "Schedule dependent; a race between a failed close and later API calls matters.", "anchors": ["include/nbdl/websocket/detail/endpoint_impl.hpp: start_send_queue, send_close, make_reader_handler"]}
{"id": "C12", "title": "Close is announced to the user only after both sides closed, and once", "statement": "The close notification is delivered only when a close frame has been received and ours was requested (or the peer dropped the connection during our close), and at most once.", "quantifier": "every schedule of endpoint events", "why_tests_cant": "Schedule dependent.", "anchors": ["include/nbdl/websocket/detail/endpoint_impl.hpp: make_reader_handler, start_send_queue, mark_is_close_received"]}
{"id": "C13", "title": "No notification after stop", "statement": "After stop() the user's handler is never called again and no new send is started.", "quantifier": "every schedule of endpoint events", "why_tests_cant": "Callbacks already in flight may complete in any order after stop.", "anchors": ["include/nbdl/websocket/detail/endpoint_impl.hpp: call_handler, stop, start_send_queue"]}
{"id": "C14", "title": "At most one send in flight", "statement": "The endpoint never starts a network write while a previous write is incomplete.", "quantifier": "every schedule of endpoint events", "why_tests_cant": "Overlapping writes occur only under particular completion schedules.", "anchors": ["include/nbdl/websocket/detail/endpoint_impl.hpp: is_send_queue_running, start_send_queue"]}
{"id": "C15", "title": "Pings are answered", "statement": "Every ping received while the connection is open is answered with a pong.", "quantifier": "every schedule in which a ping arrives", "why_tests_cant": "It is a liveness-style property of all schedules; in the code no path sends the pong.", "anchors": ["include/nbdl/websocket/detail/endpoint_impl.hpp: control_frame::to_pong, start_send_queue"]}
{"id": "C16", "title": "Client and server handshakes agree", "statement": "The server accepts the handshake request the client generates, answers with a response the client accepts, and learns exactly the auth token the client supplied.", "quantifier": "every origin and every auth token without line breaks or ';' that fits the header limit", "why_tests_cant": "Tokens and origins are arbitrary strings; delimiters inside them change the parse.", "anchors": ["include/nbdl/websocket/detail/send_handshake_request.hpp", "include/nbdl/websocket/detail/parse_handshake_request.hpp", "include/nbdl/websocket/detail/send_handshake_response.hpp", "include/nbdl/websocket/detail/parse_handshake_response.hpp", "include/nbdl/websocket/detail/get_auth_token.hpp"]}
{"id": "C17", "title": "Auth token extraction finds the cookie", "statement": "From a well-formed cookie header the extracted token is the value of the first cookie named nbdl_auth, and empty when there is none.", "quantifier": "every list of cookies rendered as name=value pairs joined with '; '", "why_tests_cant": "Number, order and content of cookies is unbounded.", "anchors": ["include/nbdl/websocket/detail/get_auth_token.hpp"]}
{"id": "C18", "title": "Session cookie extraction finds the cookie", "statement": "From a well-formed cookie header the session value is the value of the first cookie named NBDL_SESS, and absent when there is none.", "quantifier": "every list of cookies, including valueless ones", "why_tests_cant": "Same; a cookie without '=' makes the parser skip the following one.", "anchors": ["include/nbdl/app/detail/cookie_parser.hpp: get_session_cookie"]}
{"id": "C19", "title": "SHA-1 is chunking independent", "statement": "Feeding a message to the hash in any number of pieces of any sizes gives the same digest as feeding it at once.", "quantifier": "every message and every way of splitting it", "why_tests_cant": "Block boundary effects depend on piece sizes modulo 64; unbounded.", "anchors": ["include/nbdl/detail/beast_sha1.hpp: update, finish"]}
{"id": "C20", "title": "SHA-1 implements FIPS 180-4", "statement": "The digest equals the FIPS 180-4 specification: pad with 1 bit, zeros and 64-bit length, then fold the compression function over 512-bit blocks.", "quantifier": "every message shorter than 2^61 bytes", "why_tests_cant": "All padding cases (message length mod 64) and all lengths.", "anchors": ["include/nbdl/detail/beast_sha1.hpp"]}
{"id": "C21", "title": "Promise pipelines run in order", "statement": "A pipeline runs its steps left to right, feeding each result to the next; on a rejection it skips to the first handler able to take that error, runs it exactly once and then runs no further step; every run ends by exactly one final continuation and frees its resources once.", "quantifier": "every pipeline (any length and any mixture of steps, handlers and suspended promises) and every step behaviour", "why_tests_cant": "Pipelines and step outcomes are unbounded; asynchronous completion order varies.", "anchors": ["include/nbdl/promise.hpp", "include/nbdl/catch.hpp", "include/nbdl/run_async.hpp", "include/nbdl/detail/promise_join.hpp", "include/nbdl/fwd/detail/promise_join.hpp"]}
{"id": "C22", "title": "Asynchronous loops repeat until terminated", "statement": "A loop pipeline restarts from its first step after each successful pass, and stops for good at the first termination or handled error.", "quantifier": "every sequence of pass outcomes", "why_tests_cant": "Unbounded repetition.", "anchors": ["include/nbdl/run_async_loop.hpp"]}
{"id": "C23", "title": "First matching predicate is chosen", "statement": "match_if runs the branch of the first predicate that holds, and exactly one branch.", "quantifier": "every list of predicates/branches and every value", "why_tests_cant": "Any list length, any truth pattern.", "anchors": ["include/nbdl/detail/match_if.hpp"]}
{"id": "C24", "title": "Map store behaves as a key-value map", "statement": "After any history of messages the store shows for each path the value of the last create/update (or read answer stored while unresolved) not followed by a delete; paths do not interfere.", "quantifier": "every history of messages over every set of paths", "why_tests_cant": "Histories are unbounded; interactions of read/creation/deletion on several paths.", "anchors": ["include/nbdl/map_store.hpp: apply_message_impl<map_store_tag>", "include/nbdl/ext/std/unordered_map.hpp: match_impl"]}
{"id": "C25", "title": "Map store change reports are exact", "statement": "The store reports a state change exactly when what an observer sees at some path changed.", "quantifier": "every history and message", "why_tests_cant": "State dependent; deletes of absent paths and no-op updates report a change, read placeholders do not.", "anchors": ["include/nbdl/map_store.hpp"]}
{"id": "C26", "title": "A resolved value is never overwritten by a late read answer", "statement": "A downstream read never replaces a value already resolved by create/update; it only fills an unresolved entry.", "quantifier": "every interleaving of reads, creates, updates, deletes", "why_tests_cant": "Race between read responses and updates.", "anchors": ["include/nbdl/map_store.hpp: downstream_read"]}
{"id": "C27", "title": "Stores are updated before anyone is told", "statement": "When a message is pushed, the store is updated before any state consumer is notified and before the message is propagated; state consumers are notified iff the store reported a change; upstream goes to exactly the producer of the path, downstream to every consumer once in order.", "quantifier": "every context shape (any actors, stores, listeners) and every message", "why_tests_cant": "Any number of actors/listeners and any reentrancy-free message history.", "anchors": ["include/nbdl/context.hpp: push_message, propagate_upstream, propagate_downstream, notify_state_consumers"]}
{"id": "C28", "title": "Reads are requested once and answered", "statement": "A read of a path with no value is forwarded to the producer exactly once until answered; a read of a resolved path is answered from the store without bothering the producer.", "quantifier": "every history of reads/answers", "why_tests_cant": "History dependent.", "anchors": ["include/nbdl/context.hpp: push_message", "include/nbdl/map_store.hpp: upstream_read"]}
{"id": "C29", "title": "Producers are initialised before consumers", "statement": "On construction every producer is initialised exactly once before any consumer is, in declaration order.", "quantifier": "every list of actors", "why_tests_cant": "Any number and order of actors.", "anchors": ["include/nbdl/context.hpp: init_actors"]}
{"id": "C30", "title": "Delta diff/patch", "statement": "Applying the delta made from (new, old) to old gives new; the delta is empty iff nothing differs; applying a delta twice equals once; application reports a change iff some member changed.", "quantifier": "every record type with any number of members and all values", "why_tests_cant": "All member-count/equality patterns.", "anchors": ["include/nbdl/delta.hpp: make_delta, apply_delta"]}
{"id": "C31", "title": "Deltas compose", "statement": "Applying a delta to a pending delta and then to a record equals applying both in sequence to the record.", "quantifier": "every record, every pair of deltas", "why_tests_cant": "All patterns.", "anchors": ["include/nbdl/delta.hpp: apply_delta"]}
{"id": "C32", "title": "Optimistic updates never flicker", "statement": "A local change is visible at once and the visible value never reverts to an earlier one while confirmations of this client's own changes arrive in order.", "quantifier": "every interleaving of local requests and their in-order confirmations", "why_tests_cant": "Interleavings are unbounded.", "anchors": ["include/nbdl/local_version.hpp"]}
{"id": "C33", "title": "Optimistic updates converge", "statement": "When every local change has been confirmed, the visible value equals the authoritative value obtained by applying all confirmed changes in confirmation order.", "quantifier": "every interleaving of local requests, own confirmations and foreign confirmed updates", "why_tests_cant": "Interleavings are unbounded; stale pending state may override foreign updates.", "anchors": ["include/nbdl/local_version.hpp: apply_local_delta, apply_confirmed_delta"]}
{"id": "C34", "title": "Local version reports changes", "statement": "The result returned by applying a message tells whether the visible value changed.", "quantifier": "every state and message", "why_tests_cant": "State dependent.", "anchors": ["include/nbdl/local_version.hpp: apply_local_delta, apply_confirmed_delta"]}
{"id": "C35", "title": "Echoed messages preserve identity", "statement": "Turning an upstream message into its downstream counterpart preserves channel-independent content: action, path (with the generated key appended for creates), uid and payload; the private payload never goes downstream.", "quantifier": "every message of every action with any combination of optional fields", "why_tests_cant": "All combinations of optional fields and values.", "anchors": ["include/nbdl/message.hpp: to_downstream, to_downstream_with_key", "include/nbdl/fwd/message.hpp"]}
{"id": "C36", "title": "Message accessors agree with construction", "statement": "Reading a field from a message returns the value it was built with.", "quantifier": "every action/channel/optional-field combination and all values", "why_tests_cant": "Compile-time index arithmetic over optional fields; the private payload accessor of upstream create uses the uid's index.", "anchors": ["include/nbdl/message.hpp: get_path_impl, get_uid_impl, get_payload_impl, get_private_payload_impl"]}
{"id": "C37", "title": "Generated keys are unique", "statement": "The echo producer never gives two created entities the same key, and never gives the reserved key 0.", "quantifier": "every history of create messages (as long as the key type does not wrap)", "why_tests_cant": "Histories are unbounded.", "anchors": ["include/nbdl/echo_producer.hpp: make_unique_key"]}
{"id": "C38", "title": "Equal values hash equally and different shapes are all visited", "statement": "Hashing respects equality: structurally equal bound values have equal hashes, whatever their nesting; the hash depends only on the sequence of leaf values.", "quantifier": "every bound value of any nesting", "why_tests_cant": "All values.", "anchors": ["include/nbdl/binder/hash.hpp", "include/nbdl/detail/hash_combine.hpp"]}
{"id": "C39", "title": "JSON round trip", "statement": "Reading the JSON written for a value gives back an equal value.", "quantifier": "every value of every bindable type (records, sequences, variants, strings, byte buffers, numbers), any nesting", "why_tests_cant": "Unbounded nesting and sizes; empty containers and embedded NULs behave differently.", "anchors": ["include/nbdl/binder/jsoncpp.hpp"]}
{"id": "C40", "title": "JSON reader rejects malformed documents", "statement": "A document whose shape does not match the target type raises an error instead of yielding a value.", "quantifier": "every JSON document and every target type", "why_tests_cant": "Unbounded documents.", "anchors": ["include/nbdl/binder/jsoncpp.hpp: reader"]}
{"id": "C41", "title": "Variant equality and matching are by alternative", "statement": "Two variants are equal iff they hold the same alternative with equal values; matching calls exactly the branch of the held alternative.", "quantifier": "every variant type and every pair of values", "why_tests_cant": "All alternatives/values.", "anchors": ["include/nbdl/variant.hpp"]}
{"id": "C42", "title": "String concatenation is associative text concatenation", "statement": "A concatenation expression, however nested, denotes the flat concatenation of its parts; its length and comparison agree with that text.", "quantifier": "every expression tree", "why_tests_cant": "Unbounded trees.", "anchors": ["include/nbdl/detail/string_concat.hpp", "include/nbdl/detail/string_concat_view.hpp"]}
{"id": "C43", "title": "Composed stores route by path", "statement": "In a composition of stores a message or lookup reaches the store bound to the composed key when the path starts with it and otherwise the underlying store; the other store is unaffected.", "quantifier": "every nesting of composed stores and every path", "why_tests_cant": "Unbounded nesting.", "anchors": ["include/nbdl/store_compose.hpp"]}
{"id": "C44", "title": "Path lookup is step-wise", "statement": "Looking up a concatenated path equals looking up its prefix and continuing from the result.", "quantifier": "every store tree and path", "why_tests_cant": "Unbounded paths.", "anchors": ["include/nbdl/get_path.hpp", "include/nbdl/match_path.hpp"]}
{"id": "C45", "title": "Route round trip", "statement": "Parsing the URL text generated for a route value gives back that route value.", "quantifier": "every route map and every route value", "why_tests_cant": "All strings/integers; delimiters, empty strings and zero break the parse.", "anchors": ["include/nbdl/webui/route_map.hpp: to_string, from_string"]}
{"id": "C46", "title": "Unknown routes are reported", "statement": "Text that is not the image of a route (unknown name, wrong arity, invalid parameter) yields route_not_found; parsing never reads outside the text.", "quantifier": "every text", "why_tests_cant": "All texts.", "anchors": ["include/nbdl/webui/route_map.hpp: from_string, make_from_params"]}
{"id": "C47", "title": "Flattened UI specs render the same DOM", "statement": "Rendering the flattened instruction list of a UI specification builds exactly the DOM tree of the nested specification, leaves the cursor where it started and leaves existing siblings alone.", "quantifier": "every UI specification tree and every store state", "why_tests_cant": "Unbounded trees; for-each and branch nodes touch siblings.", "anchors": ["include/nbdl/webui/detail/flatten_spec.hpp", "include/nbdl/webui/renderer.hpp", "include/nbdl/webui/detail/dom_manips.hpp"]}
{"id": "C48", "title": "Updating the DOM equals re-rendering", "statement": "After the state changes and update is run, the DOM equals a fresh rendering for the new state.", "quantifier": "every UI specification, every pair of states and every sequence of updates", "why_tests_cant": "Unbounded.", "anchors": ["include/nbdl/webui/detail/dom_manips.hpp"]}
{"id": "C49", "title": "Generated SQL binds every placeholder", "statement": "Generated insert/update/select statements have as many placeholders as values bound, in matching order, and select rows by all the key columns.", "quantifier": "every table shape", "why_tests_cant": "Any number of columns/keys.", "anchors": ["include/nbdl/sql_db/statement/insert.hpp", "include/nbdl/sql_db/statement/update.hpp", "include/nbdl/sql_db/statement/select.hpp"]}
{"id": "C50", "title": "Nested inserts respect foreign keys", "statement": "Inserting an entity inserts every child before its parent row and every one-to-many row after it, and each row refers to ids that already exist.", "quantifier": "every entity tree", "why_tests_cant": "Unbounded trees.", "anchors": ["include/nbdl/sql_db/insert.hpp"]}
{"id": "C51", "title": "Definition trees are searched completely", "statement": "Searching a definition tree returns exactly the outermost matching nodes, left to right; grouping collects for each key exactly the values with that key in order; child settings override parent settings.", "quantifier": "every tree / list", "why_tests_cant": "Unbounded trees.", "anchors": ["include/mpdef/find_in_tree.hpp", "include/mpdef/group_by.hpp", "include/mpdef/collect_settings.hpp"]}
{"id": "C52", "title": "Every access point is enumerated once with its full path", "statement": "The enumeration of a context definition yields each access point that has actions or a store exactly once, with the path made of the keys on the way from the root.", "quantifier": "every definition tree", "why_tests_cant": "Unbounded trees.", "anchors": ["include/nbdl/def/builder/enumerate_access_points.hpp"]}
{"id": "C53", "title": "Tile moves keep the board legal", "statement": "A move swaps the chosen tile with the adjacent empty cell or does nothing; the board stays a permutation of its tiles; the move reports whether it changed the board; repeating the move from the other side undoes it.", "quantifier": "every board size, board and move", "why_tests_cant": "Board sizes and contents are unbounded; the bottom row boundary is off by one.", "anchors": ["example/tiles/game.hpp: get_tile_swap_index, apply_game_move"]}
{"id": "C54", "title": "Deserialisation answers exactly once", "statement": "For every received text the deserialiser resolves its promise exactly once: with the message or with the error.", "quantifier": "every text", "why_tests_cant": "All texts; the error path falls through.", "anchors": ["include/nbdl/app/serializer.hpp: deserializer"]}
{"id": "C55", "title": "Server address is split into scheme, host and port", "statement": "scheme://host:port is split into its three parts.", "quantifier": "every scheme, host and port", "why_tests_cant": "All strings.", "anchors": ["include/nbdl/app/client_connection.hpp: split_address"]}
{"id": "C56", "title": "Parameter views concatenate", "statement": "Unpacking an appended or concatenated parameter view yields the parameters in order, with references referring to the original objects.", "quantifier": "every nesting of append and concat", "why_tests_cant": "Unbounded nesting.", "anchors": ["include/nbdl/detail/params_view.hpp"]}
{"id": "C57", "title": "Pending outgoing work is always being worked on", "statement": "Whenever a started, not stopped endpoint has a queued message or a requested close and no write has failed, a network write is in progress, unless the close frame has already been sent.", "quantifier": "every schedule of endpoint events without failures", "why_tests_cant": "A stall only shows for particular orders of calls, e.g. a close requested before messaging was started.", "anchors": ["include/nbdl/websocket/detail/endpoint_impl.hpp: endpoint_impl", "endpoint_impl::start_send_queue", "endpoint_impl::start_messaging", "endpoint_impl::send_close"]}
{"id": "C58", "title": "End to end delivery", "statement": "The messages a peer's reader delivers from the octets an endpoint wrote are a prefix of the messages given to send_message, and all of them once the queue has drained.", "quantifier": "every schedule of endpoint events and every list of messages", "why_tests_cant": "Needs all message lengths and all schedules of both the queue and the framing.", "anchors": ["include/nbdl/websocket/detail/endpoint_impl.hpp: endpoint_impl", "include/nbdl/websocket/detail/message_sender.hpp: send_message_impl", "include/nbdl/websocket/detail/message_reader.hpp: keep_reading"]}
{"id": "C59", "title": "Failed writes are reported, never undefined behaviour", "statement": "When a network write fails, the user is told through the error handler and the endpoint stays usable; no freed object is touched.", "quantifier": "every schedule of endpoint events, failures at every write", "why_tests_cant": "A use after free depends on which write fails and usually goes unnoticed.", "anchors": ["include/nbdl/websocket/detail/endpoint_impl.hpp: endpoint_impl", "endpoint_impl::start_send_queue", "include/nbdl/run_async_loop.hpp: promise_end_loop::terminate"]}
{"id": "C60", "title": "Nothing sent behind the handshake is lost", "statement": "Bytes the peer sends behind its handshake message are still there for the messaging phase.", "quantifier": "every amount of data behind the handshake, every way the bytes arrive", "why_tests_cant": "Loss depends on how TCP segments coincide.", "anchors": ["include/nbdl/websocket/detail/parse_handshake_request.hpp", "include/nbdl/websocket/detail/send_handshake_response.hpp", "include/nbdl/websocket/detail/expect_equal.hpp"]}
{"id": "C61", "title": "The server answers every well-formed upgrade request", "statement": "For every well-formed upgrade request the server takes the key and the cookies from the header fields (names in any case, any order, last one wins) and answers with the RFC 6455 response for that key.", "quantifier": "every list of header fields within the line limit, every segmentation of the bytes", "why_tests_cant": "Header lists and segmentations are unbounded.", "anchors": ["include/nbdl/websocket/detail/parse_handshake_request.hpp", "include/nbdl/websocket/detail/send_handshake_response.hpp"]}
{"id": "C62", "title": "No request makes the server's header parser misbehave", "statement": "Parsing a header line never has undefined behaviour.", "quantifier": "every header line", "why_tests_cant": "The peer chooses the bytes.", "anchors": ["include/nbdl/websocket/detail/parse_handshake_request.hpp", "include/nbdl/websocket/detail/send_handshake_response.hpp"]}
{"id": "C63", "title": "Nesting pipes does not change their behaviour", "statement": "A pipeline of pipelines behaves exactly like the flat pipeline with the same steps.", "quantifier": "every tree of pipes and every step behaviour", "why_tests_cant": "Any nesting depth.", "anchors": ["include/nbdl/detail/promise_join.hpp", "include/nbdl/pipe.hpp"]}
{"id": "C64", "title": "A single-value store shows the last update", "statement": "A context store (one value, no keys) shows the payload of the last downstream update it was given, whatever other messages it receives, and reports a change exactly for those updates.", "quantifier": "every history of messages", "why_tests_cant": "Histories are unbounded.", "anchors": ["include/nbdl/context_store.hpp: apply_message_impl<context_store>"]}
{"id": "C65", "title": "A context definition determines actors, stores and listeners", "statement": "In a context that compiles, every path of an access point is handled by exactly the producer it was defined in, there is one store per access point, every consumer is an actor, and the listeners of a path are exactly the access points that list it.", "quantifier": "every context definition", "why_tests_cant": "Unbounded trees of directives.", "anchors": ["include/nbdl/def/builder/context.hpp", "include/nbdl/def/builder/context_actors.hpp", "include/nbdl/def/builder/listener_lookup.hpp", "include/nbdl/def/builder/enumerate_consumers.hpp"]}
{"id": "C66", "title": "Message types follow from the definition and keep their numbers", "statement": "The message types of a context are exactly one upstream and one downstream type per access point and action (plus not_found for reads), all different; adding access points at the end leaves the numbers of the existing types unchanged.", "quantifier": "every context definition and every extension of it", "why_tests_cant": "All definitions and extensions; peers with an older definition must keep working.", "anchors": ["include/nbdl/def/builder/entity_messages.hpp", "include/nbdl/def/builder/message_api.hpp"]}
{"id": "C67", "title": "Queries over nested entities", "statement": "A select over a nested entity asks for exactly the plain columns of the entity and of every nested entity, joins exactly the tables of the nested entities on the right keys, every join refers to tables already introduced, no alias is used twice, and one-to-many members are refused.", "quantifier": "every entity type, nested to any depth", "why_tests_cant": "Any nesting and any number of members.", "anchors": ["include/nbdl/sql_db/select.hpp", "include/nbdl/sql_db/statement/detail/table_alias_list.hpp: table_alias_list, aliased_column_names, join_clauses", "include/nbdl/sql_db/statement/select.hpp"]}
{"id": "C68", "title": "Entity updates set everything and need the key", "statement": "Updating an entity sets every member and selects by all keys given; entities with nested entities or containers are refused, and so are keys without the primary key column.", "quantifier": "every entity and every set of keys", "why_tests_cant": "Any number of members and keys.", "anchors": ["include/nbdl/sql_db/update.hpp: update_fn, update_impl"]}
{"id": "C69", "title": "Nothing happens before messaging is started", "statement": "Until start_messaging is called the endpoint writes nothing and calls no handler; messages given to send_message are all kept, in order.", "quantifier": "every sequence of API calls and events before start_messaging", "why_tests_cant": "The sequences of calls before the start are unbounded.", "anchors": ["include/nbdl/websocket/detail/endpoint_impl.hpp: start_send_queue, start_messaging"]}
{"id": "C70", "title": "Length-prefixed messages survive the stream", "statement": "Reading the bytes produced by writing a list of message bodies yields exactly those bodies in order, however the network cuts the stream into pieces.", "quantifier": "every list of bodies and every partition of the byte stream", "why_tests_cant": "The pieces a TCP stream arrives in and the body lengths are unbounded; bodies of 4 GiB are never tested.", "anchors": ["example/pipes/write_raw_message.hpp: write_raw_message_fn", "example/pipes/read_raw_message.hpp: read_length_fn, read_body_fn", "include/nbdl/ext/asio_tcp.hpp: read_message, write_message"]}
{"id": "C71", "title": "Receiving until the terminating message", "statement": "The receiver performs the action of every message in order up to the terminating one and settles its promise exactly once: resolved with the terminating message, or rejected at the first undecodable message, throwing action or socket error.", "quantifier": "every stream, partition into pieces, socket error and set of messages", "why_tests_cant": "Unbounded streams and error points.", "anchors": ["example/pipes/receive_messages_until.hpp: receive_messages_until_fn", "include/nbdl/try.hpp: try_fn"]}
{"id": "C72", "title": "Number of connection attempts", "statement": "connect with attempts{n} tries at most n times, succeeds at the first successful try, and is rejected after n failures.", "quantifier": "every n and every sequence of outcomes", "why_tests_cant": "Off-by-one in the count shows only when the server stays unreachable.", "anchors": ["example/pipes/connect.hpp: connect_fn"]}
{"id": "C73", "title": "Setting a route navigates to it", "statement": "After a route value is set, the address bar shows the configured prefix followed by the text of the route, the route store and the text store hold that route, and state consumers are told of both.", "quantifier": "every route map, prefix, route value and previous state", "why_tests_cant": "Route values, prefixes and their encodings are unbounded; tests set one or two.", "anchors": ["include/nbdl/webui/nav_route.hpp: send_upstream_message_impl, web_route_update, popstate_event_receiver", "include/nbdl/webui/set_route.hpp: set_route_rt"]}
{"id": "C74", "title": "The route stores mirror the address bar", "statement": "After the page is loaded and after every navigation, by the user or the program, the route store and the text store show the location in the address bar behind the prefix, and no navigation crashes.", "quantifier": "every sequence of navigations", "why_tests_cant": "Sequences of navigations are unbounded and start at any address.", "anchors": ["include/nbdl/webui/nav_route.hpp: receive_event, apply_foreign_message_impl, producer_init_impl"]}
{"id": "C75", "title": "A generated match function does what its description says", "statement": "Every description of a match function that the spec compiler takes becomes a C++ function of that name, with one parameter per store and one for the callback, whose parameter and local names are all different. Called with any objects in any state, it makes the same calls with the same arguments in the same order as the description says: expressions left to right, paths node by node, the clause whose type the object has, the branch the condition selects, statements one after the other.", "quantifier": "every description (any nesting of calls, visits, paths, matches and conditions), every world of objects and effects, every state and arguments", "why_tests_cant": "descriptions nest without bound; a test compiles a few of them", "anchors": ["include/nbdl/spec.sld", "tool/heavy_plugins/lib/Nbdl/NbdlTranslateCpp.cpp: FuncWriter", "tool/heavy_plugins/lib/Nbdl/Nbdl.cpp: nbdl_spec_build_match_params, nbdl_spec_close_previous_scope"]}
{"id": "C76", "title": "Which descriptions the spec compiler takes", "statement": "The spec compiler produces code exactly for the descriptions that are well formed: variables are bound, names are not empty, numbers fit 32 bits, calls of members name an object, matches have clauses, blocks are not empty. A statement that is allowed alone is allowed after another one, and an optional else may be left out.", "quantifier": "every description of a match function", "why_tests_cant": "refusal depends on the position of a statement in its block and on nesting; tests cover accepted programs", "anchors": ["include/nbdl/spec.sld: match-if, match-cond, noop, match, visit", "tool/heavy_plugins/lib/Nbdl/Nbdl.cpp: nbdl_spec_close_previous_scope"]}
{"id": "C77", "title": "A generated store class never uses a constructor argument after moving from it", "statement": "For every store definition made of members with keys, types and arguments, the generated constructor initialises each member with exactly the arguments the definition lists, in the definition's order; whatever order the compiler evaluates the arguments of an initialiser in, no constructor parameter is read after it may have been moved from; and a parameter is forwarded at its last mention (and only there), unless that last initialiser mentions it several times.", "quantifier": "all store definitions of any number of members, parameters and arguments; all argument values; all evaluation orders of the arguments of every initialiser", "why_tests_cant": "A use after move shows only for particular definitions, value categories and compiler choices of evaluation order; tests compile a handful of definitions with one compiler.", "anchors": ["include/nbdl/spec.sld: define-store, store, store-compose", "tool/heavy_plugins/lib/Nbdl/NbdlTranslateCpp.cpp: DefineStoreWriter::WriteInitArgs, findLaterUse, findUse"]}
{"id": "C78", "title": "A store definition is turned into the class it describes, or refused", "statement": "The compiler emits code for exactly the definitions that are empty, a single store with a type, or a list of members; the class has the definition's name, one parameter per init parameter with distinct names, and one member per element, in order, with the given type and name, all member names distinct if the given ones are and none has the form of a generated one. Nothing the definition says is silently dropped, and no definition makes the compiler misbehave.", "quantifier": "all store definitions: any names, keys, stores, variants, parameters", "why_tests_cant": "The space of definitions is unbounded and the failures are silent (dropped arguments, wrong names) or undefined behaviour in the compiler.", "anchors": ["include/nbdl/spec.sld: define-store, store, store-compose, variant, context", "tool/heavy_plugins/lib/Nbdl/NbdlTranslateCpp.cpp: DefineStoreWriter", "tool/heavy_plugins/include/nbdl_spec/Nbdl.td: DefineStoreOp::getName"]}
{"id": "C79", "title": "Values survive the JavaScript binder in the browser", "statement": "For every bindable type and every value of it, binding the value to a JavaScript value and binding that back into a fresh variable gives an equal value.", "quantifier": "all bindable types (numbers, enumerations, strings, buffers, containers, sequences, entities, variants, nested without bound), all values, every engine that converts UTF-8 and UTF-16 as the standards say", "why_tests_cant": "the browser test binds a few entities with ASCII strings; types nest without bound and strings range over all of Unicode", "anchors": ["include/nbdl/binder/js.hpp: bind_to, bind_from, bind_map, bind_sequence"]}
{"id": "C80", "title": "A client's message means the same to the server", "statement": "For every bindable type and value, what a client binds with the JavaScript binder, serializes and sends is read by the server's JSON binder as an equal value.", "quantifier": "all bindable types, all values, every engine that converts text as the standards say", "why_tests_cant": "no test runs both binders; the two are written separately and agree or not for every value of every type", "anchors": ["include/nbdl/binder/js.hpp: bind_to, bind_from, bind_map, bind_sequence", "include/nbdl/binder/jsoncpp.hpp: reader", "include/nbdl/app/client_connection_js.hpp: send_json"]}
{"id": "C81", "title": "A server's message means the same to the client", "statement": "For every bindable type and value, what the server binds with the JSON binder and sends is read by the client's JavaScript binder as an equal value.", "quantifier": "all bindable types, all values, every engine that converts text as the standards say", "why_tests_cant": "no test runs both binders; the two are written separately and agree or not for every value of every type", "anchors": ["include/nbdl/binder/js.hpp: bind_to, bind_from, bind_map, bind_sequence", "include/nbdl/binder/jsoncpp.hpp: writer", "include/nbdl/app/client_connection_js.hpp: message listener"]}
{"id": "C82", "title": "The JavaScript binder refuses documents that describe no value", "statement": "Reading a JavaScript value that is not the image of any value of the type (a missing member, a number out of range, a wrong kind, too many elements, an unknown alternative) raises an exception rather than yielding some value.", "quantifier": "all bindable types, all JavaScript values", "why_tests_cant": "the malformed documents are an infinite set; tests have none", "anchors": ["include/nbdl/binder/js.hpp: bind_to, bind_from, bind_map, bind_sequence"]}
{"id": "C83", "title": "A browser client hears everything its connection delivers, once and in order", "statement": "Once connected, a client is given every JSON message that arrives on its socket, each once and in order of arrival; the first error or the closing of the connection (also before it opens) is reported exactly once and nothing is reported after it.", "quantifier": "all histories of socket events (open, message, error, close in any order and number), all message contents, all endpoints", "why_tests_cant": "listeners are removed and added again after every message, between any two events; which events fall where is up to the network and the endpoint, and the one integration test sends six messages", "anchors": ["include/nbdl/app/client_connection_js.hpp: init, read_message, client_endpoint_open"]}
{"id": "C84", "title": "A browser client never calls a callback that is gone and does not pile up listeners", "statement": "Whatever an endpoint does with what it receives, and whenever it finishes, no event of the socket reaches a C++ callback that has been destroyed, no message is invented, repeated or reordered, and the number of listeners on the socket stays bounded.", "quantifier": "all histories of socket events, all endpoints (finishing at once, later or with an error), browsers' and the test package's rule for listeners removed during a dispatch", "why_tests_cant": "use after free shows only for particular interleavings of events and endpoint completions; leaks only over long histories", "anchors": ["include/nbdl/app/client_connection_js.hpp: init, read_message, client_endpoint_open"]}
{"id": "C85", "title": "JavaScript values held in C++ behave as values", "statement": "However js::val objects are made, copied, moved, assigned, transformed and destroyed, and however addresses are used again, each object shows the value last stored in it and no other; nothing remains in the table for an object that is gone.", "quantifier": "all sequences of operations on any number of objects at any addresses, all JavaScript values", "why_tests_cant": "values are kept in a table by address; stale or shared entries show only for particular sequences of lifetimes and address reuse", "anchors": ["include/nbdl/fwd/js.hpp: val", "include/nbdl/js.hpp: val::copy, val::unregister, NBDL_JS_TRANSFORM", "include/nbdl/detail/js_val.hpp: js_val"]}
{"id": "C86", "title": "A message sent by the server reaches every connection", "statement": "Each message sent downstream is given once to each connection that is registered at the time, in the order in which the connections were opened, and to no other.", "quantifier": "all histories of connections opening and ending and of messages, including connections that end because of the sending", "why_tests_cant": "connections come and go between and during broadcasts; the test has one client", "anchors": ["include/nbdl/app/server.hpp: server_impl::send_message, register_connection, unregister_connection", "include/nbdl/app/server_connection.hpp: connection_open"]}
{"id": "C87", "title": "Each client of the server is served by itself", "statement": "A client that connects and sends a request to open a websocket gets a connection, in whatever pieces its request arrives, and whatever other clients have sent, are sending or are failing to send.", "quantifier": "all histories of any number of clients connecting, sending any bytes in any pieces, and hanging up", "why_tests_cant": "the test has one client which behaves well; the property is about all interleavings with clients which do not", "anchors": ["include/nbdl/app/server.hpp: server_impl::start_accepting, request_", "include/nbdl/ext/beast_ws.hpp: accept, parse_request_fn"]}
{"id": "C88", "title": "The JavaScript server serves its clients whatever one of them does", "statement": "Each message sent downstream goes once to every connection that is open, each readable message from a client goes once to the context, and a client that closes its connection or sends something unreadable affects no other client.", "quantifier": "all histories of clients connecting, sending any data and closing, and of messages sent downstream", "why_tests_cant": "the test has one client that sends well-formed messages and never closes", "anchors": ["include/nbdl/app/server_js.hpp: server_impl"]}
{"id": "C89", "title": "A path of a user interface specification finds the value it names", "statement": "For every store and every path built with get, match_when and key_at, resolving the path calls the function exactly once, with the value reached by following all keys, each key being looked up in the given store; if a step has no value or a value has another type than the one asked for, the function is not called.", "quantifier": "all stores, all paths of any length and nesting", "why_tests_cant": "keys may be nested lookups to any depth and paths are unrolled three steps at a time; tests use a handful of one or two step paths.", "anchors": ["include/nbdl/ui_helper/match_path_spec.hpp:path_impl, match_path_spec_fn", "include/nbdl/ui_spec.hpp:get, match_when, key_at"]}
{"id": "C90", "title": "The parameters of a specification are all delivered, in order", "statement": "For every store and list of parameters (constants, paths, applied functions, branches by type or predicate, concatenations), the function is called exactly once with the values of all parameters in order, a branch contributing the parameters of its first alternative that fits, or not at all if one of them has no value; nothing undefined happens.", "quantifier": "all stores, all lists of parameters of any nesting", "why_tests_cant": "combinations of nesting, missing values and alternatives are unbounded; tests only cover values that are present.", "anchors": ["include/nbdl/ui_helper/match_params_spec.hpp:match_params_spec_fn", "include/nbdl/ui_helper/match_branch.hpp:match_branch_fn", "include/nbdl/ui_helper.hpp:flatten_param_node", "include/nbdl/ui_spec.hpp:match, when"]}
{"id": "C91", "title": "The text of parameters is the concatenation of their texts", "statement": "For every store and list of parameters, the text made of them is the text of each parameter's value one after the other, with nothing for a path without a value.", "quantifier": "all stores, all lists of parameters", "why_tests_cant": "depends on nested branches and lookups of any depth.", "anchors": ["include/nbdl/ui_helper/params_concat.hpp:params_concat_fn"]}
{"id": "C92", "title": "The browser's endpoint reports what happens on its connection", "statement": "For every history of a browser connection, the handler of a websocket_api endpoint is told once when the connection opens, then of every message with the value of its JSON text, then once of the closing, in the order in which they happened; the authentication token of the endpoint reaches the server; destroying the endpoint ends the reports.", "quantifier": "all histories of events of the connection and calls of the user, any JSON implementation", "why_tests_cant": "the events come from the browser in any number and order, and the endpoint may be destroyed at any point between them.", "anchors": ["include/nbdl/websocket_api/detail/endpoint_impl.hpp:endpoint_impl", "include/nbdl/websocket_api/client_endpoint.hpp"]}
{"id": "C93", "title": "What is passed to the browser's endpoint is sent", "statement": "Every value passed to send_message of a websocket_api endpoint before its connection is closed is sent as JSON text, in order, also if it is passed before the connection is open.", "quantifier": "all histories of events and calls", "why_tests_cant": "sending is interleaved with events in any way.", "anchors": ["include/nbdl/websocket_api/detail/endpoint_impl.hpp:send_message, send_impl"]}
{"id": "C94", "title": "Payloads of bytes pass through the browser's endpoint unchanged", "statement": "A websocket_api endpoint with a byte vector as payload sends exactly the bytes of the vector, and gives the handler exactly the bytes or characters that arrived.", "quantifier": "all vectors, all messages, all states of the memory", "why_tests_cant": "the content of the memory around the vector matters.", "anchors": ["include/nbdl/websocket_api/detail/endpoint_impl.hpp:send_impl", "include/nbdl/websocket_api/detail/convert_payload.hpp"]}
{"id": "C95", "title": "An event handler of a page sees its event and can send messages", "statement": "For every history of events on a page, nested to any depth, and updates of its state: a handler sees the event it was called for whenever it looks, may send any number of messages, and nothing that was destroyed by the resulting updates is used.", "quantifier": "all histories of events, handler actions and updates, any number of elements", "why_tests_cant": "handlers update the page they belong to while they are running; which elements exist and which handlers are active at that time is unbounded.", "anchors": ["include/nbdl/webui/detail/event_receiver.hpp:event_receiver_impl", "include/nbdl/webui/detail/dom_event_listener.hpp:dom_event_listener", "include/nbdl/webui/detail/dom_manips.hpp:mut_action_fn (event_attribute, for_each)"]}
{"id": "C96", "title": "A JavaScript promise gets the values it captures", "statement": "Code given to NBDL_JS_PROMISE_WITH_CAPTURE with one to eight captured variables is called with the resolving and the rejecting callback, in a scope in which each captured variable has its own value under its own name; a function given to NBDL_JS_PROMISE_C_FUNC is called with the two callbacks and the values in the order in which they are named.", "quantifier": "all lists of one to eight (nine for C functions) names, also repeated ones, all values", "why_tests_cant": "values are passed by position in reversed order through three families of macros; a swap shows only for particular numbers of captures.", "anchors": ["include/nbdl/macros/NBDL_JS_PROMISE.hpp:NBDL_JS_PROMISE_WITH_CAPTURE, NBDL_JS_PROMISE_C_FUNC"]}
{"id": "C97", "title": "A JavaScript promise settles its pipeline once and releases its callbacks", "statement": "For every history of runs of promises and calls of their callbacks: each call is delivered to the pipeline of its own run with its value; a run is settled at most once; and the callbacks of a settled run are released.", "quantifier": "all histories of runs and calls of callbacks", "why_tests_cant": "callbacks are called by JavaScript at any later time, in any order and number.", "anchors": ["include/nbdl/macros/NBDL_JS_PROMISE.hpp:make_promise"]}
{"id": "C98", "title": "Identifiers are unique and compare by all of their bits", "statement": "An identifier consists of exactly the 128 bits drawn for it; two are equal only if all of these are; equal ones have equal hashes; and different generators do not yield the same identifier.", "quantifier": "all engines, seeds, positions in the sequence, any number of generators", "why_tests_cant": "a coincidence shows only among billions of generators.", "anchors": ["include/nbdl/uid.hpp:make_uid_generator, uid, std::hash<uid>"]}
{"id": "C99", "title": "The browser's generator yields sixteen bytes for all random numbers", "statement": "Whatever numbers less than one the browser's random source yields, the generator yields an identifier of sixteen bytes without undefined behaviour, and every identifier is possible.", "quantifier": "all sequences of random numbers less than one", "why_tests_cant": "the failing numbers occur once in thirty million draws.", "anchors": ["include/nbdl/uid.hpp:make_uid_generator (EMSCRIPTEN)"]}
{"id": "C100", "title": "A value held lazily lives exactly as long as its pipeline", "statement": "For every pipeline with lazily held values and every history of resolutions and terminations: nothing deleted is used, every value made is kept until the pipeline ends, and each is destroyed exactly once.", "quantifier": "all pipelines of functions and holders, all histories of resolutions and of ends", "why_tests_cant": "the function that makes the value may resolve at any time, also before it returns, or again; what happens then depends on the order of deletions.", "anchors": ["include/nbdl/hold_lazy.hpp:lazy_holder", "include/nbdl/run_async.hpp:run_async", "include/nbdl/run_async_loop.hpp:run_async_loop"]}
{"id": "C101", "title": "Named arguments of a context reach the actors they name", "statement": "make_context gives each producer and consumer exactly the argument that the caller gave under its name, whatever the order of the arguments; an argument whose name no actor has is rejected; different actors can be given different arguments.", "quantifier": "all definitions of contexts, all lists of named arguments in any order", "why_tests_cant": "arguments are found by name at compile time in a map; each program exercises only its own names.", "anchors": ["include/nbdl/make_context.hpp:make_context, actor", "include/nbdl/context.hpp:context"]}
{"id": "C102", "title": "Equal API signatures mean the same wire format", "statement": "Every API made of bindable types has a signature; two APIs with the same signature (short of a collision of SHA-1) write the same documents and read every document alike.", "quantifier": "all types built from fundamental types, strings, buffers, containers, sequences, maps, entities, enumerations and variants", "why_tests_cant": "the signature is computed by the compiler from the printed name of a type; each program sees only its own signature.", "anchors": ["include/nbdl/api_signature.hpp:api_signature", "include/nbdl/detail/bind_tag_of.hpp:bind_tag_of"]}
{"id": "C103", "title": "A path promise hands on the value at its path, or rejects with the first of another type", "statement": "For every path of lookups and expected types and every store: the pipeline after path_promise is resolved exactly once with the value at the end of all keys if every value on the way has the expected type; otherwise it is rejected exactly once with the first value of another type, and no later lookup is made.", "quantifier": "all stores, all paths (any number of steps, keys and types), all continuations", "why_tests_cant": "the steps are joined from templates in reverse order; tests look up one path in three stores.", "anchors": ["include/nbdl/path_promise.hpp:path_promise, promise_match", "include/nbdl/match_path.hpp:match_path"]}
{"id": "C104", "title": "Messages between browser and server arrive as they were sent, and each is answered once", "statement": "A message serialised in the browser is delivered by the server's deserialiser as that message, and one serialised by the server is delivered as that message in the browser; every document is answered exactly once, with a message or an error.", "quantifier": "all types of messages, all messages, all documents", "why_tests_cant": "each direction goes through two different binders and an engine; tests roundtrip a few values on one side.", "anchors": ["include/nbdl/app/serializer_js.hpp:serializer, deserializer_fn", "include/nbdl/app/serializer.hpp:serializer, deserializer_fn", "include/nbdl/binder/js.hpp:bind_to, bind_from"]}
{"id": "C105", "title": "Connected clients show what the server shows", "statement": "For every history of a server and its clients, in which programs ask, producers answer, and connections come and go in any order: every client always shows, at every path, what the server showed at some earlier time since the client joined, and it never goes back; a client that is connected and has read what was sent to it shows what the server shows, at every path it has asked for or is told about.", "quantifier": "all programs, producers and schedules, any number of clients, path types, paths and values, all points of disconnection", "why_tests_cant": "the order of the messages between several processes, and the moment at which a client joins or drops out, cannot be enumerated; tests join one server and one client and send one message.", "anchors": ["include/nbdl/app/server.hpp:send_message, register_connection, unregister_connection", "include/nbdl/app/server_connection.hpp:connection_open", "include/nbdl/app/client.hpp:make_connection, send_message", "include/nbdl/app/context_endpoint.hpp:apply_read", "include/nbdl/context.hpp:push_message", "include/nbdl/map_store.hpp:handle_map_store_action"]}
{"id": "C106", "title": "Requests of clients reach the server's producers once and in order", "statement": "For every history of a server and its clients: the creates, updates and deletes a client's program asks for are handed to the producer of their path in the server's context, each once, in the order they were asked for, except for those that are still on the way.", "quantifier": "all programs, producers and schedules, any number of clients, path types, paths and values", "why_tests_cant": "as C105: the interleavings of several processes cannot be enumerated.", "anchors": ["include/nbdl/app/client.hpp:send_message", "include/nbdl/app/server_connection.hpp:connection_open", "include/nbdl/app/context_endpoint.hpp:apply_read", "include/nbdl/context.hpp:push_message"]}
{"id": "C107", "title": "Every declared member is there, once, in order", "statement": "An entity declared with NBDL_ENTITY(Record, a, b, …) has exactly the members a, b, … of Record, in this order, each with its own name; NBDL_MEMBER_IDS numbers them 0, 1, … in this order; and this for every number of members.", "quantifier": "all names of records and all lists of member names, of any length", "why_tests_cant": "each number of members is expanded by a different macro of a table of sixty; tests use a few small numbers.", "anchors": ["include/nbdl/macros/VFUNC.hpp:VFUNC", "include/nbdl/macros/NBDL_ENTITY.hpp:NBDL_ENTITY", "include/nbdl/macros/NBDL_MEMBERS.hpp:NBDL_MEMBERS", "include/nbdl/macros/NBDL_MEMBER_NAMES.hpp:NBDL_MEMBER_NAMES", "include/nbdl/macros/NBDL_MEMBER_IDS.hpp:NBDL_MEMBER_IDS"]}
{"id": "C108", "title": "A meta struct gives back by key what was given for the key", "statement": "A meta struct declared with any number of keys has these keys in order. When one is made from pairs of keys and values, in whatever order, it compiles if and only if every key is used exactly once, and each key then gives back the value paired with it; when one is made from values in the order of the keys, each key gives back its value.", "quantifier": "all lists of key names, all lists of pairs and values", "why_tests_cant": "each number of keys is expanded by a different macro of a table; the orders of the pairs cannot be enumerated.", "anchors": ["include/mpdef/MPDEF_METASTRUCT.hpp:MPDEF_METASTRUCT", "include/mpdef/details/_MPDEF_METASTRUCT_KEYS.hpp:_MPDEF_METASTRUCT_KEYS", "include/mpdef/details/_MPDEF_METASTRUCT_SPEC_NAMES.hpp:_MPDEF_METASTRUCT_SPEC_NAMES", "include/mpdef/metastruct.hpp:make_metastruct_with_map_fn"]}
{"id": "C109", "title": "Two connected endpoints hand over each other's messages", "statement": "When two websocket endpoints are connected to each other, each user is handed the messages the other user sent, in that order, each once and unchanged: at any moment a beginning of them, and all of them when the sender is done writing and everything has arrived. Neither user is told of a bad request, and nothing the other side sends leads to undefined behaviour.", "quantifier": "all messages, all histories of calls, write completions and failures, lost connections, and arrivals in fragments of any size, on both sides", "why_tests_cant": "the two sides interleave in arbitrarily many ways and the network cuts the octets at arbitrary places.", "anchors": ["include/nbdl/websocket/detail/endpoint_impl.hpp:endpoint_impl", "include/nbdl/websocket/detail/message_sender.hpp:message_sender", "include/nbdl/websocket/detail/message_reader.hpp:message_reader"]}
{"id": "C110", "title": "A close reaches both users", "statement": "When one of the users of two connected endpoints calls send_close, both users are told that the connection is closed; nobody is told so if neither user asked for it; and messages sent before send_close still reach the other user.", "quantifier": "all histories as in C109", "why_tests_cant": "the close frames cross queued messages and each other in arbitrarily many ways.", "anchors": ["include/nbdl/websocket/detail/endpoint_impl.hpp:endpoint_impl", "include/nbdl/websocket/detail/message_sender.hpp:message_sender", "include/nbdl/websocket/detail/message_reader.hpp:message_reader"]}
{"id": "C111", "title": "A conversation comes to rest", "statement": "When the users call nothing more, two connected endpoints and the network have only finitely many things left to do, and when these are done the messages are delivered or, if somebody closed, both users know it.", "quantifier": "all histories as in C109 and all continuations by the network", "why_tests_cant": "liveness over all schedules of the network.", "anchors": ["include/nbdl/websocket/detail/endpoint_impl.hpp:endpoint_impl", "include/nbdl/websocket/detail/message_sender.hpp:message_sender", "include/nbdl/websocket/detail/message_reader.hpp:message_reader"]}
{"id": "C112", "title": "The generated text is a C++ function that does what was described", "statement": "The text the spec compiler writes for a match function, read as C++, is one function with the name described, a parameter per store and one for the callback, and it does what the description says. Two descriptions with the same text mean the same.", "quantifier": "every description the compiler takes, every world of objects and effects, every state and arguments", "why_tests_cant": "the text depends on descriptions of any size, and a tokenizer or parser may read some texts differently than they were meant.", "anchors": ["include/nbdl/spec.sld", "tool/heavy_plugins/lib/Nbdl/NbdlTranslateCpp.cpp:FuncWriter"]}
{"id": "C113", "title": "Programs connected by their serializers behave as if messages were handed over", "statement": "A server and its clients, in browsers or not, whose messages travel as JSON made and read by the serializers of the library, show at all times what they would show if the messages themselves were passed on: replicas follow the server, and requests reach the server's producers once each and in order.", "quantifier": "every application's types and messages that fit the connection, every number of clients, every history of joins, leaves, requests, answers, lookups and deliveries", "why_tests_cant": "it joins the contexts, the stores and two pairs of serializers over histories of any length; tests see a few messages on one platform.", "anchors": ["include/nbdl/app/serializer.hpp", "include/nbdl/app/serializer_js.hpp", "include/nbdl/app/client.hpp", "include/nbdl/app/server.hpp", "include/nbdl/app/server_connection.hpp"]}
{"id": "C114", "title": "Stores are copied from stores, and made of anything else", "statement": "A store class (a strong alias, a context alias, or a class generated from a definition) that is initialised with one object of its own class is a copy of it, or takes over its contents if that object expires; initialised with other arguments it is made of exactly these; and an alias can be assigned a value or an alias. A context that cannot be moved is neither copied nor moved.", "quantifier": "all lists of arguments of any classes and value categories, direct and copy initialisation, every number of parameters", "why_tests_cant": "which constructor is called depends on every combination of argument types, constness and value categories for templates that take anything.", "anchors": ["include/nbdl/strong_alias.hpp", "include/nbdl/concept/extras.hpp:NotSameAs", "tool/heavy_plugins/lib/Nbdl/NbdlTranslateCpp.cpp:CreateClass, CreateStrongAlias"]}
{"id": "C115", "title": "The generated class, read as C++, is the store defined", "statement": "The C++ text made of a store definition is one class declaration of C++ whose members and constructor are the ones described: every member gets the objects described and no argument is used after it was moved from; a definition of one store, or of a choice of stores, is a class that is an alias of the type described; a definition of nothing is an empty struct. Two definitions with the same text therefore make the same store.", "quantifier": "all store definitions, with any number of parameters and members, any types, keys, C++ text and strings among the arguments, and all orders in which the arguments of a member are evaluated", "why_tests_cant": "the text is glued together from what the user wrote; whether it is read as intended depends on every name, type and expression in it and how it combines with generated names.", "anchors": ["tool/heavy_plugins/lib/Nbdl/NbdlTranslateCpp.cpp:DefineStoreWriter", "include/nbdl/spec.sld:define-store"]}
{"id": "C116", "title": "Every message pushed is carried out, however pushes are nested", "statement": "Actors may use the context while it is calling them: push further messages and look at paths, to any depth. When everything has returned, each message that was pushed has led to exactly the calls it should lead to, in their order: the notifications of the state consumers if the store says that it changed, then the producer of its type or all consumers; a read request to the producer, to nobody, or to all consumers with the value, by what the store shows. At any moment before, the calls already made for it are the first of these.", "quantifier": "all configurations of actors and stores, all programs of the actors, all programs that use the context, all initial states, any depth of nesting", "why_tests_cant": "the calls of different messages are interleaved in ways that depend on what every actor does.", "anchors": ["include/nbdl/context.hpp:push_message", "include/nbdl/context.hpp:match_impl", "include/nbdl/context.hpp:apply_message_impl"]}
{"id": "C117", "title": "Nested pushes act on the stores one after the other", "statement": "Whatever actors do while they are called, the stores are the effect of all messages in the order in which they were pushed, and whoever is called finds in the stores exactly the effect of the messages pushed up to then, among them the one it is called for. If no store listens to others, the stores are as if the messages had been pushed one by one from outside.", "quantifier": "all configurations, all programs of actors and users, all moments of all executions", "why_tests_cant": "a nested push could meet a store half-way through a message, and which states can be seen depends on the nesting.", "anchors": ["include/nbdl/context.hpp:push_message"]}
{"id": "C118", "title": "A consumer gets messages in the order of their effect", "statement": "Each consumer is sent the downstream messages in the order in which they were applied to the stores, even if actors push while they are called.", "quantifier": "all configurations, all programs of actors and users, all executions", "why_tests_cant": "needs a consumer that pushes while it is called and another consumer after it.", "anchors": ["include/nbdl/context.hpp:propagate_downstream", "include/nbdl/context.hpp:push_message"]}
{"id": "C119", "title": "State consumers are told of every change, however pushes are nested", "statement": "When everything has returned, the stores show at every path what they showed when a state consumer was last told of that path, or what they showed in the beginning if it never was: a view that looks whenever it is told is never left behind.", "quantifier": "all configurations whose stores report changes as they make them (among them map stores), all programs of actors and users, all paths, all executions", "why_tests_cant": "nested pushes reorder notifications; that the last one is never too early must hold for every interleaving.", "anchors": ["include/nbdl/context.hpp:notify_state_consumers", "include/nbdl/context.hpp:push_message"]}
{"id": "C120", "title": "Looking hands over what the store shows", "statement": "The value handed to the callback of match is the one the store shows at that moment, also if looking sends a read request to the producer.", "quantifier": "all configurations, all programs of actors, all states", "why_tests_cant": "needs a store that asks for what it lacks and a producer that answers at once.", "anchors": ["include/nbdl/context.hpp:match_impl"]}
{"id": "C121", "title": "A listening store is shown messages in order", "statement": "A store that listens to a path type is shown the messages of this type in the order in which they were applied.", "quantifier": "all configurations, all programs of actors and users, all executions", "why_tests_cant": "needs an actor that pushes messages of the same type while it is called for one.", "anchors": ["include/nbdl/context.hpp:push_message"]}
{"id": "C122", "title": "Pushing comes to an end", "statement": "Pushing a message returns: if each message is answered only by messages of smaller rank (as with an echo producer), every program that uses the context comes to an end.", "quantifier": "all configurations, all programs of actors that respect a rank, all initial states", "why_tests_cant": "the depth of nesting is not bounded.", "anchors": ["include/nbdl/context.hpp:push_message", "include/nbdl/echo_producer.hpp"]}
{"id": "C123", "title": "An echoed request is carried out when the push returns", "statement": "With an echo producer and map stores, when the push of a request to create, update or delete returns, the stores are as after the corresponding downstream message, and only this message has been pushed besides the request.", "quantifier": "all configurations with map stores, all initial states, all requests", "why_tests_cant": "the downstream message is pushed while the request is still being pushed.", "anchors": ["include/nbdl/echo_producer.hpp:send_upstream_message_impl", "include/nbdl/context.hpp:push_message"]}
{"id": "C124", "title": "A page kept by a context shows what the stores show", "statement": "A renderer is a state consumer of a context. However messages are pushed, by programs, event handlers or actors that are being called, to any depth: when everything has returned, the page is the one its specification stands for with the stores as they are now, and nothing else in the document has changed.", "quantifier": "all configurations of actors and stores that report changes as they make them, all specifications of pages, all programs of actors and users, all initial states and documents", "why_tests_cant": "the page is updated in the middle of nested pushes; that the last update is not too early must hold for every interleaving, and that updating gives the rendered page for every specification.", "anchors": ["include/nbdl/webui/renderer.hpp:notify_state_change_impl", "include/nbdl/webui/renderer.hpp:update", "include/nbdl/context.hpp:push_message"]}
{"id": "C125", "title": "A context can be made with all actors it accepts", "statement": "Making a context makes its actors and stores and then initialises producers and consumers; an actor may use the handle it is given from its constructor, as the renderer does, which renders its page.", "quantifier": "all configurations, all constructors of actors, all specifications of pages", "why_tests_cant": "whether a store is used before it is made depends on what each constructor does; using memory that is not initialised may go unnoticed.", "anchors": ["include/nbdl/context.hpp:context", "include/nbdl/webui/renderer.hpp:renderer_impl"]}
{"id": "C126", "title": "A value handed to a callback stays as it is while the callback runs", "statement": "match on a store or a context hands the callback a reference to the value in the store. Whatever messages the callback or those it causes push before it returns, reading through the reference gives the value it was handed.", "quantifier": "all map stores, all paths, all sequences of messages applied while the callback runs", "why_tests_cant": "the reference is into a variant in a hash map that grows, is assigned to and erased from; use of an object that is gone may go unnoticed in a test.", "anchors": ["include/nbdl/map_store.hpp:handle_map_store_action", "include/nbdl/variant.hpp:match", "include/nbdl/ext/std/unordered_map.hpp:match_impl", "include/nbdl/context.hpp:match"]}
{"id": "C127", "title": "An endpoint that is let go of is destroyed when it is done, and never used after that", "statement": "endpoint_open returns a shared pointer. At any time, in a callback or elsewhere, the user may let go of it: messages on their way are still sent and received, then the endpoint is destroyed, and nothing uses it after that.", "quantifier": "all sequences of calls, callbacks, network events and letting go of the pointer, at every point of a connection's life", "why_tests_cant": "who owns the endpoint depends on which operations are under way; use after destruction may go unnoticed.", "anchors": ["include/nbdl/websocket/detail/endpoint_impl.hpp:start_messaging", "include/nbdl/websocket/detail/endpoint_impl.hpp:start_send_queue", "include/nbdl/websocket/server_endpoint.hpp:server_endpoint_init", "include/nbdl/websocket/client_endpoint.hpp:endpoint_open_impl", "include/nbdl/websocket/detail/message_reader.hpp:keep_reading"]}
{"id": "C128", "title": "What has been stored in a database is what is read", "statement": "Storing an entity with nested entities and selecting it by the key that was returned gives exactly one row, with the value of every member of the entity and of all nested entities, each under its own name, whatever else is in the tables and whatever is stored later.", "quantifier": "every entity, nested to any depth, and every content of the tables", "why_tests_cant": "statements are generated from types; whether the columns and joins of the one fit the rows of the other depends on every nesting of names.", "anchors": ["include/nbdl/sql_db/insert.hpp", "include/nbdl/sql_db/select.hpp", "include/nbdl/sql_db/statement/insert.hpp", "include/nbdl/sql_db/statement/select.hpp", "include/nbdl/sql_db/statement/detail/table_alias_list.hpp"]}
{"id": "C129", "title": "An update changes one row", "statement": "Updating an entity by its primary key sets the members of exactly the row with this key, and changes no other row and no other column.", "quantifier": "every entity, key and content of the tables", "why_tests_cant": "the rows of a table are unbounded; which row is changed depends on the key columns.", "anchors": ["include/nbdl/sql_db/update.hpp", "include/nbdl/sql_db/statement/update.hpp"]}
{"id": "C130", "title": "Clients that show changes at once agree with the server in the end", "statement": "Over every interleaving of requests of any number of clients, changes by the server, messages served and messages delivered, a client of which all messages have been read shows exactly the entity of the server, and waits for nothing. The entity of the server is the result of the changes it carried out, in the order in which it did.", "quantifier": "all numbers of clients, all histories with distinct uids, clients joining at any time", "why_tests_cant": "the interleavings of the queues of all clients are unbounded.", "anchors": ["include/nbdl/local_version.hpp", "include/nbdl/message.hpp: to_downstream", "include/nbdl/fwd/message.hpp: to_downstream_confirmed", "include/nbdl/app/server.hpp: send_message"]}
{"id": "C131", "title": "A client's own change is not undone on its screen", "statement": "From the moment the program of a client asks for a change of a member until it asks for another, the client shows this change: neither answers nor changes of other clients make an older value reappear.", "quantifier": "all histories of any number of clients", "why_tests_cant": "needs every interleaving of requests, answers and changes by others.", "anchors": ["include/nbdl/local_version.hpp: apply_confirmed_delta", "include/nbdl/echo_producer.hpp: send_upstream_message_impl"]}
{"id": "C132", "title": "A pipeline does the same whenever its operations complete", "statement": "A pipeline whose asynchronous operations complete at arbitrary later times does exactly what it does when they complete at once: the same functions are called with the same values in the same order, with the same end. While an operation is outstanding nothing happens, at most one operation is outstanding at a time, and the pipeline ends exactly once.", "quantifier": "all pipelines of promises, functions, try_, tap and catch_, all values, all outcomes of the operations and all times at which they complete", "why_tests_cant": "the completions of all operations in all pipelines are unbounded; tests complete them at once.", "anchors": ["include/nbdl/promise.hpp", "include/nbdl/catch.hpp", "include/nbdl/tap.hpp", "include/nbdl/run_async.hpp", "include/nbdl/detail/wrap_promise.hpp", "include/nbdl/fwd/detail/promise_join.hpp"]}
{"id": "C133", "title": "An exception thrown in a pipeline is given to the handler for it", "statement": "An exception thrown by a function given to try_ is given to the first of the following handlers for its type, once, and the pipeline is over. An exception thrown by any other function is never given to a handler.", "quantifier": "all pipelines, all functions that may throw, all classes of exceptions", "why_tests_cant": "every placement of handlers and throwing functions would have to be tried.", "anchors": ["include/nbdl/try.hpp", "include/nbdl/catch.hpp: catch_t", "include/nbdl/promise.hpp: promise_t", "include/nbdl/tap.hpp: tap_t"]}
{"id": "C134", "title": "The example program acts on every message sent and ends", "statement": "In the example with pipes, for every list of messages and every behaviour of the network, the server acts on messages the client was given, each at most once and in order. If the connection is made and holds, it acts on all of them, both pipelines come to their ends, and the process ends after boundedly many events.", "quantifier": "all lists of messages, all interleavings of connection attempts, completions of writes, arrivals of bytes in any pieces and failures", "why_tests_cant": "the interleavings of two pipelines over a stream in pieces are unbounded; the example is run once over the loopback device.", "anchors": ["example/pipes/main.cpp", "example/pipes/connect.hpp", "example/pipes/write_raw_message.hpp", "example/pipes/read_raw_message.hpp", "example/pipes/receive_messages_until.hpp", "include/nbdl/run_async.hpp"]}
{"id": "C135", "title": "A conditional of clauses takes the first that holds", "statement": "In a match function, match-cond carries out the first clause whose test holds, and nothing of the others; a clause with an arrow calls its procedure with the value that was tested. Every form of clause that cond has is taken.", "quantifier": "all lists of clauses, all tests, results and procedures, all stores and states", "why_tests_cant": "clauses can be nested and combined in unboundedly many ways.", "anchors": ["include/nbdl/spec.sld: match-cond, match-if, get", "tool/heavy_plugins/lib/Nbdl/NbdlTranslateCpp.cpp"]}
{"id": "C136", "title": "Users who take their leave get everything", "statement": "When each user of two connected endpoints sends its messages, the last a farewell, and calls send_close on being handed the farewell of the other, then in the end each user was told all the messages of the other, in order, and then once that the connection is closed.", "quantifier": "all plans of messages, all interleavings of write completions and arrivals, octet by octet", "why_tests_cant": "whether a close overtakes queued messages, and how often a close is reported, depends on the schedule; the project's own test does this with one plan and whatever schedule the machine has that day.", "anchors": ["include/nbdl/websocket/detail/endpoint_impl.hpp: send_message, send_close, start_send_queue, make_reader_handler", "test/nbdl/websocket/endpoint.cpp"]}
{"id": "C137", "title": "The moves of the tiles game are carried out and made known", "statement": "In the tiles example every move that is asked for is carried out once, in the order of asking: a tile with an empty neighbour goes there and every state consumer is told of the game, once, and then finds the changed game; all other moves change nothing and nobody is told. The tiles of the board stay the same.", "quantifier": "all sequences of moves, all boards that fit, all numbers of consumers", "why_tests_cant": "a player may ask for any sequence of moves; the test asks for one.", "anchors": ["example/tiles/game.hpp: apply_foreign_message_impl, create_game_move, context", "include/nbdl/echo_producer.hpp", "include/nbdl/context.hpp: push_message"]}
{"id": "C138", "title": "A pipeline is released once, when it is over, and not used after that", "statement": "A pipeline started with run_async is released exactly when it comes to its end (its last step, a handled rejection or a termination), once, and none of its functions is called after that, whatever the operations that its promises start do.", "quantifier": "all pipelines, all sequences of completions of the operations that were started, in any order, any number of times, or never", "why_tests_cant": "how often and when an operation completes is not up to the program; a test has each complete once.", "anchors": ["include/nbdl/run_async.hpp: promise_end, shared_end_pipe, run_async", "include/nbdl/fwd/detail/promise_join.hpp: promise_join_t", "include/nbdl/promise.hpp: promise_t", "include/nbdl/catch.hpp: catch_t"]}
{"id": "C139", "title": "A server that echoes tells everyone everything, in one order", "statement": "With a server whose producer confirms what it is asked for, every client that is connected is told of every message that any client sends, once each, all in one order, in which the messages of each sender keep their order; a client hears all of its own messages, a client that leaves hears what the server took up while it was connected, and with nothing more to send it comes to an end. With one client this is that the consumer is handed exactly what was sent, in order.", "quantifier": "all numbers of clients and messages, all schedules of sending, connecting, leaving, reading at the server and reading at the clients", "why_tests_cant": "the schedules of the io loops are not up to the program; the project's test has one client and one schedule.", "anchors": ["test/nbdl/app/server_client.cpp", "include/nbdl/app/server.hpp: register_connection, unregister_connection, send_message", "include/nbdl/app/server_connection.hpp: connection_open", "include/nbdl/app/client.hpp: client_impl, make_connection", "include/nbdl/echo_producer.hpp: send_upstream_message_impl", "include/nbdl/context.hpp: push_message"]}
{"id": "C140", "title": "A session works from the first octet on", "statement": "When a client of the library connects to a server of the library, the server is told the client's token and that it is ready once the whole request has arrived, the client is told that it is ready once the whole response has arrived, and neither is told of a bad request; however the octets of both directions are cut up and delayed, no octet behind the handshake is lost, and from then on the endpoints converse as if there had been no handshake: what the users sent, also during the handshake, is what the other one is handed.", "quantifier": "all origins and tokens that fit (C16), all ways to cut up and delay the octets of both directions, all numbers of octets the server reads at a time, all calls of send_message, send_close and stop by both users at any time, loss of the connection at any time", "why_tests_cant": "what arrives together is up to the network; the tests have two local sockets and one schedule, in which nothing is sent before both are ready.", "anchors": ["include/nbdl/websocket/client_endpoint.hpp: endpoint_open_impl", "include/nbdl/websocket/server_endpoint.hpp: server_endpoint_init", "include/nbdl/websocket/detail/endpoint_impl.hpp: endpoint_impl, start_messaging, stop", "include/nbdl/websocket/detail/parse_handshake_request.hpp: read_headers", "include/nbdl/websocket/detail/expect_equal.hpp"]}
{"id": "C141", "title": "A value held by a pipeline is there for all that happens in it", "statement": "A value put into a pipeline with hold is handed to the steps that follow, up to the next hold, as one and the same object: each step, and each operation when it completes, finds in it what the one before has left; in a loop this goes on from pass to pass. What is handed to an asynchronous operation can still be used when the operation completes.", "quantifier": "all pipelines of holds, functions, taps and promises, run once or in a loop, all changes made to the values, all completions of the operations in any order of outcomes", "why_tests_cant": "the values live in a tree of nested objects on the heap or on the stack of a call that may have returned; whether a reference is still good depends on when an operation completes.", "anchors": ["include/nbdl/hold.hpp: hold", "include/nbdl/detail/wrap_promise.hpp: wrap_promise_fn", "include/nbdl/tap.hpp: tap", "include/nbdl/run_async.hpp: shared_end_pipe", "include/nbdl/run_async_loop.hpp: shared_end_pipe_loop"]}
{"id": "C142", "title": "A pipeline can be run again", "statement": "A pipeline kept in a variable can be run any number of times, one run after the other or at the same time; each run is that of the pipeline as it was made, with held values of its own.", "quantifier": "all pipelines of functions, promises, taps, holds and lazy holds, all numbers of runs with run_sync, run_async and run_async_loop, all interleavings of their completions", "why_tests_cant": "what a run does to the pipeline in the variable shows in later runs only, and the tests make a new pipeline for each run.", "anchors": ["include/nbdl/run_sync.hpp: run_sync", "include/nbdl/run_async.hpp: run_async", "include/nbdl/detail/promise_join.hpp: promise_join", "include/nbdl/hold_lazy.hpp: make_lazy_holder_fn"]}
{"id": "C143", "title": "An entity is its declared members", "statement": "A class declared as an entity has exactly the declared members, in their order: a name, or a path of names, leads to the field of that name; binding it as a sequence or as a map gives these members; a value stored through a name is found there and nothing else changes; two objects compare equal exactly if all declared members do, through all levels. Any class, also a derived or an empty one, can be declared.", "quantifier": "all programs of classes with base classes and declarations, all paths of names, all values, all equalities of the leaves", "why_tests_cant": "the members are found by template specializations keyed by pointers to members; which of several are found, or clash, depends on the whole program.", "anchors": ["include/nbdl/entity.hpp: get_impl, equal_impl", "include/nbdl/entity_members.hpp: get_member", "include/nbdl/macros/NBDL_ENTITY.hpp: NBDL_ENTITY, NBDL_EMPTY", "include/nbdl/bind_map.hpp", "include/nbdl/bind_sequence.hpp"]}
{"id": "C144", "title": "The library's own client and server program ends as its test expects", "statement": "A client and a server of the library are connected. Each user sends its messages when told that its endpoint is ready, the last of them a farewell, and calls send_close when handed the farewell of the other; when told of the close it resolves the promise that holds its endpoint. Then, however the octets of the handshake and of the messages are cut up and delayed, in the end the server was told it is ready, with the token of the client, the client was told it is ready, and each was told all the messages of the other, in order, and then once of the close; and no pipeline is used after it was released.", "quantifier": "all origins and tokens that fit, all lists of messages, all schedules of the network", "why_tests_cant": "the project's test runs this program over a local connection, in which one schedule happens; which messages are lost depends on when the farewell is read.", "anchors": ["test/nbdl/websocket/endpoint.cpp", "include/nbdl/websocket/client_endpoint.hpp", "include/nbdl/websocket/server_endpoint.hpp", "include/nbdl/websocket/detail/endpoint_impl.hpp", "include/nbdl/run_async.hpp: promise_end"]}
{"id": "C145", "title": "A key stands for the id it was made from", "statement": "Two keys of an entity are equal if and only if they were made from the same id; a key holds what was assigned to it last; and when an entity with nested entities and containers is inserted, the rows refer to each other by the ids which the database has given them.", "quantifier": "all ids of a database (64 bit numbers), all sequences of assignments, all entities nested to any depth", "why_tests_cant": "tests use ids that count up from one, and a database gives large ids only after years or when it is told to.", "anchors": ["include/nbdl/key.hpp: key_impl", "include/nbdl/sql_db/traits.hpp: primary_key", "include/nbdl/sql_db/insert.hpp: insert_impl"]}
{"id": "C146", "title": "A compile-time list is the sequence of what was put in it", "statement": "A list made of some objects has their number as its length, is empty if there are none, hands out these objects in their order to the function it is unpacked into, gives the one at any place there is, is joined to another one end to end, loses exactly the first n objects (all of them, if there are fewer) when n are dropped from its front, and equals another list if and only if they are made of equal objects.", "quantifier": "all lists of objects of any types, all functions, places and numbers", "why_tests_cant": "tests make lists of empty objects, a handful at a time, and drop one.", "anchors": ["include/mpdef/list.hpp: make_list, unpack_impl, transform_impl, at_impl, is_empty_impl, drop_front_impl, concat_impl, operator=="]}
{"id": "C147", "title": "Joined texts are the texts with the delimiter between them", "statement": "Joining compile-time texts with a delimiter gives the texts in their order with the delimiter between each two of them and nowhere else, for any number of texts; and from what was joined the texts can be told again.", "quantifier": "all delimiters and all lists of texts", "why_tests_cant": "tests join two or three words.", "anchors": ["include/mpdef/string.hpp: string_concat, string_join"]}
{"id": "C148", "title": "A variant holder shows the place and the value of its alternative", "statement": "Matching a variant holder on its index gives the place of the alternative it holds, matching it on its value calls the function once with that value, which is the value that was put in last; a holder always has a value; and a holder can be written and read by the serializers.", "quantifier": "all lists of alternatives, all functions, all histories of assignments with an exception thrown at any point of them", "why_tests_cant": "exceptions thrown in the middle of an assignment, and templates that no test instantiates.", "anchors": ["include/nbdl/variant_holder.hpp: variant_holder, match_impl, bind_variant_impl", "include/nbdl/variant.hpp: detail::variant"]}
{"id": "C149", "title": "Elements of tuples and sequences are read by their number or type", "statement": "Reading a tuple, pair, array or sequence with the key index<i> gives its element number i, and with type<T> the element of type T if there is exactly one; a path of such keys leads from element to element; and this does not depend on what other headers of the library are included.", "quantifier": "all tuples, pairs, arrays and sequences, nested in any way and with reference wrappers anywhere, all keys and paths, all combinations of headers", "why_tests_cant": "tests read a tuple of three plain values in one combination of headers; tuples inside of tuples and sequences are never read.", "anchors": ["include/nbdl/ext/std/tuple_like.hpp: StdTupleLike, get_impl", "include/nbdl/get.hpp: get, get_impl", "include/nbdl/get_path.hpp: get_path", "include/nbdl/tags.hpp: index, type"]}
{"id": "C150", "title": "bind_sequence hands every element to the function", "statement": "Binding a sequence calls the function once, with all the elements that are not empty, in their order; what the function returns is returned; what it assigns to its arguments is then in the elements, and nothing else changes.", "quantifier": "all tuples, pairs, arrays and sequences, all functions and what they assign, every choice of which types are empty, all combinations of headers", "why_tests_cant": "tests bind a handful of values with functions that assign nothing.", "anchors": ["include/nbdl/bind_sequence.hpp: bind_sequence, bind_sequence_impl", "include/nbdl/ext/std/tuple_like.hpp: bind_sequence_impl", "include/nbdl/detail/filter_empties.hpp: filter_empties_fn"]}
{"id": "C151", "title": "What is printed tells what it was", "statement": "The text printed for a value is made of the texts of all its parts, in their order and with separators between them, and two values of one type with the same text are the same.", "quantifier": "all values made of streamable values, constants, strings, optionals, pairs, tuples, sets and maps, nested in any way", "why_tests_cant": "tests print nothing; the program prints two values.", "anchors": ["example/pipes/hana_printable.hpp: print, print_impl", "example/pipes/main.cpp: print"]}
{"id": "C152", "title": "A page shows the values its paths lead to", "statement": "A page is written with paths and parameters, in texts, attributes, classes, matches and loops. Wherever it has one, the page shows the value that the path leads to from the store, first when it is rendered and again after every change: the text of the value, the alternative for its type or predicate, and in a loop one piece for each element of the container, in order, in which the path of the element leads to that element.", "quantifier": "all pages, paths and parameters, nested in any way; all stores and values; any number of changes of the store", "why_tests_cant": "the tests of the renderer compare a handful of pages with constant paths; the tests of paths render nothing.", "anchors": ["include/nbdl/webui/detail/dom_manips.hpp: mut_action_fn", "include/nbdl/webui/renderer.hpp: make_renderer, renderer_impl", "include/nbdl/ui_helper/match_path_spec.hpp: match_path_spec", "include/nbdl/ui_helper/params_concat.hpp: params_concat", "include/nbdl/ui_helper/match_branch.hpp: get_branch_index", "include/nbdl/ui_helper.hpp: flatten_for_each_node", "include/nbdl/store_range.hpp: store_range", "include/nbdl/ui_spec.hpp: match, when, for_each"]}
{"id": "C153", "title": "The page of a client shows what the server has", "statement": "A renderer is an actor of the context of a client, which is connected to a server. Over every history of a server and its clients, in which programs ask, producers answer, and connections come and go in any order: the page of a client is always the page of what the server had at some time since the client joined, it never goes back, and when the client has read what was sent to it, it is the page of what the server has now.", "quantifier": "all programs, producers and schedules, any number of clients, all specifications of pages, path types, paths and values", "why_tests_cant": "the tests of the renderer have no server, those of server and client no page; whether a change made by one client gets on the page of another depends on the whole history of both.", "anchors": ["include/nbdl/webui/renderer.hpp: renderer_impl, notify_state_change", "include/nbdl/app/server.hpp: server_impl::send_message", "include/nbdl/app/client.hpp: client_impl", "include/nbdl/app/context_endpoint.hpp: apply_read", "include/nbdl/context.hpp: context::push_message, context::notify_state_consumers", "include/nbdl/map_store.hpp: apply_message_impl"]}
{"id": "C154", "title": "Clients keep up with a server whose actors push while they are called", "statement": "The actors of the context of a server may push messages while the context is calling them, to any depth. If the consumer that serves the clients is called with the messages in the order in which they were pushed (as when no state consumer pushes on a notification and no consumer declared before it pushes on a message), then a client that showed what the server showed, and that pushes what it is sent, shows what the server shows, at the end and at every moment at which nothing is waiting to be sent.", "quantifier": "all actors and programs, all depths of nesting, all initial stores, all orders of actors, path types, paths and values, all clients", "why_tests_cant": "the tests of server and client have actors that push nothing; whether a client ends with an older value than the server depends on who pushes while who is being called.", "anchors": ["include/nbdl/context.hpp: context::push_message, context::propagate_downstream, store_handle", "include/nbdl/app/server.hpp: server_impl::send_message, send_downstream_message_impl", "include/nbdl/app/client.hpp: client_impl", "include/nbdl/map_store.hpp: apply_message_impl", "include/nbdl/echo_producer.hpp: send_upstream_message_impl"]}
