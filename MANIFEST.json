{
 "claims": [
  {
   "property": "C01",
   "status": "partial",
   "theorems": [
    "Nbdl.Base64.roundtrip",
    "Nbdl.Base64.roundtrip_exact",
    "Nbdl.Base64.roundtrip_long_violated",
    "Nbdl.Base64.encode_all_sizes",
    "Nbdl.Base64.encodeAny_short",
    "Nbdl.Base64.decodeAny1_short",
    "Nbdl.Base64.decodeAny2_short",
    "Nbdl.Base64.roundtrip_signed_char_violated",
    "Nbdl.Base64.roundtrip_signed_char_partial"
   ],
   "note": "For containers of unsigned char the round trip holds exactly for buffers of less than 2^29 bytes (roundtrip_exact; longer ones overflow int or are cut, roundtrip_long_violated). For containers of signed char it is false (witness), and proved for 7-bit data."
  },
  {
   "property": "C02",
   "status": "proved",
   "theorems": [
    "Nbdl.Base64.encode_is_rfc4648"
   ],
   "note": "Refinement of a bit-stream specification of RFC 4648, for every input whose encoded size does not wrap."
  },
  {
   "property": "C03",
   "status": "partial",
   "theorems": [
    "Nbdl.Base64.validate_iff",
    "Nbdl.Base64.decode1_spec",
    "Nbdl.Base64.decode1_bits",
    "Nbdl.Base64.decode2_accepts_malformed_violated",
    "Nbdl.Base64.decode2_partial",
    "Nbdl.Base64.decode2_fixed_partial",
    "Nbdl.Base64.decode_long_violated",
    "Nbdl.Base64.decode_all_sizes",
    "Nbdl.Base64.decodeAny1_short",
    "Nbdl.Base64.decodeAny2_short"
   ],
   "note": "The validating one-argument decoder is characterised exactly, bit by bit; the two-argument decoder does not reject malformed text (negation proved). Both for texts with less than 2^31 / 3 characters; longer ones overflow int or are cut (decode_long_violated)."
  },
  {
   "property": "C04",
   "status": "partial",
   "theorems": [
    "Nbdl.Base64.unique_text_violated",
    "Nbdl.Base64.same_bytes_exact",
    "Nbdl.Base64.reencode_exact",
    "Nbdl.Base64.reencode_partial",
    "Nbdl.Base64.unique_text_partial"
   ],
   "note": "False as stated (non-zero padding bits are accepted, witness); proved for canonical padding bits. Exactly: two accepted texts decode alike if and only if their used bits agree, and re-encoding gives the text back if and only if the unused bits are zero."
  },
  {
   "property": "C05",
   "status": "partial",
   "theorems": [
    "Nbdl.Ws.send_receive_exact",
    "Nbdl.Ws.send_receive_partial",
    "Nbdl.Ws.send_receive_violated",
    "Nbdl.Ws.send_receive_glued_violated"
   ],
   "note": "Exact behaviour proved for all message lists; the property fails exactly for lengths that are positive multiples of 125."
  },
  {
   "property": "C06",
   "status": "partial",
   "theorems": [
    "Nbdl.Ws.length_field_partial",
    "Nbdl.Ws.length_field_violated",
    "Nbdl.Ws.length_field_x86_partial",
    "Nbdl.Ws.length_field_x86_violated",
    "Nbdl.Ws.length_field_exact"
   ],
   "note": "Holds below 65536; above, the reader shifts an int by >= 32 bits (undefined), proved for every such length."
  },
  {
   "property": "C07",
   "status": "partial",
   "theorems": [
    "Nbdl.Ws.reader_refines_spec_partial",
    "Nbdl.Ws.masked_message_partial",
    "Nbdl.Ws.masked_exact_partial",
    "Nbdl.Ws.masked_fragments_violated"
   ],
   "note": "Holds for a message exactly if no fragment with a mask in effect comes after any octet of it (masked_exact_partial); witness where it fails."
  },
  {
   "property": "C08",
   "status": "partial",
   "theorems": [
    "Nbdl.Ws.reader_refines_spec_partial",
    "Nbdl.Ws.control_interleaving_partial",
    "Nbdl.Ws.control_exact",
    "Nbdl.Ws.ping_payload_violated"
   ],
   "note": "Holds for payload-free control frames; the payload of any ping or pong is read as the next frames (control_exact, and a witness)."
  },
  {
   "property": "C09",
   "status": "proved",
   "theorems": [
    "Nbdl.Ws.stream_exact",
    "Nbdl.Ws.pieces_unique",
    "Nbdl.Ws.collect_unmasked",
    "Nbdl.Ws.stream_resume",
    "Nbdl.Ws.delivered_le"
   ],
   "note": "For every byte stream and every way of cutting it: the stream is read as whole frames followed by an incomplete or refused one, what is reported is exactly what those frames carry, and the frames are determined by the octets. The undefined 64-bit length computation is an explicit stop outcome of the model (see C06)."
  },
  {
   "property": "C10",
   "status": "proved",
   "theorems": [
    "Nbdl.Endpoint.queue_fifo_lossless"
   ],
   "note": "For every sequence of inputs."
  },
  {
   "property": "C11",
   "status": "proved",
   "theorems": [
    "Nbdl.Endpoint.nothing_after_close"
   ],
   "note": "For every sequence of inputs."
  },
  {
   "property": "C12",
   "status": "partial",
   "theorems": [
    "Nbdl.Endpoint.close_note_causes_partial",
    "Nbdl.Endpoint.close_notes_partial",
    "Nbdl.Endpoint.close_notes_three_violated",
    "Nbdl.Endpoint.close_notes_twice_violated",
    "Nbdl.Endpoint.close_note_early_violated",
    "Nbdl.Endpoint.close_once_if_stopped_partial",
    "Nbdl.Endpoint.close_told_exact"
   ],
   "note": "Causes proved; 'once' and 'after ours was sent' are false (witnesses); exact bound of three notifications proved and reached. close_told_exact: exactly how often, and why, without failures and stops."
  },
  {
   "property": "C13",
   "status": "partial",
   "theorems": [
    "Nbdl.Endpoint.quiet_after_stop",
    "Nbdl.Endpoint.send_after_stop_violated",
    "Nbdl.Endpoint.no_send_after_stop_partial",
    "Nbdl.Endpoint.send_after_stop_exact",
    "Nbdl.Session.stop_told_violated"
   ],
   "note": "Handler silence proved once the endpoint is ready; new writes can start after stop (witness): exactly when a message was being written at the time, that write succeeds, and by then there is more to send (send_after_stop_exact); and during the handshake the handler is called after stop (stop_told_violated, for every client)."
  },
  {
   "property": "C14",
   "status": "proved",
   "theorems": [
    "Nbdl.Endpoint.one_write_at_a_time"
   ],
   "note": "For every sequence of inputs."
  },
  {
   "property": "C15",
   "status": "partial",
   "theorems": [
    "Nbdl.Endpoint.ping_never_answered_violated"
   ],
   "note": "The negation is proved for every schedule: no pong is ever sent."
  },
  {
   "property": "C16",
   "status": "proved",
   "theorems": [
    "Nbdl.Handshake.handshake_agrees",
    "Nbdl.Handshake.long_origin_rejected",
    "Nbdl.Handshake.wrong_request_line",
    "Nbdl.Handshake.client_accepts_iff"
   ],
   "note": "For every segmentation of the request. The length bounds are those of the 256-byte header buffer and are sharp."
  },
  {
   "property": "C17",
   "status": "partial",
   "theorems": [
    "Nbdl.Cookies.auth_token_partial",
    "Nbdl.Cookies.auth_token_exact",
    "Nbdl.Cookies.auth_token_absent_violated",
    "Nbdl.Cookies.auth_token_empty_violated"
   ],
   "note": "Exact behaviour proved for every well-formed header. Holds when the first auth cookie exists and no auth cookie is empty; otherwise the end iterator is dereferenced, or a later cookie is returned (both proved)."
  },
  {
   "property": "C18",
   "status": "partial",
   "theorems": [
    "Nbdl.Cookies.session_cookie_partial",
    "Nbdl.Cookies.session_cookie_exact",
    "Nbdl.Cookies.session_cookie_hidden_violated",
    "Nbdl.Cookies.trim_quotes",
    "Nbdl.Cookies.trim_quotes_violated"
   ],
   "note": "Exact behaviour proved for every well-formed header. Holds when every cookie has a value; a valueless cookie hides the next one (proved)."
  },
  {
   "property": "C19",
   "status": "proved",
   "theorems": [
    "Nbdl.Sha1.chunk_independent",
    "Nbdl.Sha1.chunk_independent'"
   ],
   "note": "For every list of chunks."
  },
  {
   "property": "C20",
   "status": "proved",
   "theorems": [
    "Nbdl.Sha1.is_fips180"
   ],
   "note": "Refinement of an independent transcription of FIPS 180-4, for every message."
  },
  {
   "property": "C21",
   "status": "proved",
   "theorems": [
    "Nbdl.Promise.run_outcome",
    "Nbdl.Promise.outcome_unique",
    "Nbdl.Promise.freed_once",
    "Nbdl.Promise.deleted_once",
    "Nbdl.Promise.pending",
    "Nbdl.Promise.double_resolve_violated"
   ],
   "note": "For pipelines whose promises complete exactly once; promises that complete twice (double deletion) or never are characterised too."
  },
  {
   "property": "C22",
   "status": "proved",
   "theorems": [
    "Nbdl.Promise.loop_repeats",
    "Nbdl.Promise.loop_stops",
    "Nbdl.Promise.pass_cases"
   ],
   "note": "For any number of passes."
  },
  {
   "property": "C23",
   "status": "proved",
   "theorems": [
    "Nbdl.Promise.match_if_first",
    "Nbdl.Promise.match_if_spec"
   ],
   "note": "Through the promise pipeline match_if is built from."
  },
  {
   "property": "C24",
   "status": "proved",
   "theorems": [
    "Nbdl.MapStore.behaves_as_map",
    "Nbdl.MapStore.apply_other"
   ],
   "note": "Any history; the value shown is given by a separate specification over the history."
  },
  {
   "property": "C25",
   "status": "partial",
   "theorems": [
    "Nbdl.MapStore.report_exact",
    "Nbdl.MapStore.report_right_iff",
    "Nbdl.MapStore.changes_reported_partial",
    "Nbdl.MapStore.report_violated"
   ],
   "note": "Every visible change except the placeholder of a read request is reported; no-op deletes and updates are reported too, so the iff is refuted with witnesses; report_right_iff says exactly for which messages and states the report is right."
  },
  {
   "property": "C26",
   "status": "proved",
   "theorems": [
    "Nbdl.MapStore.late_answer_ignored",
    "Nbdl.MapStore.answer_fills",
    "Nbdl.MapStore.resolved_stable"
   ],
   "note": "Any history."
  },
  {
   "property": "C27",
   "status": "proved",
   "theorems": [
    "Nbdl.Context.push_write",
    "Nbdl.Context.push_incomplete",
    "Nbdl.Context.mapOps_lawful",
    "Nbdl.Context.contextStoreOps_lawful",
    "Nbdl.Context.nullOps_lawful"
   ],
   "note": "Any actors, stores and listeners; actors do not push while being called."
  },
  {
   "property": "C28",
   "status": "partial",
   "theorems": [
    "Nbdl.Context.push_read",
    "Nbdl.Context.read_answered_partial",
    "Nbdl.Context.read_never_forwarded_violated",
    "Nbdl.Context.match_never_requests_violated",
    "Nbdl.Context.match_requests",
    "Nbdl.Context.placeholder_blocks_read_violated"
   ],
   "note": "Answering from the store is proved. Forwarding is refuted: with a map store no read request ever reaches the producer."
  },
  {
   "property": "C29",
   "status": "proved",
   "theorems": [
    "Nbdl.Context.init_order",
    "Nbdl.Context.actorsWith_spec"
   ],
   "note": ""
  },
  {
   "property": "C30",
   "status": "proved",
   "theorems": [
    "Nbdl.Delta.diff_patch",
    "Nbdl.Delta.full_patch",
    "Nbdl.Delta.diff_minimal",
    "Nbdl.Delta.apply_frame",
    "Nbdl.Delta.apply_idempotent",
    "Nbdl.Delta.apply_reports"
   ],
   "note": "Any number of members of any types."
  },
  {
   "property": "C31",
   "status": "proved",
   "theorems": [
    "Nbdl.Delta.delta_compose",
    "Nbdl.Delta.delta_monoid"
   ],
   "note": ""
  },
  {
   "property": "C32",
   "status": "proved",
   "theorems": [
    "Nbdl.Delta.no_flicker"
   ],
   "note": "Every in-order interleaving."
  },
  {
   "property": "C33",
   "status": "partial",
   "theorems": [
    "Nbdl.Delta.converges_partial",
    "Nbdl.Delta.rejected_change_stays_violated",
    "Nbdl.Delta.stale_pending_violated",
    "Nbdl.Delta.settled_exact",
    "Nbdl.Delta.converges_exact"
   ],
   "note": "Proved when confirmations write what was requested and the value is not replaced; refuted otherwise. settled_exact, converges_exact: exactly what is visible then, for all histories without a replacement."
  },
  {
   "property": "C34",
   "status": "partial",
   "theorems": [
    "Nbdl.Delta.local_reports_partial",
    "Nbdl.Delta.message_reports_violated"
   ],
   "note": "The two operations report exactly; apply_message drops their result."
  },
  {
   "property": "C35",
   "status": "proved",
   "theorems": [
    "Nbdl.Message.echo_update_delete",
    "Nbdl.Message.echo_create_full",
    "Nbdl.Message.echo_create_uid",
    "Nbdl.Message.echo_create_key",
    "Nbdl.Message.echo_read",
    "Nbdl.Message.echo_kind",
    "Nbdl.Message.private_stays",
    "Nbdl.Message.echo_answers",
    "Nbdl.Message.requires_key"
   ],
   "note": "Any combination of optional fields."
  },
  {
   "property": "C36",
   "status": "partial",
   "theorems": [
    "Nbdl.Message.accessors_partial",
    "Nbdl.Message.has_uid",
    "Nbdl.Message.kind_unique",
    "Nbdl.Message.private_payload_violated",
    "Nbdl.Message.has_private_payload_violated",
    "Nbdl.Message.read_confirmed_violated",
    "Nbdl.Message.private_payload_held"
   ],
   "note": "All fields but the private payload; the private payload accessor returns the uid, and is_confirmed of a read answer does not compile."
  },
  {
   "property": "C37",
   "status": "partial",
   "theorems": [
    "Nbdl.Message.keys_exact",
    "Nbdl.Message.keys_unique_partial",
    "Nbdl.Message.keys_independent",
    "Nbdl.Message.keys_collide_violated",
    "Nbdl.Message.keys_wrap_violated",
    "Nbdl.Message.keys_all_types_partial",
    "Nbdl.Message.keys_overflow_violated"
   ],
   "note": "Unique for each message type until the counter wraps or, for signed keys of the size of int or more, overflows with undefined behaviour; different message types for one path have separate counters and collide. keys_exact: the keys are all different and not 0 exactly if the creates are of one type and fewer than 2^w."
  },
  {
   "property": "C38",
   "status": "proved",
   "theorems": [
    "Nbdl.Hash.hash_leaves",
    "Nbdl.Hash.hash_equal",
    "Nbdl.Hash.combine_injective",
    "Nbdl.Hash.last_leaf_visited",
    "Nbdl.Hash.leaves_determine",
    "Nbdl.Hash.nesting_collides",
    "Nbdl.Hash.hashable_exact",
    "Nbdl.Hash.variant_not_hashable_violated"
   ],
   "note": "std::hash is a parameter. The digest is a fold over the leaf values, so equal values hash equally; for types without strings, buffers and containers the leaves determine the value, so every part is visited. Values of nbdl::variant and nbdl::optional cannot be hashed (does not compile)."
  },
  {
   "property": "C39",
   "status": "partial",
   "theorems": [
    "Nbdl.Bind.json_roundtrip_partial",
    "Nbdl.Bind.written_document_partial",
    "Nbdl.Bind.reader_complete_partial",
    "Nbdl.Bind.empty_container_violated",
    "Nbdl.Bind.nul_string_violated",
    "Nbdl.Bind.negative_enum_violated",
    "Nbdl.Bind.read_appends_violated"
   ],
   "note": "Exact characterisation of the values that survive: no empty container, no NUL in a string, no negative enumerator, no buffer of 2^29 bytes. The property as stated is violated for the others, with witnesses."
  },
  {
   "property": "C40",
   "status": "partial",
   "theorems": [
    "Nbdl.Bind.reader_exact",
    "Nbdl.Bind.reader_sound_partial",
    "Nbdl.Bind.reader_rejects_partial",
    "Nbdl.Bind.unknown_alternative_violated",
    "Nbdl.Bind.bad_base64_violated",
    "Nbdl.Bind.wrong_size_violated",
    "Nbdl.Bind.empty_accepts_violated",
    "Nbdl.Bind.nul_string_violated"
   ],
   "note": "reader_exact says exactly what is accepted. Sound for types made of numbers, strings, containers, non-empty sequences and records and documents without NUL; violated for variants with unknown index, buffers and empty classes."
  },
  {
   "property": "C41",
   "status": "partial",
   "theorems": [
    "Nbdl.Variant.variant_equal",
    "Nbdl.Variant.variant_equal_iff",
    "Nbdl.Variant.visit_first",
    "Nbdl.Variant.visit_exact",
    "Nbdl.Variant.visit_total",
    "Nbdl.Variant.match_by_type",
    "Nbdl.Variant.match_when",
    "Nbdl.Variant.mapped_overload",
    "Nbdl.Variant.make_optional_if",
    "Nbdl.Variant.is_exact",
    "Nbdl.Variant.made_holds",
    "Nbdl.Variant.made_matched",
    "Nbdl.Variant.made_twice",
    "Nbdl.Variant.conversion_wins_violated",
    "Nbdl.Variant.key_ignored_violated"
   ],
   "note": "Equality for all alternatives and values. Matching calls the first branch that accepts the held type, which is the branch of the held alternative when no earlier branch takes a type it converts to; otherwise violated with a witness."
  },
  {
   "property": "C42",
   "status": "partial",
   "theorems": [
    "Nbdl.Concat.length_text",
    "Nbdl.Concat.copy_text",
    "Nbdl.Concat.toString_text",
    "Nbdl.Concat.equal_text",
    "Nbdl.Concat.equal_whole",
    "Nbdl.Concat.text_assoc",
    "Nbdl.Concat.text_flatten",
    "Nbdl.Concat.makeView_text",
    "Nbdl.Concat.stringConcat_text",
    "Nbdl.Concat.view_text",
    "Nbdl.Concat.short_text_violated",
    "Nbdl.Concat.compare_exact",
    "Nbdl.Concat.compare_leaf_exact",
    "Nbdl.Concat.nesting_violated"
   ],
   "note": "Length, copies, conversion and nesting for all expressions; comparison for texts that are long enough, undefined for shorter ones. compare_exact, compare_leaf_exact: exactly which comparisons are defined and what they say; nesting does make a difference there (nesting_violated)."
  },
  {
   "property": "C43",
   "status": "proved",
   "theorems": [
    "Nbdl.Path.lookup_routes",
    "Nbdl.Path.action_routes",
    "Nbdl.Path.action_underlying",
    "Nbdl.Path.action_frame",
    "Nbdl.Path.action_report",
    "Nbdl.Path.range_lookup",
    "Nbdl.Path.layer_action_routes",
    "Nbdl.Path.layer_element_routes",
    "Nbdl.Path.layer_underlying",
    "Nbdl.Path.inner_element_unreachable_violated",
    "Nbdl.Path.range_hides_composed_violated"
   ],
   "note": "Every nesting of compositions: lookups and actions (a message is applied as an action) reach the outermost store bound to the key, else the underlying store, and change nothing else. The same for compositions and store_ranges (which compose an element with a store in the same way) around one another in any mix. Two violations for ranges: an element of an inner range cannot be reached by any action, and where a range and a composition inside it have the same key, a lookup shows the element while an action changes the composed store."
  },
  {
   "property": "C44",
   "status": "partial",
   "theorems": [
    "Nbdl.Path.get_path_append",
    "Nbdl.Path.match_path_append",
    "Nbdl.Path.match_path_get",
    "Nbdl.Path.match_path_opened",
    "Nbdl.Path.map_lookup",
    "Nbdl.Path.match_path_stepwise",
    "Nbdl.Path.match_path_opens",
    "Nbdl.Path.prefix_rejected_iff",
    "Nbdl.Path.rest_of_path_dropped_violated",
    "Nbdl.Path.nested_map_violated"
   ],
   "note": "get_path: proved. match_path: proved where the prefix lookup compiles, and for any prefix with the store it leads to, not opened (match_path_stepwise); prefix_rejected_iff says exactly when only the longer path can be looked up; a path that goes on after a plain value is silently cut short, and unordered maps inside unordered maps do not compile."
  },
  {
   "property": "C45",
   "status": "partial",
   "theorems": [
    "Nbdl.Route.round_trip_iff",
    "Nbdl.Route.round_trip_violated"
   ],
   "note": "The exact condition under which a route value survives the round trip is proved (an equivalence); empty strings, strings with slashes, zero and negative numbers do not, with witnesses."
  },
  {
   "property": "C46",
   "status": "partial",
   "theorems": [
    "Nbdl.Route.parse_exact",
    "Nbdl.Route.parse_safe",
    "Nbdl.Route.parse_not_found",
    "Nbdl.Route.overflow_accepted_violated",
    "Nbdl.Route.many_members_ub_violated"
   ],
   "note": "The texts that are accepted are characterised exactly (a slash at the end and leading zeros are tolerated), all others give route_not_found and nothing is read out of bounds if routes have at most nine members. Numbers that overflow are accepted, and a route with ten members reads out of bounds."
  },
  {
   "property": "C47",
   "status": "partial",
   "theorems": [
    "Nbdl.Dom.render_correct_partial",
    "Nbdl.Dom.render_exact",
    "Nbdl.Dom.render_right_iff",
    "Nbdl.Dom.loop_siblings_violated",
    "Nbdl.Dom.html_siblings_violated",
    "Nbdl.Dom.branch_concat_violated",
    "Nbdl.Dom.branch_noop_violated",
    "Nbdl.Dom.branch_noop_first_violated",
    "Nbdl.Dom.branch_attr_violated",
    "Nbdl.Dom.loop_erases_violated",
    "Nbdl.Dom.branch_empty_violated"
   ],
   "note": "What is rendered for any specification whatever is given exactly, without nodes (render_exact), and so exactly when it is what was specified (render_right_iff). Rendering the flat list appends exactly the trees of the nested specification, for specifications of a stated shape and states where every match has a branch; outside that shape the property fails, with proved witnesses (loops and HTML erase siblings, branches that are not single nodes)."
  },
  {
   "property": "C48",
   "status": "partial",
   "theorems": [
    "Nbdl.Dom.update_correct_partial",
    "Nbdl.Dom.update_shows_partial",
    "Nbdl.Dom.update_right_iff",
    "Nbdl.Dom.hidden_remembers_violated",
    "Nbdl.Dom.nested_branch_violated",
    "Nbdl.Dom.hidden_match_violated",
    "Nbdl.Dom.late_match_violated",
    "Nbdl.Dom.stale_text_violated",
    "Nbdl.Dom.twice_attr_violated"
   ],
   "note": "After any sequence of updates the element shows the trees of the last state, for the same specifications and states where the shown paths match; proved witnesses where it fails. update_shows_partial: what is shown after any updates, whether paths match or not, is the specification with paths that remember; update_right_iff: it is right just if the last value of every shown path is the present one. Missing: specifications of other shapes, for which the witnesses show failures."
  },
  {
   "property": "C49",
   "status": "partial",
   "theorems": [
    "Nbdl.Sql.insert_statement",
    "Nbdl.Sql.update_statement_partial",
    "Nbdl.Sql.select_statement_partial",
    "Nbdl.Sql.holes_sep",
    "Nbdl.Sql.criteria_not_conjunction_violated",
    "Nbdl.Sql.update_statement_exact",
    "Nbdl.Sql.select_statement_exact"
   ],
   "note": "The tokens of the statements are proved for any number of columns and keys: one placeholder for each value, in order. With two or more keys the WHERE clause of update and select separates the conditions with commas, which is not a conjunction (violation); with one key it is right (an equivalence: update_statement_exact, select_statement_exact)."
  },
  {
   "property": "C50",
   "status": "partial",
   "theorems": [
    "Nbdl.Sql.insert_entity_partial",
    "Nbdl.Sql.moved_key_violated",
    "Nbdl.Sql.insert_moved_exact",
    "Nbdl.Sql.insert_short_partial",
    "Nbdl.Sql.second_row_violated"
   ],
   "note": "Every tree, if moving from a key leaves it unchanged (integers), or if no container holds more than one element (insert_short_partial). For keys of every kind: which foreign key each row has (insert_moved_exact). The foreign key is forwarded as an rvalue for every element of a container, so keys such as strings are lost after the first element (moved_key_violated, and second_row_violated for every such kind of key)."
  },
  {
   "property": "C51",
   "status": "partial",
   "theorems": [
    "Nbdl.Mpdef.find_exact",
    "Nbdl.Mpdef.positions_determined",
    "Nbdl.Mpdef.settings_inherited",
    "Nbdl.Mpdef.group_exact",
    "Nbdl.Mpdef.firsts_exact",
    "Nbdl.Mpdef.append_if_filter",
    "Nbdl.Mpdef.collectors_independent",
    "Nbdl.Mpdef.double_setting_violated"
   ],
   "note": "Search, grouping and settings for all trees and lists; a setting that is made twice in one node is ignored, which is shown."
  },
  {
   "property": "C52",
   "status": "partial",
   "theorems": [
    "Nbdl.Def.access_points_exact",
    "Nbdl.Def.access_points_all_iff",
    "Nbdl.Def.access_points_sound",
    "Nbdl.Def.access_points_partial",
    "Nbdl.Def.access_point_lost_violated"
   ],
   "note": "Soundness, order and paths for every definition that compiles; completeness for definitions whose directives have their access points in one child. Others lose access points, with witnesses. Exactly: what is enumerated is what is reached from the root by looking into the only AccessPoints, or else the only AccessPoint, of each directive on the way."
  },
  {
   "property": "C53",
   "status": "partial",
   "theorems": [
    "Nbdl.Tiles.move_spec_partial",
    "Nbdl.Tiles.move_outside",
    "Nbdl.Tiles.move_permutes_partial",
    "Nbdl.Tiles.move_one_empty_partial",
    "Nbdl.Tiles.move_undo",
    "Nbdl.Tiles.corner_violated",
    "Nbdl.Tiles.tile_leaves_board_violated",
    "Nbdl.Tiles.reads_outside_violated",
    "Nbdl.Tiles.move_exact"
   ],
   "note": "All boards and places, except the lower left corner when it has no empty neighbour: there exactly what happens is proved (corner_violated): the tile leaves the board, or the array is read outside of its bounds. move_exact puts both into one equivalence."
  },
  {
   "property": "C54",
   "status": "partial",
   "theorems": [
    "Nbdl.Deser.answered_once_partial",
    "Nbdl.Deser.deserialize_serialize_partial",
    "Nbdl.Deser.answers",
    "Nbdl.Deser.unknown_index_once",
    "Nbdl.Deser.answered_twice_violated"
   ],
   "note": "JsonCpp's parser is a parameter. Once for every text that can be read; every other text is answered twice."
  },
  {
   "property": "C55",
   "status": "partial",
   "theorems": [
    "Nbdl.Address.find_spec",
    "Nbdl.Address.split_host_port_partial",
    "Nbdl.Address.split_no_port_partial",
    "Nbdl.Address.split_no_scheme",
    "Nbdl.Address.protocol_violated",
    "Nbdl.Address.ipv6_violated",
    "Nbdl.Address.split_exact",
    "Nbdl.Address.split_no_scheme_exact"
   ],
   "note": "Host and port are right when neither scheme nor host holds a colon; the protocol never is, and an IPv6 host is cut. split_exact, split_no_scheme_exact: exactly which host and port are found."
  },
  {
   "property": "C56",
   "status": "partial",
   "theorems": [
    "Nbdl.Params.unpack_build",
    "Nbdl.Params.unpack_exact",
    "Nbdl.Params.concat_assoc",
    "Nbdl.Params.state_lost_violated"
   ],
   "note": "All expressions of references, constants and concatenations; the state of a stateful value is lost, which is shown."
  },
  {
   "property": "C57",
   "status": "partial",
   "theorems": [
    "Nbdl.Endpoint.no_stall_partial",
    "Nbdl.Endpoint.early_close_stalls_violated",
    "Nbdl.Endpoint.stall_exact"
   ],
   "note": "Holds unless the close is requested before messaging starts (then it is never sent, proved). stall_exact: that is exactly when work is left lying."
  },
  {
   "property": "C58",
   "status": "partial",
   "theorems": [
    "Nbdl.Endpoint.end_to_end_partial",
    "Nbdl.Endpoint.end_to_end_exact",
    "Nbdl.Endpoint.end_to_end_violated",
    "Nbdl.Endpoint.queue_drains"
   ],
   "note": "What the peer's reader delivers is stated exactly for every schedule and every message; it is what was sent unless some length is a positive multiple of 125 (the C05 exception), and then a message is shown not to be delivered."
  },
  {
   "property": "C59",
   "status": "partial",
   "theorems": [
    "Nbdl.Endpoint.close_failure_ub_violated",
    "Nbdl.Endpoint.no_ub_partial",
    "Nbdl.Endpoint.failed_write_reported_partial",
    "Nbdl.Endpoint.usable_after_failure",
    "Nbdl.Endpoint.ub_exact"
   ],
   "note": "A failed write of the close frame uses a deleted object; proved to be the only such case in the endpoint model. ub_exact is an equivalence."
  },
  {
   "property": "C60",
   "status": "partial",
   "theorems": [
    "Nbdl.Handshake.client_keeps_data",
    "Nbdl.Handshake.server_drops_data_violated",
    "Nbdl.Handshake.server_drops_exact",
    "Nbdl.Session.session_rest"
   ],
   "note": "Holds on the client; on the server data arriving with the end of the request is dropped (proved): any number of bytes up to 254, exactly (server_drops_exact). Between a client and a server of the library nothing is dropped, since the client does not write before it has the response (session_rest)."
  },
  {
   "property": "C61",
   "status": "proved",
   "theorems": [
    "Nbdl.Handshake.server_answers"
   ],
   "note": "The auth token is whatever C17 describes."
  },
  {
   "property": "C62",
   "status": "partial",
   "theorems": [
    "Nbdl.Handshake.header_ub_iff",
    "Nbdl.Handshake.header_ub_violated"
   ],
   "note": "Exact set of lines with undefined behaviour: non-ASCII names, and the two known names without a colon."
  },
  {
   "property": "C63",
   "status": "proved",
   "theorems": [
    "Nbdl.Promise.nesting_irrelevant",
    "Nbdl.Promise.nesting_irrelevant'"
   ],
   "note": "Any tree of pipes."
  },
  {
   "property": "C64",
   "status": "proved",
   "theorems": [
    "Nbdl.Context.context_store_last",
    "Nbdl.Context.context_store_report",
    "Nbdl.Context.context_store_in_context",
    "Nbdl.Context.context_store_notified"
   ],
   "note": ""
  },
  {
   "property": "C65",
   "status": "partial",
   "theorems": [
    "Nbdl.Def.compiles_exact",
    "Nbdl.Def.lookup_exact",
    "Nbdl.Def.stores_exact",
    "Nbdl.Def.listeners_exact",
    "Nbdl.Def.consumers_exact_partial",
    "Nbdl.Def.consumers_all_iff",
    "Nbdl.Def.consumers_lost_violated"
   ],
   "note": "Producers, stores and listeners for every context that compiles. Consumers that are not in one Consumers directive are lost, which is shown; consumers_all_iff says exactly when none is."
  },
  {
   "property": "C66",
   "status": "proved",
   "theorems": [
    "Nbdl.Def.messages_exact",
    "Nbdl.Def.message_ids_stable",
    "Nbdl.Def.message_ids_by_access_point",
    "Nbdl.Def.message_types_distinct"
   ],
   "note": "For every list of producers; distinctness needs that no action is written twice in one access point (such a map is ambiguous in C++)."
  },
  {
   "property": "C67",
   "status": "partial",
   "theorems": [
    "Nbdl.Sql.columns_exact",
    "Nbdl.Sql.joins_exact",
    "Nbdl.Sql.joins_introduced",
    "Nbdl.Sql.aliases_distinct",
    "Nbdl.Sql.select_text_partial",
    "Nbdl.Sql.rows_refused",
    "Nbdl.Sql.flat_entity_violated",
    "Nbdl.Sql.nested_rows_ignored_violated"
   ],
   "note": "Columns, joins, order and aliases: proved for every nesting, with the exact text. Entities without nested entities do not compile, and one-to-many members of nested entities are silently left out (violations)."
  },
  {
   "property": "C68",
   "status": "partial",
   "theorems": [
    "Nbdl.Sql.update_complete",
    "Nbdl.Sql.update_nested",
    "Nbdl.Sql.update_accepted",
    "Nbdl.Sql.update_without_key_violated",
    "Nbdl.Sql.update_exact"
   ],
   "note": "Proved, except that the name of the key is not checked: the static assertion uses a comma operator where a conjunction was meant (violation). update_exact says exactly which updates are accepted."
  },
  {
   "property": "C69",
   "status": "proved",
   "theorems": [
    "Nbdl.Endpoint.nothing_before_start"
   ],
   "note": "Every sequence of inputs without start_messaging."
  },
  {
   "property": "C70",
   "status": "partial",
   "theorems": [
    "Nbdl.RawMsg.write_read_partial",
    "Nbdl.RawMsg.write_read_prefix_partial",
    "Nbdl.RawMsg.long_body_violated",
    "Nbdl.RawMsg.write_read_exact"
   ],
   "note": "Proved for bodies of less than 2^32 bytes; for every longer body the reader gets a different one (violation). write_read_exact: exactly those."
  },
  {
   "property": "C71",
   "status": "partial",
   "theorems": [
    "Nbdl.RawMsg.receive_correct",
    "Nbdl.RawMsg.send_receive_partial",
    "Nbdl.RawMsg.receive_all_partial",
    "Nbdl.RawMsg.receive_long_violated",
    "Nbdl.RawMsg.settled_once",
    "Nbdl.RawMsg.error_reported",
    "Nbdl.RawMsg.send_receive_exact"
   ],
   "note": "Proved for every stream. Composed with the writer for bodies of less than 2^32 bytes; no longer body is acted on as it was sent (violation). The JSON decoder is a parameter."
  },
  {
   "property": "C72",
   "status": "partial",
   "theorems": [
    "Nbdl.RawMsg.connect_attempts_violated",
    "Nbdl.RawMsg.connect_first_success_partial",
    "Nbdl.RawMsg.connect_bounded_partial",
    "Nbdl.RawMsg.connect_exact",
    "Nbdl.RawMsg.tries_violated"
   ],
   "note": "The number of tries is n + 1, not n (violation); the rest is proved with n + 1: which try succeeds, when it is rejected and when it still tries, exactly (connect_exact)."
  },
  {
   "property": "C73",
   "status": "partial",
   "theorems": [
    "Nbdl.Nav.set_route_partial",
    "Nbdl.Nav.set_route_exact",
    "Nbdl.Nav.set_not_found",
    "Nbdl.Nav.all_announced",
    "Nbdl.Nav.set_route_encoded_violated",
    "Nbdl.Nav.set_route_nul_violated"
   ],
   "note": "Proved for routes whose text is read back (C45) and is a plain URL path, with the assumption that browsers take plain paths as they are; with a character that browsers percent-encode the store holds another route, and with a NUL the text is cut there (violations). set_route_exact: in any browser, exactly when the route ends up in the address bar and both stores."
  },
  {
   "property": "C74",
   "status": "partial",
   "theorems": [
    "Nbdl.Nav.mirrors_partial",
    "Nbdl.Nav.mirrors_exact",
    "Nbdl.Nav.stores_agree",
    "Nbdl.Nav.all_announced",
    "Nbdl.Nav.set_text_stale_violated",
    "Nbdl.Nav.short_path_violated",
    "Nbdl.Nav.foreign_path_violated",
    "Nbdl.Nav.step_fails_partial"
   ],
   "note": "Proved as long as the program does not set the text itself; setting the text leaves the stores stale, an address shorter than the prefix crashes, an address outside the prefix is misread (violations). After a text was set the stores show the address bar exactly if they show this text already (mirrors_exact, for plain texts)."
  },
  {
   "property": "C75",
   "status": "partial",
   "theorems": [
    "Nbdl.Dsl.generated_function_does_what_source_says_partial",
    "Nbdl.Dsl.string_means_itself_iff",
    "Nbdl.Dsl.string_with_backslash_violated",
    "Nbdl.Dsl.string_with_quote_violated",
    "Nbdl.Dsl.clauses_of_one_type_violated"
   ],
   "note": "Proved for all descriptions whose strings hold no quote, backslash or line end and whose match clauses have types that exclude each other, in every world. The three violations show what goes wrong otherwise. The generated text is shown to be the text of a C++ tree, whose meaning is given by a small semantics; that the text is read as that tree is C112."
  },
  {
   "property": "C76",
   "status": "partial",
   "theorems": [
    "Nbdl.Dsl.compiler_takes_exactly",
    "Nbdl.Dsl.match_if_without_else_violated",
    "Nbdl.Dsl.match_cond_without_else_violated",
    "Nbdl.Dsl.noop_after_statement_violated",
    "Nbdl.Dsl.plain_condition_after_statement_violated"
   ],
   "note": "The accepted descriptions are characterised exactly. The property as stated fails: match-if and match-cond without else never compile, and noop or match-if on a plain condition is refused after another statement. Refusal by the MLIR verifier is modelled as described in Dsl/Model.lean."
  },
  {
   "property": "C77",
   "status": "proved",
   "theorems": [
    "Nbdl.StoreDef.store_implements",
    "Nbdl.StoreDef.store_no_use_after_move"
   ],
   "note": "For definitions by members. Text such as `arg_0 + 1` given as C++ text is opaque: that it does not mention a parameter is assumed. The generated text is taken to be read as the class tree whose text it is."
  },
  {
   "property": "C78",
   "status": "partial",
   "theorems": [
    "Nbdl.StoreDef.store_implements",
    "Nbdl.StoreDef.store_accepted_iff",
    "Nbdl.StoreDef.store_single_exact",
    "Nbdl.StoreDef.store_tag",
    "Nbdl.StoreDef.store_name_iff",
    "Nbdl.StoreDef.store_single_args_violated",
    "Nbdl.StoreDef.store_base_violated",
    "Nbdl.StoreDef.store_param_violated",
    "Nbdl.StoreDef.store_variant_member_violated",
    "Nbdl.StoreDef.store_name_violated"
   ],
   "note": "The positive part is proved for definitions by members, and of a single store or variant, with an unqualified name, and acceptance is characterised for all definitions. Violated by the code: arguments of a store on its own are dropped; a base parameter before members is dropped; a parameter as the store and a variant as a later member are undefined behaviour; a qualified name gives a wrong class name."
  },
  {
   "property": "C79",
   "status": "partial",
   "theorems": [
    "Nbdl.JsBind.js_roundtrip_partial",
    "Nbdl.JsBind.js_text_violated",
    "Nbdl.JsBind.js_nul_violated"
   ],
   "note": "Exactly the values whose strings are ASCII without NUL survive (strings are assumed to be UTF-8 text, buffers below 2^29 bytes). Writing decodes UTF-8, reading takes the low byte of each UTF-16 unit: any other letter is corrupted (violated), NUL cuts the string (violated)."
  },
  {
   "property": "C80",
   "status": "partial",
   "theorems": [
    "Nbdl.JsBind.to_server_partial",
    "Nbdl.JsBind.to_server_unsigned_violated",
    "Nbdl.JsBind.to_server_enum_violated"
   ],
   "note": "Exactly the values whose unsigned numbers are below 2^31, enumerators not negative and strings without NUL arrive. Unsigned numbers of 2^31 and more are sent as negative numbers and refused (violated); negative enumerators are refused (violated)."
  },
  {
   "property": "C81",
   "status": "partial",
   "theorems": [
    "Nbdl.JsBind.to_client_partial",
    "Nbdl.JsBind.to_client_text_violated",
    "Nbdl.JsBind.to_client_collide_violated",
    "Nbdl.JsBind.to_client_empty_violated"
   ],
   "note": "Exactly the values with ASCII strings and no empty container arrive. Other text is changed, different texts become equal (violated); an empty container is sent as null and the client raises an exception (violated)."
  },
  {
   "property": "C82",
   "status": "partial",
   "theorems": [
    "Nbdl.JsBind.js_null_refused_partial",
    "Nbdl.JsBind.js_refused_iff_partial",
    "Nbdl.JsBind.js_reader_accepts_violated",
    "Nbdl.JsBind.js_missing_member_violated",
    "Nbdl.JsBind.js_number_cut_violated",
    "Nbdl.JsBind.js_truth_violated",
    "Nbdl.JsBind.js_string_violated",
    "Nbdl.JsBind.js_container_violated",
    "Nbdl.JsBind.js_variant_violated",
    "Nbdl.JsBind.js_extra_elements_violated"
   ],
   "note": "Exactly looking for a part of null or undefined, or for a negative number of parts, raises an exception; everything else is accepted: missing members are zero, numbers are cut to 32 bits, wrong kinds are converted, extra elements and unknown alternatives ignored (violated)."
  },
  {
   "property": "C83",
   "status": "partial",
   "theorems": [
    "Nbdl.ClientJs.client_hears_exact",
    "Nbdl.ClientJs.client_hears",
    "Nbdl.ClientJs.client_hears_all",
    "Nbdl.ClientJs.client_busy_message_violated",
    "Nbdl.ClientJs.client_busy_close_violated"
   ],
   "note": "Proved for every history and for endpoints that handle each message at once, as the library's own client does. Violated for endpoints passed to client_endpoint_open that finish later: messages arriving meanwhile are lost, and an error or closing arriving meanwhile is never reported. Messages that are not JSON are skipped."
  },
  {
   "property": "C84",
   "status": "proved",
   "theorems": [
    "Nbdl.ClientJs.client_safe"
   ],
   "note": "For every endpoint, every history, and both rules for listeners removed during a dispatch. Assumed: full_duplex keeps an endpoint alive while it waits for a message."
  },
  {
   "property": "C85",
   "status": "partial",
   "theorems": [
    "Nbdl.JsVal.vals_independent_partial",
    "Nbdl.JsVal.vals_no_leak",
    "Nbdl.JsVal.val_fresh",
    "Nbdl.JsVal.vals_equal_partial",
    "Nbdl.JsVal.val_self_move_violated",
    "Nbdl.JsVal.vals_exact",
    "Nbdl.JsVal.self_move_exact"
   ],
   "note": "Proved for all sequences without a self-move: the table refines independent variables, and nothing leaks (the latter for all sequences). Violated by moving an object onto itself, which loses its value. vals_exact: all sequences, a self-move counting as storing undefined."
  },
  {
   "property": "C86",
   "status": "partial",
   "theorems": [
    "Nbdl.Server.broadcast_exact",
    "Nbdl.Server.broadcast_partial",
    "Nbdl.Server.broadcast_end_violated"
   ],
   "note": "Proved for all histories in which no connection is ended by the sending itself; if one is, it is erased from the vector being looped over, which is undefined behaviour (violated). Exactly when that happens is proved too."
  },
  {
   "property": "C87",
   "status": "partial",
   "theorems": [
    "Nbdl.Server.accept_exact",
    "Nbdl.Server.accept_half_violated",
    "Nbdl.Server.accept_first_partial",
    "Nbdl.Server.accept_after_silent_partial",
    "Nbdl.Server.accept_after_bad_partial",
    "Nbdl.Server.accept_silent_violated",
    "Nbdl.Server.accept_one_violated",
    "Nbdl.Server.accept_second_violated",
    "Nbdl.Server.accept_leftover_violated"
   ],
   "note": "The first client is served, in whatever pieces its request comes; so is the first after any number that came and went without a word, and the one after a client whose request is refused with nothing left over. Violated for the others: a silent client blocks the loop for ever; the second request is read into the object holding the first (undefined in boost::beast); bytes left after an error, or by a client that hung up in the middle of its request, are taken for the next client's. accept_exact: without errors of the parser, the client served is exactly the one with the first request, clients taken in order, each only when those before it have hung up."
  },
  {
   "property": "C88",
   "status": "partial",
   "theorems": [
    "Nbdl.Server.js_server_partial",
    "Nbdl.Server.js_server_exact",
    "Nbdl.Server.js_server_all_iff",
    "Nbdl.Server.js_server_close_violated",
    "Nbdl.Server.js_server_json_violated"
   ],
   "note": "For every history in which all that is sent is JSON, exactly who gets a message is proved (js_server_exact), and that all who are there get it if and only if no connection closed by its client comes before one of them (js_server_all_iff). The property as stated is proved while no client closes its connection or sends what is not JSON. Violated: a connection closed by its client stays in the list and sending to it throws, so later connections get nothing any more; a message that is not JSON ends the process."
  },
  {
   "property": "C89",
   "status": "partial",
   "theorems": [
    "Nbdl.UiPath.path_found_partial",
    "Nbdl.UiPath.get_means",
    "Nbdl.UiPath.get_of_means",
    "Nbdl.UiPath.match_when_means",
    "Nbdl.UiPath.path_found_exact",
    "Nbdl.UiPath.path_right_iff",
    "Nbdl.UiPath.path_key_violated",
    "Nbdl.UiPath.path_void_violated"
   ],
   "note": "What is found for any path whatever: path_found_exact, and exactly when it is right: path_right_iff. Proved for every path in which keys after a match_when are not looked up. Violated there: such keys are looked up in the value reached so far, not in the store (path_key_violated)."
  },
  {
   "property": "C90",
   "status": "partial",
   "theorems": [
    "Nbdl.UiPath.params_found_partial",
    "Nbdl.UiPath.match_alternative",
    "Nbdl.UiPath.params_found_exact",
    "Nbdl.UiPath.params_right_iff",
    "Nbdl.UiPath.match_default_violated",
    "Nbdl.UiPath.branch_missing_violated",
    "Nbdl.UiPath.branch_undefined_violated"
   ],
   "note": "What is found for any list whatever: params_found_exact, and exactly when it is right: params_right_iff. Proved for every list whose branches have a value at their path. Violated: the default alternative of match gets a path narrowed to void, at which nothing is found (match_default_violated); a branch on a path without a value uses -1 as the number of the alternative (branch_missing_violated)."
  },
  {
   "property": "C91",
   "status": "partial",
   "theorems": [
    "Nbdl.UiPath.concat_text_partial",
    "Nbdl.UiPath.concat_text_exact",
    "Nbdl.UiPath.concat_values_partial",
    "Nbdl.UiPath.concat_apply_violated"
   ],
   "note": "The text for any list whatever: concat_text_exact. Proved for all lists without apply, under the same condition as C90; apply has a value but params_concat has no case for it (violation)."
  },
  {
   "property": "C92",
   "status": "partial",
   "theorems": [
    "Nbdl.WsApi.reported_partial",
    "Nbdl.WsApi.reported_exact",
    "Nbdl.WsApi.open_exact",
    "Nbdl.WsApi.destroyed_violated",
    "Nbdl.WsApi.token_violated"
   ],
   "note": "Exactly when a destroyed endpoint is used is proved for all histories, and that otherwise all is reported (reported_exact). Proved for every history in which the endpoint is destroyed, if at all, after the connection was closed. Violated: destroyed earlier, it stays registered and is used (destroyed_violated); the token is never sent (token_violated)."
  },
  {
   "property": "C93",
   "status": "partial",
   "theorems": [
    "Nbdl.WsApi.open_exact",
    "Nbdl.WsApi.values_arrive",
    "Nbdl.WsApi.reported_partial",
    "Nbdl.WsApi.send_early_violated"
   ],
   "note": "Proved while the connection is open. Violated before: the call throws and nothing is kept (send_early_violated)."
  },
  {
   "property": "C94",
   "status": "partial",
   "theorems": [
    "Nbdl.WsApi.send_bytes_violated",
    "Nbdl.WsApi.receive_bytes_violated",
    "Nbdl.WsApi.receive_text_violated"
   ],
   "note": "Violated for all payloads: the whole memory of the program is sent, the vector received is always empty, and the first text is written past the end of its memory. No positive part holds."
  },
  {
   "property": "C95",
   "status": "partial",
   "theorems": [
    "Nbdl.Events.handlers_partial",
    "Nbdl.Events.handlers_exact",
    "Nbdl.Events.fixed_handlers",
    "Nbdl.Events.loop_send_violated",
    "Nbdl.Events.nested_event_violated"
   ],
   "note": "For every history exactly when something destroyed is used and what each handler sees is proved (handlers_exact). The property holds, proved, for all histories in which a handler inside a loop does nothing more after sending and no event reaches a handler that is running; without restriction for handlers outside of loops. Both exceptions are violations with proofs."
  },
  {
   "property": "C96",
   "status": "proved",
   "theorems": [
    "Nbdl.JsPromise.captured",
    "Nbdl.JsPromise.c_func"
   ],
   "note": "For all lists of names for which the macros are defined."
  },
  {
   "property": "C97",
   "status": "partial",
   "theorems": [
    "Nbdl.JsPromise.delivered_partial",
    "Nbdl.JsPromise.settles_once_exact",
    "Nbdl.JsPromise.own_calls_exact",
    "Nbdl.JsPromise.released_violated",
    "Nbdl.JsPromise.settles_once_violated"
   ],
   "note": "Proved: nothing deleted is used and every call is delivered to its own run. Violated: the pointer to delete is captured before it is assigned, so no callbacks are ever released (released_violated); a second call of a callback settles the pipeline again (settles_once_violated); a history settles every run at most once exactly if its callbacks are called at most once (settles_once_exact)."
  },
  {
   "property": "C98",
   "status": "partial",
   "theorems": [
    "Nbdl.Uid.all_bits",
    "Nbdl.Uid.in_order",
    "Nbdl.Uid.equal_hash",
    "Nbdl.Uid.sharing_violated"
   ],
   "note": "Proved except uniqueness, which is violated: the engine is seeded with 32 bits, so of 2^32+1 generators two yield the same identifiers forever (sharing_violated)."
  },
  {
   "property": "C99",
   "status": "partial",
   "theorems": [
    "Nbdl.Uid.browser_partial",
    "Nbdl.Uid.browser_reaches",
    "Nbdl.Uid.browser_violated"
   ],
   "note": "Proved for numbers less than 1 - 2^-25. Violated exactly for the others: they are one as a float, and the conversion of 256 to uint8_t is undefined (browser_violated)."
  },
  {
   "property": "C100",
   "status": "partial",
   "theorems": [
    "Nbdl.HoldLazy.kept_exact",
    "Nbdl.HoldLazy.loop_exact",
    "Nbdl.HoldLazy.kept_partial",
    "Nbdl.HoldLazy.resolves_now_violated",
    "Nbdl.HoldLazy.loop_leaks_violated",
    "Nbdl.HoldLazy.fires_twice_violated"
   ],
   "note": "Proved for pipelines of run_async whose functions resolve after their value is made, and once. Violated otherwise: resolving before returning uses the deleted pipeline (resolves_now_violated); loops and repeated resolutions overwrite a held value without destroying it (loop_leaks_violated, fires_twice_violated). kept_exact and loop_exact say exactly which pipelines keep their values."
  },
  {
   "property": "C101",
   "status": "partial",
   "theorems": [
    "Nbdl.MakeContext.own_argument",
    "Nbdl.MakeContext.any_order",
    "Nbdl.MakeContext.different_exact",
    "Nbdl.MakeContext.accepted_exact",
    "Nbdl.MakeContext.unknown_exact",
    "Nbdl.MakeContext.unknown_name_violated",
    "Nbdl.MakeContext.same_type_violated"
   ],
   "note": "Proved: own argument, any order. Violated: the assertion against unknown names is disabled (unknown_name_violated); actors of the same type without names share one argument (same_type_violated). Two actors can be given different arguments exactly if their names differ (different_exact), arguments are accepted exactly if no name is given twice (accepted_exact), and one is dropped exactly if no actor has its name (unknown_exact)."
  },
  {
   "property": "C102",
   "status": "partial",
   "theorems": [
    "Nbdl.ApiSig.text_written",
    "Nbdl.ApiSig.signature_is_digest",
    "Nbdl.ApiSig.same_text_same_wire_partial",
    "Nbdl.ApiSig.same_wire_exact",
    "Nbdl.ApiSig.signable_iff_violated",
    "Nbdl.ApiSig.buffer_size_violated"
   ],
   "note": "Proved: the signature is SHA-1 of the printed name, and equal names mean the same wire format exactly if the sizes of fixed buffers agree (same_wire_exact, for sizes below 2^29). Violated: types with entities or enumerations have no signature (signable_iff_violated); the size of a fixed buffer is not part of it (buffer_size_violated)."
  },
  {
   "property": "C103",
   "status": "proved",
   "theorems": [
    "Nbdl.PathPromise.path_resolves",
    "Nbdl.PathPromise.path_rejects",
    "Nbdl.PathPromise.path_then_catch"
   ],
   "note": "For all stores of Verif/Path. A lookup that does not compile is outside of the hypotheses."
  },
  {
   "property": "C104",
   "status": "partial",
   "theorems": [
    "Nbdl.DeserJs.server_to_browser_partial",
    "Nbdl.DeserJs.browser_to_server_partial",
    "Nbdl.DeserJs.system_message_partial",
    "Nbdl.DeserJs.browser_answers",
    "Nbdl.DeserJs.browser_no_answer_violated",
    "Nbdl.DeserJs.answered_exact"
   ],
   "note": "Exactly the messages whose strings are ASCII and containers not empty arrive in the browser, and exactly those with small unsigned numbers, enumerators that are not negative and no NUL on the server. Violated: an exception while reading leaves the browser without any answer, as for every empty container (browser_no_answer_violated); what happens to the other messages is C80 and C81. answered_exact: exactly which documents are answered in the browser. system_message_partial: system messages arrive as errors with this message, under the same conditions."
  },
  {
   "property": "C105",
   "status": "partial",
   "theorems": [
    "Nbdl.Replica.founder_follows_partial",
    "Nbdl.Replica.founder_catches_up_partial",
    "Nbdl.Replica.late_follows_partial",
    "Nbdl.Replica.settled_paths_agree",
    "Nbdl.Replica.existing_never_shown_violated",
    "Nbdl.Replica.late_answer_violated",
    "Nbdl.Replica.agrees_exact"
   ],
   "note": "Stores are map stores, and connections deliver whole messages in order (assumed). Proved for clients which join while the server shows nothing; for the others up to paths at which they show nothing, if no answer to a read is late, and exactly at paths created, updated or deleted since; agrees_exact says exactly at which paths any client that has caught up shows what the server shows. Violated: what there was before a client joined is never shown to it, whatever it asks (existing_never_shown_violated); a late answer to a read makes it show a value the server does not (late_answer_violated)."
  },
  {
   "property": "C106",
   "status": "proved",
   "theorems": [
    "Nbdl.Replica.requests_forwarded"
   ],
   "note": "Stores are map stores, and connections deliver whole messages in order (assumed). Requests to read are not passed on at all, see C28 and C105."
  },
  {
   "property": "C107",
   "status": "partial",
   "theorems": [
    "Nbdl.Macros.entity_declared_partial",
    "Nbdl.Macros.entity_exact",
    "Nbdl.Macros.ids_in_order_partial",
    "Nbdl.Macros.ids_exact",
    "Nbdl.Macros.ids_many_violated",
    "Nbdl.Macros.entity_many_violated",
    "Nbdl.Macros.entity_empty",
    "Nbdl.Macros.entity_comma_violated"
   ],
   "note": "Proved for one member or more exactly if there are at most 62 (entity_exact; 61 for the numbers, ids_exact) and names with commas only inside of parentheses. Violated: an entity with more members does not compile (entity_many_violated, ids_many_violated); a comma in the name of the record makes a member of its second half (entity_comma_violated)."
  },
  {
   "property": "C108",
   "status": "partial",
   "theorems": [
    "Nbdl.Macros.keys_declared_partial",
    "Nbdl.Macros.keys_exact",
    "Nbdl.Macros.with_map_exact",
    "Nbdl.Macros.metastruct_many_violated",
    "Nbdl.Macros.make_unchecked_violated"
   ],
   "note": "Pairs: proved exactly. Keys: proved for one or more exactly if there are at most 63 (keys_exact), more do not compile (metastruct_many_violated). The number of values given in order is not checked (make_unchecked_violated)."
  },
  {
   "property": "C109",
   "status": "partial",
   "theorems": [
    "Nbdl.Link.conversation_sane",
    "Nbdl.Link.conversation_in_order_partial",
    "Nbdl.Link.conversation_delivered_partial",
    "Nbdl.Link.conversation_in_order_exact",
    "Nbdl.Link.conversation_delivered_exact",
    "Nbdl.Link.conversation_lost_violated"
   ],
   "note": "Proved for messages whose lengths are not positive multiples of 125 (see C05); others are lost or glued to the next one (conversation_lost_violated; conversation_in_order_exact and conversation_delivered_exact say what is handed over for all lengths). Everything is delivered as long as no write fails, nobody closes and nobody stops. That nothing is undefined is unconditional for what the reader gets, and else needs that no write of a close frame fails (see C59). The network keeps the order of octets (assumed)."
  },
  {
   "property": "C110",
   "status": "partial",
   "theorems": [
    "Nbdl.Link.both_closed_partial",
    "Nbdl.Link.no_close_unasked",
    "Nbdl.Link.notes_in_order_partial",
    "Nbdl.Link.close_overtakes_violated",
    "Nbdl.Link.close_delivers_exact",
    "Nbdl.Endpoint.nothing_new_after_close",
    "Nbdl.Endpoint.written_after_close_exact"
   ],
   "note": "Both are told if no write fails and both endpoints were started before being closed and never stopped (see C57 for the others). Violated: the close frame overtakes messages that are still queued, which are then lost (close_overtakes_violated); close_delivers_exact: exactly those reach the other user that were written or being written when send_close was called."
  },
  {
   "property": "C111",
   "status": "partial",
   "theorems": [
    "Nbdl.Link.conversation_settles",
    "Nbdl.Link.settled_outcome_exact",
    "Nbdl.Link.settled_outcome_partial",
    "Nbdl.Link.settled_lost_violated"
   ],
   "note": "The number of things left to do is bounded for every history in which no write failed. The outcome is stated exactly if the connection is not lost; a message of 125 bytes is not delivered (violation, the C05 exception)."
  },
  {
   "property": "C112",
   "status": "partial",
   "theorems": [
    "Nbdl.Reader.generated_text_reads_as_described_partial",
    "Nbdl.Reader.same_text_same_meaning_partial",
    "Nbdl.Reader.symbol_captured_violated",
    "Nbdl.Reader.member_of_number_violated",
    "Nbdl.Reader.quote_in_text_violated",
    "Nbdl.Reader.string_adds_call_violated"
   ],
   "note": "Proved, with a tokenizer and a parser for the part of C++ that is generated, for descriptions whose symbols are (qualified) names other than arg_0, get_1, ..., whose types are written without superfluous blanks, whose strings hold no quote, backslash or line end, and which call no number and no member of a number. The violations show what happens otherwise: a symbol is taken for a parameter, 5.put( is one token, a string with quotes makes the text no C++ or adds a call to it. The reader is a specification of C++, not code of the repository."
  },
  {
   "property": "C113",
   "status": "partial",
   "theorems": [
    "Nbdl.App.same_as_messages_partial",
    "Nbdl.App.json_founder_follows_partial",
    "Nbdl.App.json_settled_paths_agree_partial",
    "Nbdl.App.json_agrees_partial",
    "Nbdl.App.json_requests_forwarded_partial",
    "Nbdl.App.browser_text_violated",
    "Nbdl.App.browser_key_violated",
    "Nbdl.App.native_nul_violated"
   ],
   "note": "Proved for messages which the connection keeps, by the conditions of C39, C80 and C81, and stores that are map stores. Violated: a browser shows other text than the server unless it is ASCII (browser_text_violated), its requests for keys of 2^31 or more are lost (browser_key_violated), and texts are cut at a NUL (native_nul_violated). What C105 does not give is missing here too."
  },
  {
   "property": "C114",
   "status": "partial",
   "theorems": [
    "Nbdl.Alias.alias_copy_partial",
    "Nbdl.Alias.alias_forwards",
    "Nbdl.Alias.alias_const_rvalue_violated",
    "Nbdl.Alias.fixed_never_copied",
    "Nbdl.Alias.members_copy_partial",
    "Nbdl.Alias.members_forwards",
    "Nbdl.Alias.members_refuses",
    "Nbdl.Alias.members_one_param_violated",
    "Nbdl.Alias.named_copy",
    "Nbdl.Alias.named_forwards",
    "Nbdl.Alias.named_base_violated",
    "Nbdl.Alias.named_no_conversion",
    "Nbdl.Alias.assign_other_partial",
    "Nbdl.Alias.assign_value_violated",
    "Nbdl.Alias.assign_alias_violated",
    "Nbdl.Alias.alias_copy_exact",
    "Nbdl.Alias.members_copy_exact",
    "Nbdl.Alias.assign_exact"
   ],
   "note": "The rules of C++ for overloads are modelled as far as they matter here. Violated: a const rvalue of an alias is handed on instead of copied; so is every variable of a generated class with one parameter (members_one_param_violated); an alias can be assigned neither a value of its type nor an alias. The exact conditions are alias_copy_exact, members_copy_exact and assign_exact."
  },
  {
   "property": "C115",
   "status": "partial",
   "theorems": [
    "Nbdl.ClassReader.class_text_reads_partial",
    "Nbdl.ClassReader.alias_text_reads_partial",
    "Nbdl.ClassReader.tag_text_reads_partial",
    "Nbdl.ClassReader.same_text_same_store_partial",
    "Nbdl.ClassReader.captured_parameter_violated",
    "Nbdl.ClassReader.comma_argument_violated",
    "Nbdl.ClassReader.no_class_violated"
   ],
   "note": "Proved, with a tokenizer and a parser for the part of C++ that is generated, for definitions whose names are distinct words other than those made up, whose types are (qualified) names with or without template arguments, whose strings hold no quote, backslash or line end, and whose other C++ text has commas only inside of brackets, mentions no parameter and is written without superfluous blanks. The violations show what happens otherwise: text that is the name made up for a parameter uses it after it was moved from, a comma makes two arguments of one, and equal names or a quote make the text no class. A parameter before the members leaves no trace (C78) and is left out here. The reader is a specification of C++, not code of the repository."
  },
  {
   "property": "C116",
   "status": "proved",
   "theorems": [
    "Nbdl.Nested.calls_so_far",
    "Nbdl.Nested.each_push_is_carried_out",
    "Nbdl.Nested.each_listener_is_shown",
    "Nbdl.Nested.each_mark_is_made_known",
    "Nbdl.Nested.each_submit_is_carried_out",
    "Nbdl.Nested.numbered"
   ],
   "note": "For stores whose apply_message tells statically that it does nothing only if so (Lawful). The calls a message should lead to are given by writeCalls and readCalls of Nested/Spec.lean."
  },
  {
   "property": "C117",
   "status": "proved",
   "theorems": [
    "Nbdl.Nested.history",
    "Nbdl.Nested.as_if_one_after_the_other"
   ],
   "note": "effect (Nested/Spec.lean) applies the messages, and the notifications of listening stores, in the order of the history."
  },
  {
   "property": "C118",
   "status": "partial",
   "theorems": [
    "Nbdl.Nested.consumer_order_partial",
    "Nbdl.Nested.consumer_order_violated",
    "Nbdl.Nested.consumer_order_exact",
    "Nbdl.Nested.consumer_order_iff"
   ],
   "note": "Proved if no state consumer pushes when notified and no consumer declared earlier pushes when it is sent a message. Violated otherwise: a consumer that answers a message by another makes the consumers after it get the answer first (consumer_order_violated). Exactly: with map stores a consumer gets its messages in order whatever the actors do just if there is no state consumer and it is the first consumer (consumer_order_exact); and in each execution that ends the order is kept just if no message for the consumer is pushed before it has got the ones pushed earlier (consumer_order_iff)."
  },
  {
   "property": "C119",
   "status": "proved",
   "theorems": [
    "Nbdl.Nested.state_consumers_told",
    "Nbdl.Nested.mapOps_honest",
    "Nbdl.Nested.contextStoreOps_honest"
   ],
   "note": "For stores that report and mark changes when they make them (Honest), among them map stores and context stores with a single path."
  },
  {
   "property": "C120",
   "status": "partial",
   "theorems": [
    "Nbdl.Nested.match_shows_current_partial",
    "Nbdl.Nested.match_shows_current_violated",
    "Nbdl.Nested.match_current_exact",
    "Nbdl.Nested.askingOps_honest"
   ],
   "note": "Proved if those who are called for the read request do not push. Violated by a producer that answers at once: the callback is handed unresolved after the value has arrived and been shown. match_current_exact: for a type no store listens to, it holds whatever the actors do just if the store need not be asked, or nobody is called for the read request (map stores are so, C28)."
  },
  {
   "property": "C121",
   "status": "partial",
   "theorems": [
    "Nbdl.Nested.listener_order_partial",
    "Nbdl.Nested.listener_order_iff",
    "Nbdl.Nested.listener_order_lost",
    "Nbdl.Nested.listener_order_violated",
    "Nbdl.Nested.listener_order_echo_violated"
   ],
   "note": "Exactly, for all actors and programs: the order is kept if and only if no message of the type is pushed before the store has been shown the ones pushed earlier (listener_order_iff); once one was, the order is lost for good (listener_order_lost). In particular it is kept if no actor pushes messages of the type while it is called. Violated otherwise: the listening store is shown the nested message first and is left with the older value. It happens in every context with a listening store and the echo producer: the request is shown after the change it led to (listener_order_echo_violated)."
  },
  {
   "property": "C122",
   "status": "partial",
   "theorems": [
    "Nbdl.Nested.comes_to_rest_partial",
    "Nbdl.Nested.comes_to_rest_iff",
    "Nbdl.Nested.echo_descending",
    "Nbdl.Nested.comes_to_rest_violated",
    "Nbdl.Nested.never_rests_violated"
   ],
   "note": "Exactly: everything comes to an end if and only if finitely many messages are pushed (comes_to_rest_iff). Proved under a rank that answers lower, which echo producers respect. Without one a consumer that answers each update by an update never returns, and in every context a producer that answers each request by the same request does not (never_rests_violated)."
  },
  {
   "property": "C123",
   "status": "proved",
   "theorems": [
    "Nbdl.Nested.echo_applies"
   ],
   "note": "Echo producers for requests with a complete path, see Nested.echo; the calls made are those of C116."
  },
  {
   "property": "C124",
   "status": "partial",
   "theorems": [
    "Nbdl.Page.page_follows_partial",
    "Nbdl.Page.page_right_iff",
    "Nbdl.Page.page_awaited_violated",
    "Nbdl.Page.page_deleted_violated"
   ],
   "note": "Proved for specifications for which updates work (C48), whose content depends on the values in the stores only, and stores that report changes (C119). Violated by pages that tell what is not there from what has been requested: the placeholder is not made known (page_awaited_violated), and by texts whose value has been deleted (page_deleted_violated). page_right_iff: the page is right just if the last value of every shown path is the present one. A renderer cannot render when the context makes it, see C125: the page is taken to be rendered once the stores exist."
  },
  {
   "property": "C125",
   "status": "partial",
   "theorems": [
    "Nbdl.Page.make_partial",
    "Nbdl.Page.looks_not",
    "Nbdl.Page.looks_exact",
    "Nbdl.Page.make_violated"
   ],
   "note": "Proved if no constructor uses the handle and pages of renderers among the actors have no paths. Violated otherwise: the member actors is declared before stores, so that a renderer, which renders its page in its constructor, looks at stores that do not exist yet (undefined behaviour)."
  },
  {
   "property": "C126",
   "status": "partial",
   "theorems": [
    "Nbdl.Refs.value_kept_partial",
    "Nbdl.Refs.value_kept_exact",
    "Nbdl.Refs.reference_follows",
    "Nbdl.Refs.reference_exact",
    "Nbdl.Refs.apply_values",
    "Nbdl.Refs.value_kept_violated"
   ],
   "note": "Proved for messages that neither set nor delete the value at this path; value_kept_exact says exactly for which messages it holds, reference_follows and reference_exact what the reference refers to after any messages. Violated by others: an update changes the value under the callback, and after a delete, or after the entity became not_found, the reference dangles (undefined behaviour)."
  },
  {
   "property": "C127",
   "status": "partial",
   "theorems": [
    "Nbdl.Lifetime.destroyed_iff",
    "Nbdl.Lifetime.refines",
    "Nbdl.Lifetime.kept_partial",
    "Nbdl.Lifetime.let_go_partial",
    "Nbdl.Lifetime.let_go_over_partial",
    "Nbdl.Lifetime.used_after_exact",
    "Nbdl.Lifetime.safe_exact",
    "Nbdl.Lifetime.handshake_violated",
    "Nbdl.Lifetime.handler_violated",
    "Nbdl.Lifetime.closed_violated",
    "Nbdl.Lifetime.peer_closes_violated"
   ],
   "note": "Destroyed exactly when the user, the reader and the sender of messages are done. Not used afterwards if the user keeps the pointer, or if they let go after the handshake and nobody closes the connection. Violated if the pointer is let go of during the handshake, or while a close frame is being written after the reader has ended: those operations use the endpoint without owning it. After it was destroyed it is used exactly if one of these was under way and ends (used_after_exact, safe_exact)."
  },
  {
   "property": "C128",
   "status": "partial",
   "theorems": [
    "Nbdl.SqlDb.store_fetch_partial",
    "Nbdl.SqlDb.fetch_stored",
    "Nbdl.SqlDb.store_keyed",
    "Nbdl.SqlDb.columns_distinct",
    "Nbdl.SqlDb.column_clash_violated",
    "Nbdl.SqlDb.store_exact",
    "Nbdl.SqlDb.store_fetch_exact",
    "Nbdl.SqlDb.insert_miscounted"
   ],
   "note": "The text of the statements is read and evaluated by a small model of SQL (words, inner joins, one condition). Proved for every nesting and every content of the tables, if the columns of a table have different names, and the entity has a nested entity (one without cannot be selected, C67) and no one-to-many members of its own (refused). Violated by a plain member foo_id next to a nested entity foo: both use one column, and the insert fails. Exactly (store_exact, store_fetch_exact): with names that C++ identifiers can be and no column with the name of the primary key, the statements are accepted just if every table has a column and no two with the same name, and the entity is read back just if, besides, it has a nested entity, no one-to-many members of its own and a plain member somewhere."
  },
  {
   "property": "C129",
   "status": "partial",
   "theorems": [
    "Nbdl.SqlDb.update_partial",
    "Nbdl.SqlDb.update_exact",
    "Nbdl.SqlDb.wrong_key_violated",
    "Nbdl.SqlDb.several_keys_violated"
   ],
   "note": "Proved for one key that has the name of the primary key, and exactly then (update_exact). Violated otherwise: the assertion in update only looks at the type of the key, so that a primary key under the name of another column is accepted and another row is changed; with several keys the text is not SQL (C49)."
  },
  {
   "property": "C130",
   "status": "proved",
   "theorems": [
    "Nbdl.Optimist.idle_agrees",
    "Nbdl.Optimist.server_carries",
    "Nbdl.Optimist.unconfirmed_agrees"
   ],
   "note": "Proved for every history; also without confirmations (unconfirmed_agrees), except that the client then never stops waiting (unconfirmed_waits_violated, C131)."
  },
  {
   "property": "C131",
   "status": "partial",
   "theorems": [
    "Nbdl.Optimist.own_member_partial",
    "Nbdl.Optimist.own_change_exact",
    "Nbdl.Optimist.foreign_change_shows_violated",
    "Nbdl.Optimist.unconfirmed_flickers_violated",
    "Nbdl.Optimist.unconfirmed_waits_violated"
   ],
   "note": "Proved for members which nobody else changes, whatever happens to the other members; own_change_exact: a change stays on the screen exactly if nothing else is heard about this member from others, in every history. Violated if another client changes the same member: its older change shows in between. Violated if the server does not mark its messages as confirmed, as echo_producer does: each answer is taken for a new local change, undoes newer ones, and its uid is never given up."
  },
  {
   "property": "C132",
   "status": "proved",
   "theorems": [
    "Nbdl.Async.async_agrees",
    "Nbdl.Async.run_append",
    "Nbdl.Async.ends_once",
    "Nbdl.Async.one_at_a_time"
   ],
   "note": "For every pipeline in which nothing but functions of try_ throws (see C133 for the others), compared with the model of C21."
  },
  {
   "property": "C133",
   "status": "partial",
   "theorems": [
    "Nbdl.Async.thrown_handled_partial",
    "Nbdl.Async.handled_origin",
    "Nbdl.Async.unguarded_crashes",
    "Nbdl.Async.unguarded_tap_crashes",
    "Nbdl.Async.exception_takes_all",
    "Nbdl.Async.exact_type_violated",
    "Nbdl.Async.foreign_type_violated"
   ],
   "note": "try_ rejects with the static type std::exception, or runtime_error: the first handler for that type is called, one for the exact type is passed over (violation). Other functions that throw end the process."
  },
  {
   "property": "C134",
   "status": "partial",
   "theorems": [
    "Nbdl.Pipes.server_sees_partial",
    "Nbdl.Pipes.quiet_outcome_partial",
    "Nbdl.Pipes.all_acted_partial",
    "Nbdl.Pipes.gave_up",
    "Nbdl.Pipes.done_iff",
    "Nbdl.Pipes.ends_exact",
    "Nbdl.Pipes.always_ends_exact",
    "Nbdl.Pipes.busy_bound",
    "Nbdl.Pipes.quiet_reached",
    "Nbdl.Pipes.gave_up_violated",
    "Nbdl.Pipes.unsettled_violated"
   ],
   "note": "For bodies of less than 2^32 bytes (C70). The process does not end if the client gives up, or cannot encode a message: the server waits for ever (violation); if the connection is made and holds it ends exactly if what can be sent settles the server's pipeline (ends_exact, always_ends_exact)."
  },
  {
   "property": "C135",
   "status": "partial",
   "theorems": [
    "Nbdl.Cond.expand_means",
    "Nbdl.Cond.generated_cond_partial",
    "Nbdl.Cond.last_call_means",
    "Nbdl.Cond.generated_last_call_partial",
    "Nbdl.Cond.arrow_visit_violated",
    "Nbdl.Cond.only_violated",
    "Nbdl.Cond.arrow_noop_violated",
    "Nbdl.Cond.arrow_late_violated"
   ],
   "note": "Proved down to the generated C++ for clauses with results or with an arrow after a path, with a call alone allowed as the last clause, and stores in which a path leads to the same object at any time. Violated: a call before an arrow, a test alone elsewhere, and noop after an arrow are refused; a procedure gets the path, not the value, and sees later changes."
  },
  {
   "property": "C136",
   "status": "partial",
   "theorems": [
    "Nbdl.Link.settled_written_exact",
    "Nbdl.Link.farewell_sane",
    "Nbdl.Link.farewell_partial",
    "Nbdl.Link.farewell_exact",
    "Nbdl.Link.farewell_once_exact",
    "Nbdl.Link.farewell_ends",
    "Nbdl.Link.farewell_lost_violated",
    "Nbdl.Link.farewell_twice_violated"
   ],
   "note": "The full property does not hold: a close frame overtakes messages still queued (farewell_lost_violated), and a user who reads the other's close while its own is being written is told twice (farewell_twice_violated); farewell_exact says exactly when a user is told what they should be. Proved for all plans and schedules: no undefined behaviour, the program comes to rest, both are told of the close, each is handed exactly the messages that were written, a beginning of the other's; whoever called send_close was handed all of them, and at least one did."
  },
  {
   "property": "C137",
   "status": "partial",
   "theorems": [
    "Nbdl.Tiles.play_partial",
    "Nbdl.Tiles.look_shows",
    "Nbdl.Tiles.played_tiles",
    "Nbdl.Tiles.outcome_tiles",
    "Nbdl.Tiles.tiles_kept_iff",
    "Nbdl.Tiles.play_violated",
    "Nbdl.Tiles.keys_violated"
   ],
   "note": "Proved for less than 2^31 moves and boards that do not fill the array, up to one exception that is stated exactly: a tile in the lower left corner without an empty neighbour leaves the board, at most once in a game (play_violated shows it for the game of the example), and the board keeps its tiles just if this does not happen (tiles_kept_iff). With more moves the counter of the producer overflows (keys_violated). On boards that fill the array the corner reads outside of it (C53). The actors other than the producer do not use the context when called."
  },
  {
   "property": "C138",
   "status": "partial",
   "theorems": [
    "Nbdl.Async.released_once_partial",
    "Nbdl.Async.completed_exact",
    "Nbdl.Async.late_completion_violated",
    "Nbdl.Async.live_agrees",
    "Nbdl.Async.twice_violated"
   ],
   "note": "Holds where no operation completes twice (released_once_partial, which also says that an operation that never completes leaves the pipeline in memory). If all operations have completed and there was no use after the deletion, then none completed twice (completed_exact). A completion after the end is a use of deleted memory (late_completion_violated, twice_violated)."
  },
  {
   "property": "C139",
   "status": "proved",
   "theorems": [
    "Nbdl.Relay.senders_in_order",
    "Nbdl.Relay.heard_exact",
    "Nbdl.Relay.left_exact",
    "Nbdl.Relay.everyone_hears",
    "Nbdl.Relay.own_heard",
    "Nbdl.Relay.work_decreases",
    "Nbdl.Relay.loop_ends",
    "Nbdl.Relay.stuck_drained",
    "Nbdl.Relay.test_passes",
    "Nbdl.Relay.server_pushed",
    "Nbdl.Relay.client_sends",
    "Nbdl.Relay.client_hears"
   ],
   "note": "Connections are queues in each direction that keep order and lose nothing while they are open; a client connects once. The contexts are machines of Verif.Nested (server_pushed, client_sends, client_hears: they come to rest)."
  },
  {
   "property": "C140",
   "status": "partial",
   "theorems": [
    "Nbdl.Session.session_talks",
    "Nbdl.Session.session_told",
    "Nbdl.Session.session_rest",
    "Nbdl.Session.session_ready",
    "Nbdl.Session.session_in_order_partial",
    "Nbdl.Session.session_outcome_exact",
    "Nbdl.Session.session_delivers_partial",
    "Nbdl.Session.early_close_violated"
   ],
   "note": "All of it, except that messages are joined as C05 has it (session_outcome_exact says exactly what arrives; C111 has the witness), and that a send_close during the handshake is forgotten when nothing else is to be sent (early_close_violated)."
  },
  {
   "property": "C141",
   "status": "partial",
   "theorems": [
    "Nbdl.Held.held_history",
    "Nbdl.Held.held_touched",
    "Nbdl.Held.held_nearest",
    "Nbdl.Held.held_safe_partial",
    "Nbdl.Held.held_exact",
    "Nbdl.Held.loop_gathers",
    "Nbdl.Held.returned_gone_violated",
    "Nbdl.Held.argument_gone_violated"
   ],
   "note": "Held values: held_history (nothing is lost or interposed), held_touched and held_nearest (who touches what), for all pipelines and completions. No use of a value that is gone if all operations are given held values (held_safe_partial), and exactly then (held_exact). What a function returned, and the argument of run_async, are gone when an operation completes (returned_gone_violated, argument_gone_violated)."
  },
  {
   "property": "C142",
   "status": "partial",
   "theorems": [
    "Nbdl.Held.runs_apart",
    "Nbdl.Held.rerun_partial",
    "Nbdl.Held.rerun_exact",
    "Nbdl.Held.lazy_not_run_violated",
    "Nbdl.Held.lazy_moved_violated"
   ],
   "note": "Runs do not influence one another (runs_apart), and a pipeline without hold_lazy is the same each time (rerun_partial); rerun_exact says exactly which pipelines and runs are. With hold_lazy run_async of a variable does not compile (lazy_not_run_violated), and the second run_sync calls a function that has been moved from (lazy_moved_violated)."
  },
  {
   "property": "C143",
   "status": "partial",
   "theorems": [
    "Nbdl.Entity.declared_members",
    "Nbdl.Entity.by_name_exact",
    "Nbdl.Entity.bound_in_order",
    "Nbdl.Entity.equal_exact_partial",
    "Nbdl.Entity.stored_found",
    "Nbdl.Entity.store_where_found",
    "Nbdl.Entity.stored_elsewhere",
    "Nbdl.Entity.empty_violated",
    "Nbdl.Entity.inherited_violated"
   ],
   "note": "All of it, except that entities without members cannot be compared (empty_violated) and that a field of a base class cannot be declared for both the base and a derived class (inherited_violated)."
  },
  {
   "property": "C144",
   "status": "partial",
   "theorems": [
    "Nbdl.Session.program_sane",
    "Nbdl.Session.program_partial",
    "Nbdl.Session.program_exact",
    "Nbdl.Session.program_ends",
    "Nbdl.Session.program_released_partial",
    "Nbdl.Session.program_released_exact",
    "Nbdl.Session.program_lost_violated",
    "Nbdl.Session.program_twice_violated"
   ],
   "note": "The program is defined and comes to rest under every schedule (program_sane, program_ends); then both were told ready, a beginning of the messages and of the close, and at least one user got everything (program_partial). Messages can be lost (program_lost_violated), and a user can be told of the close twice, whose handler then resolves a promise that was deleted (program_twice_violated, program_released_partial). program_exact and program_released_exact say exactly when a user is told what the test expects, and when its pipeline is released once."
  },
  {
   "property": "C145",
   "status": "partial",
   "theorems": [
    "Nbdl.Keys.equal_exact",
    "Nbdl.Keys.equal_partial",
    "Nbdl.Keys.equal_violated",
    "Nbdl.Keys.named_exact",
    "Nbdl.Keys.assign_exact",
    "Nbdl.Keys.assign_partial",
    "Nbdl.Keys.assign_violated",
    "Nbdl.Keys.linked_partial",
    "Nbdl.Keys.linked_violated"
   ],
   "note": "Proved for ids from 0 to 2^32 - 1 and for assigning keys. Violated: a key has 32 bits and its constructor converts without a check, so that larger ids become other keys and rows are linked to the wrong parent; and assigning a number to a key compiles but has no effect, since the operator is const and only returns a pair."
  },
  {
   "property": "C146",
   "status": "partial",
   "theorems": [
    "Nbdl.MpList.contents_exact",
    "Nbdl.MpList.contents_violated",
    "Nbdl.MpList.sequence",
    "Nbdl.MpList.transform_exact",
    "Nbdl.MpList.drop_exact",
    "Nbdl.MpList.drop_violated",
    "Nbdl.MpList.equal_exact",
    "Nbdl.MpList.equal_violated"
   ],
   "note": "All lists of objects of any types. A list keeps only the types of what is put in: it hands out the objects exactly when each of them is what a new object of its type is (contents_exact, contents_violated: a list of the number 5 hands out 0), and the same for what a function returns (transform_exact). Length, emptiness, places and joining are those of a sequence. Dropping from the front compiles exactly when there are that many elements (drop_exact), while Hana promises the empty sequence (drop_violated). Two lists are equal exactly when new objects of their types are (equal_exact), so [5] equals [7] (equal_violated)."
  },
  {
   "property": "C147",
   "status": "partial",
   "theorems": [
    "Nbdl.MpList.join_exact",
    "Nbdl.MpList.join_none_violated",
    "Nbdl.MpList.join_injective",
    "Nbdl.MpList.join_ambiguous_violated"
   ],
   "note": "All delimiters and texts. Exact for one or more texts; joining none gives a function instead of the empty text (join_none_violated). Texts can be told again if the delimiter is a character that is in none of them (join_injective), otherwise they may be joined to the same (join_ambiguous_violated)."
  },
  {
   "property": "C148",
   "status": "partial",
   "theorems": [
    "Nbdl.Holder.shows_exact",
    "Nbdl.Holder.default_exact",
    "Nbdl.Holder.assigned",
    "Nbdl.Holder.valueless_exact",
    "Nbdl.Holder.index_exact",
    "Nbdl.Holder.history_exact",
    "Nbdl.Holder.last_assigned",
    "Nbdl.Holder.index_violated",
    "Nbdl.Holder.bind_violated"
   ],
   "note": "All alternatives and all histories of assignments with exceptions at any point. The index and the value are those of the alternative held; a holder is left without a value exactly when an exception is thrown while a value of another alternative is moved in (valueless_exact), and then its index is none of its alternatives (index_exact, index_violated). Serializers cannot be used: neither function compiles, not for the holder and not for the variants it could be meant for (bind_violated). For every history: the value of the last assignment that threw nothing is held (last_assigned) unless one of the later ones was stopped while moving in a value of another alternative (history_exact)."
  },
  {
   "property": "C149",
   "status": "partial",
   "theorems": [
    "Nbdl.TupleLike.index_exact",
    "Nbdl.TupleLike.type_exact",
    "Nbdl.TupleLike.sequence_exact",
    "Nbdl.TupleLike.product_exact",
    "Nbdl.TupleLike.wrapper_exact",
    "Nbdl.TupleLike.get_typed",
    "Nbdl.TupleLike.path_exact",
    "Nbdl.TupleLike.nested_violated",
    "Nbdl.TupleLike.sequence_keys_violated",
    "Nbdl.TupleLike.header_violated"
   ],
   "note": "Exactly which reads compile and what they give, for all objects, keys and headers. Violated: an element that is itself a tuple, pair or array cannot be read, since the implementation for those has no function without a key (nested_violated; behind a reference wrapper it can); the keys index and type, which tags.hpp provides for sequences too, cannot be used on Hana's sequences (sequence_keys_violated); and pairs and arrays cannot be read by them any more when bind_sequence.hpp or uid.hpp is included, whose adapters of Hana change their tags (header_violated)."
  },
  {
   "property": "C150",
   "status": "partial",
   "theorems": [
    "Nbdl.TupleLike.bound_exact",
    "Nbdl.TupleLike.bindable_exact",
    "Nbdl.TupleLike.bind_reads",
    "Nbdl.TupleLike.bind_get",
    "Nbdl.TupleLike.wrapper_violated",
    "Nbdl.TupleLike.array_violated"
   ],
   "note": "All of it for tuples, pairs and sequences, where it is a parameter which types are empty. Violated: for an element that is a reference wrapper the function gets what it refers to instead (wrapper_violated), and arrays cannot be bound when uid.hpp is included (array_violated). Functions that keep references to their arguments are not modelled; the function object is copied."
  },
  {
   "property": "C151",
   "status": "partial",
   "theorems": [
    "Nbdl.Print.print_parts",
    "Nbdl.Print.print_others",
    "Nbdl.Print.print_tells_partial",
    "Nbdl.Print.print_ambiguous_violated",
    "Nbdl.Print.print_two_exact",
    "Nbdl.Print.types_ambiguous_violated"
   ],
   "note": "All values. Values of one type are told apart if no text in them has a comma, a closing parenthesis or brace, or ' =' in it; texts are not quoted, so that others are ambiguous (violation, and exactly when for two texts in a tuple), and values of different types may print the same. What operator<< writes is given."
  },
  {
   "property": "C152",
   "status": "partial",
   "theorems": [
    "Nbdl.WebSpec.page_rendered_partial",
    "Nbdl.WebSpec.page_updated_partial",
    "Nbdl.WebSpec.page_right_iff",
    "Nbdl.WebSpec.loop_shows",
    "Nbdl.WebSpec.element_path",
    "Nbdl.WebSpec.outer_path",
    "Nbdl.WebSpec.inside_as_outside",
    "Nbdl.WebSpec.text_right_iff",
    "Nbdl.WebSpec.value_exact",
    "Nbdl.WebSpec.attr_exact",
    "Nbdl.WebSpec.default_alternative_violated"
   ],
   "note": "The lookup of paths (C89-C91) and the renderer (C47, C48) put together: all pages whose paths the lookup treats rightly (finePath of C89, shown exactly in C89) and that have the shape the renderer can render (C47); after changes, if the paths shown lead somewhere, and exactly if the last value each led to is the present one (page_right_iff). For paths of any kind the actions get exactly what the lookup finds (value_exact, attr_exact), and a text is right exactly if that is what the path means (text_right_iff). Elements of containers are looked up through the stores of store_range, proved of the concrete stores: the path of the element leads to the element, other keys to where they lead outside the loop. Violated: the function of the default alternative of a match is given a path at which nothing is ever found, so that in every page a text of it stays empty (default_alternative_violated)."
  },
  {
   "property": "C153",
   "status": "partial",
   "theorems": [
    "Nbdl.Screen.own_page_partial",
    "Nbdl.Screen.page_shows_server_partial",
    "Nbdl.Screen.page_shows_past_partial",
    "Nbdl.Screen.own_page_iff",
    "Nbdl.Screen.server_page_iff",
    "Nbdl.Screen.json_page_same_partial",
    "Nbdl.Screen.json_page_partial",
    "Nbdl.Screen.existing_not_on_page_violated",
    "Nbdl.Screen.late_answer_on_page_violated",
    "Nbdl.Screen.deleted_on_page_violated",
    "Nbdl.Screen.nul_on_page_violated"
   ],
   "note": "Proved for specifications for which updates work (C48), that depend on the values at some paths only. For clients that join while the server shows nothing at those paths, or once something has been created, updated or deleted there; server_page_iff says exactly when such a page is right. json_page_partial: also in browsers and over JSON, for messages that fit the connections (C113). Violated: what there was before a client joined is never on its page, a late answer to a read puts a value there which the server does not have, a deleted value stays as a text, and a text is cut at a NUL. Stores are map stores, connections deliver whole messages in order, and actors push nothing while they are called (assumed; see C113, C124)."
  },
  {
   "property": "C154",
   "status": "proved",
   "theorems": [
    "Nbdl.Nested.served",
    "Nbdl.Nested.served_meanwhile",
    "Nbdl.Nested.served_first",
    "Nbdl.Nested.served_violated"
   ],
   "note": "For a context of map stores whose actors push while they are called: a client that showed what the server showed shows what it shows now, when its messages are sent in the order they were pushed (served), also in the middle of it all when nothing waits to be sent (served_meanwhile), in particular if no state consumer and no consumer declared earlier pushes (served_first). Without that the client may be left with an older value than the server (served_violated)."
  }
 ]
}