{
 "claims": [
  {
   "property": "C01",
   "status": "proved",
   "theorems": [
    "Verif.EventStream.C01_frame_round_trip",
    "Verif.EventStream.C01_frame_round_trip_names",
    "Verif.EventStream.C01_frame_round_trip_close"
   ],
   "note": "All headers, payloads and following bytes. Timestamps: exact on whole seconds, within 1.1 ms otherwise (see C02)."
  },
  {
   "property": "C02",
   "status": "partial",
   "theorems": [
    "Verif.EventStream.C02_timestamp_fails",
    "Verif.EventStream.C02_last_datetime_fails",
    "Verif.EventStream.C02_timestamp_partial",
    "Verif.EventStream.C02_written_within_one_partial",
    "Verif.EventStream.C02_read_back_close_partial",
    "Verif.EventStream.C02_wire_read_exactly_partial"
   ],
   "note": "False of the code for fractional seconds (int(value.timestamp()*1000) on floats; witness 1.001 s is written as 1000 ms) and for the last datetime (cannot be read back). Proved: exact on whole seconds; the written value is at most one millisecond off for every datetime; read back within 1.1 ms."
  },
  {
   "property": "C03",
   "status": "proved",
   "theorems": [
    "Verif.EventStream.C03_checksum_gate",
    "Verif.EventStream.C03_bad_checksum_rejected"
   ],
   "note": ""
  },
  {
   "property": "C04",
   "status": "proved",
   "theorems": [
    "Verif.EventStream.C04_corruption_detected",
    "Verif.EventStream.C04_four_byte_straddle_fails"
   ],
   "note": "The second theorem shows the restriction on 4-byte windows is needed."
  },
  {
   "property": "C05",
   "status": "proved",
   "theorems": [
    "Verif.EventStream.C05_stream",
    "Verif.EventStream.C05_cut_stream"
   ],
   "note": "Whole-second timestamps as in C01."
  },
  {
   "property": "C06",
   "status": "proved",
   "theorems": [
    "Verif.EventStream.C06_encode_succeeds_iff",
    "Verif.EventStream.C06_encoded_frame",
    "Verif.EventStream.C06_decoded_limits",
    "Verif.EventStream.C06_message_iff",
    "Verif.EventStream.C06_refused_unread"
   ],
   "note": ""
  },
  {
   "property": "C07",
   "status": "proved",
   "theorems": [
    "Verif.EventStream.C07_encoder_no_duplicates",
    "Verif.EventStream.C07_encoded_message_no_duplicates",
    "Verif.EventStream.C07_decoder_no_duplicates"
   ],
   "note": ""
  },
  {
   "property": "C08",
   "status": "partial",
   "theorems": [
    "Verif.EventStream.C08_truncated_value_fails",
    "Verif.EventStream.C08_accounts_for_every_byte_partial",
    "Verif.EventStream.C08_exact_partial"
   ],
   "note": "False of the code: a blob or string at the end of the block may be shorter than it declares. Everything else is accounted for."
  },
  {
   "property": "C09",
   "status": "proved",
   "theorems": [
    "Verif.Publisher.C09_writer_closed_at_most_once",
    "Verif.Publisher.C09_writer_closed_when_idle",
    "Verif.Publisher.C09_stays_closed",
    "Verif.Publisher.C09_send_after_close",
    "Verif.Publisher.C09_close_after_close",
    "Verif.Publisher.C09_failed_write_closes",
    "Verif.Publisher.C09_no_write_after_close"
   ],
   "note": "Histories of calls made one after the other for the no-write-after-close part; the other parts for every interleaving. Overlapping calls: C63."
  },
  {
   "property": "C10",
   "status": "proved",
   "theorems": [
    "Verif.Publisher.C10_deliveries",
    "Verif.Publisher.C10_delivers_messages",
    "Verif.Publisher.C10_nothing_after_close",
    "Verif.Publisher.C10_nothing_after_failure",
    "Verif.Publisher.C10_source_closed_once"
   ],
   "note": "The event deserializer is a parameter that sees only the event."
  },
  {
   "property": "C11",
   "status": "partial",
   "theorems": [
    "Verif.Publisher.C11_signature_chain_partial",
    "Verif.Publisher.C11_chain_in_order_partial",
    "Verif.Publisher.C11_close_ends_chain_partial",
    "Verif.Publisher.C11_oversized_event_fails"
   ],
   "note": "False for an event whose own encoding exceeds the payload limit: the chain advances although nothing is written (C11_oversized_event_fails). Proved for all histories of events that leave room for the outer frame."
  },
  {
   "property": "C12",
   "status": "proved",
   "theorems": [
    "Verif.Retry.C12_bounds",
    "Verif.Retry.C12_linearizable",
    "Verif.Retry.C12_acquire_reports",
    "Verif.Retry.C12_release_reports",
    "Verif.Retry.C12_mutual_exclusion",
    "Verif.Retry.C12_lock_returned",
    "Verif.Retry.C12_progress",
    "Verif.Retry.C12_single_acquire",
    "Verif.Retry.C12_single_release"
   ],
   "note": "Threads interleave at every shared-memory access; the calls are linearizable, and C12_single_acquire and C12_single_release say that the quota of a single user, which the model of the strategy has (C15, C64), does the same."
  },
  {
   "property": "C13",
   "status": "proved",
   "theorems": [
    "Verif.Retry.C13_attempts_bounded",
    "Verif.Retry.C13_simple_attempts_bounded",
    "Verif.Retry.C13_limit_reached",
    "Verif.Pipeline.C13_pipeline_attempts_bounded",
    "Verif.Retry.C13_zero_fails"
   ],
   "note": "max_attempts = 0 behaves like 1 (C13_zero_fails). C13_pipeline_attempts_bounded carries the bound through the request pipeline."
  },
  {
   "property": "C14",
   "status": "partial",
   "theorems": [
    "Verif.Retry.C14_initial_zero",
    "Verif.Retry.C14_no_jitter_partial",
    "Verif.Retry.C14_full_jitter_partial",
    "Verif.Retry.C14_equal_jitter_partial",
    "Verif.Retry.C14_decorrelated_partial",
    "Verif.Retry.C14_monotone_partial",
    "Verif.Retry.C14_total",
    "Verif.Retry.C14_delays_in_range",
    "Verif.Retry.C14_retry_after",
    "Verif.Retry.C14_overflow_fails",
    "Verif.Retry.C14_decorrelated_chain",
    "Verif.Retry.C14_decorrelated_formula_fails",
    "Verif.Retry.C14_shared_fails"
   ],
   "note": "All bounds hold whenever a delay is returned; the claim that one is returned for every attempt number is false of the code: OverflowError from retry 1025 on (C14_overflow_fails). binary64 rounding is modelled, its exponent range is not."
  },
  {
   "property": "C15",
   "status": "proved",
   "theorems": [
    "Verif.Retry.C15_grant_only_if",
    "Verif.Retry.C15_granted_if",
    "Verif.Retry.C15_refusal_free",
    "Verif.Retry.C15_quota_error_delay",
    "Verif.Retry.C15_success_releases",
    "Verif.Retry.C15_delay"
   ],
   "note": ""
  },
  {
   "property": "C16",
   "status": "partial",
   "theorems": [
    "Verif.Readers.C16_read_exact_partial",
    "Verif.Readers.C16_nothing_lost_partial",
    "Verif.Readers.C16_iter_chunks_partial",
    "Verif.Readers.C16_chunks_concatenate_partial",
    "Verif.Readers.C16_closed",
    "Verif.Readers.C16_reiterable_fails"
   ],
   "note": "Proved for every iterator and every full-read stream, for both variants of the class (smithy-core and aws-sdk-signers). False of the code for an async iterable that is not an iterator: every read starts it afresh (C16_reiterable_fails)."
  },
  {
   "property": "C17",
   "status": "partial",
   "theorems": [
    "Verif.Readers.C17_like_a_file_partial",
    "Verif.Readers.C17_bytes_like_a_file",
    "Verif.Readers.C17_iter_chunks_partial",
    "Verif.Readers.C17_failed_seek_moves_cursor_fails",
    "Verif.Readers.C17_relative_seek_depends_on_buffer_fails",
    "Verif.Readers.C17_short_read_fails"
   ],
   "note": "Refinement of a plain file for all histories without seeks to negative positions and for sources without short reads; both restrictions are necessary (the _fails theorems)."
  },
  {
   "property": "C18",
   "status": "proved",
   "theorems": [
    "Verif.Provider.C18_fifo",
    "Verif.Provider.C18_bounded",
    "Verif.Provider.C18_nothing_accepted_after_close",
    "Verif.Provider.C18_end_means_complete",
    "Verif.Provider.C18_refused_only_when_closing",
    "Verif.Provider.C18_flush_means_delivered"
   ],
   "note": "All schedules of any number of tasks; task cancellation not modelled."
  },
  {
   "property": "C19",
   "status": "partial",
   "theorems": [
    "Verif.Provider.C19_completes_partial",
    "Verif.Provider.C19_comes_to_rest_partial",
    "Verif.Provider.C19_write_during_flush_fails",
    "Verif.Provider.C19_flush_behind_write_fails",
    "Verif.Provider.C19_concurrent_writers_fails",
    "Verif.Provider.C19_two_consumers_fails"
   ],
   "note": "Proved for one producer and one consumer that each make their calls one after the other. False in general: four different lost wakeups are exhibited, each ending in a state nothing can leave while the reader waits."
  },
  {
   "property": "C20",
   "status": "partial",
   "theorems": [
    "Verif.Pipeline.C20_only_last_modifies_partial",
    "Verif.Pipeline.C20_last_wins",
    "Verif.Pipeline.C20_modification_lost_fails",
    "Verif.Pipeline.C20_two_modifications_fails",
    "Verif.Pipeline.C20_modify_before_completion_never_called_fails"
   ],
   "note": "False of the code: every modify hook of a chain is given the original context, so only the last registered hook has an effect; modify_before_completion hooks are never called. Proved: the composition holds when only the last interceptor overrides the hook."
  },
  {
   "property": "C21",
   "status": "partial",
   "theorems": [
    "Verif.Pipeline.C21_read_after_execution_partial",
    "Verif.Pipeline.C21_read_before_execution_partial",
    "Verif.Pipeline.C21_read_before_execution_fails",
    "Verif.Pipeline.C21_read_attempt_hooks_fail_fails"
   ],
   "note": "Holds of read_after_execution. False of the other three: a raising hook keeps later interceptors from running; proved that those before it have run, in order."
  },
  {
   "property": "C22",
   "status": "partial",
   "theorems": [
    "Verif.Pipeline.C22_completion_once_partial",
    "Verif.Pipeline.C22_caller_observes_final_outcome",
    "Verif.Pipeline.C22_cancelled_call_fails"
   ],
   "note": "Proved for every call that returns or raises, with any collaborators and any number of attempts. False of a cancelled call: no completion hook runs."
  },
  {
   "property": "C23",
   "status": "proved",
   "theorems": [
    "Verif.Pipeline.C23_documented_order",
    "Verif.Pipeline.C23_attempts_complete"
   ],
   "note": "For all collaborators and any number of attempts; a call that is cut off took a prefix of a documented sequence."
  },
  {
   "property": "C24",
   "status": "partial",
   "theorems": [
    "Verif.Pipeline.C24_unchanged_input_serialized_partial",
    "Verif.Pipeline.C24_modified_input_not_serialized_fails"
   ],
   "note": "False of the code: serialize_request is given call.input, so what modify_before_serialization returns is not sent. Proved for hooks that return their input."
  },
  {
   "property": "C25",
   "status": "partial",
   "theorems": [
    "Verif.Fields.C25_case_insensitive_map_partial",
    "Verif.Fields.C25_names_distinct",
    "Verif.Fields.C25_construction",
    "Verif.Fields.C25_construction_rejected",
    "Verif.Fields.C25_from_tuples",
    "Verif.Fields.C25_extend_gathers_partial",
    "Verif.Fields.C25_extend_aliases_fails",
    "Verif.Fields.C25_extend_twice_fails"
   ],
   "note": "Proved for every history of operations whose fields are created where they are put in. Two collections that share a field are not independent: extend stores the other collection's field objects, so a later change shows in both, and extending twice from the same collection never returns (the _fails theorems)."
  },
  {
   "property": "C26",
   "status": "proved",
   "theorems": [
    "Verif.HeaderText.C26_reads_rfc9110_lists",
    "Verif.HeaderText.C26_round_trip",
    "Verif.HeaderText.C26_one_value",
    "Verif.HeaderText.C26_single_value_fails",
    "Verif.HeaderText.C26_empty_value_fails",
    "Verif.HeaderText.C26_blank_value_fails",
    "Verif.HeaderText.C26_accepts_only_lists"
   ],
   "note": "The round trip holds for two or more values under the stated proviso, and more generally for every RFC 9110 list. The _fails theorems show the proviso is needed. The converse: text that is accepted is a list of tokens and quoted strings as defined by RFC 9110, and the values are those of the list."
  },
  {
   "property": "C27",
   "status": "proved",
   "theorems": [
    "Verif.Uri.C27_segments",
    "Verif.Uri.C27_stays_in_path",
    "Verif.Uri.C27_rejects_empty_segments",
    "Verif.Uri.C27_dot_label_fails"
   ],
   "note": "String labels; patterns given by their pieces. Dots are not encoded, so a label \"..\" becomes a dot segment."
  },
  {
   "property": "C28",
   "status": "partial",
   "theorems": [
    "Verif.Uri.C28_query_round_trip",
    "Verif.Uri.C28_only_query_characters",
    "Verif.Uri.C28_empty_parameter_fails"
   ],
   "note": "A first parameter with empty name and no value appended to an empty query vanishes."
  },
  {
   "property": "C29",
   "status": "partial",
   "theorems": [
    "Verif.Http.C29_request_location",
    "Verif.Http.C29_response_location",
    "Verif.Http.C29_request_contents",
    "Verif.Http.C29_response_contents",
    "Verif.Http.C29_body",
    "Verif.Http.C29_payload_partial",
    "Verif.Http.C29_payload_excludes_body_fails"
   ],
   "note": "Location by precedence and the contents of every location are proved for all members and writes. False: with a payload member, a member without a binding is written to the same payload serializer and replaces the payload. The payload theorem is for requests and raw (blob, string, enum) payloads."
  },
  {
   "property": "C30",
   "status": "partial",
   "theorems": [
    "Verif.Http.UserAgent.C30_sanitize",
    "Verif.Http.UserAgent.C30_component",
    "Verif.Http.UserAgent.C30_user_agent",
    "Verif.Http.UserAgent.C30_built_header",
    "Verif.Http.UserAgent.C30_os",
    "Verif.Http.UserAgent.C30_raw_suffix_fails"
   ],
   "note": "A configured suffix is put into the header as it is, so it can add components."
  },
  {
   "property": "C31",
   "status": "partial",
   "theorems": [
    "Verif.Http.Destination.C31_header",
    "Verif.Http.Destination.C31_query_partial",
    "Verif.Http.Destination.C31_query_path_fails",
    "Verif.Http.Destination.C31_query_key_fails"
   ],
   "note": "Header location proved; for the query location the code overwrites the path and does not encode the key."
  },
  {
   "property": "C32",
   "status": "partial",
   "theorems": [
    "Verif.Http.Errors.C32_generic",
    "Verif.Http.Errors.C32_rest_json",
    "Verif.Http.Errors.C32_rest_json_other",
    "Verif.Http.Errors.C32_no_code_fails",
    "Verif.Http.Errors.C32_query",
    "Verif.Http.Errors.C32_query_code_fails",
    "Verif.Http.Errors.C32_success_iff",
    "Verif.Http.Errors.C32_local_name"
   ],
   "note": "Refuted for JSON error bodies without a code (DiscriminatorError) and for query codes that are no shape name; everything else proved. Parsing of JSON and XML is not modelled."
  },
  {
   "property": "C33",
   "status": "partial",
   "theorems": [
    "Verif.Signing.C33_same_canonical_request",
    "Verif.Signing.C33_same_authorization",
    "Verif.Signing.C33_signed_headers",
    "Verif.Signing.C33_transfer_encoding_fails"
   ],
   "note": "Invariance under order and casing and the exact list of signed headers are proved for all collections; the claim that hop-by-hop headers are left out fails for transfer-encoding, which the code signs (witness)."
  },
  {
   "property": "C34",
   "status": "proved",
   "theorems": [
    "Verif.Signing.C34_canonical",
    "Verif.Signing.C34_multiset",
    "Verif.Signing.C34_same_parameters",
    "Verif.Signing.C34_order"
   ],
   "note": "The canonical query is the sorted, re-encoded multiset of decoded parameters; equal iff the multisets are equal. UTF-8 decoding with replacement is the parameter `decode`."
  },
  {
   "property": "C35",
   "status": "partial",
   "theorems": [
    "Verif.Signing.C35_untouched",
    "Verif.Signing.C35_only_signing_headers",
    "Verif.Signing.C35_sign_again",
    "Verif.Signing.C35_sign_signed",
    "Verif.Signing.C35_iterator_fails"
   ],
   "note": "The caller's headers are never changed, only the signing headers are added and signing again gives the same result, for bodies that can be read again; an iterator body of the caller is consumed (witness)."
  },
  {
   "property": "C36",
   "status": "partial",
   "theorems": [
    "Verif.Uri.C36_no_dot_segments",
    "Verif.Uri.C36_idempotent_partial",
    "Verif.Uri.C36_agrees_with_rfc_partial",
    "Verif.Uri.C36_stays_absolute_partial",
    "Verif.Uri.C36_merge_slashes_fails",
    "Verif.Uri.C36_climb_fails"
   ],
   "note": "Idempotence fails when slashes are merged; agreement with the RFC fails when a \"..\" climbs above the root and an empty segment follows."
  },
  {
   "property": "C37",
   "status": "proved",
   "theorems": [
    "Verif.Shapes.C37_parse_iff",
    "Verif.Shapes.C37_from_parts",
    "Verif.Shapes.C37_injective",
    "Verif.Shapes.C37_rejects",
    "Verif.Shapes.C37_with_member"
   ],
   "note": "Parsing succeeds exactly on the text of valid parts and returns them."
  },
  {
   "property": "C38",
   "status": "proved",
   "theorems": [
    "Verif.Schemas.C38_member",
    "Verif.Schemas.C38_not_of_member",
    "Verif.Schemas.C38_lookup",
    "Verif.Schemas.C38_collection",
    "Verif.Schemas.C38_create_order"
   ],
   "note": "Proved for every history of schema creations over an explicit object store: own traits override the target's, members and type are the target's, no member targets a member, lookups by id and class, Schema.collection."
  },
  {
   "property": "C39",
   "status": "partial",
   "theorems": [
    "Verif.Schemas.Document.C39_history_partial",
    "Verif.Schemas.Document.C39_top_level",
    "Verif.Schemas.Document.C39_open_accepts",
    "Verif.Schemas.Document.C39_nested_fails",
    "Verif.Schemas.Document.C39_subscripts",
    "Verif.Schemas.Document.C39_assignment"
   ],
   "note": "Updates of the document itself with arbitrary reads: no further condition. Updates through nested documents: only if no document on the way remembers its plain content; otherwise false (C39_nested_fails). Sharing of documents is not modelled."
  },
  {
   "property": "C40",
   "status": "proved",
   "theorems": [
    "Verif.Shapes.C40_get_iff",
    "Verif.Shapes.C40_missing_iff"
   ],
   "note": ""
  },
  {
   "property": "C41",
   "status": "partial",
   "theorems": [
    "Verif.Schemas.C41_maps_partial",
    "Verif.Schemas.C41_unionDict_fails",
    "Verif.Schemas.C41_same_key"
   ],
   "note": "Map behaviour over all histories of all operations, including copies, for keys given by name or property key. False for |= with a plain dict whose keys are PropertyKey objects (C41_unionDict_fails)."
  },
  {
   "property": "C42",
   "status": "proved",
   "theorems": [
    "Verif.Json.C42_escape",
    "Verif.Json.C42_round_trip",
    "Verif.Json.C42_plain"
   ],
   "note": "Strings are lists of Unicode scalar values; a Python string with lone surrogates raises on encoding and is not modelled."
  },
  {
   "property": "C43",
   "status": "partial",
   "theorems": [
    "Verif.Json.C43_well_formed_partial",
    "Verif.Json.C43_nan_fails",
    "Verif.Json.C43_digits_fails",
    "Verif.Json.jsonText_unique",
    "Verif.Json.str_number",
    "Verif.Json.normalize_value",
    "Verif.Base64.decode_encode"
   ],
   "note": "Every tree of serializer calls, any depth. Infinities are written as strings. False for NaN, which is written bare (C43_nan_fails), and the number is only the same for big decimals of at most 28 digits (C43_digits_fails). repr of floats and timestamp formats are parameters."
  },
  {
   "property": "C44",
   "status": "partial",
   "theorems": [
    "Verif.Json.C44_round_trip_partial",
    "Verif.Json.C44_unknown",
    "Verif.Json.C44_root_fails",
    "Verif.Json.C44_infinite_fails",
    "Verif.Json.C44_digits_fails",
    "Verif.Json.C44_null_document_fails",
    "Verif.Json.C44_boolean_fails",
    "Verif.Json.numOf_value",
    "Verif.Json.resolve_spec"
   ],
   "note": "Unknown and null members are ignored for every (recursive) schema and JSON value; the round trip holds for every value JSON can carry: the text written is a JSON text of exactly one value, and reading its events gives an equal value. It fails, with witnesses, for documents at the top with an empty key, infinite big decimals, big decimals of more than 28 digits and null documents in lists. C44_boolean_fails: a JSON boolean is accepted for a number. ijson is trusted to give the events of the JSON value."
  },
  {
   "property": "C45",
   "status": "proved",
   "theorems": [
    "Verif.Xml.C45_skip",
    "Verif.Xml.C45_skip_inner",
    "Verif.Xml.C45_root",
    "Verif.Xml.C45_outermost",
    "Verif.Xml.C45_wrapped",
    "Verif.Xml.C45_struct",
    "Verif.Xml.C45_list",
    "Verif.Xml.C45_map",
    "Verif.Xml.C45_value_first",
    "Verif.Xml.C45_scalar",
    "Verif.Xml.C45_union",
    "Verif.Xml.C45_union_two",
    "Verif.Xml.C45_wrapper_refused",
    "Verif.Xml.C45_local_name",
    "Verif.Xml.C45_flattened_structs_fails"
   ],
   "note": "For every schema and element: reading an element gives the same result (value or error) as reading it without the elements that are not modelled, at any depth and with anything in them. C45_struct, C45_list, C45_map, C45_scalar and C45_union say what the value is. The parser (iterparse) is trusted to give the events of the elements. Found: the items of a flattened list of structures are refused when their tag is not the name of the structure (C45_flattened_structs_fails)."
  },
  {
   "property": "C46",
   "status": "proved",
   "theorems": [
    "Verif.AwsQuery.C46_request",
    "Verif.AwsQuery.C46_parameters",
    "Verif.AwsQuery.C46_path",
    "Verif.AwsQuery.C46_decodes",
    "Verif.AwsQuery.C46_no_clash",
    "Verif.AwsQuery.C46_document",
    "Verif.AwsQuery.C46_reserved_fails",
    "Verif.AwsQuery.C46_dots_fails"
   ],
   "note": "For every input without documents whose member names differ and have no dots, the request is accepted, its body parses to Action, Version and one pair for each scalar (or empty list), the key is the path of names and 1-based indices (relation At), keys are distinct and determine the path. Inputs with documents are refused. Disagreements proved: a member called Action duplicates the reserved key; dots in names make keys clash. Texts of floats, decimals and timestamps are parameters."
  },
  {
   "property": "C47",
   "status": "partial",
   "theorems": [
    "Verif.AwsConfig.C47_meaning",
    "Verif.AwsConfig.C47_comments",
    "Verif.AwsConfig.C47_lines",
    "Verif.AwsConfig.C47_names",
    "Verif.AwsConfig.C47_last",
    "Verif.AwsConfig.C47_outside",
    "Verif.AwsConfig.C47_malformed",
    "Verif.AwsConfig.C47_total",
    "Verif.AwsConfig.C47_round_trip",
    "Verif.AwsConfig.C47_empty_value_fails"
   ],
   "note": "The parser of shared config files, for every text. C47_meaning: if the lines other than comments and blank lines are built as the grammar Denotes says (headers, properties, continuation lines, sub-properties, ignored invalid keys), the result is the sections they denote; C47_last: the last assignment in a section wins; C47_round_trip: a written file is read back; C47_outside, C47_malformed: errors; C47_total: never any other exception. Partial because a comment directly after the equals sign is taken as the value: C47_empty_value_fails."
  },
  {
   "property": "C48",
   "status": "proved",
   "theorems": [
    "Verif.AwsConfig.C48_profiles",
    "Verif.AwsConfig.C48_sso_services",
    "Verif.AwsConfig.C48_credentials",
    "Verif.AwsConfig.C48_default",
    "Verif.AwsConfig.C48_ignored",
    "Verif.AwsConfig.C48_merge",
    "Verif.AwsConfig.C48_load",
    "Verif.AwsConfig.C48_load_error",
    "Verif.AwsConfig.C48_spacing_fails"
   ],
   "note": "For every pair of files. C48_profiles says which sections of a config file define which profile and that the last of them with a property gives its value; C48_default, C48_ignored, C48_merge are the parts of the claim one by one; C48_load puts parsing, standardizing and merging together. C48_spacing_fails: sections of one profile written with different spaces are merged in order of first appearance, so the last assignment in the file need not win (this is not part of the claim)."
  },
  {
   "property": "C49",
   "status": "partial",
   "theorems": [
    "Verif.AwsConfig.Settings.C49_precedence",
    "Verif.AwsConfig.Settings.C49_accepts",
    "Verif.AwsConfig.Settings.C49_one",
    "Verif.AwsConfig.Settings.C49_rejects",
    "Verif.AwsConfig.Settings.C49_profile",
    "Verif.AwsConfig.Settings.C49_assign",
    "Verif.AwsConfig.Settings.C49_history",
    "Verif.AwsConfig.Settings.C49_newline_fails"
   ],
   "note": "For every environment, pair of files, profile and overrides: C49_precedence (each value is the one Chosen from the sources in their order, its source is the one reported, it is Valid), C49_accepts (and that is the only way to fail), C49_history (every history of assignments, some of which fail). Partial because a region followed by a line feed counts as valid: C49_newline_fails. The integer parser is a parameter."
  },
  {
   "property": "C50",
   "status": "partial",
   "theorems": [
    "Verif.Identity.C50_fresh",
    "Verif.Identity.C50_asks_only_if_needed",
    "Verif.Identity.C50_reused",
    "Verif.Identity.C50_asks_after_invalidate",
    "Verif.Identity.C50_metadata",
    "Verif.Identity.C50_invalidate_fails",
    "Verif.Identity.C50_environment_fails"
   ],
   "note": "For every interleaving of calls, answers, cancellations, invalidations and clock changes. False as stated: the answer to a fetch started before invalidate is stored after it (C50_invalidate_fails), and the environment resolver caches but does not implement invalidate (C50_environment_fails)."
  },
  {
   "property": "C51",
   "status": "proved",
   "theorems": [
    "Verif.Identity.Chain.C51_first",
    "Verif.Identity.Chain.C51_other",
    "Verif.Identity.Chain.C51_exhausted",
    "Verif.Identity.Chain.C51_chained",
    "Verif.Identity.Chain.C51_all_reported",
    "Verif.Identity.Chain.C51_nested",
    "Verif.Identity.Chain.C51_invalidate",
    "Verif.Identity.Chain.C51_invalidate_fails"
   ],
   "note": "For arbitrary stateful resolvers. C51_invalidate_fails: an exception of one resolver's invalidate keeps it from the later ones."
  },
  {
   "property": "C52",
   "status": "proved",
   "theorems": [
    "Verif.Identity.Assembly.C52_order",
    "Verif.Identity.Assembly.C52_order_unique",
    "Verif.Identity.Assembly.C52_discovery_order",
    "Verif.Identity.Assembly.C52_duplicates",
    "Verif.Identity.Assembly.C52_assembled",
    "Verif.Identity.Assembly.C52_raised",
    "Verif.Identity.Assembly.C52_slots",
    "Verif.Identity.Assembly.C52_unclaimed"
   ],
   "note": "For arbitrary lists of providers whose setup is an arbitrary program over the world and ChainSetup."
  },
  {
   "property": "C53",
   "status": "proved",
   "theorems": [
    "Verif.Identity.Container.C53_allowed_iff",
    "Verif.Identity.Container.C53_only_trusted",
    "Verif.Identity.Container.C53_refused",
    "Verif.Identity.Container.C53_attempts",
    "Verif.Identity.Container.C53_environment",
    "Verif.Identity.Container.C53_relative_authority",
    "Verif.Identity.Container.C53_query_fails",
    "Verif.Identity.Ip.isLoopback_iff",
    "Verif.Identity.ContainerUrl.C53_full_uri",
    "Verif.Identity.ContainerUrl.C53_any_full_uri",
    "Verif.Identity.ContainerUrl.C53_https_fails"
   ],
   "note": "The hosts accepted are exactly the documented ones and the loopback addresses (the Python parser of IPv4 and IPv6 addresses is modelled and proved equal to a grammar). Retries, headers and the choice between environment variables are covered too. C53_full_uri has urlparse as modelled for C91, for texts of the form of RFC 3986 whose last segment has no parameters; C53_any_full_uri is for every text. C53_query_fails: the query of the full URI is dropped. C53_https_fails: other hosts are refused with https too, which the guide of the AWS SDKs allows."
  },
  {
   "property": "C54",
   "status": "proved",
   "theorems": [
    "Verif.Identity.TokenCache.C54_token_cache",
    "Verif.Identity.TokenCache.C54_no_lost_wakeup",
    "Verif.Identity.TokenCache.C54_status_fails",
    "Verif.Identity.TokenCache.C54_age_fails"
   ],
   "note": "For every schedule of callers, cancellations, answers, failures and clock changes, with the asyncio lock modelled. Expiry is by the client's clock from the receipt of the token; C54_age_fails shows the server may see it as expired, C54_status_fails that error answers are cached as tokens. There is no invalidation in the API."
  },
  {
   "property": "C55",
   "status": "partial",
   "theorems": [
    "Verif.Scalars.Strict.C55_bool",
    "Verif.Scalars.Strict.C55_float",
    "Verif.Scalars.Strict.C55_json_grammar_fails",
    "Verif.Scalars.Strict.C55_round_trip",
    "Verif.Scalars.Strict.C55_fraction_fails"
   ],
   "note": "float() and the decimal digits of re are parameters. The documented (JSON) grammar is exceeded: any Unicode decimal digit is accepted."
  },
  {
   "property": "C56",
   "status": "proved",
   "theorems": [
    "Verif.Scalars.C56_split_every",
    "Verif.Scalars.C56_zero_rejected"
   ],
   "note": ""
  },
  {
   "property": "C57",
   "status": "partial",
   "theorems": [
    "Verif.Http.Destination.C57_authority",
    "Verif.Http.Destination.C57_authority_wins",
    "Verif.Http.Destination.C57_authority_fails",
    "Verif.Http.Destination.C57_path",
    "Verif.Http.Destination.C57_single_path",
    "Verif.Http.Destination.C57_leading_slashes_fails",
    "Verif.Http.Destination.C57_query"
   ],
   "note": "Endpoint without port or credentials takes those of the request; leading slashes of the request path are lost when both have a path."
  },
  {
   "property": "C58",
   "status": "proved",
   "theorems": [
    "Verif.Scalars.C58_iff",
    "Verif.Scalars.C58_delay"
   ],
   "note": "int() is modelled with white space and digit classes as parameters; division is IEEE binary64."
  },
  {
   "property": "C59",
   "status": "partial",
   "theorems": [
    "Verif.Shapes.C59_parse",
    "Verif.Shapes.C59_no_namespace",
    "Verif.Shapes.C59_idempotent",
    "Verif.Shapes.C59_restjson_partial",
    "Verif.Shapes.C59_restjson_fragment_fails",
    "Verif.Shapes.C59_restjson_idempotent"
   ],
   "note": "Full for smithy_aws_core. The REST-JSON helper of smithy_http takes the fragment of a URL for the code, so for it the URL must have no fragment."
  },
  {
   "property": "C60",
   "status": "partial",
   "theorems": [
    "Verif.Pipeline.Replay.C60_replay_partial",
    "Verif.Pipeline.Replay.C60_reads_and_seeks",
    "Verif.Pipeline.Replay.C60_rewound",
    "Verif.Pipeline.Replay.C60_stream_sent_once",
    "Verif.Pipeline.Replay.C60_hashed",
    "Verif.Pipeline.Replay.C60_closed_by_transport_fails",
    "Verif.Pipeline.Replay.C60_unseekable_retried_fails"
   ],
   "note": "Every request handed to the transport has the full body, for any number of attempts, provided collaborators neither close the body nor leave it partly read before it is sent; calls with streaming input are sent at most once. False for a transport that closes the body, and for an unseekable body put in place by an interceptor."
  },
  {
   "property": "C61",
   "status": "partial",
   "theorems": [
    "Verif.EventStream.C61_declared_headers_length_fails",
    "Verif.EventStream.C61_declared_lengths_partial"
   ],
   "note": "False of the code (witness with valid checksums)."
  },
  {
   "property": "C62",
   "status": "partial",
   "theorems": [
    "Verif.EventStream.C62_failed_header_leaves_output_fails",
    "Verif.EventStream.C62_failed_header_partial"
   ],
   "note": "False of the code: key and type byte stay in the buffer when an integer does not fit."
  },
  {
   "property": "C63",
   "status": "partial",
   "theorems": [
    "Verif.Publisher.C63_write_after_close_fails",
    "Verif.Publisher.C63_no_write_after_close_partial"
   ],
   "note": "False when identity resolution fails inside close while a send waits for its identity (witness theorem); proved when the identity always resolves or nothing is signed."
  },
  {
   "property": "C64",
   "status": "proved",
   "theorems": [
    "Verif.Retry.C64_retry_storm_bounded",
    "Verif.Retry.C64_dead_service",
    "Verif.Retry.C64_threads",
    "Verif.Retry.C64_threads_dead"
   ],
   "note": "C64_retry_storm_bounded and C64_dead_service are about requests of one event loop that share a strategy; C64_threads and C64_threads_dead are about threads that share a quota, for every interleaving of the steps of their calls."
  },
  {
   "property": "C65",
   "status": "proved",
   "theorems": [
    "Verif.Pipeline.C65_message_flow"
   ],
   "note": "The serializer is excepted here; it is the subject of C24."
  },
  {
   "property": "C66",
   "status": "partial",
   "theorems": [
    "Verif.Pipeline.C66_first_supported_option",
    "Verif.Pipeline.C66_identity_properties",
    "Verif.Pipeline.C66_signed_iff_supported",
    "Verif.Pipeline.C66_signer_properties_ignored_fails",
    "Verif.Pipeline.C66_signer_gets_identity_properties_fails"
   ],
   "note": "The choice and the identity properties are right; the signer is given the option's identity properties instead of its signer properties."
  },
  {
   "property": "C67",
   "status": "partial",
   "theorems": [
    "Verif.Http.C67_content_headers_partial",
    "Verif.Http.C67_content_type_fails",
    "Verif.Http.C67_stream_length_fails"
   ],
   "note": "Proved for requests when no member is bound to these headers. False otherwise: the serializer adds its own value to a bound Content-Type; the length of a stream is never computed, so a payload requiring a length is refused."
  },
  {
   "property": "C68",
   "status": "partial",
   "theorems": [
    "Verif.Http.C68_query_map_conflict_fails",
    "Verif.Http.C29_request_contents"
   ],
   "note": "False: the parameter is sent once for the member and once for the map entry. C29_request_contents says exactly what is sent."
  },
  {
   "property": "C69",
   "status": "partial",
   "theorems": [
    "Verif.Shapes.C69_error_info",
    "Verif.Shapes.C69_no_body",
    "Verif.Shapes.C69_other_body_fails",
    "Verif.Shapes.C69_other_members",
    "Verif.Shapes.C69_code_not_a_text_fails"
   ],
   "note": "Proved for bodies whose members for the code and the message are strings, whatever the others are (C69_other_members); a code or message that is not a string raises ExpectationNotMetError (witness), and a JSON body that is not an object raises AttributeError instead of giving an unknown error."
  },
  {
   "property": "C70",
   "status": "partial",
   "theorems": [
    "Verif.Http.Destination.C70_host_prefix_fails",
    "Verif.Http.Destination.C70_host_prefix_partial"
   ],
   "note": "The claim is false of the code: setting the endpoint drops the prefix, whatever it is, and the request goes to the prefix followed by the host of the endpoint if and only if the prefix is empty."
  },
  {
   "property": "C71",
   "status": "partial",
   "theorems": [
    "Verif.Uri.Host.C71_accepted_iff",
    "Verif.Uri.Host.C71_line_break_fails",
    "Verif.Uri.Host.C71_no_delimiters",
    "Verif.Uri.Host.C71_host_type",
    "Verif.Uri.Host.C71_classes"
   ],
   "note": "Exactly the valid hosts, plus valid hosts followed by a line break (refuted for those)."
  },
  {
   "property": "C72",
   "status": "proved",
   "theorems": [
    "Verif.Uri.Build.C72_components",
    "Verif.Uri.Build.C72_authority",
    "Verif.Uri.Build.C72_unencoded_fails",
    "Verif.Uri.Build.C72_authority_isolated"
   ],
   "note": "For components without the characters that end them; the refutation shows the condition is needed. urlunparse is modelled for URIs without parameters."
  },
  {
   "property": "C73",
   "status": "proved",
   "theorems": [
    "Verif.Signing.C73_unambiguous"
   ],
   "note": "Hypothesis `Clean` rules out line breaks in names, method and verbatim path."
  },
  {
   "property": "C74",
   "status": "partial",
   "theorems": [
    "Verif.Signing.C74_signature",
    "Verif.Signing.C74_content_hash",
    "Verif.Signing.C74_date_partial",
    "Verif.Signing.C74_stale_headers_fails",
    "Verif.Signing.C74_host_fails"
   ],
   "note": "The authorization is proved to be the signature of the request as sent for all inputs; that the signed date and token are the ones sent fails when the request already carries them (witness), and is proved when it does not. C74_host_fails: the signed host has user name and password, and no brackets around an IPv6 address."
  },
  {
   "property": "C75",
   "status": "partial",
   "theorems": [
    "Verif.Timestamps.C75_ensure_utc",
    "Verif.Timestamps.C75_read_rfc3339",
    "Verif.Timestamps.C75_write_rfc3339",
    "Verif.Timestamps.C75_rfc3339_round_trip",
    "Verif.Timestamps.C75_early_year_fails",
    "Verif.Timestamps.C75_leap_second_fails",
    "Verif.Timestamps.C75_other_forms_fails"
   ],
   "note": "Proved for every datetime whose UTC date exists, and every RFC 3339 text with upper-case T/Z. False: years before 1000 are written without padding where the C library does not pad %Y and are then unreadable (C75_early_year_fails); leap seconds and lower-case z are refused; other ISO 8601 forms are accepted. strftime padding is a parameter."
  },
  {
   "property": "C76",
   "status": "partial",
   "theorems": [
    "Verif.Timestamps.C76_read_http_date",
    "Verif.Timestamps.C76_write_http_date",
    "Verif.Timestamps.C76_http_date_round_trip",
    "Verif.Timestamps.C76_first_century_fails",
    "Verif.Timestamps.C76_read_mail_date"
   ],
   "note": "Years from 100 on. False before: the year 50 is read back as 2050 (C76_first_century_fails). str methods outside ASCII are a parameter, required to agree with ASCII."
  },
  {
   "property": "C77",
   "status": "partial",
   "theorems": [
    "Verif.Timestamps.C77_read_int",
    "Verif.Timestamps.C77_read_float",
    "Verif.Timestamps.C77_text_refused",
    "Verif.Timestamps.C77_platform",
    "Verif.Timestamps.C77_write",
    "Verif.Timestamps.C77_epoch_round_trip",
    "Verif.Timestamps.C77_microsecond_fails",
    "Verif.Timestamps.C77_last_microsecond_fails"
   ],
   "note": "Exact for whole seconds and within 2^33 seconds of 1970 (years 1698 to 2242); otherwise within 15 microseconds. False beyond (C77_microsecond_fails), and the last microsecond of 9999 cannot be read back. float(text) is a parameter."
  },
  {
   "property": "C78",
   "status": "partial",
   "theorems": [
    "Verif.Http.HeaderValue.C78_boolean",
    "Verif.Http.HeaderValue.C78_integer",
    "Verif.Http.HeaderValue.C78_float",
    "Verif.Http.HeaderValue.C78_decimal",
    "Verif.Http.HeaderValue.C78_string",
    "Verif.Http.HeaderValue.C78_timestamp",
    "Verif.Http.HeaderValue.C78_list_of_many",
    "Verif.Http.HeaderValue.C78_list_of_one",
    "Verif.Http.HeaderValue.C78_list_of_one_written",
    "Verif.Http.HeaderValue.C78_list_of_one_fails"
   ],
   "note": "Proved for all scalars, and for lists of two or more values and of one value that is not a plain string; false for a single plain string with a comma, and for a single empty string. Assumed of Python: `str`/`float` of doubles are exact inverses for the values considered (`Shown`), numerals as in `Env.Sane`."
  },
  {
   "property": "C79",
   "status": "partial",
   "theorems": [
    "Verif.Http.Reading.C79_header",
    "Verif.Http.Reading.C79_prefix_headers",
    "Verif.Http.Reading.C79_status",
    "Verif.Http.Reading.C79_payload",
    "Verif.Http.Reading.C79_body",
    "Verif.Http.Reading.C79_bound_partial",
    "Verif.Http.Reading.C79_body_overrides_header_fails",
    "Verif.Http.Reading.C79_empty_body_fails"
   ],
   "note": "Each location is proved both ways; that no member is read from elsewhere holds if the codec finds only body members, and is false of the code otherwise (a key of the body replaces a header). An empty unbuffered body without a content length is not seen to be empty."
  },
  {
   "property": "C80",
   "status": "partial",
   "theorems": [
    "Verif.Http.RoundTrip.C80_header",
    "Verif.Http.RoundTrip.C80_prefix_headers",
    "Verif.Http.RoundTrip.C80_status",
    "Verif.Http.RoundTrip.C80_payload_partial",
    "Verif.Http.RoundTrip.C80_body",
    "Verif.Http.RoundTrip.C80_enum_payload_fails",
    "Verif.Http.RoundTrip.C80_keys_by_case_fails",
    "Verif.Http.RoundTrip.C80_empty_list_fails"
   ],
   "note": "Proved for every location under the conditions that make names unambiguous; false for payloads of an enumeration, for keys that differ in case only and for empty lists. C80_prefix_headers gives the entries of a map of headers in the order they were written. The codec enters as a hypothesis that it reads back what it wrote; C115 is the same with the JSON codec."
  },
  {
   "property": "C81",
   "status": "partial",
   "theorems": [
    "Verif.EventStream.Shapes.C81_event_partial",
    "Verif.EventStream.Shapes.C81_unknown_event",
    "Verif.EventStream.Shapes.C81_unknown_error_fails",
    "Verif.EventStream.Shapes.C81_initial_partial",
    "Verif.EventStream.Shapes.C81_unmodeled_error",
    "Verif.EventStream.Shapes.C81_content_type",
    "Verif.EventStream.Shapes.C81_empty_payload_fails",
    "Verif.EventStream.Shapes.C81_boolean_for_integer_fails",
    "Verif.EventStream.Shapes.C81_header_types"
   ],
   "note": "Timestamps in headers on whole seconds (C02); where a payload member exists the other members must be headers; the payload codec is a parameter. An empty string or blob bound to the payload is lost, and an error that the receiver does not know raises KeyError."
  },
  {
   "property": "C82",
   "status": "partial",
   "theorems": [
    "Verif.Schemas.DocumentShapes.C82_round_trip_partial",
    "Verif.Schemas.DocumentShapes.C82_null_in_map_fails",
    "Verif.Schemas.DocumentShapes.C82_null_document_fails",
    "Verif.Schemas.DocumentShapes.C82_null_member_fails",
    "Verif.Schemas.DocumentShapes.C82_threads_fails"
   ],
   "note": "Proved for all values without null documents in collections and without null in sparse maps of structures, unions, lists and maps, in one thread, for any state left by earlier conversions. Those exceptions are false of the code, with witnesses."
  },
  {
   "property": "C83",
   "status": "partial",
   "theorems": [
    "Verif.Schemas.DocumentShapes.C83_same_calls_partial",
    "Verif.Schemas.DocumentShapes.C83_union_fails",
    "Verif.Schemas.DocumentShapes.C83_plain",
    "Verif.Schemas.DocumentShapes.C83_with_schema"
   ],
   "note": "Proved for all values without unions; false of the code for unions with a scalar, with a witness. C83_plain covers documents that were not made from a shape. C83_with_schema: a document made by hand of plain content and a schema is written like the value of the shape, unions included."
  },
  {
   "property": "C84",
   "status": "partial",
   "theorems": [
    "Verif.Json.Documents.C84_document_partial",
    "Verif.Json.Documents.C84_unknown",
    "Verif.Json.Documents.C84_json_name_fails",
    "Verif.Json.Documents.C84_timestamp_format_fails",
    "Verif.Json.Documents.C84_float_fails",
    "Verif.Json.Documents.C84_decimal_fails",
    "Verif.Json.Documents.C84_null_member_fails"
   ],
   "note": "Proved for shapes without JSON names and timestamp formats and for values without infinite floats and whole decimals; each of the exceptions is false of the code, with witnesses. Whole floats are excluded by the assumption that the text of a float is read as a decimal."
  },
  {
   "property": "C85",
   "status": "partial",
   "theorems": [
    "Verif.Pipeline.Streams.C85_ready",
    "Verif.Pipeline.Streams.C85_opens_partial",
    "Verif.Pipeline.Streams.C85_failure_fails",
    "Verif.Pipeline.Streams.C85_cancel_fails"
   ],
   "note": "Proved that a stream that is given out belongs to the request being sent, and that the call ends if the steps before sending succeed. False of the code if one of them fails (the caller waits for ever) and for cancellation, with witnesses for every environment."
  },
  {
   "property": "C86",
   "status": "partial",
   "theorems": [
    "Verif.Pipeline.Streams.C86_closed",
    "Verif.Pipeline.Streams.C86_close_partial",
    "Verif.Pipeline.Streams.C86_late_answer_fails",
    "Verif.Pipeline.Streams.C86_error_fails",
    "Verif.Pipeline.Streams.C86_input_error_fails"
   ],
   "note": "Proved that a close that returns has closed both, input first, and when it ends. False of the code for services that answer at the end of the input (it waits for ever), for failed calls and for exceptions while closing the input."
  },
  {
   "property": "C87",
   "status": "partial",
   "theorems": [
    "Verif.Transport.C87_async_partial",
    "Verif.Transport.C87_reader_fails",
    "Verif.Transport.C87_sync_partial",
    "Verif.Transport.C87_coroutine_fails",
    "Verif.Transport.C87_http2_partial",
    "Verif.Transport.C87_buffer_size_fails",
    "Verif.Transport.C87_http1",
    "Verif.Transport.C87_aiohttp",
    "Verif.Transport.C87_prepared",
    "Verif.Transport.C87_response"
   ],
   "note": "Sending is proved for all kinds of bodies. False of the code, with witnesses: consuming a plain reader asynchronously raises TypeError; consuming an asynchronous reader synchronously returns a coroutine; a buffer size of 0 sends an empty body."
  },
  {
   "property": "C88",
   "status": "partial",
   "theorems": [
    "Verif.Transport.Aiohttp.C88_query_partial",
    "Verif.Transport.Aiohttp.C88_blank_fails",
    "Verif.Transport.Aiohttp.C88_signature",
    "Verif.Transport.Aiohttp.C88_headers",
    "Verif.Transport.Aiohttp.C88_trailer_fails"
   ],
   "note": "Exactly the queries in which every parameter has a value survive (C88_signature is an equivalence); parameters without a value are dropped, and trailers are sent as headers. aiohttp and yarl are trusted to send what they are handed."
  },
  {
   "property": "C89",
   "status": "partial",
   "theorems": [
    "Verif.Transport.Crt.C89_headers",
    "Verif.Transport.Crt.C89_order",
    "Verif.Transport.Crt.C89_target",
    "Verif.Transport.Crt.C89_userinfo_fails",
    "Verif.Transport.Crt.C89_retry_fails",
    "Verif.Transport.Crt.C89_empty_path_fails"
   ],
   "note": "Headers and target are proved for all requests that go to an endpoint. False of the code, with witnesses: the added Host contains user name and password; an attempt at another destination sends the first attempt's Host; a URI with an empty path that was not set from an endpoint gives an empty target."
  },
  {
   "property": "C90",
   "status": "partial",
   "theorems": [
    "Verif.Transport.Crt.C90_right_server",
    "Verif.Transport.Crt.C90_scheme",
    "Verif.Transport.Crt.C90_open",
    "Verif.Transport.Crt.C90_reused_partial",
    "Verif.Transport.Crt.C90_overlap_fails"
   ],
   "note": "The destination of connections is proved for all interleavings, reuse for sends that do not overlap. False of the code, with a witness: overlapping sends build two connections, and one of them is dropped from the pool while it is open."
  },
  {
   "property": "C91",
   "status": "partial",
   "theorems": [
    "Verif.Uri.Endpoint.C91_static_partial",
    "Verif.Uri.Endpoint.C91_dropped_fails",
    "Verif.Uri.Endpoint.C91_params_fails",
    "Verif.Uri.Endpoint.C91_no_slashes",
    "Verif.Uri.Endpoint.C91_any_text",
    "Verif.Uri.Endpoint.C91_port_fails",
    "Verif.Uri.Endpoint.C91_uri",
    "Verif.Uri.Endpoint.C91_regional",
    "Verif.Uri.Endpoint.C91_region_host",
    "Verif.Uri.Endpoint.C91_nothing",
    "Verif.Uri.Endpoint.C91_question_mark_fails",
    "Verif.Uri.Endpoint.C91_brackets"
   ],
   "note": "Proved for all well-formed endpoints, but user name, password, fragment and the parameters of the last path segment are dropped. False of the code, with witnesses: a port that does not exist raises ValueError; an endpoint without a query makes CRT targets end with a question mark. str.lower (on ASCII text) and the check of bracketed addresses by Python's ipaddress are parameters."
  },
  {
   "property": "C92",
   "status": "partial",
   "theorems": [
    "Verif.Xml.RoundTrip.C92_partial",
    "Verif.Xml.RoundTrip.C92_inside_partial",
    "Verif.Xml.RoundTrip.C92_unknown_partial",
    "Verif.Xml.RoundTrip.C92_wrapped_partial",
    "Verif.Xml.RoundTrip.C92_arranged",
    "Verif.Xml.RoundTrip.C92_empty_flattened_fails",
    "Verif.Xml.RoundTrip.C92_wrapped_attributes_fails",
    "Verif.Xml.C45_flattened_structs_fails"
   ],
   "note": "Round trip proved for all values, except those for which it is false of the code, with witnesses: a flattened list or map whose first structure does not have the element's name is refused, attributes of the element inside protocol wrappers are not read; and an empty flattened list has no XML. The items of one flattened member are written next to each other (C45_struct covers mixed ones). Texts of numbers and times are parameters with their round trip as hypothesis."
  },
  {
   "property": "C93",
   "status": "partial",
   "theorems": [
    "Verif.AwsQuery.RoundTrip.C93_partial",
    "Verif.AwsQuery.RoundTrip.C93_different_partial",
    "Verif.AwsQuery.RoundTrip.C93_nothing_written_fails",
    "Verif.AwsQuery.C46_reserved_fails",
    "Verif.AwsQuery.C46_dots_fails"
   ],
   "note": "Proved for all inputs in which every member and element has something to write; structures and maps with nothing in them and nulls in lists are not written (witness). Members called Action or Version and names with dots are excluded (witnesses of C46). Texts of floats, decimals and times are parameters; that the service reads back those of the values in the input is a hypothesis (met by C133_texts)."
  },
  {
   "property": "C94",
   "status": "partial",
   "theorems": [
    "Verif.Signing.Scheme.C94_partial",
    "Verif.Signing.Scheme.C94_configured",
    "Verif.Signing.Scheme.C94_option_region_fails",
    "Verif.Publisher.C11_oversized_event_fails"
   ],
   "note": "Proved when the auth option brings no region, service or date of its own: such options change what the request is signed for but not what its events are (witness). Events that do not fit a frame break the chain (witness of C11)."
  },
  {
   "property": "C95",
   "status": "partial",
   "theorems": [
    "Verif.Types.Enums.C95_any_value",
    "Verif.Types.Enums.C95_own",
    "Verif.Types.Enums.C95_wrong_type",
    "Verif.Types.Enums.C95_placeholder_partial",
    "Verif.Types.Enums.C95_equality_partial",
    "Verif.Types.Enums.C95_pickled_partial",
    "Verif.Types.Enums.C95_float_equal_fails",
    "Verif.Types.Enums.C95_pickled_placeholder_fails"
   ],
   "note": "Comparison with bool and float is excluded from the equality theorems: -1.0 == placeholder is true and placeholder == -1.0 false (witness). A pickled placeholder comes back as an unknown value or a member (witness)."
  },
  {
   "property": "C96",
   "status": "partial",
   "theorems": [
    "Verif.Http.Serving.C96_partial",
    "Verif.Http.Serving.C96_different_partial",
    "Verif.Http.Serving.C96_literals",
    "Verif.Http.Serving.C96_empty_fails",
    "Verif.Http.C68_query_map_conflict_fails"
   ],
   "note": "Excluded: empty lists and maps in headers and the query, which leave no trace (witness); entries of a query map named like another parameter (witness C68); event streams; telling an absent payload from an empty one. The values of a header are kept apart here; how they are joined in one line is C78. What the codec writes is read back by assumption (C43-C46, C92)."
  },
  {
   "property": "C97",
   "status": "partial",
   "theorems": [
    "Verif.Uri.Pattern.C97_partial",
    "Verif.Uri.Pattern.C97_succeeds_partial",
    "Verif.Uri.Pattern.C97_uri",
    "Verif.Uri.Pattern.C97_host_prefix",
    "Verif.Uri.Pattern.C97_self_fails"
   ],
   "note": "Labels named self make every request fail (witness for all patterns). Patterns with braces in literal text, and literals with percent signs, are not covered. str.format is modelled without conversions, format specifications and attributes, which names cannot have."
  },
  {
   "property": "C98",
   "status": "partial",
   "theorems": [
    "Verif.Signing.Wire.C98_partial",
    "Verif.Signing.Wire.C98_tampered",
    "Verif.Signing.Wire.C98_default_port_fails",
    "Verif.Signing.Wire.C98_several_values_fails",
    "Verif.Signing.Wire.C98_smithy_values_fails",
    "Verif.Signing.Wire.C98_trailer_fails",
    "Verif.Signing.Wire.C98_unsigned_payload_fails",
    "Verif.Signing.Wire.C98_given_hash_fails",
    "Verif.Signing.Wire.C98_given_date_fails",
    "Verif.Signing.Wire.C98_method_fails"
   ],
   "note": "Acceptance (C98_partial) is proved only for requests that `Sendable` describes, signed for a date of 16 characters. Witnesses show a rejected request for its conditions on method, port, values, trailers, date and content hash; its conditions on the path and on commas and semicolons in header names have no witness. C98_smithy_values_fails compares the signed text with the received one and does not run the signer. C98_tampered assumes messages, words and hashes without line breaks and hashes without any collision, which the real SHA-256 meets only computationally. The service is a specification written here, not code of the repository; normalisation of path and query is shared with the specification of the signer, so an error common to both would not show. awscrt is trusted to send what it is handed."
  },
  {
   "property": "C99",
   "status": "partial",
   "theorems": [
    "Verif.Identity.Default.C99_environment",
    "Verif.Identity.Default.C99_environment_identity",
    "Verif.Identity.Default.C99_environment_gone",
    "Verif.Identity.Default.C99_profile_partial",
    "Verif.Identity.Default.C99_profile_identity",
    "Verif.Identity.Default.C99_none",
    "Verif.Identity.Default.C99_faulty_files",
    "Verif.Identity.Default.C99_other_identity",
    "Verif.Identity.Default.C99_given_profile_fails",
    "Verif.Identity.Default.C99_mixed_fails",
    "Verif.Identity.Default.C99_empty_keys_fails",
    "Verif.Identity.Default.C99_missing_profile_fails"
   ],
   "note": "Precedence is proved in full. The last sentence of the statement is false of the code: a token of one file is used with the keys of the other (C99_mixed_fails), empty keys of a profile count (C99_empty_keys_fails). C99_given_profile_fails and C99_missing_profile_fails are what a user may not expect of the precedence. C99_none and C99_other_identity are stated without additional providers. The environment is constant while the chain is made; concurrent calls of the environment resolver are C50."
  },
  {
   "property": "C100",
   "status": "partial",
   "theorems": [
    "Verif.Generated.C100_deserialize",
    "Verif.Generated.C100_missing",
    "Verif.Generated.C100_stands",
    "Verif.Generated.C100_optional_partial",
    "Verif.Generated.C100_same_name_fails",
    "Verif.Generated.C100_blob_default_fails",
    "Verif.Generated.C100_names",
    "Verif.Generated.C100_keywords"
   ],
   "note": "For valid models: targets exist, no cycle of required structures (the Smithy library refuses them), attributes of a class with different names (C100_same_name_fails shows what happens otherwise), and for errors none that the base classes have. Generator and generated code are both modelled; what a deserializer reads for a member is abstract. C100_optional_partial has the values of the defaults; C100_blob_default_fails: the default of a blob is the text in base64, not the bytes. The snake case of the Smithy library and the times in defaults given as text are parameters."
  },
  {
   "property": "C101",
   "status": "partial",
   "theorems": [
    "Verif.Generated.C101_error_partial",
    "Verif.Generated.C101_reserved_fails",
    "Verif.Generated.C101_fault_fails"
   ],
   "note": "For valid models as in C100, so for errors without members that are named like attributes of the base classes. C101_reserved_fails and C101_fault_fails: such names are not escaped, as PythonSymbolProvider asks the member instead of the structure for the trait error; a member retryAfter is then taken for the delay of a retry, and a member fault hides whose fault it is."
  },
  {
   "property": "C102",
   "status": "partial",
   "theorems": [
    "Verif.Generated.C102_written",
    "Verif.Generated.C102_round_trip_partial",
    "Verif.Generated.C102_none_fails"
   ],
   "note": "C102_written is for every model. The round trip is for valid models as in C100, for objects whose members that cannot be null are not None and whose other members are None only if that is their default (C102_none_fails shows the rest); the serializer and the deserializer in between are C44, C45 and C79. The message of an error and event streams are not part of it."
  },
  {
   "property": "C103",
   "status": "partial",
   "theorems": [
    "Verif.Retry.Resolver.C103_given",
    "Verif.Retry.Resolver.C103_described",
    "Verif.Retry.Resolver.C103_reused_partial",
    "Verif.Retry.Resolver.C103_apart",
    "Verif.Retry.Resolver.C103_reused_fails",
    "Verif.Retry.Resolver.C103_reused_sharp",
    "Verif.Retry.Resolver.C103_negative_fails"
   ],
   "note": "C103_given, C103_described and C103_apart are for every history. C103_reused_partial is for fewer than 128 other settings in between; C103_reused_fails shows that the object is dropped after 128, and C103_reused_sharp that the number is exact. C103_negative_fails: a negative number of attempts is refused in the mode standard only. lru_cache is modelled as the list of its entries by time of use. Clients are told apart by their resolver; that hashes of the arguments do not fail is assumed."
  },
  {
   "property": "C104",
   "status": "partial",
   "theorems": [
    "Verif.Client.C104_client",
    "Verif.Client.C104_others",
    "Verif.Client.C104_seen",
    "Verif.Client.C104_start",
    "Verif.Client.C104_prepare",
    "Verif.Client.C104_plugins",
    "Verif.Client.C104_call_plugins",
    "Verif.Client.C104_returns",
    "Verif.Client.C104_strategy_fails",
    "Verif.Client.C104_config_fails",
    "Verif.Client.C104_circle_fails"
   ],
   "note": "For every heap in which the objects that deep copies keep (retry strategies, what the CRT and aiohttp clients pass on, and all that is reachable from those) are apart from those that are copied; those kept are the ones calls may change for each other (C104_strategy_fails: a plugin that sets max_attempts for its call sets it for all). C104_seen is for paths through objects without a __deepcopy__ of their own. Calls may do anything to what they can reach (Acts), but objects keep their class, and what they come by is new or common. C104_returns: the copy is made, also when objects hold each other in circles, unless an HTTP client is in a circle by way of its own configuration (C104_circle_fails). C104_plugins and C104_call_plugins: all plugins are run, in order. C104_config_fails: the constructor runs plugins on the caller's own configuration, so a configuration used for two clients gets the user agent interceptor twice."
  },
  {
   "property": "C105",
   "status": "partial",
   "theorems": [
    "Verif.Client.C105_quota",
    "Verif.Client.C105_crt",
    "Verif.Client.C105_aiohttp",
    "Verif.Client.C105_forgotten",
    "Verif.Client.C105_credentials_fails"
   ],
   "note": "In the setting of C104. C105_forgotten is for values that are not objects, at paths through objects without a __deepcopy__ of their own. C105_credentials_fails: so credentials a resolver has stored are never used again, and each call asks their source; likewise (C105_crt) no CRT connection is used by a later call."
  },
  {
   "property": "C106",
   "status": "partial",
   "theorems": [
    "Verif.GeneratedSchemas.C106_schemas",
    "Verif.GeneratedSchemas.C106_paths",
    "Verif.GeneratedSchemas.C106_names_fails"
   ],
   "note": "For every valid model whose shapes get different names for their schemas; C106_names_fails: FooBar and Foo_Bar get the same, and one schema takes the place of the other. The traits that shapes built into Smithy have (defaults of primitive types, Unit) are left open here, see C107. Documentation and enum traits are left out of schemas by design, and the value {} of a trait becomes no value. Names that are imported into the module are not modelled."
  },
  {
   "property": "C107",
   "status": "partial",
   "theorems": [
    "Verif.GeneratedSchemas.C107_trait_classes_partial",
    "Verif.GeneratedSchemas.C107_stream",
    "Verif.GeneratedSchemas.C107_long_polling",
    "Verif.GeneratedSchemas.C107_idempotency_never",
    "Verif.GeneratedSchemas.C107_idempotency_fails",
    "Verif.GeneratedSchemas.C107_default_fails",
    "Verif.GeneratedSchemas.C107_prelude_fails"
   ],
   "note": "C107_trait_classes_partial is for all trait classes of smithy_core and smithy_aws_core but DefaultTrait, UnitTypeTrait and IdempotencyTokenTrait, which are declared with IDs that Smithy does not have (smithy.appi#default, smithy.api#UnitTypeTrait, smithy.api#IdempotencyToken). So defaults are not found by class (C107_default_fails), idempotency tokens never (C107_idempotency_never, C107_idempotency_fails), and the traits of built-in shapes not by ID (C107_prelude_fails). Values of traits are kept as texts; what the classes make of them is the matter of C113."
  },
  {
   "property": "C108",
   "status": "partial",
   "theorems": [
    "Verif.GeneratedFiles.Names.C108_names_partial",
    "Verif.GeneratedFiles.Names.C108_variants",
    "Verif.GeneratedFiles.Names.C108_unknown_fails",
    "Verif.GeneratedFiles.Names.C108_unions_fails",
    "Verif.GeneratedFiles.Names.C108_underscore_fails",
    "Verif.GeneratedFiles.Names.C108_service_error_fails"
   ],
   "note": "C108_names_partial assumes that names have no underscores, that names of classes differ and names of lists and maps differ in snake case, that the name of a union followed by that of a member or `Unknown` is the same for no two, and that nothing is called ServiceError. What is not assumed is that such a name differs from those of other shapes: then an underscore is put in (C108_variants). Without the assumptions it is false: a member called unknown (C108_unknown_fails), members of different unions (C108_unions_fails), underscores in names of shapes (C108_underscore_fails), a shape called ServiceError (C108_service_error_fails). Operations are left out."
  },
  {
   "property": "C109",
   "status": "partial",
   "theorems": [
    "Verif.GeneratedFiles.Imports.C109_names_partial",
    "Verif.GeneratedFiles.Imports.C109_union_fails",
    "Verif.GeneratedFiles.Imports.C109_elements_fails",
    "Verif.GeneratedFiles.Imports.C109_timestamps_fails",
    "Verif.GeneratedFiles.Imports.C109_underscore_fails",
    "Verif.GeneratedFiles.Imports.C109_qualified_fails",
    "Verif.GeneratedFiles.Imports.C109_reference_fails"
   ],
   "note": "C109_names_partial is for files in which names that are written out rather than given to the writer as symbols clash with nothing, and the names the writer makes up (with an underscore, or the module, in front) are not in use; symbols may clash with each other and with definitions in any way. Without that it is false: a structure called Union (C109_union_fails), lists of documents beside a structure called Document (C109_elements_fails), symbols that differ only in their shape (C109_timestamps_fails, which takes from Smithy's library, not in the repository, that such symbols are not equal), definitions with an underscore in front (C109_underscore_fails), modules a.b_c and a_b.c (C109_qualified_fails), a symbol also used as a reference with an alias (C109_reference_fails). A name stands for what it does after the whole file has been run; the time of use is the subject of C117. Relative names of modules are in C110."
  },
  {
   "property": "C110",
   "status": "partial",
   "theorems": [
    "Verif.GeneratedFiles.Relative.C110_relative_iff",
    "Verif.GeneratedFiles.Relative.C110_package",
    "Verif.GeneratedFiles.Relative.C110_outside",
    "Verif.GeneratedFiles.Relative.C110_prefix_fails",
    "Verif.GeneratedFiles.Relative.C110_beginning_fails",
    "Verif.GeneratedFiles.Relative.C110_root_fails"
   ],
   "note": "C110_relative_iff says exactly which relative imports are right. All are between modules of a package neither of whose names begins with the other's (C110_package), and so are absolute ones (C110_outside). Wrong are: other packages whose names begin with that of the client, such as smithy_core for a client called smithy (C110_prefix_fails), modules whose names begin with that of the module (C110_beginning_fails), and packages further up (C110_root_fails). Modules with imports are not packages themselves."
  },
  {
   "property": "C111",
   "status": "partial",
   "theorems": [
    "Verif.GeneratedAuth.C111_operations_partial",
    "Verif.GeneratedAuth.C111_same_fails",
    "Verif.GeneratedAuth.C111_operation_fails",
    "Verif.GeneratedAuth.C111_default_resolver",
    "Verif.GeneratedAuth.C111_first",
    "Verif.GeneratedAuth.C111_signed_partial",
    "Verif.GeneratedAuth.C111_given",
    "Verif.GeneratedAuth.C111_set",
    "Verif.GeneratedAuth.C111_none_given_fails",
    "Verif.GeneratedAuth.C111_no_auth_fails"
   ],
   "note": "True of operations without an @auth trait of their own (C111_operations_partial, C111_signed_partial) and of the resolver in smithy_core (C111_default_resolver). The resolver that is generated compares the operation with the name of one, so it offers the same for all operations (C111_same_fails): an operation with an empty @auth trait is signed with SigV4, and so is one for API keys (C111_operation_fails). An empty mapping of schemes is replaced by the default (C111_none_given_fails). Operations of services without auth traits cannot be called (C111_no_auth_fails). C111_set is for schemes whose ID the configuration has. Which schemes are effective is decided by Smithy's library; the model follows its documentation."
  },
  {
   "property": "C112",
   "status": "partial",
   "theorems": [
    "Verif.Literals.C112_literals_partial",
    "Verif.Literals.C112_argument_partial",
    "Verif.Literals.C112_integers_fails"
   ],
   "note": "For all nodes whose integers fit into 64 bits and whose objects have no key twice; other integers are cut to their lowest 64 bits (C112_integers_fails). The escaping of strings (escapeJavaString of Smithy's library) and the text of floating point numbers (Double.toString) are parameters: assumed is that Python reads both back (Agree; Literals.Example.agree has an instance). Decimal numbers count as the floating point number nearest to them. The indentation that the writer adds to lines is left out."
  },
  {
   "property": "C113",
   "status": "partial",
   "theorems": [
    "Verif.TraitValues.C113_values",
    "Verif.TraitValues.C113_empty",
    "Verif.TraitValues.C113_other",
    "Verif.TraitValues.C113_document",
    "Verif.TraitValues.C113_dynamic_partial",
    "Verif.TraitValues.C113_dynamic_other",
    "Verif.TraitValues.C113_dynamic_fails",
    "Verif.TraitValues.C113_checked_fails",
    "Verif.TraitValues.C113_names_fails"
   ],
   "note": "C113_values is for values that say something (Says), under the assumptions of C112 on literals. False are: classes of restJson1 and awsQuery can be made from an object without a class (C113_dynamic_fails); values of the wrong kind are refused (C113_checked_fails: the checks in __post_init__ are never made); there are classes for default, idempotencyToken and unitType (C113_names_fails: they have other IDs)."
  },
  {
   "property": "C114",
   "status": "partial",
   "theorems": [
    "Verif.Retry.DynamoDb.C114_defaults",
    "Verif.Retry.DynamoDb.C114_negative",
    "Verif.Retry.DynamoDb.C114_kept",
    "Verif.Retry.DynamoDb.C114_all",
    "Verif.Retry.DynamoDb.C114_once",
    "Verif.Retry.DynamoDb.C114_attempts",
    "Verif.Retry.DynamoDb.C114_delays",
    "Verif.Retry.DynamoDb.C114_call_fails",
    "Verif.Retry.DynamoDb.C114_mode_fails"
   ],
   "note": "For the strategy as the constructor of the client leaves it (C114_defaults, C114_kept, C114_all cover every configuration; C114_negative: negative numbers of attempts are refused). False are: options set for a single call, by a plugin of the call, get DynamoDB's defaults (C114_call_fails: the service's plugin is run by the constructor only, so they get three attempts); a mode other than standard that only the configuration's retry_mode asks for is used (C114_mode_fails: nothing else reads it). C114_delays is about errors that are not throttling and for which the server asks for no wait. The AsyncConfig that has retry_mode is not generated in this version, and AsyncAwsConfig has no retry_strategy; the model takes the attributes that the plugin reads. What integrations run when is not modelled."
  },
  {
   "property": "C115",
   "status": "partial",
   "theorems": [
    "Verif.Http.RestJson.C115_request",
    "Verif.Http.RestJson.C115_response",
    "Verif.Http.RestJson.C115_payload"
   ],
   "note": "The composition of C29, C79 and C80 with C43 and C44 in the place of the codec; partial because values JSON cannot carry (Carries: NaN, big decimals of more than 28 digits, null documents in collections) and messages C80 excludes are left out, for which those have witnesses. Members are given in the order of the schema, as generated code writes them. ijson is trusted to find the JSON value of a text (Codec.Ok.parse; exists_parse shows that there is such a function). Structures without any member bound to the body, raw payloads and event streams are not part of it."
  },
  {
   "property": "C116",
   "status": "partial",
   "theorems": [
    "Verif.GeneratedDocs.C116_literal_partial",
    "Verif.GeneratedDocs.C116_operation_partial",
    "Verif.GeneratedDocs.C116_text_partial",
    "Verif.GeneratedDocs.C116_quotes_fails",
    "Verif.GeneratedDocs.C116_end_fails",
    "Verif.GeneratedDocs.C116_users_fails",
    "Verif.GeneratedDocs.C116_new_fails",
    "Verif.GeneratedDocs.C116_break_fails",
    "Verif.GeneratedDocs.C116_dollars_fails"
   ],
   "note": "Pandoc is not modelled: the theorems are about every text that is read from it. C116_literal_partial and C116_operation_partial are for texts without carriage returns, without three quotes in a row, without tags for notes and, if on one line, not ending with a bare quote; or, with notes, for texts in which every quote and no line break has a backslash in front; and for both without a backslash alone before x, N, u or U. C116_text_partial: white space and backslashes apart, the value of the literal is the text, if it has no notes and no backslash alone before a letter or digit. Outside of this it is false of the code, as nothing is done about quotes and pandoc leaves code as it is: three quotes in code end the literal and what follows is run when the module is imported (C116_quotes_fails); a module is not importable if documentation ends with a block of code that ends with a quote (C116_end_fails) has a path like C:\\users in code (C116_users_fails), or a line break marked by a backslash at the end of a note (C116_break_fails); C:\\new in code becomes a line break (C116_new_fails). Dollar signs are doubled in the documentation of operations (C116_dollars_fails). Smithy's writer is modelled as far as white space and dollar signs go. Value means Python 3.11; escape sequences for surrogates and \\N{...} count as errors in the specification."
  },
  {
   "property": "C117",
   "status": "partial",
   "theorems": [
    "Verif.GeneratedFiles.Order.C117_order_iff",
    "Verif.GeneratedFiles.Order.C117_partial",
    "Verif.GeneratedFiles.Order.C117_order_exists",
    "Verif.GeneratedFiles.Order.C117_defaults_partial",
    "Verif.GeneratedFiles.Order.C117_list_fails",
    "Verif.GeneratedFiles.Order.C117_operation_fails",
    "Verif.GeneratedFiles.Order.C117_default_fails",
    "Verif.GeneratedFiles.Order.C117_hidden_fails"
   ],
   "note": "C117_order_iff says for each order exactly when the module can be imported: when each class comes before the code that needs it while it runs (Needs). C117_partial: so it is in Smithy's order (what is not recursive comes before what refers to it, which is taken from Smithy's documentation) if each list or map comes after the recursive classes in its type (not asked of Python 3.14 and later), no member with an empty list or map as its default has recursive classes in its type, and no operation has a recursive input, output or error. C117_order_exists: another order than Smithy's would do without the first and last of these. Outside of this it is false of the code: a list or map that is not recursive but has a recursive class in its type (C117_list_fails, before Python 3.14), operations with a recursive input, output or error (C117_operation_fails) in Smithy's order, in which recursive shapes are last; an empty default whose type has its own class in it (C117_default_fails, in any order). All of this is under Valid: definitions have different names, none of which is that of something imported or built in (C108 and C109 are about that), and members are not called like anything that is used in the module. C117_hidden_fails has members called field, timezone, classmethod and serialize, which no list of reserved words has. C117_defaults_partial needs members that are not called like methods or like the fixed properties of errors. Only names are modelled: what is done with the values is not, nor are the bodies of functions, which are not run on import; schemas that are imported (C106), and auth schemes and schemas in operations are left out."
  },
  {
   "property": "C118",
   "status": "partial",
   "theorems": [
    "Verif.GeneratedConfig.C118_callable",
    "Verif.GeneratedConfig.C118_unique",
    "Verif.GeneratedConfig.C118_partial",
    "Verif.GeneratedConfig.C118_replaced",
    "Verif.GeneratedConfig.C118_not_null",
    "Verif.GeneratedConfig.C118_own",
    "Verif.GeneratedConfig.C118_apart",
    "Verif.GeneratedConfig.C118_set_auth_scheme",
    "Verif.GeneratedConfig.C118_interceptors_iff",
    "Verif.GeneratedConfig.C118_section_iff",
    "Verif.GeneratedConfig.C118_false_fails",
    "Verif.GeneratedConfig.C118_no_schemes_fails",
    "Verif.GeneratedConfig.C118_plugin_name_fails",
    "Verif.GeneratedConfig.C118_no_operations_fails",
    "Verif.GeneratedConfig.C118_dollar_fails"
   ],
   "note": "C118_callable, C118_unique: the arguments that are accepted are those of Setting, a table of the settings. C118_partial has what becomes of arguments that count as true, and of settings that are not given; whatever a class says about which of its objects count as true. C118_own and C118_apart: what a configuration can reach is new or was reached from its arguments or from what defaults use (such as the schema of the service). C118_not_null is under what the documentation of ConfigProperty demands of plugins. The property is false of the code in the following: arguments that count as false are replaced by a default if there is one (C118_replaced says so in general), so an empty list of interceptors is not the one that is used (C118_false_fails) and auth cannot be turned off with an empty dictionary (C118_no_schemes_fails); a plugin's property with the name of another is ignored (C118_plugin_name_fails); the first line of the module of a service without operations has a bracket that is not closed (C118_interceptors_iff, C118_no_operations_fails); and if the service has auth traits the class is written twice, the second time as a template, so that dollar signs in it are lost or an error (C118_section_iff, C118_dollar_fails). Objects that constructors make for themselves, declared types and documentation are left out, as is the rest of the module's text."
  },
  {
   "property": "C119",
   "status": "partial",
   "theorems": [
    "Verif.GeneratedSerde.C119_calls",
    "Verif.GeneratedSerde.C119_round_trip_partial",
    "Verif.GeneratedSerde.C119_unknown_fails",
    "Verif.GeneratedSerde.C119_default_fails"
   ],
   "note": "Typed says what an instance of a class is, and that its values are those that the JSON codec can carry (C44: no NaN, finite decimals of at most 28 digits, timestamps that their format restores, no null documents in lists and maps). C119_calls: the calls are those of Writes, for all typed instances. C119_round_trip_partial: one JSON text, and an instance that is equal as == compares is read from it. Event streams are not attributes. The property is false of the code in the following: an object with an unknown member of a union cannot be serialized (C119_unknown_fails), and None for a member that may be null and has a default is not written, so that the default is read (C119_default_fails). The model of a service (names, nullability, corrections) is given; that its names are different is Model.Ok. Other codecs are not in this theorem."
  },
  {
   "property": "C120",
   "status": "partial",
   "theorems": [
    "Verif.GeneratedSerde.C120_unknown_fails",
    "Verif.GeneratedSerde.C120_never_fails",
    "Verif.GeneratedSerde.C120_ignored_partial"
   ],
   "note": "The property is false of the code with JSON: the deserializer skips names that the schema does not have before the generated consumer could see them. A union with only a member that the client does not know raises SerializationError (C120_unknown_fails), and no text at all is read as an unknown member (C120_never_fails). C120_ignored_partial has the second part: members that the client does not know, of any value, before and after the one that it knows, do not change what is read."
  },
  {
   "property": "C121",
   "status": "proved",
   "theorems": [
    "Verif.GeneratedSerde.C121_reads",
    "Verif.GeneratedSerde.C121_one_member",
    "Verif.GeneratedSerde.C121_ignored",
    "Verif.GeneratedSerde.C121_order",
    "Verif.GeneratedSerde.C121_nested"
   ],
   "note": "C121_reads: deserialize succeeds with v if and only if Reads has v, for all JSON values. Reads is the specification of the statement (AnySpec.lean); for values without parts it uses what the codec reads for the schema (Reader.decode of C44). C121_one_member: what is needed for a union. C121_ignored and C121_order: unknown members, and the order of members that are each there once, in the outermost object; C121_nested: both at any depth, of structures and unions in lists, maps, structures and unions. NoStreams: no structure has an event stream as a member; if one had and the text gave it a value, the generated consumer would not read that value. Errors are not distinguished. The model of a service (names, defaults, corrections) is given; that its names are different is Model.Ok. The text is given as the events that the JSON parser has for it."
  },
  {
   "property": "C122",
   "status": "partial",
   "theorems": [
    "Verif.Identity.Instance.C122_answer",
    "Verif.Identity.Instance.C122_expiration_partial",
    "Verif.Identity.Instance.C122_offset_fails",
    "Verif.Identity.Instance.C122_config",
    "Verif.Identity.Instance.C122_requests",
    "Verif.Identity.Instance.C122_identity",
    "Verif.Identity.Instance.C122_status_fails"
   ],
   "note": "C122_answer: both resolvers make credentials of a JSON value exactly if it says them (Says). C122_expiration_partial: for RFC 3339 texts in UTC the expiration is that instant. C122_offset_fails: for every other offset it is another instant, the offset being dropped and not converted; later than what was said if east of Greenwich. C122_requests and C122_identity: for every list of calls made one after the other (concurrent calls are C54). C122_status_fails: the status of answers makes no difference to anything that is returned, so the text of an error is used as a token, role or answer. C122_config: the configurations that are accepted. json.loads is a parameter, as are the clocks and the answers; the path of the endpoint and the retry strategy are not used by the code."
  },
  {
   "property": "C123",
   "status": "partial",
   "theorems": [
    "Verif.AwsConfig.Files.C123_path",
    "Verif.AwsConfig.Files.C123_load",
    "Verif.AwsConfig.Files.C123_load_error",
    "Verif.AwsConfig.Files.C123_once",
    "Verif.AwsConfig.Files.C123_cached",
    "Verif.AwsConfig.Files.C123_concurrent",
    "Verif.AwsConfig.Files.C123_once_fails",
    "Verif.AwsConfig.Files.C123_empty"
   ],
   "note": "C123_path: the path for an argument, the environment and the home directories; none exactly if a home directory is needed and not known. C123_load and C123_load_error: what is read, in which order, and when it fails. C123_once: a refinement: resolve over files that change gives what Settings.resolve (C49) gives for one loading, and reads nothing or what that loading reads. C123_cached: calls after one that succeeded read nothing. C123_concurrent: for every schedule each call that ends has profiles from one config file and one later credentials file. C123_once_fails: a schedule in which two calls at the same time both read the files and get different profiles, against the docstring of parsed_profiles. C123_empty: an empty AWS_CONFIG_FILE means the working directory, unlike empty variables for settings. Decoding of files and home directories by pwd are parameters; POSIX paths."
  },
  {
   "property": "C124",
   "status": "partial",
   "theorems": [
    "Verif.Changelog.C124_exactly_once",
    "Verif.Changelog.C124_never_lost",
    "Verif.Changelog.C124_release",
    "Verif.Changelog.C124_ends",
    "Verif.Changelog.C124_crash_fails",
    "Verif.Changelog.C124_stuck_fails",
    "Verif.Changelog.C124_concurrent_fails",
    "Verif.Changelog.C124_empty_fails"
   ],
   "note": "C124_exactly_once: for every history of scripts that ran to their ends, what waits and what is released together are a permutation of what was told, if files can be removed. C124_never_lost: with scripts killed at any operation, everything told is still there, at least once. C124_release: when a release succeeds, what its file has, and when nothing changes. C124_ends: scripts end. What is false: C124_crash_fails (killed between writing the file and removing the changes: the next release has them again), C124_stuck_fails (files that cannot be removed: code 0 and the changes are in every release), C124_concurrent_fails (an entry written while a release is made is removed and is in no release), C124_empty_fails (new-entry takes an empty description, and no release succeeds from then on). Ids are assumed fresh; files hold JSON values rather than text."
  },
  {
   "property": "C125",
   "status": "partial",
   "theorems": [
    "Verif.Changelog.C125_render",
    "Verif.Changelog.C125_none",
    "Verif.Changelog.C125_every_change_partial",
    "Verif.Changelog.C125_newline_fails"
   ],
   "note": "C125_render: the text is that of a list of releases that are exactly those on disk, without repetition and none after an older one. C125_none: when there is no changelog. C125_every_change_partial: for every history of scripts whose versions had no line feed, what waits and what is in the changelog are a permutation of what was told, and every change is of one of the five types. C125_newline_fails: new-release takes a version with a line feed at its end, whose release is never rendered. Changes of other types in files written by hand are not shown. The template is modelled as the text it makes."
  },
  {
   "property": "C126",
   "status": "partial",
   "theorems": [
    "Verif.TypeCodegen.C126_selected_partial",
    "Verif.TypeCodegen.C126_plain_partial",
    "Verif.TypeCodegen.C126_only",
    "Verif.TypeCodegen.C126_closed",
    "Verif.TypeCodegen.C126_schema",
    "Verif.TypeCodegen.C126_errors_fails",
    "Verif.TypeCodegen.C126_inputs_fails"
   ],
   "note": "C126_selected_partial: a selected shape has a class if it is no error, input or output, and the one selected before it is none either, or if it is the last and an error. C126_plain_partial: all have classes if none of them is an error, input or output. C126_only: nothing else has a class. C126_closed: what a class needs has a class, except inputs and outputs. C126_schema: every class has a schema. C126_errors_fails: the number in the id of a synthetic operation is not counted up for errors, so that of two errors one is lost, whichever Smithy keeps. C126_inputs_fails: inputs and outputs have no classes even if generateInputsAndOutputs is set, for every model. What Smithy's director and transformer do is assumed, as the file says."
  },
  {
   "property": "C127",
   "status": "proved",
   "theorems": [
    "Verif.Requirements.C127_conflict",
    "Verif.Requirements.C127_required",
    "Verif.Requirements.C127_line"
   ],
   "note": "C127_conflict: exactly when generation stops. C127_required: the requirements of each type, from the order of packages to their extras. C127_line: what is written for a dependency is read back by a reader of requirements, if names have only letters, digits, hyphens, underscores and dots and a version begins with something else; the quotes and commas around lines are left out. The order of strings and of the stream are parameters. If dependencies on one package differ in being links then the requirement is that of one of them, as the last part of C127_required says."
  },
  {
   "property": "C128",
   "status": "proved",
   "theorems": [
    "Verif.Fields.Accept.C128_accept",
    "Verif.Fields.Accept.C128_others",
    "Verif.Fields.Accept.C128_plugin"
   ],
   "note": "On the model of C25, for every history of the collection whose fields are created where they are put in. That the hook runs before signing is C23; interceptors that come after this one may change the header."
  },
  {
   "property": "C129",
   "status": "partial",
   "theorems": [
    "Verif.RestJson.C129_output_partial",
    "Verif.RestJson.C129_payload_partial",
    "Verif.RestJson.Example.C129_empty_list_fails",
    "Verif.RestJson.Example.C129_status_fails",
    "Verif.RestJson.PayloadExample.C129_absent_payload_fails",
    "Verif.RestJson.Example.C129_prefix_none_fails",
    "Verif.RestJson.Example.C129_prefix_media_fails",
    "Verif.RestJson.PayloadExample.C129_absent_document_fails"
   ],
   "note": "Proved of the composition of the models of C119, C78, C29, C79 and C43, for outputs whose members are bound to headers, headers with a prefix, the status or the body (C129_output_partial), and for outputs with a payload that is a blob, a string, a document, a structure, a union, a list or a map and whose other members are bound to headers, headers with a prefix or the status (C129_payload_partial, which also says that the body is the blob, or the string in UTF-8). Missing: streams, payloads that are enums (C80 has them), and aware datetimes of other zones than UTC in headers. Equality is that of Python (C119). Values are those of the theorem's Field: the texts of a list of one element in a header have no commas and no space at their ends and do not begin with a quote, as C78 has it; a map that is bound to headers with a prefix has strings without a media type, and no two of its keys differ in case only (C80_keys_by_case_fails); no other header starts with the prefix; a document that is the payload has no member with an empty name that is an object (C44_root_fails). An empty list in a header is read as None, None for the member bound to the status is read as the status of the operation, a blob that is the payload and is None is read as an empty one, None for a map bound to headers with a prefix is read as an empty map, and its values, if they have a media type, are written as they are but read as base64 ; if a document that is the payload is None, the client fails (the six _fails)."
  },
  {
   "property": "C130",
   "status": "partial",
   "theorems": [
    "Verif.RestJson.C130_request_partial",
    "Verif.RestJson.C130_payload_partial",
    "Verif.RestJson.PayloadExample.C130_required_length_fails",
    "Verif.RestJson.MapExample.C130_precedence_fails"
   ],
   "note": "Proved of the composition of the models of C119, C78, C97, C28, C29 and C43, for inputs whose members are bound to labels, the query, maps of query parameters, headers, maps of headers with a prefix, or the body (C130_request_partial), or of which one is the payload and the others are bound to any of these but the body (C130_payload_partial): a blob, a string, an enum, a document, a structure, a union, a list or a map. What is left out leaves an empty body with the content type; it has a content length only if the codec writes it. Maps of query parameters are of strings or lists of strings, those of headers of strings with no key that makes one of the headers of the body; every other header has exactly the texts that are bound to it. A parameter of its own member has no precedence over one of the same name in a map (C130_precedence_fails). There is no request if the length is required (requiresLength) and a blob or text is left out (C130_required_length_fails). Missing: event streams and streaming blobs, payloads that are numbers, host labels, the method, and aware datetimes of other zones than UTC in the URI and in headers. Literal parts of the pattern are as in C97 (no braces and percent signs), and no label is named self. That texts say a value means that the reader of C78 restores it from them, in a URI with the date-time format for timestamps; a list has one text each for its elements. Equality is that of Python (C119)."
  },
  {
   "property": "C131",
   "status": "partial",
   "theorems": [
    "Verif.RestJson.C131_output_partial",
    "Verif.RestJson.C131_error_partial",
    "Verif.RestJson.C131_payload_partial",
    "Verif.RestJson.C131_error_payload_partial"
   ],
   "note": "Proved of the composition of C129 with C32, C40 and C59. Without a payload (C131_output_partial, C131_error_partial), bodies have the members that the service wrote for the class, in that order, with any others anywhere among them; in a model without event streams, there may be members that the client does not know in the values of these too, at any depth, and the members of objects in them may be in any order (SameContent, as in C121_nested); if nothing of the class is in the body, it is any body. With a payload (C131_payload_partial, C131_error_payload_partial), the body is what the service wrote or, if the payload is a structure, union, list or map in a model without event streams, a body that differs from it only as SameContent says. The content length, if there is one, is that of the body, and the headers that start with the prefix of a member are those the service wrote. Missing, besides what is missing in C129 (event streams and other streams, payloads that are enums): bodies with the same key twice for the code, bodies that are streams, and attributes of errors that base classes have and the service does not send (C101). Registered classes are taken to be those of generated errors."
  },
  {
   "property": "C132",
   "status": "partial",
   "theorems": [
    "Verif.QueryAnswer.C132_output_partial",
    "Verif.QueryAnswer.C132_error_partial",
    "Verif.QueryAnswer.C132_texts",
    "Verif.QueryAnswer.C132_order_fails",
    "Verif.QueryAnswer.C132_error_order_fails",
    "Verif.QueryAnswer.Example.C132_inherited_fails"
   ],
   "note": "Proved of the composition of C92 (and C45), C119, C32 and C78. False of the code: elements before NameResult or Error (ResponseMetadata, RequestId) make it refuse the response (witnesses; after them they do no harm), and a member without @xmlName whose target has it is not found under its own name (witness), so models with such members are excluded. Missing, besides what is missing in C92: empty bodies, attributes of the element of the output itself (not read: C92), attributes of errors that base classes have and the service does not send (C101), and codes with '$'. C132_texts has the texts of integers, floats and times; that decimals are read is a condition on what the service writes. Registered classes are taken to be those of generated errors."
  },
  {
   "property": "C133",
   "status": "partial",
   "theorems": [
    "Verif.QueryRequest.C133_partial",
    "Verif.QueryRequest.C133_different_partial",
    "Verif.QueryRequest.C133_texts",
    "Verif.QueryRequest.Example.C133_inherited_fails"
   ],
   "note": "Proved of the composition of C119, C93 and C78. False of the code: a member without @xmlName whose target has it is written under the name of the target (witness; schemas of members take over the traits of their targets), so such members are excluded. Missing, as in C93: inputs in which something has nothing to write (empty structures or maps, nulls in lists), members called Action or Version, names with dots; and documents and event streams, which AWS Query has not. C133_texts has the texts of floats and times; a finite decimal is read back with its value, but the theorem is about those that are read back as they are. Not modelled: integers with more digits than Python converts."
  },
  {
   "property": "C134",
   "status": "partial",
   "theorems": [
    "Verif.GeneratedEnums.C134_import_partial",
    "Verif.GeneratedEnums.C134_members_partial",
    "Verif.GeneratedEnums.C134_same_name_fails",
    "Verif.GeneratedEnums.C134_underscores_fails"
   ],
   "note": "Proved: for enums whose names in Python have no underscores in special places (two in front, one on both sides, one and the name of the class and two in front), the class can be imported if and only if no two converted names are the same, and then it is as stated. False of the code in general: two names of the model that snake case makes the same (darkRed and dark_red; witness for an example of a snake case) end in a TypeError on import, a name with an underscore on both sides in a ValueError, and a member whose name begins with two underscores is silently missing (witnesses). Snake case of the Smithy library is a parameter; literals of the values are C112."
  },
  {
   "property": "C135",
   "status": "partial",
   "theorems": [
    "Verif.ClientNames.C135_name",
    "Verif.ClientNames.C135_identifier",
    "Verif.ClientNames.C135_same_name",
    "Verif.ClientNames.C135_new_name",
    "Verif.ClientNames.C135_old_name_partial",
    "Verif.ClientNames.C135_no_other_name",
    "Verif.ClientNames.C135_imported_name_fails"
   ],
   "note": "Proved as stated for every SDK ID that matches the pattern of the Smithy library, except that the old name is claimed only if the module imports nothing of that name: a class of the model with the old name that an operation uses hides the client (witness). That warnings are not turned into exceptions is assumed for the old name."
  },
  {
   "property": "C136",
   "status": "partial",
   "theorems": [
    "Verif.Transport.Mock.C136_first_in_first_out",
    "Verif.Transport.Mock.C136_in_order",
    "Verif.Transport.Mock.C136_headers",
    "Verif.Transport.Mock.C136_recorded",
    "Verif.Transport.Mock.C136_fields_partial",
    "Verif.Transport.Mock.C136_fields_fails"
   ],
   "note": "Proved for every history. What is seen of recorded requests is what was sent for destination, method and body (the same body object), and for fields as long as no one changes the object in place: the record is a shallow copy, and shows a later change (witness). C136_headers is for lists of headers in which the values of a name stand together. Only the queue and the records are modelled, not the configuration, which the client does not use."
  },
  {
   "property": "C137",
   "status": "proved",
   "theorems": [
    "Verif.Packaging.C137_conflict",
    "Verif.Packaging.C137_listed",
    "Verif.Packaging.C137_requirement",
    "Verif.Packaging.C137_array"
   ],
   "note": "For any order of names that is a strict total order (earlier_order shows that the order of Java strings is one for the names of ASCII characters). C137_requirement is for names of packages and extras of letters, digits and `_-.`, and versions that do not begin with such a character, `[` or a space unless the dependency is a link. C137_array is for requirements without quotes, backslashes and newlines. That uses of a package agree on whether it is a link is assumed by the code; what is proved is that the value written is that of some use. Dependencies for documentation are gathered and not written. The other text of pyproject.toml is not modelled."
  },
  {
   "property": "C138",
   "status": "partial",
   "theorems": [
    "Verif.InitFiles.C138_packages_partial",
    "Verif.InitFiles.C138_kept",
    "Verif.InitFiles.C138_version",
    "Verif.InitFiles.C138_only",
    "Verif.InitFiles.C138_ends",
    "Verif.InitFiles.C138_module",
    "Verif.InitFiles.C138_module_partial",
    "Verif.InitFiles.C138_module_fails",
    "Verif.InitFiles.C138_later_fails",
    "Verif.InitFiles.C138_between_fails"
   ],
   "note": "Proved for the directories of files that generators wrote to before integrations run; false of directories that only integrations write to and of those that only have directories in them (witnesses). Generation ends with a NullPointerException exactly if a file was written that has no directory (C138_ends). Files are the sections written to them; that a path has one writer, and that flushing writes its file, is assumed of the Smithy library. Names of modules that begin with a digit, and keywords, are accepted (C138_module_fails); the others are identifiers or keywords (C138_module_partial)."
  },
  {
   "property": "C139",
   "status": "partial",
   "theorems": [
    "Verif.ClientPlugins.C139_applies_partial",
    "Verif.ClientPlugins.C139_only_fails",
    "Verif.ClientPlugins.C139_exclusive",
    "Verif.ClientPlugins.C139_copy",
    "Verif.ClientPlugins.C139_client",
    "Verif.ClientPlugins.C139_operation",
    "Verif.ClientPlugins.C139_files_partial",
    "Verif.ClientPlugins.C139_files_fails"
   ],
   "note": "Which callables are in constructors and operations, once and in order, is proved for all plugins. False of the code: appliesOnlyToOperations sets the predicate for operations and then calls servicePredicate, which resets it, so such plugins apply to nothing (C139_only_fails, for all names and histories); files are only written for plugins that apply to the service, so those of plugins for operations are missing (C139_files_fails). C139_files_partial says which files are written. Of plugins the predicates, the callable and the files are modelled; what they do when clients run is in C104 and C105."
  },
  {
   "property": "C140",
   "status": "partial",
   "theorems": [
    "Verif.ProtocolTests.C140_passes_partial",
    "Verif.ProtocolTests.C140_right_partial",
    "Verif.ProtocolTests.C140_segments",
    "Verif.ProtocolTests.C140_forbidden_fails",
    "Verif.ProtocolTests.C140_required_fails",
    "Verif.ProtocolTests.C140_values_fails",
    "Verif.ProtocolTests.C140_twice_fails"
   ],
   "note": "Proved as an equivalence for requests in which every parameter of the query has a non-empty value, where the values of a header need only include those expected (C140_passes_partial), for expected headers with at least one value and required headers listed once. False of the code beyond that: a forbidden parameter without a value is not found (C140_forbidden_fails), a required one that is empty is reported missing (C140_required_fails), additional values of a header are not reported (C140_values_fails), a required header listed twice is reported missing (C140_twice_fails). Lower-casing (idempotent), unquoting and the comparison of bodies (C142) are parameters; how expected values of headers are split is C141; the tests of responses are C144."
  },
  {
   "property": "C141",
   "status": "partial",
   "theorems": [
    "Verif.TestHeaders.C141_list_partial",
    "Verif.TestHeaders.C141_one_partial",
    "Verif.TestHeaders.C141_dates",
    "Verif.TestHeaders.C141_one_date",
    "Verif.TestHeaders.C141_one_fails",
    "Verif.TestHeaders.C141_empty_fails"
   ],
   "note": "Round trip with Field.as_string, for lists of two or more values each of which has a comma or quote or is non-empty without blanks around it (C141_list_partial), one value without comma that does not begin with a quote (C141_one_partial; it is expected twice), and dates. False of the code: of a list with one element that has a comma the parts are expected as well, since the case of one value goes on to be split (C141_one_fails); an empty last element is lost (C141_empty_fails). Smithy's SimpleParser is not in the repository: what it does is assumed as the module says."
  },
  {
   "property": "C142",
   "status": "partial",
   "theorems": [
    "Verif.TestBodies.C142_octets",
    "Verif.TestBodies.C142_form",
    "Verif.TestBodies.C142_params",
    "Verif.TestBodies.C142_form_params",
    "Verif.TestBodies.C142_json_partial",
    "Verif.TestBodies.C142_no_body",
    "Verif.TestBodies.C142_empty_fails",
    "Verif.TestBodies.C142_missing_fails",
    "Verif.TestBodies.C142_number_fails"
   ],
   "note": "Proved for forms and other media types. For JSON, if the body of the request is not empty, up to == of Python for what json.loads returns (C142_json_partial). False of the code: no request meets a test case that expects an empty body of JSON, as loading nothing is an exception (C142_empty_fails); a request without a body meets one that expects the empty string (C142_missing_fails); 1 meets true (C142_number_fails). json.loads, == and unquoting are parameters."
  },
  {
   "property": "C143",
   "status": "partial",
   "theorems": [
    "Verif.TestCases.C143_generated",
    "Verif.TestCases.C143_label_partial",
    "Verif.TestCases.C143_all_run_partial",
    "Verif.TestCases.C143_each_name",
    "Verif.TestCases.C143_lost_fails"
   ],
   "note": "Which tests are generated is proved for all models. All of them run if names of operations have no underscore, ids are unique for each kind and operation, and changing the case of names, a parameter, leaves them different (C143_all_run_partial). False of the code otherwise: names of tests are joined from ids and names with underscores, so tests of two operations can have the same one and the first never runs (C143_lost_fails). Tests marked as expected to fail are not told apart."
  },
  {
   "property": "C144",
   "status": "partial",
   "theorems": [
    "Verif.TestResponses.C144_response",
    "Verif.TestResponses.C144_error_partial",
    "Verif.TestResponses.C144_renamed_fails",
    "Verif.TestResponses.C144_small_fails",
    "Verif.TestResponses.C144_content_fails"
   ],
   "note": "Proved for responses, up to == of values and the comparison of streams, which are parameters (bodies: C142). Tests of errors compare the name of the class with that of the shape: right for shapes that are not renamed, begin with a capital and are not reserved (C144_error_partial). False of the code otherwise: they fail for right clients if the service renames the error (C144_renamed_fails) or its name begins with a small letter (C144_small_fails), and they pass whatever the members of the exception are (C144_content_fails). How the expected values are written is C145."
  },
  {
   "property": "C145",
   "status": "partial",
   "theorems": [
    "Verif.TestValues.C145_contents",
    "Verif.TestValues.C145_typed_partial",
    "Verif.TestValues.C145_list_fails",
    "Verif.TestValues.C145_union_fails"
   ],
   "note": "Proved for models in which no list has documents as elements and no union has one as a member. False of the code otherwise: a list of documents is written as one document (C145_list_fails), and a document in a union is written without its class (C145_union_fails). That what is written has the content of the node is proved for every model (C145_contents). Members have the names of the model; filling of missing payloads is not modelled."
  }
 ]
}