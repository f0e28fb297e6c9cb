# Axioms of the theorems in MANIFEST.json

What `#print axioms` reports, theorems grouped by the set of axioms they depend on.

## none (19 theorems)

* `Verif.Readers.C16_reiterable_fails`
* `Verif.Readers.C17_failed_seek_moves_cursor_fails`
* `Verif.Readers.C17_relative_seek_depends_on_buffer_fails`
* `Verif.Readers.C17_short_read_fails`
* `Verif.Pipeline.C20_last_wins`
* `Verif.Pipeline.C20_modification_lost_fails`
* `Verif.Pipeline.C20_two_modifications_fails`
* `Verif.Identity.C50_invalidate_fails`
* `Verif.Identity.Chain.C51_invalidate_fails`
* `Verif.Scalars.C56_zero_rejected`
* `Verif.Pipeline.C66_signer_properties_ignored_fails`
* `Verif.Pipeline.C66_signer_gets_identity_properties_fails`
* `Verif.Transport.C87_reader_fails`
* `Verif.Transport.C87_sync_partial`
* `Verif.Transport.C87_coroutine_fails`
* `Verif.Retry.Resolver.C103_given`
* `Verif.Retry.Resolver.C103_reused_fails`
* `Verif.Retry.Resolver.C103_negative_fails`
* `Verif.Retry.DynamoDb.C114_all`

## `propext` (46 theorems)

* `Verif.Retry.C12_single_acquire`
* `Verif.Retry.C12_single_release`
* `Verif.Readers.C16_closed`
* `Verif.Pipeline.C21_read_after_execution_partial`
* `Verif.Pipeline.C21_read_before_execution_fails`
* `Verif.Pipeline.C21_read_attempt_hooks_fail_fails`
* `Verif.Pipeline.C22_cancelled_call_fails`
* `Verif.Pipeline.C24_modified_input_not_serialized_fails`
* `Verif.Http.Errors.C32_local_name`
* `Verif.Schemas.C38_not_of_member`
* `Verif.Schemas.C41_unionDict_fails`
* `Verif.AwsConfig.C47_lines`
* `Verif.Identity.Chain.C51_chained`
* `Verif.Identity.Chain.C51_invalidate`
* `Verif.Identity.Assembly.C52_assembled`
* `Verif.Identity.Assembly.C52_slots`
* `Verif.Http.Destination.C57_authority`
* `Verif.Http.Destination.C57_authority_wins`
* `Verif.Http.Destination.C57_path`
* `Verif.Http.Destination.C57_single_path`
* `Verif.Shapes.C59_no_namespace`
* `Verif.Shapes.C59_restjson_partial`
* `Verif.Pipeline.Replay.C60_closed_by_transport_fails`
* `Verif.Pipeline.Replay.C60_unseekable_retried_fails`
* `Verif.Pipeline.C66_identity_properties`
* `Verif.Http.Destination.C70_host_prefix_fails`
* `Verif.EventStream.Shapes.C81_unmodeled_error`
* `Verif.EventStream.Shapes.C81_boolean_for_integer_fails`
* `Verif.Pipeline.Streams.C86_error_fails`
* `Verif.Transport.C87_buffer_size_fails`
* `Verif.Transport.C87_response`
* `Verif.Transport.Crt.C89_empty_path_fails`
* `Verif.Generated.C100_optional_partial`
* `Verif.Retry.Resolver.C103_reused_sharp`
* `Verif.Client.C104_strategy_fails`
* `Verif.Client.C104_config_fails`
* `Verif.Client.C105_credentials_fails`
* `Verif.GeneratedAuth.C111_same_fails`
* `Verif.GeneratedAuth.C111_operation_fails`
* `Verif.GeneratedAuth.C111_none_given_fails`
* `Verif.GeneratedAuth.C111_no_auth_fails`
* `Verif.GeneratedFiles.Order.C117_hidden_fails`
* `Verif.Transport.Mock.C136_fields_fails`
* `Verif.TestResponses.C144_renamed_fails`
* `Verif.TestResponses.C144_small_fails`
* `Verif.TestResponses.C144_content_fails`

## `Quot.sound`, `propext` (124 theorems)

* `Verif.EventStream.C06_message_iff`
* `Verif.Pipeline.C13_pipeline_attempts_bounded`
* `Verif.Retry.C15_success_releases`
* `Verif.Readers.C16_read_exact_partial`
* `Verif.Readers.C16_nothing_lost_partial`
* `Verif.Readers.C16_iter_chunks_partial`
* `Verif.Readers.C16_chunks_concatenate_partial`
* `Verif.Readers.C17_bytes_like_a_file`
* `Verif.Readers.C17_iter_chunks_partial`
* `Verif.Provider.C19_write_during_flush_fails`
* `Verif.Provider.C19_flush_behind_write_fails`
* `Verif.Provider.C19_concurrent_writers_fails`
* `Verif.Provider.C19_two_consumers_fails`
* `Verif.Pipeline.C20_only_last_modifies_partial`
* `Verif.Pipeline.C20_modify_before_completion_never_called_fails`
* `Verif.Pipeline.C21_read_before_execution_partial`
* `Verif.Pipeline.C22_completion_once_partial`
* `Verif.Pipeline.C22_caller_observes_final_outcome`
* `Verif.Pipeline.C23_documented_order`
* `Verif.Pipeline.C23_attempts_complete`
* `Verif.Pipeline.C24_unchanged_input_serialized_partial`
* `Verif.Fields.C25_construction`
* `Verif.Fields.C25_construction_rejected`
* `Verif.HeaderText.C26_accepts_only_lists`
* `Verif.Uri.C28_query_round_trip`
* `Verif.Http.C29_request_location`
* `Verif.Http.C29_response_location`
* `Verif.Signing.C34_order`
* `Verif.Shapes.C37_parse_iff`
* `Verif.Shapes.C37_from_parts`
* `Verif.Shapes.C37_injective`
* `Verif.Shapes.C37_rejects`
* `Verif.Shapes.C37_with_member`
* `Verif.Schemas.C38_member`
* `Verif.Schemas.C38_lookup`
* `Verif.Schemas.C38_collection`
* `Verif.Schemas.Document.C39_assignment`
* `Verif.Shapes.C40_get_iff`
* `Verif.Shapes.C40_missing_iff`
* `Verif.Schemas.C41_maps_partial`
* `Verif.Schemas.C41_same_key`
* `Verif.Json.C42_escape`
* `Verif.Json.C42_round_trip`
* `Verif.Json.C42_plain`
* `Verif.Json.jsonText_unique`
* `Verif.Base64.decode_encode`
* `Verif.Json.resolve_spec`
* `Verif.Xml.C45_local_name`
* `Verif.AwsConfig.C47_total`
* `Verif.AwsConfig.C48_merge`
* `Verif.Identity.C50_fresh`
* `Verif.Identity.C50_asks_only_if_needed`
* `Verif.Identity.C50_reused`
* `Verif.Identity.C50_metadata`
* `Verif.Identity.Chain.C51_first`
* `Verif.Identity.Chain.C51_other`
* `Verif.Identity.Chain.C51_exhausted`
* `Verif.Identity.Chain.C51_all_reported`
* `Verif.Identity.Chain.C51_nested`
* `Verif.Identity.Assembly.C52_duplicates`
* `Verif.Identity.Assembly.C52_unclaimed`
* `Verif.Identity.TokenCache.C54_token_cache`
* `Verif.Identity.TokenCache.C54_status_fails`
* `Verif.Identity.TokenCache.C54_age_fails`
* `Verif.Shapes.C59_parse`
* `Verif.Shapes.C59_idempotent`
* `Verif.Shapes.C59_restjson_idempotent`
* `Verif.Pipeline.Replay.C60_reads_and_seeks`
* `Verif.Pipeline.C65_message_flow`
* `Verif.Pipeline.C66_first_supported_option`
* `Verif.Http.Destination.C70_host_prefix_partial`
* `Verif.Json.Documents.C84_unknown`
* `Verif.Pipeline.Streams.C85_ready`
* `Verif.Pipeline.Streams.C85_failure_fails`
* `Verif.Pipeline.Streams.C85_cancel_fails`
* `Verif.Pipeline.Streams.C86_closed`
* `Verif.Pipeline.Streams.C86_close_partial`
* `Verif.Pipeline.Streams.C86_late_answer_fails`
* `Verif.Pipeline.Streams.C86_input_error_fails`
* `Verif.Transport.C87_async_partial`
* `Verif.Transport.Crt.C89_target`
* `Verif.Types.Enums.C95_any_value`
* `Verif.Types.Enums.C95_own`
* `Verif.Types.Enums.C95_wrong_type`
* `Verif.Types.Enums.C95_placeholder_partial`
* `Verif.Types.Enums.C95_equality_partial`
* `Verif.Types.Enums.C95_pickled_partial`
* `Verif.Types.Enums.C95_float_equal_fails`
* `Verif.Types.Enums.C95_pickled_placeholder_fails`
* `Verif.Http.Serving.C96_literals`
* `Verif.Uri.Pattern.C97_uri`
* `Verif.Uri.Pattern.C97_host_prefix`
* `Verif.Client.C104_plugins`
* `Verif.Client.C104_call_plugins`
* `Verif.GeneratedAuth.C111_operations_partial`
* `Verif.GeneratedAuth.C111_default_resolver`
* `Verif.GeneratedAuth.C111_first`
* `Verif.GeneratedAuth.C111_signed_partial`
* `Verif.GeneratedAuth.C111_given`
* `Verif.GeneratedAuth.C111_set`
* `Verif.GeneratedConfig.C118_section_iff`
* `Verif.GeneratedSerde.C119_unknown_fails`
* `Verif.Transport.Mock.C136_first_in_first_out`
* `Verif.Transport.Mock.C136_in_order`
* `Verif.Transport.Mock.C136_recorded`
* `Verif.Transport.Mock.C136_fields_partial`
* `Verif.Packaging.C137_conflict`
* `Verif.Packaging.C137_listed`
* `Verif.Packaging.C137_requirement`
* `Verif.Packaging.C137_array`
* `Verif.ClientPlugins.C139_applies_partial`
* `Verif.ClientPlugins.C139_only_fails`
* `Verif.ClientPlugins.C139_exclusive`
* `Verif.ClientPlugins.C139_copy`
* `Verif.ClientPlugins.C139_files_partial`
* `Verif.ProtocolTests.C140_segments`
* `Verif.TestHeaders.C141_list_partial`
* `Verif.TestHeaders.C141_one_partial`
* `Verif.TestHeaders.C141_dates`
* `Verif.TestHeaders.C141_one_date`
* `Verif.TestBodies.C142_params`
* `Verif.TestCases.C143_generated`
* `Verif.TestResponses.C144_response`
* `Verif.TestResponses.C144_error_partial`

## `Classical.choice`, `Quot.sound`, `propext` (646 theorems)

* `Verif.EventStream.C01_frame_round_trip`
* `Verif.EventStream.C01_frame_round_trip_names`
* `Verif.EventStream.C01_frame_round_trip_close`
* `Verif.EventStream.C02_timestamp_fails`
* `Verif.EventStream.C02_last_datetime_fails`
* `Verif.EventStream.C02_timestamp_partial`
* `Verif.EventStream.C02_written_within_one_partial`
* `Verif.EventStream.C02_read_back_close_partial`
* `Verif.EventStream.C02_wire_read_exactly_partial`
* `Verif.EventStream.C03_checksum_gate`
* `Verif.EventStream.C03_bad_checksum_rejected`
* `Verif.EventStream.C04_corruption_detected`
* `Verif.EventStream.C04_four_byte_straddle_fails`
* `Verif.EventStream.C05_stream`
* `Verif.EventStream.C05_cut_stream`
* `Verif.EventStream.C06_encode_succeeds_iff`
* `Verif.EventStream.C06_encoded_frame`
* `Verif.EventStream.C06_decoded_limits`
* `Verif.EventStream.C06_refused_unread`
* `Verif.EventStream.C07_encoder_no_duplicates`
* `Verif.EventStream.C07_encoded_message_no_duplicates`
* `Verif.EventStream.C07_decoder_no_duplicates`
* `Verif.EventStream.C08_truncated_value_fails`
* `Verif.EventStream.C08_accounts_for_every_byte_partial`
* `Verif.EventStream.C08_exact_partial`
* `Verif.Publisher.C09_writer_closed_at_most_once`
* `Verif.Publisher.C09_writer_closed_when_idle`
* `Verif.Publisher.C09_stays_closed`
* `Verif.Publisher.C09_send_after_close`
* `Verif.Publisher.C09_close_after_close`
* `Verif.Publisher.C09_failed_write_closes`
* `Verif.Publisher.C09_no_write_after_close`
* `Verif.Publisher.C10_deliveries`
* `Verif.Publisher.C10_delivers_messages`
* `Verif.Publisher.C10_nothing_after_close`
* `Verif.Publisher.C10_nothing_after_failure`
* `Verif.Publisher.C10_source_closed_once`
* `Verif.Publisher.C11_signature_chain_partial`
* `Verif.Publisher.C11_chain_in_order_partial`
* `Verif.Publisher.C11_close_ends_chain_partial`
* `Verif.Publisher.C11_oversized_event_fails`
* `Verif.Retry.C12_bounds`
* `Verif.Retry.C12_linearizable`
* `Verif.Retry.C12_acquire_reports`
* `Verif.Retry.C12_release_reports`
* `Verif.Retry.C12_mutual_exclusion`
* `Verif.Retry.C12_lock_returned`
* `Verif.Retry.C12_progress`
* `Verif.Retry.C13_attempts_bounded`
* `Verif.Retry.C13_simple_attempts_bounded`
* `Verif.Retry.C13_limit_reached`
* `Verif.Retry.C13_zero_fails`
* `Verif.Retry.C14_initial_zero`
* `Verif.Retry.C14_no_jitter_partial`
* `Verif.Retry.C14_full_jitter_partial`
* `Verif.Retry.C14_equal_jitter_partial`
* `Verif.Retry.C14_decorrelated_partial`
* `Verif.Retry.C14_monotone_partial`
* `Verif.Retry.C14_total`
* `Verif.Retry.C14_delays_in_range`
* `Verif.Retry.C14_retry_after`
* `Verif.Retry.C14_overflow_fails`
* `Verif.Retry.C14_decorrelated_chain`
* `Verif.Retry.C14_decorrelated_formula_fails`
* `Verif.Retry.C14_shared_fails`
* `Verif.Retry.C15_grant_only_if`
* `Verif.Retry.C15_granted_if`
* `Verif.Retry.C15_refusal_free`
* `Verif.Retry.C15_quota_error_delay`
* `Verif.Retry.C15_delay`
* `Verif.Readers.C17_like_a_file_partial`
* `Verif.Provider.C18_fifo`
* `Verif.Provider.C18_bounded`
* `Verif.Provider.C18_nothing_accepted_after_close`
* `Verif.Provider.C18_end_means_complete`
* `Verif.Provider.C18_refused_only_when_closing`
* `Verif.Provider.C18_flush_means_delivered`
* `Verif.Provider.C19_completes_partial`
* `Verif.Provider.C19_comes_to_rest_partial`
* `Verif.Fields.C25_case_insensitive_map_partial`
* `Verif.Fields.C25_names_distinct`
* `Verif.Fields.C25_from_tuples`
* `Verif.Fields.C25_extend_gathers_partial`
* `Verif.Fields.C25_extend_aliases_fails`
* `Verif.Fields.C25_extend_twice_fails`
* `Verif.HeaderText.C26_reads_rfc9110_lists`
* `Verif.HeaderText.C26_round_trip`
* `Verif.HeaderText.C26_one_value`
* `Verif.HeaderText.C26_single_value_fails`
* `Verif.HeaderText.C26_empty_value_fails`
* `Verif.HeaderText.C26_blank_value_fails`
* `Verif.Uri.C27_segments`
* `Verif.Uri.C27_stays_in_path`
* `Verif.Uri.C27_rejects_empty_segments`
* `Verif.Uri.C27_dot_label_fails`
* `Verif.Uri.C28_only_query_characters`
* `Verif.Uri.C28_empty_parameter_fails`
* `Verif.Http.C29_request_contents`
* `Verif.Http.C29_response_contents`
* `Verif.Http.C29_body`
* `Verif.Http.C29_payload_partial`
* `Verif.Http.C29_payload_excludes_body_fails`
* `Verif.Http.UserAgent.C30_sanitize`
* `Verif.Http.UserAgent.C30_component`
* `Verif.Http.UserAgent.C30_user_agent`
* `Verif.Http.UserAgent.C30_built_header`
* `Verif.Http.UserAgent.C30_os`
* `Verif.Http.UserAgent.C30_raw_suffix_fails`
* `Verif.Http.Destination.C31_header`
* `Verif.Http.Destination.C31_query_partial`
* `Verif.Http.Destination.C31_query_path_fails`
* `Verif.Http.Destination.C31_query_key_fails`
* `Verif.Http.Errors.C32_generic`
* `Verif.Http.Errors.C32_rest_json`
* `Verif.Http.Errors.C32_rest_json_other`
* `Verif.Http.Errors.C32_no_code_fails`
* `Verif.Http.Errors.C32_query`
* `Verif.Http.Errors.C32_query_code_fails`
* `Verif.Http.Errors.C32_success_iff`
* `Verif.Signing.C33_same_canonical_request`
* `Verif.Signing.C33_same_authorization`
* `Verif.Signing.C33_signed_headers`
* `Verif.Signing.C33_transfer_encoding_fails`
* `Verif.Signing.C34_canonical`
* `Verif.Signing.C34_multiset`
* `Verif.Signing.C34_same_parameters`
* `Verif.Signing.C35_untouched`
* `Verif.Signing.C35_only_signing_headers`
* `Verif.Signing.C35_sign_again`
* `Verif.Signing.C35_sign_signed`
* `Verif.Signing.C35_iterator_fails`
* `Verif.Uri.C36_no_dot_segments`
* `Verif.Uri.C36_idempotent_partial`
* `Verif.Uri.C36_agrees_with_rfc_partial`
* `Verif.Uri.C36_stays_absolute_partial`
* `Verif.Uri.C36_merge_slashes_fails`
* `Verif.Uri.C36_climb_fails`
* `Verif.Schemas.C38_create_order`
* `Verif.Schemas.Document.C39_history_partial`
* `Verif.Schemas.Document.C39_top_level`
* `Verif.Schemas.Document.C39_open_accepts`
* `Verif.Schemas.Document.C39_nested_fails`
* `Verif.Schemas.Document.C39_subscripts`
* `Verif.Json.C43_well_formed_partial`
* `Verif.Json.C43_nan_fails`
* `Verif.Json.C43_digits_fails`
* `Verif.Json.str_number`
* `Verif.Json.normalize_value`
* `Verif.Json.C44_round_trip_partial`
* `Verif.Json.C44_unknown`
* `Verif.Json.C44_root_fails`
* `Verif.Json.C44_infinite_fails`
* `Verif.Json.C44_digits_fails`
* `Verif.Json.C44_null_document_fails`
* `Verif.Json.C44_boolean_fails`
* `Verif.Json.numOf_value`
* `Verif.Xml.C45_skip`
* `Verif.Xml.C45_skip_inner`
* `Verif.Xml.C45_root`
* `Verif.Xml.C45_outermost`
* `Verif.Xml.C45_wrapped`
* `Verif.Xml.C45_struct`
* `Verif.Xml.C45_list`
* `Verif.Xml.C45_map`
* `Verif.Xml.C45_value_first`
* `Verif.Xml.C45_scalar`
* `Verif.Xml.C45_union`
* `Verif.Xml.C45_union_two`
* `Verif.Xml.C45_wrapper_refused`
* `Verif.Xml.C45_flattened_structs_fails`
* `Verif.AwsQuery.C46_request`
* `Verif.AwsQuery.C46_parameters`
* `Verif.AwsQuery.C46_path`
* `Verif.AwsQuery.C46_decodes`
* `Verif.AwsQuery.C46_no_clash`
* `Verif.AwsQuery.C46_document`
* `Verif.AwsQuery.C46_reserved_fails`
* `Verif.AwsQuery.C46_dots_fails`
* `Verif.AwsConfig.C47_meaning`
* `Verif.AwsConfig.C47_comments`
* `Verif.AwsConfig.C47_names`
* `Verif.AwsConfig.C47_last`
* `Verif.AwsConfig.C47_outside`
* `Verif.AwsConfig.C47_malformed`
* `Verif.AwsConfig.C47_round_trip`
* `Verif.AwsConfig.C47_empty_value_fails`
* `Verif.AwsConfig.C48_profiles`
* `Verif.AwsConfig.C48_sso_services`
* `Verif.AwsConfig.C48_credentials`
* `Verif.AwsConfig.C48_default`
* `Verif.AwsConfig.C48_ignored`
* `Verif.AwsConfig.C48_load`
* `Verif.AwsConfig.C48_load_error`
* `Verif.AwsConfig.C48_spacing_fails`
* `Verif.AwsConfig.Settings.C49_precedence`
* `Verif.AwsConfig.Settings.C49_accepts`
* `Verif.AwsConfig.Settings.C49_one`
* `Verif.AwsConfig.Settings.C49_rejects`
* `Verif.AwsConfig.Settings.C49_profile`
* `Verif.AwsConfig.Settings.C49_assign`
* `Verif.AwsConfig.Settings.C49_history`
* `Verif.AwsConfig.Settings.C49_newline_fails`
* `Verif.Identity.C50_asks_after_invalidate`
* `Verif.Identity.C50_environment_fails`
* `Verif.Identity.Assembly.C52_order`
* `Verif.Identity.Assembly.C52_order_unique`
* `Verif.Identity.Assembly.C52_discovery_order`
* `Verif.Identity.Assembly.C52_raised`
* `Verif.Identity.Container.C53_allowed_iff`
* `Verif.Identity.Container.C53_only_trusted`
* `Verif.Identity.Container.C53_refused`
* `Verif.Identity.Container.C53_attempts`
* `Verif.Identity.Container.C53_environment`
* `Verif.Identity.Container.C53_relative_authority`
* `Verif.Identity.Container.C53_query_fails`
* `Verif.Identity.Ip.isLoopback_iff`
* `Verif.Identity.ContainerUrl.C53_full_uri`
* `Verif.Identity.ContainerUrl.C53_any_full_uri`
* `Verif.Identity.ContainerUrl.C53_https_fails`
* `Verif.Identity.TokenCache.C54_no_lost_wakeup`
* `Verif.Scalars.Strict.C55_bool`
* `Verif.Scalars.Strict.C55_float`
* `Verif.Scalars.Strict.C55_json_grammar_fails`
* `Verif.Scalars.Strict.C55_round_trip`
* `Verif.Scalars.Strict.C55_fraction_fails`
* `Verif.Scalars.C56_split_every`
* `Verif.Http.Destination.C57_authority_fails`
* `Verif.Http.Destination.C57_leading_slashes_fails`
* `Verif.Http.Destination.C57_query`
* `Verif.Scalars.C58_iff`
* `Verif.Scalars.C58_delay`
* `Verif.Shapes.C59_restjson_fragment_fails`
* `Verif.Pipeline.Replay.C60_replay_partial`
* `Verif.Pipeline.Replay.C60_rewound`
* `Verif.Pipeline.Replay.C60_stream_sent_once`
* `Verif.Pipeline.Replay.C60_hashed`
* `Verif.EventStream.C61_declared_headers_length_fails`
* `Verif.EventStream.C61_declared_lengths_partial`
* `Verif.EventStream.C62_failed_header_leaves_output_fails`
* `Verif.EventStream.C62_failed_header_partial`
* `Verif.Publisher.C63_write_after_close_fails`
* `Verif.Publisher.C63_no_write_after_close_partial`
* `Verif.Retry.C64_retry_storm_bounded`
* `Verif.Retry.C64_dead_service`
* `Verif.Retry.C64_threads`
* `Verif.Retry.C64_threads_dead`
* `Verif.Pipeline.C66_signed_iff_supported`
* `Verif.Http.C67_content_headers_partial`
* `Verif.Http.C67_content_type_fails`
* `Verif.Http.C67_stream_length_fails`
* `Verif.Http.C68_query_map_conflict_fails`
* `Verif.Shapes.C69_error_info`
* `Verif.Shapes.C69_no_body`
* `Verif.Shapes.C69_other_body_fails`
* `Verif.Shapes.C69_other_members`
* `Verif.Shapes.C69_code_not_a_text_fails`
* `Verif.Uri.Host.C71_accepted_iff`
* `Verif.Uri.Host.C71_line_break_fails`
* `Verif.Uri.Host.C71_no_delimiters`
* `Verif.Uri.Host.C71_host_type`
* `Verif.Uri.Host.C71_classes`
* `Verif.Uri.Build.C72_components`
* `Verif.Uri.Build.C72_authority`
* `Verif.Uri.Build.C72_unencoded_fails`
* `Verif.Uri.Build.C72_authority_isolated`
* `Verif.Signing.C73_unambiguous`
* `Verif.Signing.C74_signature`
* `Verif.Signing.C74_content_hash`
* `Verif.Signing.C74_date_partial`
* `Verif.Signing.C74_stale_headers_fails`
* `Verif.Signing.C74_host_fails`
* `Verif.Timestamps.C75_ensure_utc`
* `Verif.Timestamps.C75_read_rfc3339`
* `Verif.Timestamps.C75_write_rfc3339`
* `Verif.Timestamps.C75_rfc3339_round_trip`
* `Verif.Timestamps.C75_early_year_fails`
* `Verif.Timestamps.C75_leap_second_fails`
* `Verif.Timestamps.C75_other_forms_fails`
* `Verif.Timestamps.C76_read_http_date`
* `Verif.Timestamps.C76_write_http_date`
* `Verif.Timestamps.C76_http_date_round_trip`
* `Verif.Timestamps.C76_first_century_fails`
* `Verif.Timestamps.C76_read_mail_date`
* `Verif.Timestamps.C77_read_int`
* `Verif.Timestamps.C77_read_float`
* `Verif.Timestamps.C77_text_refused`
* `Verif.Timestamps.C77_platform`
* `Verif.Timestamps.C77_write`
* `Verif.Timestamps.C77_epoch_round_trip`
* `Verif.Timestamps.C77_microsecond_fails`
* `Verif.Timestamps.C77_last_microsecond_fails`
* `Verif.Http.HeaderValue.C78_boolean`
* `Verif.Http.HeaderValue.C78_integer`
* `Verif.Http.HeaderValue.C78_float`
* `Verif.Http.HeaderValue.C78_decimal`
* `Verif.Http.HeaderValue.C78_string`
* `Verif.Http.HeaderValue.C78_timestamp`
* `Verif.Http.HeaderValue.C78_list_of_many`
* `Verif.Http.HeaderValue.C78_list_of_one`
* `Verif.Http.HeaderValue.C78_list_of_one_written`
* `Verif.Http.HeaderValue.C78_list_of_one_fails`
* `Verif.Http.Reading.C79_header`
* `Verif.Http.Reading.C79_prefix_headers`
* `Verif.Http.Reading.C79_status`
* `Verif.Http.Reading.C79_payload`
* `Verif.Http.Reading.C79_body`
* `Verif.Http.Reading.C79_bound_partial`
* `Verif.Http.Reading.C79_body_overrides_header_fails`
* `Verif.Http.Reading.C79_empty_body_fails`
* `Verif.Http.RoundTrip.C80_header`
* `Verif.Http.RoundTrip.C80_prefix_headers`
* `Verif.Http.RoundTrip.C80_status`
* `Verif.Http.RoundTrip.C80_payload_partial`
* `Verif.Http.RoundTrip.C80_body`
* `Verif.Http.RoundTrip.C80_enum_payload_fails`
* `Verif.Http.RoundTrip.C80_keys_by_case_fails`
* `Verif.Http.RoundTrip.C80_empty_list_fails`
* `Verif.EventStream.Shapes.C81_event_partial`
* `Verif.EventStream.Shapes.C81_unknown_event`
* `Verif.EventStream.Shapes.C81_unknown_error_fails`
* `Verif.EventStream.Shapes.C81_initial_partial`
* `Verif.EventStream.Shapes.C81_content_type`
* `Verif.EventStream.Shapes.C81_empty_payload_fails`
* `Verif.EventStream.Shapes.C81_header_types`
* `Verif.Schemas.DocumentShapes.C82_round_trip_partial`
* `Verif.Schemas.DocumentShapes.C82_null_in_map_fails`
* `Verif.Schemas.DocumentShapes.C82_null_document_fails`
* `Verif.Schemas.DocumentShapes.C82_null_member_fails`
* `Verif.Schemas.DocumentShapes.C82_threads_fails`
* `Verif.Schemas.DocumentShapes.C83_same_calls_partial`
* `Verif.Schemas.DocumentShapes.C83_union_fails`
* `Verif.Schemas.DocumentShapes.C83_plain`
* `Verif.Schemas.DocumentShapes.C83_with_schema`
* `Verif.Json.Documents.C84_document_partial`
* `Verif.Json.Documents.C84_json_name_fails`
* `Verif.Json.Documents.C84_timestamp_format_fails`
* `Verif.Json.Documents.C84_float_fails`
* `Verif.Json.Documents.C84_decimal_fails`
* `Verif.Json.Documents.C84_null_member_fails`
* `Verif.Pipeline.Streams.C85_opens_partial`
* `Verif.Transport.C87_http2_partial`
* `Verif.Transport.C87_http1`
* `Verif.Transport.C87_aiohttp`
* `Verif.Transport.C87_prepared`
* `Verif.Transport.Aiohttp.C88_query_partial`
* `Verif.Transport.Aiohttp.C88_blank_fails`
* `Verif.Transport.Aiohttp.C88_signature`
* `Verif.Transport.Aiohttp.C88_headers`
* `Verif.Transport.Aiohttp.C88_trailer_fails`
* `Verif.Transport.Crt.C89_headers`
* `Verif.Transport.Crt.C89_order`
* `Verif.Transport.Crt.C89_userinfo_fails`
* `Verif.Transport.Crt.C89_retry_fails`
* `Verif.Transport.Crt.C90_right_server`
* `Verif.Transport.Crt.C90_scheme`
* `Verif.Transport.Crt.C90_open`
* `Verif.Transport.Crt.C90_reused_partial`
* `Verif.Transport.Crt.C90_overlap_fails`
* `Verif.Uri.Endpoint.C91_static_partial`
* `Verif.Uri.Endpoint.C91_dropped_fails`
* `Verif.Uri.Endpoint.C91_params_fails`
* `Verif.Uri.Endpoint.C91_no_slashes`
* `Verif.Uri.Endpoint.C91_any_text`
* `Verif.Uri.Endpoint.C91_port_fails`
* `Verif.Uri.Endpoint.C91_uri`
* `Verif.Uri.Endpoint.C91_regional`
* `Verif.Uri.Endpoint.C91_region_host`
* `Verif.Uri.Endpoint.C91_nothing`
* `Verif.Uri.Endpoint.C91_question_mark_fails`
* `Verif.Uri.Endpoint.C91_brackets`
* `Verif.Xml.RoundTrip.C92_partial`
* `Verif.Xml.RoundTrip.C92_inside_partial`
* `Verif.Xml.RoundTrip.C92_unknown_partial`
* `Verif.Xml.RoundTrip.C92_wrapped_partial`
* `Verif.Xml.RoundTrip.C92_arranged`
* `Verif.Xml.RoundTrip.C92_empty_flattened_fails`
* `Verif.Xml.RoundTrip.C92_wrapped_attributes_fails`
* `Verif.AwsQuery.RoundTrip.C93_partial`
* `Verif.AwsQuery.RoundTrip.C93_different_partial`
* `Verif.AwsQuery.RoundTrip.C93_nothing_written_fails`
* `Verif.Signing.Scheme.C94_partial`
* `Verif.Signing.Scheme.C94_configured`
* `Verif.Signing.Scheme.C94_option_region_fails`
* `Verif.Http.Serving.C96_partial`
* `Verif.Http.Serving.C96_different_partial`
* `Verif.Http.Serving.C96_empty_fails`
* `Verif.Uri.Pattern.C97_partial`
* `Verif.Uri.Pattern.C97_succeeds_partial`
* `Verif.Uri.Pattern.C97_self_fails`
* `Verif.Signing.Wire.C98_partial`
* `Verif.Signing.Wire.C98_tampered`
* `Verif.Signing.Wire.C98_default_port_fails`
* `Verif.Signing.Wire.C98_several_values_fails`
* `Verif.Signing.Wire.C98_smithy_values_fails`
* `Verif.Signing.Wire.C98_trailer_fails`
* `Verif.Signing.Wire.C98_unsigned_payload_fails`
* `Verif.Signing.Wire.C98_given_hash_fails`
* `Verif.Signing.Wire.C98_given_date_fails`
* `Verif.Signing.Wire.C98_method_fails`
* `Verif.Identity.Default.C99_environment`
* `Verif.Identity.Default.C99_environment_identity`
* `Verif.Identity.Default.C99_environment_gone`
* `Verif.Identity.Default.C99_profile_partial`
* `Verif.Identity.Default.C99_profile_identity`
* `Verif.Identity.Default.C99_none`
* `Verif.Identity.Default.C99_faulty_files`
* `Verif.Identity.Default.C99_other_identity`
* `Verif.Identity.Default.C99_given_profile_fails`
* `Verif.Identity.Default.C99_mixed_fails`
* `Verif.Identity.Default.C99_empty_keys_fails`
* `Verif.Identity.Default.C99_missing_profile_fails`
* `Verif.Generated.C100_deserialize`
* `Verif.Generated.C100_missing`
* `Verif.Generated.C100_stands`
* `Verif.Generated.C100_same_name_fails`
* `Verif.Generated.C100_blob_default_fails`
* `Verif.Generated.C100_names`
* `Verif.Generated.C100_keywords`
* `Verif.Generated.C101_error_partial`
* `Verif.Generated.C101_reserved_fails`
* `Verif.Generated.C101_fault_fails`
* `Verif.Generated.C102_written`
* `Verif.Generated.C102_round_trip_partial`
* `Verif.Generated.C102_none_fails`
* `Verif.Retry.Resolver.C103_described`
* `Verif.Retry.Resolver.C103_reused_partial`
* `Verif.Retry.Resolver.C103_apart`
* `Verif.Client.C104_client`
* `Verif.Client.C104_others`
* `Verif.Client.C104_seen`
* `Verif.Client.C104_start`
* `Verif.Client.C104_prepare`
* `Verif.Client.C104_returns`
* `Verif.Client.C104_circle_fails`
* `Verif.Client.C105_quota`
* `Verif.Client.C105_crt`
* `Verif.Client.C105_aiohttp`
* `Verif.Client.C105_forgotten`
* `Verif.GeneratedSchemas.C106_schemas`
* `Verif.GeneratedSchemas.C106_paths`
* `Verif.GeneratedSchemas.C106_names_fails`
* `Verif.GeneratedSchemas.C107_trait_classes_partial`
* `Verif.GeneratedSchemas.C107_stream`
* `Verif.GeneratedSchemas.C107_long_polling`
* `Verif.GeneratedSchemas.C107_idempotency_never`
* `Verif.GeneratedSchemas.C107_idempotency_fails`
* `Verif.GeneratedSchemas.C107_default_fails`
* `Verif.GeneratedSchemas.C107_prelude_fails`
* `Verif.GeneratedFiles.Names.C108_names_partial`
* `Verif.GeneratedFiles.Names.C108_variants`
* `Verif.GeneratedFiles.Names.C108_unknown_fails`
* `Verif.GeneratedFiles.Names.C108_unions_fails`
* `Verif.GeneratedFiles.Names.C108_underscore_fails`
* `Verif.GeneratedFiles.Names.C108_service_error_fails`
* `Verif.GeneratedFiles.Imports.C109_names_partial`
* `Verif.GeneratedFiles.Imports.C109_union_fails`
* `Verif.GeneratedFiles.Imports.C109_elements_fails`
* `Verif.GeneratedFiles.Imports.C109_timestamps_fails`
* `Verif.GeneratedFiles.Imports.C109_underscore_fails`
* `Verif.GeneratedFiles.Imports.C109_qualified_fails`
* `Verif.GeneratedFiles.Imports.C109_reference_fails`
* `Verif.GeneratedFiles.Relative.C110_relative_iff`
* `Verif.GeneratedFiles.Relative.C110_package`
* `Verif.GeneratedFiles.Relative.C110_outside`
* `Verif.GeneratedFiles.Relative.C110_prefix_fails`
* `Verif.GeneratedFiles.Relative.C110_beginning_fails`
* `Verif.GeneratedFiles.Relative.C110_root_fails`
* `Verif.Literals.C112_literals_partial`
* `Verif.Literals.C112_argument_partial`
* `Verif.Literals.C112_integers_fails`
* `Verif.TraitValues.C113_values`
* `Verif.TraitValues.C113_empty`
* `Verif.TraitValues.C113_other`
* `Verif.TraitValues.C113_document`
* `Verif.TraitValues.C113_dynamic_partial`
* `Verif.TraitValues.C113_dynamic_other`
* `Verif.TraitValues.C113_dynamic_fails`
* `Verif.TraitValues.C113_checked_fails`
* `Verif.TraitValues.C113_names_fails`
* `Verif.Retry.DynamoDb.C114_defaults`
* `Verif.Retry.DynamoDb.C114_negative`
* `Verif.Retry.DynamoDb.C114_kept`
* `Verif.Retry.DynamoDb.C114_once`
* `Verif.Retry.DynamoDb.C114_attempts`
* `Verif.Retry.DynamoDb.C114_delays`
* `Verif.Retry.DynamoDb.C114_call_fails`
* `Verif.Retry.DynamoDb.C114_mode_fails`
* `Verif.Http.RestJson.C115_request`
* `Verif.Http.RestJson.C115_response`
* `Verif.Http.RestJson.C115_payload`
* `Verif.GeneratedDocs.C116_literal_partial`
* `Verif.GeneratedDocs.C116_operation_partial`
* `Verif.GeneratedDocs.C116_text_partial`
* `Verif.GeneratedDocs.C116_quotes_fails`
* `Verif.GeneratedDocs.C116_end_fails`
* `Verif.GeneratedDocs.C116_users_fails`
* `Verif.GeneratedDocs.C116_new_fails`
* `Verif.GeneratedDocs.C116_break_fails`
* `Verif.GeneratedDocs.C116_dollars_fails`
* `Verif.GeneratedFiles.Order.C117_order_iff`
* `Verif.GeneratedFiles.Order.C117_partial`
* `Verif.GeneratedFiles.Order.C117_order_exists`
* `Verif.GeneratedFiles.Order.C117_defaults_partial`
* `Verif.GeneratedFiles.Order.C117_list_fails`
* `Verif.GeneratedFiles.Order.C117_operation_fails`
* `Verif.GeneratedFiles.Order.C117_default_fails`
* `Verif.GeneratedConfig.C118_callable`
* `Verif.GeneratedConfig.C118_unique`
* `Verif.GeneratedConfig.C118_partial`
* `Verif.GeneratedConfig.C118_replaced`
* `Verif.GeneratedConfig.C118_not_null`
* `Verif.GeneratedConfig.C118_own`
* `Verif.GeneratedConfig.C118_apart`
* `Verif.GeneratedConfig.C118_set_auth_scheme`
* `Verif.GeneratedConfig.C118_interceptors_iff`
* `Verif.GeneratedConfig.C118_false_fails`
* `Verif.GeneratedConfig.C118_no_schemes_fails`
* `Verif.GeneratedConfig.C118_plugin_name_fails`
* `Verif.GeneratedConfig.C118_no_operations_fails`
* `Verif.GeneratedConfig.C118_dollar_fails`
* `Verif.GeneratedSerde.C119_calls`
* `Verif.GeneratedSerde.C119_round_trip_partial`
* `Verif.GeneratedSerde.C119_default_fails`
* `Verif.GeneratedSerde.C120_unknown_fails`
* `Verif.GeneratedSerde.C120_never_fails`
* `Verif.GeneratedSerde.C120_ignored_partial`
* `Verif.GeneratedSerde.C121_reads`
* `Verif.GeneratedSerde.C121_one_member`
* `Verif.GeneratedSerde.C121_ignored`
* `Verif.GeneratedSerde.C121_order`
* `Verif.GeneratedSerde.C121_nested`
* `Verif.Identity.Instance.C122_answer`
* `Verif.Identity.Instance.C122_expiration_partial`
* `Verif.Identity.Instance.C122_offset_fails`
* `Verif.Identity.Instance.C122_config`
* `Verif.Identity.Instance.C122_requests`
* `Verif.Identity.Instance.C122_identity`
* `Verif.Identity.Instance.C122_status_fails`
* `Verif.AwsConfig.Files.C123_path`
* `Verif.AwsConfig.Files.C123_load`
* `Verif.AwsConfig.Files.C123_load_error`
* `Verif.AwsConfig.Files.C123_once`
* `Verif.AwsConfig.Files.C123_cached`
* `Verif.AwsConfig.Files.C123_concurrent`
* `Verif.AwsConfig.Files.C123_once_fails`
* `Verif.AwsConfig.Files.C123_empty`
* `Verif.Changelog.C124_exactly_once`
* `Verif.Changelog.C124_never_lost`
* `Verif.Changelog.C124_release`
* `Verif.Changelog.C124_ends`
* `Verif.Changelog.C124_crash_fails`
* `Verif.Changelog.C124_stuck_fails`
* `Verif.Changelog.C124_concurrent_fails`
* `Verif.Changelog.C124_empty_fails`
* `Verif.Changelog.C125_render`
* `Verif.Changelog.C125_none`
* `Verif.Changelog.C125_every_change_partial`
* `Verif.Changelog.C125_newline_fails`
* `Verif.TypeCodegen.C126_selected_partial`
* `Verif.TypeCodegen.C126_plain_partial`
* `Verif.TypeCodegen.C126_only`
* `Verif.TypeCodegen.C126_closed`
* `Verif.TypeCodegen.C126_schema`
* `Verif.TypeCodegen.C126_errors_fails`
* `Verif.TypeCodegen.C126_inputs_fails`
* `Verif.Requirements.C127_conflict`
* `Verif.Requirements.C127_required`
* `Verif.Requirements.C127_line`
* `Verif.Fields.Accept.C128_accept`
* `Verif.Fields.Accept.C128_others`
* `Verif.Fields.Accept.C128_plugin`
* `Verif.RestJson.C129_output_partial`
* `Verif.RestJson.C129_payload_partial`
* `Verif.RestJson.Example.C129_empty_list_fails`
* `Verif.RestJson.Example.C129_status_fails`
* `Verif.RestJson.PayloadExample.C129_absent_payload_fails`
* `Verif.RestJson.Example.C129_prefix_none_fails`
* `Verif.RestJson.Example.C129_prefix_media_fails`
* `Verif.RestJson.PayloadExample.C129_absent_document_fails`
* `Verif.RestJson.C130_request_partial`
* `Verif.RestJson.C130_payload_partial`
* `Verif.RestJson.PayloadExample.C130_required_length_fails`
* `Verif.RestJson.MapExample.C130_precedence_fails`
* `Verif.RestJson.C131_output_partial`
* `Verif.RestJson.C131_error_partial`
* `Verif.RestJson.C131_payload_partial`
* `Verif.RestJson.C131_error_payload_partial`
* `Verif.QueryAnswer.C132_output_partial`
* `Verif.QueryAnswer.C132_error_partial`
* `Verif.QueryAnswer.C132_texts`
* `Verif.QueryAnswer.C132_order_fails`
* `Verif.QueryAnswer.C132_error_order_fails`
* `Verif.QueryAnswer.Example.C132_inherited_fails`
* `Verif.QueryRequest.C133_partial`
* `Verif.QueryRequest.C133_different_partial`
* `Verif.QueryRequest.C133_texts`
* `Verif.QueryRequest.Example.C133_inherited_fails`
* `Verif.GeneratedEnums.C134_import_partial`
* `Verif.GeneratedEnums.C134_members_partial`
* `Verif.GeneratedEnums.C134_same_name_fails`
* `Verif.GeneratedEnums.C134_underscores_fails`
* `Verif.ClientNames.C135_name`
* `Verif.ClientNames.C135_identifier`
* `Verif.ClientNames.C135_same_name`
* `Verif.ClientNames.C135_new_name`
* `Verif.ClientNames.C135_old_name_partial`
* `Verif.ClientNames.C135_no_other_name`
* `Verif.ClientNames.C135_imported_name_fails`
* `Verif.Transport.Mock.C136_headers`
* `Verif.InitFiles.C138_packages_partial`
* `Verif.InitFiles.C138_kept`
* `Verif.InitFiles.C138_version`
* `Verif.InitFiles.C138_only`
* `Verif.InitFiles.C138_ends`
* `Verif.InitFiles.C138_module`
* `Verif.InitFiles.C138_module_partial`
* `Verif.InitFiles.C138_module_fails`
* `Verif.InitFiles.C138_later_fails`
* `Verif.InitFiles.C138_between_fails`
* `Verif.ClientPlugins.C139_client`
* `Verif.ClientPlugins.C139_operation`
* `Verif.ClientPlugins.C139_files_fails`
* `Verif.ProtocolTests.C140_passes_partial`
* `Verif.ProtocolTests.C140_right_partial`
* `Verif.ProtocolTests.C140_forbidden_fails`
* `Verif.ProtocolTests.C140_required_fails`
* `Verif.ProtocolTests.C140_values_fails`
* `Verif.ProtocolTests.C140_twice_fails`
* `Verif.TestHeaders.C141_one_fails`
* `Verif.TestHeaders.C141_empty_fails`
* `Verif.TestBodies.C142_octets`
* `Verif.TestBodies.C142_form`
* `Verif.TestBodies.C142_form_params`
* `Verif.TestBodies.C142_json_partial`
* `Verif.TestBodies.C142_no_body`
* `Verif.TestBodies.C142_empty_fails`
* `Verif.TestBodies.C142_missing_fails`
* `Verif.TestBodies.C142_number_fails`
* `Verif.TestCases.C143_label_partial`
* `Verif.TestCases.C143_all_run_partial`
* `Verif.TestCases.C143_each_name`
* `Verif.TestCases.C143_lost_fails`
* `Verif.TestValues.C145_contents`
* `Verif.TestValues.C145_typed_partial`
* `Verif.TestValues.C145_list_fails`
* `Verif.TestValues.C145_union_fails`
