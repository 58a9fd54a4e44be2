{
 "claims": [
  {
   "property": "C01",
   "status": "proved",
   "theorems": [
    "Verif.Props.Base64.base64_roundtrip",
    "Verif.Props.Base64.base64_encode_injective"
   ],
   "note": "for every byte string; decode(encode x) = x without fault."
  },
  {
   "property": "C02",
   "status": "proved",
   "theorems": [
    "Verif.Props.Base64.base64_encode_is_rfc4648",
    "Verif.Props.Base64.base64_encode_shape"
   ],
   "note": "encoder equals the RFC 4648 bit-string specification."
  },
  {
   "property": "C03",
   "status": "partial",
   "theorems": [
    "Verif.Props.Base64.base64_decode_oob",
    "Verif.Props.Base64.base64_decode_assert",
    "Verif.Props.Base64.base64_decode_spec_partial",
    "Verif.Props.Base64.base64_decode_rejects_partial",
    "Verif.Props.Base64.base64_decode_assert_iff"
   ],
   "note": "the full claim is false: bytes >= 0x80 index the table out of bounds when char is signed and a stray '=' reaches an assert (witness theorems); everything else is proved to agree with the RFC decoder or be rejected."
  },
  {
   "property": "C04",
   "status": "partial",
   "theorems": [
    "Verif.Props.UrlCodec.url_decode_encode_exact",
    "Verif.Props.UrlCodec.url_roundtrip_iff",
    "Verif.Props.UrlCodec.url_roundtrip_partial",
    "Verif.Props.UrlCodec.url_roundtrip_fails_on_nul",
    "Verif.Props.UrlCodec.url_encode_injective"
   ],
   "note": "round trip holds exactly for strings without NUL; %00 is left as it is (witness)."
  },
  {
   "property": "C05",
   "status": "proved",
   "theorems": [
    "Verif.Props.UrlCodec.url_encode_clean",
    "Verif.Props.UrlCodec.url_encode_no_delimiters"
   ],
   "note": ""
  },
  {
   "property": "C06",
   "status": "proved",
   "theorems": [
    "Verif.Props.UrlCodec.url_decode_length_le",
    "Verif.Props.UrlCodec.url_decode_plain",
    "Verif.Props.UrlCodec.url_decode_plus",
    "Verif.Props.UrlCodec.url_decode_escape",
    "Verif.Props.UrlCodec.url_decode_no_new_nul",
    "Verif.Props.UrlCodec.url_decode_truncated",
    "Verif.Props.UrlCodec.url_decode_lenient",
    "Verif.Props.UrlCodec.url_decode_other",
    "Verif.Props.UrlCodec.url_decode_nul"
   ],
   "note": "total, never grows, exact results per construct."
  },
  {
   "property": "C07",
   "status": "proved",
   "theorems": [
    "Verif.Props.XmlEncode.xml_encode_total",
    "Verif.Props.XmlEncode.xml_encode_safe",
    "Verif.Props.XmlEncode.xml_encode_lossless"
   ],
   "note": ""
  },
  {
   "property": "C08",
   "status": "partial",
   "theorems": [
    "Verif.Props.XmlEncode.xml_encode_illformed",
    "Verif.Props.XmlEncode.xml_encode_structure_partial",
    "Verif.Props.XmlEncode.xml_encode_utf8_partial"
   ],
   "note": "the full claim is false: overlong forms, surrogates and code points above U+10FFFF pass through (witness); proved: these are the only cause."
  },
  {
   "property": "C09",
   "status": "partial",
   "theorems": [
    "Verif.Props.IntBytes.to_uint_big_endian",
    "Verif.Props.IntBytes.to_int_twos_complement",
    "Verif.Props.IntBytes.decode_encode",
    "Verif.Props.IntBytes.encode_decode",
    "Verif.Props.IntBytes.decode_encode_24",
    "Verif.Props.IntBytes.int24_negative_lost",
    "Verif.Props.IntBytes.to_int24_partial"
   ],
   "note": "all widths proved except signed 24 bit decoding of negative numbers, which is wrong in the code (witness int24_negative_lost)."
  },
  {
   "property": "C10",
   "status": "partial",
   "theorems": [
    "Verif.Props.FloatBytes.encode_normal_partial",
    "Verif.Props.FloatBytes.decode_normal_partial",
    "Verif.Props.FloatBytes.roundtrip_partial",
    "Verif.Props.FloatBytes.encode_zero_partial",
    "Verif.Props.FloatBytes.decode_zero",
    "Verif.Props.FloatBytes.encode_truncates",
    "Verif.Props.FloatBytes.every_buffer",
    "Verif.Props.FloatBytes.decode_total",
    "Verif.Props.FloatBytes.subnormal_halved",
    "Verif.Props.FloatBytes.special_decoded_finite",
    "Verif.Props.FloatBytes.encode_inf_diverges",
    "Verif.Props.FloatBytes.encode_nan_diverges",
    "Verif.Props.FloatBytes.subnormal_encoded_wrong",
    "Verif.Props.FloatBytes.negative_zero_lost",
    "Verif.Props.FloatApi.to_float_partial",
    "Verif.Props.FloatApi.to_double_partial",
    "Verif.Props.FloatApi.float_roundtrip_partial",
    "Verif.Props.FloatApi.double_roundtrip_partial",
    "Verif.Props.FloatApi.long_double_roundtrip_partial",
    "Verif.Props.FloatApi.to_float_wrong",
    "Verif.Props.FloatApi.to_double_wrong",
    "Verif.Props.FloatApi.to_float_violated"
   ],
   "note": "Exact IEEE 754 bytes and round trip for every normal number and +0 in every format (8/23, 11/52, 15/112 included), truncation for other finite values. The rest is false of the code and refuted: subnormals are halved / mis-encoded, infinities and NaN make the encoder loop for ever, -0 loses its sign. long double arithmetic is modelled as exact. For the functions that programs call (FloatApi), with the conversion of the result to float or double: normal numbers, zeros and infinities are read right; NaN are read as infinities and subnormal numbers are halved (to_float_wrong, to_double_wrong)."
  },
  {
   "property": "C11",
   "status": "proved",
   "theorems": [
    "Verif.Props.HttpSegmentation.segmentation_independent",
    "Verif.Props.HttpSegmentation.total_after_error_depends_on_segmentation"
   ],
   "note": "All configurations, all starting states, all cuts into nonempty buffers. The byte counters are compared unless parsing failed: total_after_error_depends_on_segmentation shows the code's counters do depend on the cut after an error."
  },
  {
   "property": "C12",
   "status": "proved",
   "theorems": [
    "Verif.Props.HttpSegmentation.trailing_bytes_untouched",
    "Verif.Props.HttpSegmentation.unread_is_suffix",
    "Verif.Props.HttpSegmentation.pipeline_as_if_alone"
   ],
   "note": ""
  },
  {
   "property": "C13",
   "status": "proved",
   "theorems": [
    "Verif.Props.HttpBody.content_length_exact",
    "Verif.Props.HttpBody.content_length_exact_handler",
    "Verif.Props.HttpBody.content_length_not_before",
    "Verif.Props.HttpBody.content_length_wraps"
   ],
   "note": "Hypothesis body.length+1 < 2^64; at exactly 2^64-1 the buffer size wraps (content_length_wraps)."
  },
  {
   "property": "C14",
   "status": "partial",
   "theorems": [
    "Verif.Props.Writer.chunked_roundtrip_partial",
    "Verif.Props.Writer.chunked_wire",
    "Verif.Props.Writer.chunked_request_not_announced",
    "Verif.Props.Writer.response_chunks",
    "Verif.Props.HttpBody.chunked_exact"
   ],
   "note": "Round trip writer to parser for all chunks, all cuttings, anything following, for messages that announce chunks (all responses to HTTP/1.1). Requests sent with send_chunk do not announce chunks (chunked_request_not_announced)."
  },
  {
   "property": "C15",
   "status": "partial",
   "theorems": [
    "Verif.Props.HttpBody.oversized_chunked_never_completes",
    "Verif.Props.HttpBody.chunked_completes_partial"
   ],
   "note": "The property is false of the code: proved with a witness. The partial theorem covers bodies within the limit."
  },
  {
   "property": "C16",
   "status": "proved",
   "theorems": [
    "Verif.Props.HttpLimits.fields_within_limits",
    "Verif.Props.HttpLimits.method_too_long",
    "Verif.Props.HttpLimits.resource_too_long",
    "Verif.Props.HttpLimits.query_too_long",
    "Verif.Props.HttpLimits.status_too_long",
    "Verif.Props.HttpLimits.header_name_too_long",
    "Verif.Props.HttpLimits.header_value_too_long"
   ],
   "note": ""
  },
  {
   "property": "C17",
   "status": "proved",
   "theorems": [
    "Verif.Props.HttpSegmentation.parse_terminates_and_progresses"
   ],
   "note": ""
  },
  {
   "property": "C18",
   "status": "proved",
   "theorems": [
    "Verif.Props.HttpReset.history_after_reset",
    "Verif.Props.HttpReset.reset_any_state"
   ],
   "note": "All operations (parse, parse_missing_data, check_premature_eof, further resets), any state, all observations including gcount."
  },
  {
   "property": "C19",
   "status": "partial",
   "theorems": [
    "Verif.Props.HttpAccounting.gcount_exact_partial",
    "Verif.Props.HttpAccounting.gcount_on_error",
    "Verif.Props.HttpAccounting.total_exact_partial",
    "Verif.Props.HttpAccounting.total_of_message_partial",
    "Verif.Props.HttpAccounting.gap_counted",
    "Verif.Props.HttpAccounting.error_bytes_not_counted"
   ],
   "note": "Exact for every call that does not fail; on an error the bytes of the failing phase are not counted (witness error_bytes_not_counted)."
  },
  {
   "property": "C20",
   "status": "partial",
   "theorems": [
    "Verif.Props.Query.query_roundtrip_partial",
    "Verif.Props.Query.query_roundtrip_append_partial",
    "Verif.Props.Query.query_drops_empty_name",
    "Verif.Props.Query.query_changes_nul",
    "Verif.Props.Query.parsed_pairs_bounded",
    "Verif.Props.Query.name_limit_exact",
    "Verif.Props.Query.value_limit_exact"
   ],
   "note": "Round trip proved for all lists of pairs with non-empty names and without zero bytes within the limits; both exclusions are violations of the property, shown by concrete theorems."
  },
  {
   "property": "C21",
   "status": "proved",
   "theorems": [
    "Verif.Props.Cookie.cookies_exact",
    "Verif.Props.Cookie.stored_bounded",
    "Verif.Props.Cookie.expires_date_becomes_cookie"
   ],
   "note": "Every list of legal cookies, in either separator, quoted or not; limits for arbitrary text. Shows also that an Expires date in a Set-Cookie header yields a spurious cookie."
  },
  {
   "property": "C22",
   "status": "partial",
   "theorems": [
    "Verif.Props.Message.write_read_partial",
    "Verif.Props.Message.send_receive_partial",
    "Verif.Props.Message.chunked_not_read_back",
    "Verif.Props.Message.status_wraps",
    "Verif.Props.Message.cookies_sent_again"
   ],
   "note": "Every message whose first line, headers, cookies and content satisfy the grammar, every table order, anything following, any cutting; except headers that announce a chunked body, for which the property fails (chunked_not_read_back)."
  },
  {
   "property": "C23",
   "status": "proved",
   "theorems": [
    "Verif.Props.Uri.parse_uri_exact",
    "Verif.Props.Uri.parse_uri_reassembles",
    "Verif.Props.Uri.port_wraps",
    "Verif.Props.Uri.query_without_path",
    "Verif.Props.Uri.scheme_found_in_query",
    "Verif.Props.Uri.stale_query",
    "Verif.Props.Uri.port_refused"
   ],
   "note": "Every URI of the stated form; reassembly for every text that is accepted. Shows also how texts outside that form are accepted."
  },
  {
   "property": "C24",
   "status": "partial",
   "theorems": [
    "Verif.Props.ForwardedFor.returned_address_public_partial",
    "Verif.Props.ForwardedFor.first_public_exact",
    "Verif.Props.ForwardedFor.total",
    "Verif.Props.ForwardedFor.leading_zero_returned",
    "Verif.Props.ForwardedFor.part_of_number_returned"
   ],
   "note": "Proved for every header, for addresses without leading zeros; with leading zeros the property fails (concrete theorem)."
  },
  {
   "property": "C25",
   "status": "proved",
   "theorems": [
    "Verif.Props.Dict.iequals_iff",
    "Verif.Props.Dict.change_exact",
    "Verif.Props.Dict.delete_exact",
    "Verif.Props.Dict.add_exact",
    "Verif.Props.Dict.has_iff",
    "Verif.Props.Dict.get_spec",
    "Verif.Props.Dict.get_after_change",
    "Verif.Props.Dict.get_after_delete",
    "Verif.Props.Dict.matching_perm_others"
   ],
   "note": "For every dictionary, key, value and every container order of equal keys."
  },
  {
   "property": "C26",
   "status": "proved",
   "theorems": [
    "Verif.Props.Dict.ihash_eq_of_iequals",
    "Verif.Props.Dict.bucket_lookup_complete",
    "Verif.Props.HashTable.finds",
    "Verif.Props.HashTable.visits",
    "Verif.Props.HashTable.order_ok"
   ],
   "note": "For every mixing function and every number of buckets. C locale. For every mixing function, every number of buckets, every time of growing and both places for new entries among equal keys. C locale."
  },
  {
   "property": "C27",
   "status": "partial",
   "theorems": [
    "Verif.Props.Reader.decision_partial",
    "Verif.Props.Reader.open_only_after_message_partial",
    "Verif.Props.Reader.close_header_closes",
    "Verif.Props.Reader.no_header_version",
    "Verif.Props.Reader.serve_stream",
    "Verif.Props.Reader.all_received",
    "Verif.Props.Reader.nothing_after_close_partial",
    "Verif.Props.Reader.close_other_case_kept_alive",
    "Verif.Props.Reader.close_in_list_kept_alive",
    "Verif.Props.Reader.blocking_decision_partial",
    "Verif.Props.Reader.blocking_failure_keeps_lifecycle"
   ],
   "note": "Full decision and pipelining theorem for the exact spelling \"close\"; the code compares case-sensitively and with the first header only (proved counterexamples), and the blocking message::receive leaves the lifecycle unchanged on failure (proved counterexample)."
  },
  {
   "property": "C28",
   "status": "partial",
   "theorems": [
    "Verif.Props.Writer.wire_exact",
    "Verif.Props.Writer.send_exact_partial",
    "Verif.Props.Writer.chunked_wire",
    "Verif.Props.Writer.nul_content_lost",
    "Verif.Props.Writer.final_chunk_unframed",
    "Verif.Props.Writer.sendChunk_closes",
    "Verif.Props.Writer.send_received_partial",
    "Verif.Props.Writer.response_chunks",
    "Verif.Props.Writer.response_no_chunks",
    "Verif.Props.Writer.old_client_plain"
   ],
   "note": "Order and headers-once for every sequence of calls; Content-Length for every sequence of writes. Fails for a writer created from a message whose content begins with NUL (nul_content_lost). Clients that are not HTTP/1.1 never get chunks (old_client_plain)."
  },
  {
   "property": "C29",
   "status": "proved",
   "theorems": [
    "Verif.Props.Dispatch.stored_path",
    "Verif.Props.Dispatch.find_longest",
    "Verif.Props.Dispatch.find_none",
    "Verif.Props.Dispatch.not_found_iff",
    "Verif.Props.Dispatch.dispatched",
    "Verif.Props.Dispatch.delivered"
   ],
   "note": "The handler table is the fold of the specification over any sequence of add/remove calls; find_request_handler returns the longest covering entry; 404 exactly when none covers."
  },
  {
   "property": "C30",
   "status": "partial",
   "theorems": [
    "Verif.Props.PluginManager.get_registered",
    "Verif.Props.PluginManager.find_longest_partial",
    "Verif.Props.PluginManager.find_none_partial",
    "Verif.Props.PluginManager.find_exact",
    "Verif.Props.PluginManager.find_misses"
   ],
   "note": "What is found is the longest covering identifier, exact matches are always found, and find_none_partial says precisely what can make the lookup miss a covered resource. find_misses is the counterexample to the full statement."
  },
  {
   "property": "C31",
   "status": "proved",
   "theorems": [
    "Verif.Props.Dispatch.loop_ends",
    "Verif.Props.Dispatch.loop_fails",
    "Verif.Props.Dispatch.too_many_redirects",
    "Verif.Props.Dispatch.cyclic_redirects",
    "Verif.Props.Dispatch.redirects_decided",
    "Verif.Props.Dispatch.delivered"
   ],
   "note": "Follows n q r is the specification of n redirect steps. More than 10 steps, in particular every cycle, give a server error; otherwise the end of the chain is delivered."
  },
  {
   "property": "C32",
   "status": "proved",
   "theorems": [
    "Verif.Props.Dispatch.gate",
    "Verif.Props.Dispatch.refused_nothing_runs",
    "Verif.Props.Dispatch.invalid_reaches_nobody",
    "Verif.Props.Auth.basic_gate",
    "Verif.Props.Auth.cookie_gate",
    "Verif.Props.Auth.redirect_slash_edge"
   ],
   "note": "gate holds for an arbitrary authenticator; basic_gate and cookie_gate instantiate it with the two authenticators of the library after any history. redirect_slash_edge: authenticator and dispatcher may look at different paths when a redirect target ends in two slashes."
  },
  {
   "property": "C33",
   "status": "proved",
   "theorems": [
    "Verif.Props.Auth.needs_basic",
    "Verif.Props.Auth.needs_cookie"
   ],
   "note": "After any history of requests, user changes and path registrations."
  },
  {
   "property": "C34",
   "status": "partial",
   "theorems": [
    "Verif.Props.Auth.basic_open_iff",
    "Verif.Props.Auth.basic_sound",
    "Verif.Props.Auth.basic_sound_time_partial",
    "Verif.Props.Auth.basic_complete",
    "Verif.Props.Auth.basic_no_credentials",
    "Verif.Props.Auth.basic_never_correct",
    "Verif.Props.Auth.basic_twice_the_lifetime",
    "Verif.Props.Auth.basic_refreshed_for_ever",
    "Verif.Props.Auth.basic_old_password_accepted"
   ],
   "note": "Sound for any clock up to the time bound; with a monotone clock each use of cached credentials is at most 600 s after the previous one. The promised 300 s do not hold: the last three theorems are counterexamples (expiry up to twice the life time, sliding refresh, removed users and old passwords stay accepted)."
  },
  {
   "property": "C35",
   "status": "partial",
   "theorems": [
    "Verif.Props.Auth.cookie_sound",
    "Verif.Props.Auth.cookie_sound_time_partial",
    "Verif.Props.Auth.cookie_no_session",
    "Verif.Props.Auth.login_correct",
    "Verif.Props.Auth.session_usable",
    "Verif.Props.Auth.cookie_twice_the_expiry",
    "Verif.Props.Auth.cookie_survives_removal",
    "Verif.Props.Auth.login_answered",
    "Verif.Props.Auth.session_renewed"
   ],
   "note": "Sound for any clock up to the time bound; with a monotone clock each use of a session is at most 7200 s after the previous one, the promised 3600 s do not hold (cookie_twice_the_expiry). session_usable: a fresh session is good for 3600 s. The random numbers are inputs here; C88 models where they come from. Correct credentials always log in, and every use renews the session for another 3600 s."
  },
  {
   "property": "C36",
   "status": "partial",
   "theorems": [
    "Verif.Props.Users.get_user_password_partial",
    "Verif.Props.Users.get_user_password_plain",
    "Verif.Props.Users.get_user_iff_partial",
    "Verif.Props.Users.empty_iff_partial",
    "Verif.Props.Users.answers_partial",
    "Verif.Props.Users.bad_hash_damages",
    "Verif.Props.Users.non_hex_accepted"
   ],
   "note": "Full for builds without SSL and for histories whose hash arguments are hexadecimal; bad_hash_damages shows that a rejected update_user_hash damages the record."
  },
  {
   "property": "C37",
   "status": "partial",
   "theorems": [
    "Verif.Props.ServiceConfig.load_exact",
    "Verif.Props.ServiceConfig.applied_partial",
    "Verif.Props.ServiceConfig.malformed_rejected",
    "Verif.Props.ServiceConfig.wellformed_accepted",
    "Verif.Props.ServiceConfig.error_prefix",
    "Verif.Props.ServiceConfig.comment_no_effect",
    "Verif.Props.ServiceConfig.last_line_ignored",
    "Verif.Props.ServiceConfig.second_auth_discards",
    "Verif.Props.ServiceConfig.no_auth_removes",
    "Verif.Props.ServiceConfig.written_read",
    "Verif.Props.ServiceConfig.written_loaded",
    "Verif.Props.ServiceConfig.command_letters",
    "Verif.Props.ServiceConfig.any_case"
   ],
   "note": "Exact meaning of every text. Not as stated for a last line without line end, which is dropped silently (last_line_ignored). Also: a second auth command discards users and restrictions, a file without auth command removes the authentication of the server, and after an error the authenticator is not installed although services are."
  },
  {
   "property": "C38",
   "status": "proved",
   "theorems": [
    "Verif.Props.Plugin.no_use_after_free",
    "Verif.Props.Plugin.open_is_loaded",
    "Verif.Props.Plugin.loaded_iff_used",
    "Verif.Props.Plugin.events_once",
    "Verif.Props.Plugin.closed_with_last_reference",
    "Verif.Props.Plugin.same_name_shared",
    "Verif.Props.Plugin.static_stays",
    "Verif.Props.Plugin.open_twice_blocks",
    "Verif.Props.Plugin.self_assignment_closes",
    "Verif.Props.Plugin.open_file_opens",
    "Verif.Props.Plugin.close_closes",
    "Verif.Props.Plugin.assign_shares",
    "Verif.Props.Plugin.copy_shares",
    "Verif.Props.Plugin.open_name_opens",
    "Verif.Props.Plugin.open_name_loads"
   ],
   "note": "For every interleaving of the mutex-guarded sections of calls by any number of threads. open_twice_blocks and self_assignment_closes are sharp edges found on the way."
  },
  {
   "property": "C39",
   "status": "partial",
   "theorems": [
    "Verif.Props.PluginManager.owned",
    "Verif.Props.PluginManager.all_destroyed",
    "Verif.Props.PluginManager.owned_once",
    "Verif.Props.PluginManager.get_alive",
    "Verif.Props.PluginManager.duplicate_add_leaks",
    "Verif.Props.PluginManager.replace_self_destroys",
    "Verif.Props.PluginManager.replaced_by_wrong_destructor",
    "Verif.Props.PluginManager.answers",
    "Verif.Props.PluginManager.remove_destroys",
    "Verif.Props.PluginManager.get_registered",
    "Verif.Props.PluginManager.run_each",
    "Verif.Props.PluginManager.run_one",
    "Verif.Props.PluginManager.statistic_sum"
   ],
   "note": "Holds for objects the manager really took; the last three theorems are counterexamples: add with an id in use drops the object, replace by the same object destroys it twice. Calls are atomic here; several threads are C77. remove and replace destroy at once, exactly once."
  },
  {
   "property": "C40",
   "status": "partial",
   "theorems": [
    "Verif.Props.TcpServer.pool_exact",
    "Verif.Props.TcpServer.leaves_pool",
    "Verif.Props.TcpServer.not_kept_alive",
    "Verif.Props.TcpServer.stop_empty",
    "Verif.Props.TcpServer.stop_returns_partial",
    "Verif.Props.TcpServer.connections_exact_partial",
    "Verif.Props.TcpServer.connections_stopped",
    "Verif.Props.TcpServer.stop_returns_early",
    "Verif.Props.TcpServer.connections_off_by_one",
    "Verif.Props.TcpServer.connections_wraps",
    "Verif.Props.TcpServer.keep_alive_deadlock",
    "Verif.Props.TcpServer.stop_returns",
    "Verif.Props.TcpServer.stop_can_return",
    "Verif.Props.TcpServer.accepts_next",
    "Verif.Props.TcpServer.client_served",
    "Verif.Props.TcpServer.kept_alive"
   ],
   "note": "The pool holds exactly the unfinished connections after any history, and after stop none is kept alive. Every stop returns with no connection open and get_connections is exact, if calls of start and stop do not overlap and outside the two moments between m_is_listening/accept and the next listen; counterexamples for the rest are proved. A stop that waits is never stuck (unless the server is deadlocked by a nested finish), and a listening server always has exactly one place for the next client."
  },
  {
   "property": "C41",
   "status": "partial",
   "theorems": [
    "Verif.Props.Scheduler.shutdown_counts",
    "Verif.Props.Scheduler.shutdown_waits",
    "Verif.Props.Scheduler.shutdown_not_stuck",
    "Verif.Props.Scheduler.shutdown_returns",
    "Verif.Props.Scheduler.join_stopped",
    "Verif.Props.Scheduler.running_with_users_partial",
    "Verif.Props.Scheduler.user_without_scheduler",
    "Verif.Props.Scheduler.unpaired_remove_hangs",
    "Verif.Props.Scheduler.stop_threads_joins_caller"
   ],
   "note": "Count exact for all interleavings of any threads. The scheduler can have a user and not run if a shutdown comes between check and count of add_active_user (user_without_scheduler)."
  },
  {
   "property": "C42",
   "status": "proved",
   "theorems": [
    "Verif.Props.Scheduler.get_valid",
    "Verif.Props.Scheduler.get_each_once",
    "Verif.Props.Scheduler.get_round_robin",
    "Verif.Props.Scheduler.get_zero_threads"
   ],
   "note": "For every reachable pool and number of threads other than 0 (assertion failure)."
  },
  {
   "property": "C43",
   "status": "partial",
   "theorems": [
    "Verif.Props.Timer.cancelled_never",
    "Verif.Props.Timer.only_if_expired_partial",
    "Verif.Props.Timer.times_out",
    "Verif.Props.Timer.restart_cancels",
    "Verif.Props.Timer.cancelled_unusable",
    "Verif.Props.Timer.times_out_each",
    "Verif.Props.Timer.cancel_releases_partial",
    "Verif.Props.Timer.cancel_leaves_wait"
   ],
   "note": "Not as stated for a timer started twice: the aborted first wait cancels the connection (restart_cancels), or cancel leaves the second wait pending (cancel_leaves_wait)."
  },
  {
   "property": "C44",
   "status": "partial",
   "theorems": [
    "Verif.Props.Stream.writes_in_order_partial",
    "Verif.Props.Stream.writes_defined",
    "Verif.Props.Stream.writes_all",
    "Verif.Props.Stream.reads_in_order_partial",
    "Verif.Props.Stream.forward_in_order",
    "Verif.Props.Stream.failed_write_resends",
    "Verif.Props.Stream.failed_write_overrun",
    "Verif.Props.Stream.spurious_wakeup_resends",
    "Verif.Props.Stream.failed_read_putback",
    "Verif.Props.Stream.writes_bounded"
   ],
   "note": "Proved as long as no operation failed. After a failed write the wrong part of the buffer is kept and the buffer can be overrun; after a failed read put back characters are wrong; a spurious wakeup sends bytes twice. The buffered output never exceeds its size."
  },
  {
   "property": "C45",
   "status": "partial",
   "theorems": [
    "Verif.Props.FileService.confined_partial",
    "Verif.Props.FileService.looks_only_at",
    "Verif.Props.FileService.changes_only",
    "Verif.Props.FileService.sibling_escape",
    "Verif.Props.FileService.dotted_escape",
    "Verif.Props.FileService.relative_directory_escape",
    "Verif.Props.FileService.trailing_slash_refuses",
    "Verif.Props.FileLookup.lookup_sound"
   ],
   "note": "Proved: a request looks at one file and its parent directory and changes at most that file; for a directory given as an absolute path and requests without two-character names with a dot, that file is in the directory or in a sibling whose name begins with the directory name. The full property fails (three witnesses). lookup_sound: name-by-name lookup finds nothing that the model does not."
  },
  {
   "property": "C46",
   "status": "proved",
   "theorems": [
    "Verif.Props.FileService.read_only",
    "Verif.Props.FileService.safe_methods",
    "Verif.Props.FileService.not_allowed",
    "Verif.Props.FileService.not_implemented",
    "Verif.Props.FileService.refused",
    "Verif.Props.FileService.written",
    "Verif.Props.FileService.created",
    "Verif.Props.FileService.deleted",
    "Verif.Props.FileService.failed_write_unnoticed",
    "Verif.Props.FileService.changes_only",
    "Verif.Props.FileService.link",
    "Verif.Props.FileService.link_root"
   ],
   "note": "405/501 are answered after the path has been accepted (refused: 403/404 otherwise)."
  },
  {
   "property": "C47",
   "status": "partial",
   "theorems": [
    "Verif.Props.FileService.get_fresh_partial",
    "Verif.Props.FileService.get_current",
    "Verif.Props.FileService.not_modified",
    "Verif.Props.FileService.uninitialised_sent",
    "Verif.Props.FileService.same_time_stale",
    "Verif.Props.FileService.cache2_removed",
    "Verif.Props.FileService.get_answered",
    "Verif.Props.FileService.get_missing",
    "Verif.Props.FileService.scanned_found",
    "Verif.Props.FileService.unscanned_refused",
    "Verif.Props.FileService.root_scan_unfound",
    "Verif.Props.FileLookup.target_lookup",
    "Verif.Props.FileLookup.slash_after_file"
   ],
   "note": "Missing: files the server may not read; uninitialised_sent shows memory that was never written is sent then. With a scan, the scanned files are found under their links and nothing else; finding: with the directory / the scan drops the first character of each name. target_lookup: for paths of plain names in a tree, the place lookup of the model is exact; slash_after_file: the case where it is not."
  },
  {
   "property": "C48",
   "status": "partial",
   "theorems": [
    "Verif.Props.FileSender.deliver_partial",
    "Verif.Props.FileSender.on_the_wire",
    "Verif.Props.FileSender.finished_once",
    "Verif.Props.FileSender.no_overrun",
    "Verif.Props.FileSender.never_finished",
    "Verif.Props.FileSender.shorter_never_finished",
    "Verif.Props.FileHandover.handed_over",
    "Verif.Props.FileHandover.service_no_overrun"
   ],
   "note": "Missing: a file that cannot be opened, or is shorter on disk than announced, when it is sent; then the connection is never finished (never_finished, shorter_never_finished)."
  },
  {
   "property": "C49",
   "status": "partial",
   "theorems": [
    "Verif.Props.LogRing.kept_exact",
    "Verif.Props.LogRing.last_max_partial",
    "Verif.Props.LogRing.largest_max_unbounded",
    "Verif.Props.LogAnswers.log_received_partial",
    "Verif.Props.LogAnswers.log_lines_partial",
    "Verif.Props.LogAnswers.log_forged"
   ],
   "note": "Exact for every sequence of calls. Not as stated for the largest unsigned maximum, for which the counter wraps and nothing is dropped. A smaller maximum takes effect with the next string only. log_received_partial: what is kept is what a client receives (not HEAD). log_lines_partial: one line per event if no event contains a line end; log_forged: otherwise a message can forge events."
  },
  {
   "property": "C50",
   "status": "partial",
   "theorems": [
    "Verif.Props.Spdy.fields",
    "Verif.Props.Spdy.next_frame",
    "Verif.Props.Spdy.refused",
    "Verif.Props.Spdy.inside_partial",
    "Verif.Props.Spdy.outside_iff",
    "Verif.Props.Spdy.truncated_header",
    "Verif.Props.Spdy.zero_stream",
    "Verif.Props.Spdy.bad_first",
    "Verif.Props.Spdy.data_frame",
    "Verif.Props.Spdy.all_data_frames",
    "Verif.Props.Spdy.headers_read",
    "Verif.Props.Spdy.distinct_headers",
    "Verif.Props.Spdy.short_reply_overrun",
    "Verif.Props.Spdy.goaway_overrun",
    "Verif.Props.Spdy.goaway_next_frame",
    "Verif.Props.Spdy.goaway_assertion",
    "Verif.Props.Spdy.count_not_checked",
    "Verif.Props.Spdy.version3_unread",
    "Verif.Props.Spdy.goaway_refused",
    "Verif.Props.Spdy.headers_refused",
    "Verif.Props.Spdy.frame_kind",
    "Verif.Props.Spdy.control_kind",
    "Verif.Props.Spdy.data_kind_partial",
    "Verif.Props.Spdy.data_kind_violated",
    "Verif.Props.Spdy.control_iff",
    "Verif.Props.Spdy.control_has_kind",
    "Verif.Props.Spdy.control_frame_iff",
    "Verif.Props.Spdy.data_not_control",
    "Verif.Props.Spdy.control_stream"
   ],
   "note": "Fields are proved for every accepted packet; reads stay inside exactly for packets that are complete in the sense of Complete (outside_iff), the code has no such check, so truncated packets, short SYN_REPLY and GOAWAY frames are read beyond their end. zlib is a parameter."
  },
  {
   "property": "C51",
   "status": "proved",
   "theorems": [
    "Verif.Props.HttpBody.premature_end_detected",
    "Verif.Props.HttpBody.premature_end_empty",
    "Verif.Props.HttpBody.end_of_stream_delimits"
   ],
   "note": ""
  },
  {
   "property": "C52",
   "status": "partial",
   "theorems": [
    "Verif.Props.HttpMissing.never_ok_after_loss",
    "Verif.Props.HttpMissing.partial_after_loss",
    "Verif.Props.HttpMissing.gaps_read_as_filler_partial",
    "Verif.Props.HttpMissing.content_with_gaps_partial",
    "Verif.Props.HttpMissing.gap_beyond_maximum_leaves_garbage"
   ],
   "note": "Status: in full. Positions: for gaps within the maximum content length; beyond it the content is uninitialised memory (witness)."
  },
  {
   "property": "C53",
   "status": "partial",
   "theorems": [
    "Verif.Props.HttpBody.bodyless_complete_partial",
    "Verif.Props.HttpBody.bodyless_chunked_waits",
    "Verif.Props.HttpBody.request_without_body"
   ],
   "note": "False for implied-empty responses that announce chunked coding (bodyless_chunked_waits)."
  },
  {
   "property": "C54",
   "status": "partial",
   "theorems": [
    "Verif.Props.Multipart.multipart_fields_exact",
    "Verif.Props.Multipart.multipart_safe_partial",
    "Verif.Props.Multipart.multipart_negative_length",
    "Verif.Props.Multipart.multipart_filename_taken_for_name",
    "Verif.Props.Multipart.multipart_quoted_boundary_fails",
    "Verif.Props.Multipart.multipart_negative_length_always",
    "Verif.Props.PostedForm.posted_form_received",
    "Verif.Props.PostedForm.posted_form_throws"
   ],
   "note": "Fields of well-formed bodies proved. Safety for all bodies except when the boundary directly follows the blank line of a part: there the code computes a negative length (concrete theorem). multipart_negative_length_always: this happens for every boundary, whatever parts stand in front and whatever follows. posted_form_received and posted_form_throws say the same for whole requests, from their bytes in any buffers to the parameters."
  },
  {
   "property": "C55",
   "status": "partial",
   "theorems": [
    "Verif.Props.FirstLine.first_line_current_partial",
    "Verif.Props.FirstLine.reading_has_no_effect_partial",
    "Verif.Props.FirstLine.stale_after_change_resource"
   ],
   "note": "Holds for all setters except change_resource, which does not invalidate the cached line (proved counterexample)."
  },
  {
   "property": "C56",
   "status": "partial",
   "theorems": [
    "Verif.Props.Responses.builtin_received_partial",
    "Verif.Props.Responses.reply_received_partial",
    "Verif.Props.Responses.builtin_sendable",
    "Verif.Props.Responses.pages_markup",
    "Verif.Props.Responses.notFound_shows",
    "Verif.Props.Responses.forbidden_markup_partial",
    "Verif.Props.Responses.forbidden_markup_violated",
    "Verif.Props.Responses.head_answer_unread",
    "Verif.Props.Responses.escape_length",
    "Verif.Props.Responses.allowNothing_page",
    "Verif.Props.Responses.version_told",
    "Verif.Props.Responses.status_unset"
   ],
   "note": "Proved for every request that is not HEAD: client reads status, headers and page exactly, nothing left over; no markup from requests. Violated: for every HEAD request the page is sent and left unread (head_answer_unread); the forbidden page writes the error text unescaped (forbidden_markup_violated)."
  },
  {
   "property": "C57",
   "status": "partial",
   "theorems": [
    "Verif.Props.Responses.cookieReply_sendable_partial",
    "Verif.Props.Responses.reply_received_partial",
    "Verif.Props.Responses.cookieService_sendable_partial",
    "Verif.Props.Responses.open_redirect",
    "Verif.Props.Responses.response_splitting",
    "Verif.Props.Responses.cookieService_injection",
    "Verif.Props.Responses.session_headers"
   ],
   "note": "Proved if the copied text has no control characters. Violated: CR LF in the url parameter of the logout page splits the response, end to end from the request bytes (response_splitting); same for the cookie service."
  },
  {
   "property": "C58",
   "status": "partial",
   "theorems": [
    "Verif.Props.Responses.echo_page",
    "Verif.Props.Responses.echo_end_to_end_partial"
   ],
   "note": "Proved for every request that is not HEAD and does not announce chunks, through message::send, server parser, service, writer and client parser."
  },
  {
   "property": "C59",
   "status": "partial",
   "theorems": [
    "Verif.Props.AdminRights.exclusive",
    "Verif.Props.AdminRights.rights",
    "Verif.Props.AdminRights.waits_iff",
    "Verif.Props.AdminRights.restored_partial",
    "Verif.Props.AdminRights.released",
    "Verif.Props.AdminRights.released_same_iff",
    "Verif.Props.AdminRights.stays_administrator",
    "Verif.Props.AdminRights.released_violated",
    "Verif.Props.AdminRights.refused"
   ],
   "note": "Mutual exclusion and the rights are proved for every history of the objects. Giving the rights back restores the user only for ids that fit in 16 bits (m_user_id is an int16_t): released says what happens to the others, some of which stay administrator."
  },
  {
   "property": "C60",
   "status": "partial",
   "theorems": [
    "Verif.Props.AdminRights.number",
    "Verif.Props.AdminRights.name_partial",
    "Verif.Props.AdminRights.empty_password",
    "Verif.Props.AdminRights.empty_password_administrator",
    "Verif.Props.AdminRights.run_as_user",
    "Verif.Props.AdminRights.run_as_group",
    "Verif.Props.AdminRights.unknown_user",
    "Verif.Props.AdminRights.user_before_group",
    "Verif.Props.AdminRights.ids_small",
    "Verif.Props.AdminRights.exception_changes_nothing"
   ],
   "note": "Proved for files in which no password is empty. With an empty password the group's id is taken as the user's; an unknown name is not reported."
  },
  {
   "property": "C61",
   "status": "partial",
   "theorems": [
    "Verif.Props.PluginFiles.first_found",
    "Verif.Props.PluginFiles.confined",
    "Verif.Props.PluginFiles.current_directory_first",
    "Verif.Props.PluginFiles.names_escape",
    "Verif.Props.PluginFiles.name_kept",
    "Verif.Props.PluginFiles.renamed",
    "Verif.Props.PluginFiles.listed_iff",
    "Verif.Props.PluginFiles.listed_found",
    "Verif.Props.PluginFiles.hidden_not_found"
   ],
   "note": "Search order, confinement of plain names, list of names. Names with slashes and the empty name (a file called .so) are the exceptions, with witnesses."
  },
  {
   "property": "C62",
   "status": "partial",
   "theorems": [
    "Verif.Props.PluginInstance.destroyed_once_partial",
    "Verif.Props.PluginInstance.reset_destroys_twice",
    "Verif.Props.PluginInstance.not_found_destroys_twice",
    "Verif.Props.PluginInstance.load_failure_destructor_throws",
    "Verif.Props.PluginInstance.second_create_stuck"
   ],
   "note": "Holds for sequences of successful create calls; false after reset, after failures and for loaded plug-ins, proved for every such case."
  },
  {
   "property": "C63",
   "status": "partial",
   "theorems": [
    "Verif.Props.ContentBuffer.value_semantics",
    "Verif.Props.ContentBuffer.nul_terminated",
    "Verif.Props.ContentBuffer.no_leak",
    "Verif.Props.ContentBuffer.self_assignment_loses",
    "Verif.Props.ContentBuffer.members_copied"
   ],
   "note": "All histories without self-assignment; self-assignment loses the content, proved for every message."
  },
  {
   "property": "C64",
   "status": "proved",
   "theorems": [
    "Verif.Props.HttpDate.denotes",
    "Verif.Props.HttpDate.denotes_unique",
    "Verif.Props.HttpDate.injective",
    "Verif.Props.HttpDate.exists_iff",
    "Verif.Props.HttpDate.length_29",
    "Verif.Props.HttpDate.not_modified_time"
   ],
   "note": "For all times for which there is a text; exists_iff says which (the others dereference a null pointer)."
  },
  {
   "property": "C65",
   "status": "partial",
   "theorems": [
    "Verif.Props.Conversation.conversation_partial",
    "Verif.Props.Conversation.bad_request_partial",
    "Verif.Props.Conversation.head_breaks_conversation",
    "Verif.Props.Conversation.final_chunk_stalls",
    "Verif.Props.FileAnswers.file_is_answer"
   ],
   "note": "proved for all requests but HEAD, all answers sent as a whole or in parts (chunks, or up to the end of the connection for HTTP/1.0); with HEAD the code violates it (head_breaks_conversation). Answers in parts to clients of a later version than 1.x are excluded: violated for send_final_chunk alone (final_chunk_stalls). Files sent by FileService are such answers (file_is_answer)."
  },
  {
   "property": "C66",
   "status": "partial",
   "theorems": [
    "Verif.Props.PluginServer.not_used_after_destruction",
    "Verif.Props.PluginServer.destroyed_when_unused",
    "Verif.Props.PluginServer.lifecycle_partial",
    "Verif.Props.PluginServer.started_partial",
    "Verif.Props.PluginServer.all_destroyed_partial",
    "Verif.Props.PluginServer.own_requests_partial",
    "Verif.Props.PluginServer.destroyed_while_serving",
    "Verif.Props.PluginServer.late_service_not_started",
    "Verif.Props.PluginServer.failed_start_repeated",
    "Verif.Props.PluginServer.duplicate_never_started",
    "Verif.Props.PluginServer.told_another_path",
    "Verif.Props.PluginServer.requests_delivered",
    "Verif.Props.PluginServer.callers_counted",
    "Verif.Props.PluginServer.callers_go_on"
   ],
   "note": "Not true as stated: services handed over to a running server, under a name in use or with a name ending in two slashes, a start that fails, and clear overlapping with stop each break it (witnesses proved). The rest is proved for all interleavings. requests_delivered: the converse, requests under the name of a service reach it."
  },
  {
   "property": "C67",
   "status": "proved",
   "theorems": [
    "Verif.Props.HttpGrammar.head_accepted",
    "Verif.Props.HttpGrammar.head_sound",
    "Verif.Props.HttpGrammar.message_begins_with_head",
    "Verif.Props.HttpGrammar.unambiguous",
    "Verif.Props.HttpGrammar.wire_in_grammar",
    "Verif.Props.HttpGrammar.departures",
    "Verif.Props.HttpGrammar.white_space"
   ],
   "note": "Parsers with parse_headers_only; for parsers of whole messages message_begins_with_head (the body is C68). `departures` lists what the grammar accepts against RFC 7230."
  },
  {
   "property": "C68",
   "status": "proved",
   "theorems": [
    "Verif.Props.HttpFraming.message_accepted",
    "Verif.Props.HttpFraming.message_sound",
    "Verif.Props.HttpFraming.message_unique",
    "Verif.Props.HttpFraming.trailers_left_unread",
    "Verif.Props.HttpFraming.message_dictionaries",
    "Verif.Props.HttpUntilClose.until_close_accepted",
    "Verif.Props.HttpUntilClose.until_close_sound"
   ],
   "note": "Acceptance, soundness and uniqueness for the grammar of Spec/HttpFraming, for parsers that do not stop after the headers and a maximum below 2^64-1. The grammar is the language of the code, so it shows its leniencies; with a payload handler trailers are not part of the message (finding). message_dictionaries: cookies and parameters of the message. until_close_accepted, until_close_sound: the responses that end with the connection, and that no other message cut short by the end of the connection is accepted."
  },
  {
   "property": "C69",
   "status": "partial",
   "theorems": [
    "Verif.Props.HttpRfc.follows_rfc_partial",
    "Verif.Props.HttpRfc.accepts_rfc_partial",
    "Verif.Props.HttpRfc.ends_as_rfc_partial",
    "Verif.Props.HttpRfc.head_chunked_waits",
    "Verif.Props.HttpRfc.reset_content_left",
    "Verif.Props.HttpRfc.two_lengths_accepted",
    "Verif.Props.HttpRfc.chunked_anywhere",
    "Verif.Props.HttpRfc.coding_ignored",
    "Verif.Props.HttpRfc.signed_length_accepted",
    "Verif.Props.HttpRfc.connect_has_body",
    "Verif.Props.HttpUntilClose.until_close_iff",
    "Verif.Props.HttpUntilClose.accepts_until_close_partial",
    "Verif.Props.HttpUntilClose.closes_as_rfc_partial",
    "Verif.Props.HttpUntilClose.coding_length_taken"
   ],
   "note": "Proved for heads about whose framing there is no doubt (Plain). For the others the property is false, with a concrete witness for each departure. HttpUntilClose: the responses that last until the connection closes."
  },
  {
   "property": "C70",
   "status": "partial",
   "theorems": [
    "Verif.Props.Process.waits",
    "Verif.Props.Process.permanent",
    "Verif.Props.Process.no_lost_wakeup",
    "Verif.Props.Process.returns_partial",
    "Verif.Props.Process.returns_spurious_partial",
    "Verif.Props.Process.stuck_for_ever",
    "Verif.Props.Process.signal_deadlock",
    "Verif.Props.Process.two_signals_deadlock"
   ],
   "note": "Safety (waits, permanent, no_lost_wakeup) holds for every schedule. That all calls return is proved for every schedule in which no signal arrives on a thread while that thread has the mutex; otherwise it is false: the handler takes a mutex and blocks its own thread for ever (signal_deadlock, two_signals_deadlock)."
  },
  {
   "property": "C71",
   "status": "partial",
   "theorems": [
    "Verif.Props.Process.daemon_clean",
    "Verif.Props.Process.daemon_other",
    "Verif.Props.Process.descriptor_above_limit_kept"
   ],
   "note": "For descriptors below the limit of the process; one above a lowered limit stays open (descriptor_above_limit_kept)."
  },
  {
   "property": "C72",
   "status": "partial",
   "theorems": [
    "Verif.Props.Piond.understood",
    "Verif.Props.Piond.otherwise_usage",
    "Verif.Props.Piond.served",
    "Verif.Props.Piond.port_read",
    "Verif.Props.Piond.port_wraps",
    "Verif.Props.Piond.options_ignored_with_config",
    "Verif.Props.Piond.bad_address_throws",
    "Verif.Props.Piond.port_meaning"
   ],
   "note": "The language of command lines and their meaning are exact. False are: numbers above 65535 are not refused as ports, options given with a configuration file are dropped silently, and an address that is none ends the program with an exception."
  },
  {
   "property": "C73",
   "status": "partial",
   "theorems": [
    "Verif.Props.Connection.no_clear_text",
    "Verif.Props.Connection.stream_secured",
    "Verif.Props.Connection.server_secured_partial",
    "Verif.Props.Connection.handshake_decides",
    "Verif.Props.Connection.gone_for_good",
    "Verif.Props.Connection.build_without_ssl",
    "Verif.Props.Connection.late_key_file",
    "Verif.Props.Connection.accept_decides",
    "Verif.Props.Connection.reconnected"
   ],
   "note": "Proved for builds with SSL and servers told of their key file before they start. Fails for builds without SSL (build_without_ssl) and for a key file set while the server listens (late_key_file). What the SSL library does with the data is not modelled."
  },
  {
   "property": "C74",
   "status": "partial",
   "theorems": [
    "Verif.Props.Connection.connect_by_name",
    "Verif.Props.Connection.resolver_error",
    "Verif.Props.Connection.closed",
    "Verif.Props.Connection.reconnect_drops",
    "Verif.Props.Connection.port_wraps"
   ],
   "note": "Proved for connections that are not connected. On a connected one the connection is dropped (reconnect_drops); ports are taken modulo 65536 (port_wraps)."
  },
  {
   "property": "C75",
   "status": "proved",
   "theorems": [
    "Verif.Props.HttpServer.handles_exactly",
    "Verif.Props.HttpServer.requests_unique",
    "Verif.Props.HttpServer.handler_called",
    "Verif.Props.HttpServer.basic_not_bypassed",
    "Verif.Props.HttpServer.cookie_not_bypassed",
    "Verif.Props.HttpServer.refused_without_credentials",
    "Verif.Props.HttpServer.trailer_credentials"
   ],
   "note": "For all streams, all ways they are cut into reads and end, and all states of the server at each request. trailer_credentials: Authorization in the trailers of a chunked request counts (finding, not excluded by the statement). Handlers that change the lifecycle of the connection are not modelled."
  },
  {
   "property": "C76",
   "status": "partial",
   "theorems": [
    "Verif.Props.AuthThreads.open_sound",
    "Verif.Props.AuthThreads.basic_sound",
    "Verif.Props.AuthThreads.session_sound",
    "Verif.Props.AuthThreads.basic_refused",
    "Verif.Props.AuthThreads.basic_accepted",
    "Verif.Props.AuthThreads.session_usable_partial",
    "Verif.Props.AuthThreads.cookies_disjoint",
    "Verif.Props.AuthThreads.cookies_distinct_partial",
    "Verif.Props.AuthThreads.progress",
    "Verif.Props.AuthThreads.steps_bounded",
    "Verif.Props.AuthThreads.returned_decided",
    "Verif.Props.AuthThreads.decided_returned",
    "Verif.Props.AuthThreads.concurrent_logins_share_session",
    "Verif.Props.AuthThreads.generator_race",
    "Verif.Props.AuthThreads.cleanup_race",
    "Verif.Props.AuthThreads.refused_without_need",
    "Verif.Props.AuthThreads.cache_exclusive"
   ],
   "note": "Each call is split at its accesses to shared memory and interleaved with all others. Proved for all interleavings: what a request that is passed on or refused implies, no deadlock, at most 45 steps per call. Violated: the random number generator is used without a lock, so two logins can be given the same session (concurrent_logins_share_session; session_usable_partial and cookies_distinct_partial exclude this); the generator and the time of the last expiry pass are data races; a request can be refused although it needed authentication at no single moment (refused_without_need)."
  },
  {
   "property": "C77",
   "status": "partial",
   "theorems": [
    "Verif.Props.PluginThreads.linearizable_partial",
    "Verif.Props.PluginThreads.linearizable",
    "Verif.Props.PluginThreads.destroyed_once",
    "Verif.Props.PluginThreads.uses_alive_partial",
    "Verif.Props.PluginThreads.progress_partial",
    "Verif.Props.PluginThreads.loads_both_succeed",
    "Verif.Props.PluginThreads.run_uses_destroyed",
    "Verif.Props.PluginThreads.load_race",
    "Verif.Props.PluginThreads.callback_deadlock"
   ],
   "note": "Each call is split at its accesses to the map and the mutex and interleaved with all others. Proved for all interleavings: linearizable unless two calls register objects for the same identifier at the same time (and, in any case, except that such a load may succeed without effect), objects destroyed at most once, no deadlock if functions given to run do not call the manager. Violated: load looks for the identifier before it takes the mutex, so two loads of one identifier both succeed and one object is lost (loads_both_succeed); that look is a data race (load_race); run for one object calls the function after releasing the mutex, so another thread can destroy the object first (run_uses_destroyed); run for all objects holds the mutex while it calls the function, which then can not use the manager (callback_deadlock)."
  },
  {
   "property": "C78",
   "status": "partial",
   "theorems": [
    "Verif.Props.ReadTimer.aborted_after_timeout",
    "Verif.Props.ReadTimer.cancelled_after_timeout",
    "Verif.Props.ReadTimer.writes_undisturbed",
    "Verif.Props.ReadTimer.bytes_not_lost",
    "Verif.Props.ReadTimer.times_out_partial",
    "Verif.Props.ReadTimer.reads_bounded",
    "Verif.Props.ReadTimer.never_times_out",
    "Verif.Props.ReadTimer.timeout_taken_for_end"
   ],
   "note": "Proved for all interleavings: nothing is aborted too early or by an old timer, no bytes are lost, writes are not disturbed; reads end in time if the timer does not go off before the read has begun. Violated: the timer is started before the read, so if the thread is held up in between the read has no limit (never_times_out); a response without length is reported as complete when its read times out (timeout_taken_for_end)."
  },
  {
   "property": "C79",
   "status": "partial",
   "theorems": [
    "Verif.Props.FileAnswers.download_partial",
    "Verif.Props.FileAnswers.download_end_to_end_partial",
    "Verif.Props.FileAnswers.file_received",
    "Verif.Props.FileAnswers.answer_received_partial",
    "Verif.Props.FileAnswers.unchanged_received_partial",
    "Verif.Props.FileAnswers.head_received_partial",
    "Verif.Props.FileAnswers.answer_markup_partial",
    "Verif.Props.FileAnswers.pages_markup",
    "Verif.Props.FileAnswers.delete_markup_violated",
    "Verif.Props.FileAnswers.type_by_ending",
    "Verif.Props.FileAnswers.type_expected_partial",
    "Verif.Props.FileAnswers.type_unknown",
    "Verif.Props.FileAnswers.eot_violated",
    "Verif.Props.FileAnswers.put_failed_page",
    "Verif.Props.FileAnswers.no_ending",
    "Verif.Props.FileAnswers.date_ok",
    "Verif.Props.FileAnswers.file_is_answer",
    "Verif.Props.FileAnswers.not_allowed_received",
    "Verif.Props.FileAnswers.created_received",
    "Verif.Props.FileAnswers.unreadable_silent",
    "Verif.Props.FileAnswers.pages_say",
    "Verif.Props.FileAnswers.no_page_for_head",
    "Verif.Props.FileAnswers.page_told"
   ],
   "note": "download_partial: cache ≤ 1, all files readable, plain names. answer_received_partial excludes an exception during HEAD (head_answer_unread). Violated: HEAD announces Content-Length 0 for every file (head_received_partial states it); eot_violated; delete_markup_violated."
  },
  {
   "property": "C80",
   "status": "partial",
   "theorems": [
    "Verif.Props.Workers.started_serves",
    "Verif.Props.Workers.threads_kept",
    "Verif.Props.Workers.in_order",
    "Verif.Props.Workers.each_once",
    "Verif.Props.Workers.served",
    "Verif.Props.Workers.not_asleep",
    "Verif.Props.Workers.shutdown_quiet",
    "Verif.Props.Workers.stop_quiet",
    "Verif.Props.Workers.shutdown_ends",
    "Verif.Props.Workers.shutdown_in_handler_hangs",
    "Verif.Props.Workers.idle_sleeps_partial",
    "Verif.Props.Workers.timer_alone_partial",
    "Verif.Props.Workers.restart_spins",
    "Verif.Props.Workers.timer_race",
    "Verif.Props.Workers.shutdown_drops"
   ],
   "note": "The claim holds of a scheduler started once. Violated: restart_spins (a restarted single-service scheduler never sleeps), timer_race (its threads use one timer at the same time), shutdown_drops (a one-to-one scheduler drops what it had accepted), shutdown_in_handler_hangs."
  },
  {
   "property": "C81",
   "status": "partial",
   "theorems": [
    "Verif.Props.DataUrl.encoded",
    "Verif.Props.DataUrl.encoded_as_form",
    "Verif.Props.DataUrl.decoded",
    "Verif.Props.DataUrl.undecodable",
    "Verif.Props.DataUrl.refused",
    "Verif.Props.DataUrl.no_data_url",
    "Verif.Props.DataUrl.safe",
    "Verif.Props.DataUrl.round_trip",
    "Verif.Props.DataUrl.field_recovered",
    "Verif.Props.DataUrl.asked_size_refused",
    "Verif.Props.DataUrl.rfc2397_refused",
    "Verif.Props.DataUrl.type_runs_into_data"
   ],
   "note": "round_trip needs a buffer as long as the whole text and a type without the mark \"; base64, \". Violated: asked_size_refused (a buffer of the reported size is refused), type_runs_into_data (a type with the mark in it)."
  },
  {
   "property": "C82",
   "status": "partial",
   "theorems": [
    "Verif.Props.ServerThreads.handled",
    "Verif.Props.ServerThreads.not_found",
    "Verif.Props.ServerThreads.redirect_error",
    "Verif.Props.ServerThreads.refused",
    "Verif.Props.ServerThreads.one_answer",
    "Verif.Props.ServerThreads.gate",
    "Verif.Props.ServerThreads.removed_not_called",
    "Verif.Props.ServerThreads.answered",
    "Verif.Props.ServerThreads.change_possible",
    "Verif.Props.ServerThreads.removed_still_called",
    "Verif.Props.ServerThreads.redirect_race"
   ],
   "note": "Proved for sequentially consistent memory. Violated: redirect_race (the redirects are searched without the mutex, which is a data race); removed_still_called (a handler may be called after remove_resource has returned)."
  },
  {
   "property": "C83",
   "status": "partial",
   "theorems": [
    "Verif.Props.FileThreads.composed_partial",
    "Verif.Props.FileThreads.fresh",
    "Verif.Props.FileThreads.not_modified",
    "Verif.Props.FileThreads.headers",
    "Verif.Props.FileThreads.not_found",
    "Verif.Props.FileThreads.failed",
    "Verif.Props.FileThreads.kept_partial",
    "Verif.Props.FileThreads.no_overrun",
    "Verif.Props.FileThreads.content_stable",
    "Verif.Props.FileThreads.entry_exclusive",
    "Verif.Props.FileThreads.no_deadlock",
    "Verif.Props.FileThreads.truncated_for_good",
    "Verif.Props.FileThreads.mixed",
    "Verif.Props.FileThreads.uninitialised_kept",
    "Verif.Props.FileThreads.overrun_after_failure"
   ],
   "note": "Proved if each content of the file has its own time (for caches that are checked), and reading fails only because the file is gone or too short. Violated: truncated_for_good, mixed (the file sent may be cut short, or a mixture of contents, and be confirmed later by 304); uninitialised_kept (setting cache 2 with scan 1: after a failed reading, memory that was never written is sent); overrun_after_failure (after a failed allocation, memory beyond the buffer is sent)."
  },
  {
   "property": "C84",
   "status": "partial",
   "theorems": [
    "Verif.Props.WriterMemory.faithful",
    "Verif.Props.WriterMemory.in_order",
    "Verif.Props.WriterMemory.complete",
    "Verif.Props.WriterMemory.called_once",
    "Verif.Props.WriterMemory.freed_partial",
    "Verif.Props.WriterMemory.leak",
    "Verif.Props.WriterMemory.handler_not_called",
    "Verif.Props.WriterMemory.not_kept",
    "Verif.Props.WriterMemory.cleared_while_sending"
   ],
   "note": "Proved, except that memory is given back only if no binary data was written or the writer is never cleared. Violated: leak (clear forgets the copies of binary data); handler_not_called (on a closed connection the finished handler is called, not the one given to send); not_kept (send(handler) does not keep the writer alive)."
  },
  {
   "property": "C85",
   "status": "partial",
   "theorems": [
    "Verif.Props.MessageBuild.parameters_received_partial",
    "Verif.Props.MessageBuild.form_received_partial",
    "Verif.Props.MessageBuild.request_cookies_received_partial",
    "Verif.Props.MessageBuild.response_cookies_received_partial",
    "Verif.Props.MessageBuild.cookie_comes_back",
    "Verif.Props.MessageBuild.request_cookie_split",
    "Verif.Props.MessageBuild.response_cookie_cut",
    "Verif.Props.MessageBuild.deleted_cookie_received",
    "Verif.Props.MessageBuild.delete_after_add_sends_both",
    "Verif.Props.MessageBuild.sent_twice_doubles_cookies",
    "Verif.Props.MessageBuild.both_ways_doubles",
    "Verif.Props.MessageBuild.parameters_lost",
    "Verif.Props.MessageBuild.parameters_not_sent",
    "Verif.Props.MessageBuild.empty_buffer_keeps_content",
    "Verif.Props.MessageBuild.content_received",
    "Verif.Props.MessageBuild.cleared_content_received",
    "Verif.Props.MessageBuild.deleted_cookie_expires"
   ],
   "note": "Proved for names and values that can be written; violated by the others: request_cookie_split (values in requests are not quoted: separators in them make other cookies), response_cookie_cut (double quotes; the path can set another cookie), parameters_lost. Also: delete_after_add_sends_both, sent_twice_doubles_cookies, empty_buffer_keeps_content."
  },
  {
   "property": "C86",
   "status": "partial",
   "theorems": [
    "Verif.Props.ServerLife.scheduler_runs_partial",
    "Verif.Props.ServerLife.client_served_partial",
    "Verif.Props.ServerLife.shutdown_after_all_partial",
    "Verif.Props.ServerLife.stop_returned_partial",
    "Verif.Props.ServerLife.not_used_after_destroyed_partial",
    "Verif.Props.ServerLife.stop_can_return_partial",
    "Verif.Props.ServerLife.shutdown_not_stuck_partial",
    "Verif.Props.ServerLife.shutdown_returns_partial",
    "Verif.Props.ServerLife.join_returns",
    "Verif.Props.ServerLife.join_waits_partial",
    "Verif.Props.ServerLife.stop_in_handler_never_returns",
    "Verif.Props.ServerLife.stop_needs_scheduler",
    "Verif.Props.ServerLife.server_without_scheduler",
    "Verif.Props.ServerLife.shutdown_stuck",
    "Verif.Props.ServerLife.join_returns_early"
   ],
   "note": "Proved for schedules in which start, stop and destructor of one server do not overlap each other, the destructor does not overlap join, and start does not overlap shutdown. Violated by others: server_without_scheduler, shutdown_stuck (start registers the server only after it listens), join_returns_early (m_is_listening is cleared when stop begins), stop_in_handler_never_returns."
  },
  {
   "property": "C87",
   "status": "partial",
   "theorems": [
    "Verif.Props.SpdySession.session_seen_partial",
    "Verif.Props.SpdySession.other_dictionary",
    "Verif.Props.SpdySession.dictionary_id",
    "Verif.Props.SpdySession.client_headers_unread",
    "Verif.Props.SpdySession.large_block_breaks_session",
    "Verif.Props.SpdySession.not_from_the_middle",
    "Verif.Props.SpdySession.rest_of_packet_lost",
    "Verif.Props.SpdySession.block_taken",
    "Verif.Props.SpdySession.block_fits"
   ],
   "note": "Proved for sessions in which no frame is split between packets, without GOAWAY frames (C50), in which the client sends headers only in SYN_STREAM frames and blocks are shorter than 16 KiB; without these conditions the statement is false (client_headers_unread, large_block_breaks_session). What zlib promises is the structure Coder; a simple instance shows that it can be met."
  },
  {
   "property": "C88",
   "status": "partial",
   "theorems": [
    "Verif.Props.CookieSession.login_by_query",
    "Verif.Props.CookieSession.login_by_form",
    "Verif.Props.CookieSession.logout_over_wire",
    "Verif.Props.CookieSession.identifiers_known",
    "Verif.Props.CookieSession.identifiers_guessable",
    "Verif.Props.CookieSession.identifier_accepted",
    "Verif.Props.CookieSession.stolen_session",
    "Verif.Props.CookieSession.same_second",
    "Verif.Props.CookieSession.options",
    "Verif.Props.CookieSession.login_page_with_slash"
   ],
   "note": "Login, use and logout are proved end to end for one thread that calls the authenticator (C76 has several). Violated: the generator is seeded with the time in seconds, so that identifiers are known to whoever knows when the server was started (identifiers_known, identifiers_guessable, stolen_session, same_second); a login page whose option ends in a slash is none (login_page_with_slash). The generator is a parameter."
  },
  {
   "property": "C89",
   "status": "partial",
   "theorems": [
    "Verif.Props.PluginCode.right_code_partial",
    "Verif.Props.PluginCode.managed_partial",
    "Verif.Props.PluginCode.loaded_iff_open",
    "Verif.Props.PluginCode.all_unloaded",
    "Verif.Props.PluginCode.clear_exact",
    "Verif.Props.PluginCode.openPlugin_exact",
    "Verif.Props.PluginCode.load_exact",
    "Verif.Props.PluginCode.record_iff",
    "Verif.Props.PluginCode.clone_exact",
    "Verif.Props.PluginCode.clone_outlives_library",
    "Verif.Props.PluginCode.replace_wrong_destroy",
    "Verif.Props.PluginCode.other_file_ignored",
    "Verif.Props.PluginCode.unchanged"
   ],
   "note": "For programs that obey the rules in Spec/PluginCode: objects that are added were made by the program, objects that replace others are of the same origin, and clones are used while somebody has their library open. Violated without these: a clone does not keep its library (clone_outlives_library), replace mixes origins (replace_wrong_destroy), a file in another directory with the same base name is not opened (other_file_ignored). Calls are atomic; threads are in C38 and C77."
  },
  {
   "property": "C90",
   "status": "partial",
   "theorems": [
    "Verif.Props.BasicSession.challenged",
    "Verif.Props.BasicSession.password_opens",
    "Verif.Props.BasicSession.open_page",
    "Verif.Props.BasicSession.wrong_password",
    "Verif.Props.BasicSession.colon_never",
    "Verif.Props.BasicSession.colon_ambiguous",
    "Verif.Props.BasicSession.colon_mistaken",
    "Verif.Props.BasicSession.scheme_case_sensitive"
   ],
   "note": "For requests other than HEAD (see C56), one Authorization header, pages with one handler and without redirect; a wrong password must not have been given before (C34: it may have been right then). Violated for names that are empty or have a colon, which the user manager accepts (colon_never, colon_mistaken), and for the scheme in another case (scheme_case_sensitive)."
  },
  {
   "property": "C91",
   "status": "partial",
   "theorems": [
    "Verif.Props.FileSite.piond_sets_up",
    "Verif.Props.FileSite.refused_iff",
    "Verif.Props.FileSite.site_download_partial",
    "Verif.Props.FileSite.site_refuses",
    "Verif.Props.FileSite.site_nothing_there",
    "Verif.Props.FileSite.piond_directory_partial",
    "Verif.Props.FileSite.piond_secret_partial",
    "Verif.Props.FileSite.double_slash"
   ],
   "note": "piond_sets_up, refused_iff, site_refuses and site_nothing_there hold for all configurations without cookie authentication (C104 has those). Downloads: as C79, that is for files that the server may read, cache=0 or 1, scan=0 or 2 and plain paths, and a file that changes must change its size or its time. Not for services whose resource ends with two slashes: violated (double_slash). Requests are handled one after the other."
  },
  {
   "property": "C92",
   "status": "partial",
   "theorems": [
    "Verif.Props.Errors.what_says_partial",
    "Verif.Props.Errors.report_inj",
    "Verif.Props.Errors.what_inj_partial",
    "Verif.Props.Errors.diagnostic_says_partial",
    "Verif.Props.Errors.looks_same",
    "Verif.Props.Errors.manager_report",
    "Verif.Props.Errors.fileOption_none",
    "Verif.Props.Errors.openLibrary_none",
    "Verif.Props.Errors.command_report_partial",
    "Verif.Props.Errors.config_report_partial",
    "Verif.Props.Errors.fatal_iff",
    "Verif.Props.Errors.fatal_report_partial",
    "Verif.Props.Errors.handler_report_partial",
    "Verif.Props.Errors.handler_answer",
    "Verif.Props.Errors.null_cut",
    "Verif.Props.Errors.attach_late",
    "Verif.Props.Errors.reason_lost",
    "Verif.Props.Errors.same_type",
    "Verif.Props.Errors.cast_unnamed"
   ],
   "note": "Violated for names with null bytes, which are cut (null_cut); for a library that the system cannot load, the reason given by the system is not reported (reason_lost); for an option whose value has to be a number, the report names neither the option nor the value (cast_unnamed); information attached after the first look is not reported (attach_late). The page of a handler shows the text if it is UTF-8 without control characters. What a service throws when it is started is left open."
  },
  {
   "property": "C93",
   "status": "partial",
   "theorems": [
    "Verif.Props.Listen.listens_iff",
    "Verif.Props.Listen.start_answers",
    "Verif.Props.Listen.start_again",
    "Verif.Props.Listen.endpoint_told",
    "Verif.Props.Listen.reports_partial",
    "Verif.Props.Listen.reports_another",
    "Verif.Props.Listen.port_cut",
    "Verif.Props.Listen.stop_closes",
    "Verif.Props.Listen.restart",
    "Verif.Props.Listen.keeps_port",
    "Verif.Props.Listen.broken_forever",
    "Verif.Props.Listen.retry_violated",
    "Verif.Props.Listen.retry_partial",
    "Verif.Props.Listen.sockets_le",
    "Verif.Props.Listen.exclusive",
    "Verif.Props.Listen.user_partial",
    "Verif.Props.Listen.binds_as_administrator",
    "Verif.Props.Listen.rights_any_port",
    "Verif.Props.Listen.start_stays_administrator",
    "Verif.Props.Listen.before_without_after"
   ],
   "note": "Violated: after a start that failed because the port is in use, the server can never be started (broken_forever, retry_violated); told another port while it listens, it answers that one (reports_another); ports are cut to 16 bits (port_cut); administrative rights are taken for every port (rights_any_port), and kept for ever by processes whose user id is a multiple of 65536 (start_stays_administrator); a failed start calls before_starting without after_stopping (before_without_after). Calls are atomic: start and stop hold the mutex; set_port by another thread during start is not modelled."
  },
  {
   "property": "C94",
   "status": "partial",
   "theorems": [
    "Verif.Props.Exchange.one_at_a_time",
    "Verif.Props.Exchange.answers_in_order",
    "Verif.Props.Exchange.answered_before_next",
    "Verif.Props.Exchange.in_turn",
    "Verif.Props.Exchange.never_stuck",
    "Verif.Props.Exchange.not_orphaned",
    "Verif.Props.Exchange.reply_orderly",
    "Verif.Props.Exchange.parts_orderly",
    "Verif.Props.Exchange.unreadable_file",
    "Verif.Props.Exchange.not_recovered",
    "Verif.Props.Exchange.mixed",
    "Verif.Props.Exchange.removed_while_read",
    "Verif.Props.Exchange.deadlock",
    "Verif.Props.Exchange.others_wait",
    "Verif.Props.Exchange.stop_lets_finish",
    "Verif.Props.Exchange.after_stop",
    "Verif.Props.Exchange.throws_after_send",
    "Verif.Props.Exchange.orphan_removed"
   ],
   "note": "Violated by handlers the library accepts or has: a file that cannot be read leaves the client waiting (unreadable_file), as does an exception that is not recovered from (not_recovered); a handler that throws after it has begun to send lets two answers mix (mixed) and the connection be dropped while it is read (removed_while_read); a handler that finishes the connection itself blocks the server for ever if requests are pipelined (deadlock); handlers of pipelined requests run with the mutex of the server locked (others_wait). never_stuck says that going on is possible from every state, if nobody closes the connection and the server is not started again while it has it. What the bytes mean is left to C27, C65 and C75."
  },
  {
   "property": "C95",
   "status": "partial",
   "theorems": [
    "Verif.Props.Host.as_if_alone",
    "Verif.Props.Host.each_client",
    "Verif.Props.Host.stop_waits_for_answers",
    "Verif.Props.Host.never_stuck",
    "Verif.Props.Host.stop_returns",
    "Verif.Props.Host.stop_waits_for_idle_clients",
    "Verif.Props.Host.one_handler_blocks_all"
   ],
   "note": "as_if_alone, each_client and stop_waits_for_answers hold as stated. A stop waits for an idle client until it goes away or its read times out (stop_waits_for_idle_clients). Violated by a handler the library accepts: one that finishes its connection at once blocks the whole server for ever if its client pipelines (one_handler_blocks_all). never_stuck and stop_returns say that going on is possible from every state, if nobody closes connections and the server is not started again."
  },
  {
   "property": "C96",
   "status": "partial",
   "theorems": [
    "Verif.Props.HeadFirst.head_first_partial",
    "Verif.Props.HeadFirst.head_alone_partial",
    "Verif.Props.HeadFirst.head_first_same",
    "Verif.Props.HeadFirst.parameters_twice",
    "Verif.Props.HeadFirst.broken_but_valid",
    "Verif.Props.HeadFirst.other_parser_forgets",
    "Verif.Props.HeadFirst.other_parser_waits"
   ],
   "note": "head_first_same gives the whole message for heads without query string and cookies. In general the query parameters and the cookies of the head are inserted a second time (parameters_twice), a message with a broken body is marked as valid (broken_but_valid), and a second parser forgets the request line or the status line, so it must be the same parser that goes on (other_parser_forgets, other_parser_waits). head_first_partial and head_alone_partial say that everything else is the same for all messages."
  },
  {
   "property": "C97",
   "status": "partial",
   "theorems": [
    "Verif.Props.RawHeaders.raw_headers_partial",
    "Verif.Props.RawHeaders.raw_headers_until_close_partial",
    "Verif.Props.RawHeaders.raw_headers_exact",
    "Verif.Props.RawHeaders.not_saved",
    "Verif.Props.RawHeaders.one_byte_too_many"
   ],
   "note": "raw_headers_exact: exact for every head whose lines end with CR LF, if there are no chunks. In general a head or a trailer section whose empty line is a single CR or LF is saved with one more byte, which belongs to the body or to the next message (one_byte_too_many); raw_headers_partial says that this is the only thing that can go wrong, and exactly when it does for the head."
  },
  {
   "property": "C98",
   "status": "partial",
   "theorems": [
    "Verif.Props.ServiceFaults.start_result",
    "Verif.Props.ServiceFaults.stop_result",
    "Verif.Props.ServiceFaults.can_start_again",
    "Verif.Props.ServiceFaults.serving_started",
    "Verif.Props.ServiceFaults.left_started_partial",
    "Verif.Props.ServiceFaults.destroyed_started",
    "Verif.Props.ServiceFaults.started_twice",
    "Verif.Props.ServiceFaults.join_sleeps",
    "Verif.Props.ServiceFaults.destructor",
    "Verif.Props.ServiceFaults.join_returns"
   ],
   "note": "Proved: start_result, stop_result, can_start_again, serving_started, join_returns, destructor (when nothing throws). False of the code, with proofs: the services started before the one that throws are not stopped, but started again or destroyed while started (left_started_partial, destroyed_started, started_twice); after a service throws in stop, the services after it are not stopped and threads in join sleep on (join_sleeps); the destructor then ends the process (destructor)."
  },
  {
   "property": "C99",
   "status": "partial",
   "theorems": [
    "Verif.Props.HttpRefusal.refusal",
    "Verif.Props.HttpRefusal.cause_reported",
    "Verif.Props.HttpRefusal.cause_exact",
    "Verif.Props.HttpRefusal.no_space_after_colon",
    "Verif.Props.HttpRefusal.texts_differ_partial",
    "Verif.Props.HttpRefusal.texts_mislead"
   ],
   "note": "Proved in full: refusal, cause_reported, cause_exact (25 causes, given in terms of the grammar of heads of C67). False of the code, with proofs: the text of the error for a target that is too long says that the method is too long, and a reason phrase that is too long is reported as an invalid status character (texts_differ_partial, texts_mislead). no_space_after_colon: values that begin, without a space, with a character that names cannot have are refused although RFC 7230 allows them."
  },
  {
   "property": "C100",
   "status": "partial",
   "theorems": [
    "Verif.Props.HttpRefusalBody.body_refusal_partial",
    "Verif.Props.HttpRefusalBody.body_cause_reported_partial",
    "Verif.Props.HttpRefusalBody.body_cause_exact",
    "Verif.Props.HttpRefusalBody.bad_length_reported",
    "Verif.Props.HttpRefusalBody.every_error",
    "Verif.Props.HttpRefusalBody.overfull_swallowed"
   ],
   "note": "Proved in full: every_error (the list of reasons is complete), bad_length_reported, body_cause_exact. False of the code: without a payload handler, once the chunks have more data than the maximum, everything that follows is swallowed and neither the end nor an error is ever found (overfull_swallowed); body_refusal_partial and body_cause_reported_partial therefore leave out exactly the texts that exceed the maximum."
  },
  {
   "property": "C101",
   "status": "partial",
   "theorems": [
    "Verif.Props.Blocking.same_as_reader_partial",
    "Verif.Props.Blocking.calls_same_partial",
    "Verif.Props.Blocking.calls_receive_all",
    "Verif.Props.Blocking.call_returns",
    "Verif.Props.Blocking.call_ends",
    "Verif.Props.Blocking.head_answer_violated",
    "Verif.Props.Blocking.head_answer_waits"
   ],
   "note": "Violated for answers to HEAD requests: the blocking call clears the response object first and forgets the method of the request, so it takes the beginning of the next answer for content, or waits for ever (head_answer_violated, head_answer_waits). The _partial theorems compare with a reader that starts from the cleared object. The error code given to the call has no error before. That the connection still says \"keep open\" after an error (blocking_failure_keeps_lifecycle, C27) is part of the statement here: the program must stop at an error."
  },
  {
   "property": "C102",
   "status": "partial",
   "theorems": [
    "Verif.Props.Forward.received_passed_on_partial",
    "Verif.Props.Forward.message_passed_on_partial",
    "Verif.Props.Forward.closed_passed_on_partial",
    "Verif.Props.Forward.no_cookies",
    "Verif.Props.Forward.chunked_not_passed_on",
    "Verif.Props.Forward.second_coding_not_passed_on",
    "Verif.Props.Forward.old_request_not_passed_on",
    "Verif.Props.Forward.cookies_doubled",
    "Verif.Props.Forward.head_length_lost",
    "Verif.Props.Forward.content_cut",
    "Verif.Props.Forward.hops_same_partial"
   ],
   "note": "Partial because the code violates the property: messages received in chunks are announced as chunked and sent without chunks (chunked_not_passed_on); of two Transfer-Encoding headers two receivers may take different ones (second_coding_not_passed_on); requests without version are sent with version 0.0, after which headers and content are read as the next request (old_request_not_passed_on); cookies are doubled at each hop (cookies_doubled); answers to HEAD lose their length (head_length_lost); a content above the maximum is sent on cut off (content_cut). Cookie headers above 1048000 bytes are excluded: the generated Set-Cookie header is longer than the one received."
  },
  {
   "property": "C103",
   "status": "partial",
   "theorems": [
    "Verif.Props.Dialogue.dialogue_partial",
    "Verif.Props.Dialogue.new_connection_violated"
   ],
   "note": "Partial because of a violation: a new connection has the lifecycle \"close\", so the first request asks the server to close the connection, and no other is received, unless the program sets the lifecycle itself (new_connection_violated). dialogue_partial is for connections for which it did so, for requests of version 1.1 or a later 1.x that are not announced as chunked, and for answers that can be sent (C56, C65). HEAD requests are included: the server sends a page with the answer (C65), and the blocking call takes it because it forgets the method (C101)."
  },
  {
   "property": "C104",
   "status": "partial",
   "theorems": [
    "Verif.Props.CookieSite.piond_login_partial",
    "Verif.Props.CookieSite.guessed",
    "Verif.Props.CookieSite.login_hides",
    "Verif.Props.CookieSite.example_session",
    "Verif.Props.CookieSite.example_guessed"
   ],
   "note": "piond_login_partial has both directions: LoginWorks (login over the wire, the cookie of the answer, the file) and OthersDenied (who gets in has the identifier that was given at a correct login that was not logged out). Partial: the files, requests and passwords of There, AsksFor and LoginParameters (files that the server may read, plain names, no copy at the client, one user and one pass parameter), the cache of file contents as in C91, a generator that has not given the same identifier before, and two violations: identifiers can be computed from the second in which the server was started (guessed, example_guessed), and nothing with the name of the login page can be served (login_hides). The setting is the one of Model/FileSite: requests are handled one after the other."
  },
  {
   "property": "C105",
   "status": "partial",
   "theorems": [
    "Verif.Props.HttpMemory.memory_in_proportion_partial",
    "Verif.Props.HttpMemory.content_within_maximum",
    "Verif.Props.HttpMemory.parameters_bounded_partial",
    "Verif.Props.HttpMemory.parameters_multiply",
    "Verif.Props.HttpMemory.gigabyte",
    "Verif.Props.HttpMemory.no_limit"
   ],
   "note": "memory_in_proportion_partial: at most 8 bytes for every byte received, twice the maximum of content and 5 bytes, for everything except the table of parameters. For the table the claim is false: parameters_bounded_partial gives the factor 1025, and parameters_multiply and gigabyte show that it is reached, with a request of one megabyte that makes the server hold more than 10^9 bytes. no_limit: there is no absolute limit either, since the number of headers is not limited. Counted are the bytes of strings and one byte for every entry of a table; the overhead of nodes and allocator is not. Raw headers are C97."
  },
  {
   "property": "C106",
   "status": "proved",
   "theorems": [
    "Verif.Props.QueryMeaning.accepted",
    "Verif.Props.QueryMeaning.refused",
    "Verif.Props.QueryMeaning.accepted_iff",
    "Verif.Props.QueryMeaning.kept_before",
    "Verif.Props.QueryMeaning.blanks_ignored",
    "Verif.Props.QueryMeaning.refused_exact",
    "Verif.Props.PostedForm.posted_pairs_received",
    "Verif.Props.PostedForm.posted_pairs_refused",
    "Verif.Props.PostedForm.query_received"
   ],
   "note": "accepted, accepted_iff and refused_exact together describe the function completely. posted_pairs_received and posted_pairs_refused say it for whole requests, from their bytes in any buffers to the parameters. query_received: requests without a form. The content may be sent with its length or in chunks."
  },
  {
   "property": "C107",
   "status": "partial",
   "theorems": [
    "Verif.Props.HelloServer.greeting",
    "Verif.Props.HelloServer.goes_on",
    "Verif.Props.HelloServer.left_kept",
    "Verif.Props.HelloServer.never_dead",
    "Verif.Props.HelloServer.port_partial",
    "Verif.Props.HelloServer.port_wraps"
   ],
   "note": "greeting, goes_on, left_kept and never_dead hold without exception; that every client is served is stated as progress: a step that brings the connection nearer to its end is always possible, and no step leads away from it. The port is only right for numbers below 65536 (port_wraps). Not modelled: signals, the log, and failures to bind."
  },
  {
   "property": "C108",
   "status": "proved",
   "theorems": [
    "Verif.Props.CookieText.readable",
    "Verif.Props.CookieText.accepted",
    "Verif.Props.CookieText.refused",
    "Verif.Props.CookieText.accepted_iff",
    "Verif.Props.CookieText.unambiguous",
    "Verif.Props.CookieText.kept_before"
   ],
   "note": "readable says that the grammar covers every text; accepted, refused and accepted_iff then describe the function completely; of a refused text the cookies before the first refused entry have been added."
  },
  {
   "property": "C109",
   "status": "partial",
   "theorems": [
    "Verif.Props.TestFiles.exact_iff",
    "Verif.Props.TestFiles.ignoring_iff_partial",
    "Verif.Props.TestFiles.itself",
    "Verif.Props.TestFiles.match_iff",
    "Verif.Props.TestFiles.long_lines_match",
    "Verif.Props.TestFiles.long_lines_differ",
    "Verif.Props.TestFiles.zero_bytes_match"
   ],
   "note": "The comparison byte for byte and the one in any order are proved for all files. The one that ignores line endings is right for files without zero bytes whose lines have at most 4095 characters; long_lines_match and zero_bytes_match show that it is wrong for others."
  },
  {
   "property": "C110",
   "status": "partial",
   "theorems": [
    "Verif.Props.TestLog.whole_entries_partial",
    "Verif.Props.TestLog.not_blocked",
    "Verif.Props.TestLog.read_back_partial",
    "Verif.Props.TestLog.exception_mixed",
    "Verif.Props.TestLog.cdata_not_escaped"
   ],
   "note": "Holds while no thread calls one of the functions that do not lock the mutex, and for texts without \"]]>\"; exception_mixed and cdata_not_escaped show what happens otherwise."
  },
  {
   "property": "C111",
   "status": "partial",
   "theorems": [
    "Verif.Props.FormBody.nothing_invented",
    "Verif.Props.FormBody.taken_once",
    "Verif.Props.FormBody.no_boundary",
    "Verif.Props.FormBody.whole_partial",
    "Verif.Props.FormBody.cut_accepted",
    "Verif.Props.FormBody.cut_delimiter_taken",
    "Verif.Props.FormBody.unnamed_added",
    "Verif.Props.FormBody.names_joined",
    "Verif.Props.PostedForm.posted_nothing_invented"
   ],
   "note": "All but the last sentence is proved, for the bodies for which the function returns (C54 tells which: all but those with a delimiter directly after a blank line). The last sentence is false: a body that ends before the closing delimiter is accepted, and the last value is what had arrived of it (cut_accepted, cut_delimiter_taken); whole_partial: all values but the last are whole. posted_nothing_invented says it for whole requests, from their bytes in any buffers to the parameters."
  },
  {
   "property": "C112",
   "status": "partial",
   "theorems": [
    "Verif.Props.Sleep.sleep_lasts_partial",
    "Verif.Props.Sleep.sleep_ends",
    "Verif.Props.Sleep.stop_waits",
    "Verif.Props.Sleep.stop_prompt_partial",
    "Verif.Props.Sleep.stop_ends",
    "Verif.Props.Sleep.no_sleep",
    "Verif.Props.Sleep.long_sleep_violated",
    "Verif.Props.Sleep.set_back_violated",
    "Verif.Props.Sleep.stop_delayed"
   ],
   "note": "stop_waits holds always. The rest holds for clocks that nobody sets, and a sleep can be shorter by up to 999 nanoseconds (sleep_lasts_partial; no_sleep: for less than a microsecond nobody sleeps). Where long has 32 bits, 2^31 seconds or more are no sleep at all (long_sleep_violated). If the clock is set back, sleep and stop last that much longer (set_back_violated, stop_delayed)."
  }
 ]
}