# Output of #print axioms for every theorem named in MANIFEST.json
Verif.Props.AdminRights.empty_password: propext, Quot.sound
Verif.Props.AdminRights.empty_password_administrator: propext
Verif.Props.AdminRights.exception_changes_nothing: propext
Verif.Props.AdminRights.exclusive: propext, Quot.sound
Verif.Props.AdminRights.ids_small: propext
Verif.Props.AdminRights.name_partial: propext, Quot.sound
Verif.Props.AdminRights.number: propext, Quot.sound
Verif.Props.AdminRights.refused: propext, Quot.sound
Verif.Props.AdminRights.released: propext, Quot.sound
Verif.Props.AdminRights.released_same_iff: propext, Classical.choice, Quot.sound
Verif.Props.AdminRights.released_violated: propext
Verif.Props.AdminRights.restored_partial: propext, Classical.choice, Quot.sound
Verif.Props.AdminRights.rights: propext, Quot.sound
Verif.Props.AdminRights.run_as_group: propext, Quot.sound
Verif.Props.AdminRights.run_as_user: propext, Quot.sound
Verif.Props.AdminRights.stays_administrator: propext, Quot.sound
Verif.Props.AdminRights.unknown_user: propext
Verif.Props.AdminRights.user_before_group: propext, Quot.sound
Verif.Props.AdminRights.waits_iff: propext, Classical.choice, Quot.sound
Verif.Props.Auth.basic_complete: propext, Classical.choice, Quot.sound
Verif.Props.Auth.basic_gate: propext, Classical.choice, Quot.sound
Verif.Props.Auth.basic_never_correct: propext, Classical.choice, Quot.sound
Verif.Props.Auth.basic_no_credentials: propext, Classical.choice, Quot.sound
Verif.Props.Auth.basic_old_password_accepted: propext, Quot.sound
Verif.Props.Auth.basic_open_iff: propext, Classical.choice, Quot.sound
Verif.Props.Auth.basic_refreshed_for_ever: propext, Quot.sound
Verif.Props.Auth.basic_sound: propext, Classical.choice, Quot.sound
Verif.Props.Auth.basic_sound_time_partial: propext, Classical.choice, Quot.sound
Verif.Props.Auth.basic_twice_the_lifetime: propext, Quot.sound
Verif.Props.Auth.cookie_gate: propext, Classical.choice, Quot.sound
Verif.Props.Auth.cookie_no_session: propext, Classical.choice, Quot.sound
Verif.Props.Auth.cookie_sound: propext, Classical.choice, Quot.sound
Verif.Props.Auth.cookie_sound_time_partial: propext, Classical.choice, Quot.sound
Verif.Props.Auth.cookie_survives_removal: propext, Quot.sound
Verif.Props.Auth.cookie_twice_the_expiry: propext, Quot.sound
Verif.Props.Auth.login_answered: propext, Quot.sound
Verif.Props.Auth.login_correct: propext, Quot.sound
Verif.Props.Auth.needs_basic: propext, Classical.choice, Quot.sound
Verif.Props.Auth.needs_cookie: propext, Classical.choice, Quot.sound
Verif.Props.Auth.redirect_slash_edge: propext, Classical.choice, Quot.sound
Verif.Props.Auth.session_renewed: propext, Classical.choice, Quot.sound
Verif.Props.Auth.session_usable: propext, Classical.choice, Quot.sound
Verif.Props.AuthThreads.basic_accepted: propext, Classical.choice, Quot.sound
Verif.Props.AuthThreads.basic_refused: propext, Classical.choice, Quot.sound
Verif.Props.AuthThreads.basic_sound: propext, Classical.choice, Quot.sound
Verif.Props.AuthThreads.cache_exclusive: propext, Quot.sound
Verif.Props.AuthThreads.cleanup_race: propext, Quot.sound
Verif.Props.AuthThreads.concurrent_logins_share_session: propext, Quot.sound
Verif.Props.AuthThreads.cookies_disjoint: propext, Classical.choice, Quot.sound
Verif.Props.AuthThreads.cookies_distinct_partial: propext, Classical.choice, Quot.sound
Verif.Props.AuthThreads.decided_returned: propext, Quot.sound
Verif.Props.AuthThreads.generator_race: propext, Quot.sound
Verif.Props.AuthThreads.open_sound: propext, Classical.choice, Quot.sound
Verif.Props.AuthThreads.progress: propext, Quot.sound
Verif.Props.AuthThreads.refused_without_need: propext, Classical.choice, Quot.sound
Verif.Props.AuthThreads.returned_decided: propext, Quot.sound
Verif.Props.AuthThreads.session_sound: propext, Classical.choice, Quot.sound
Verif.Props.AuthThreads.session_usable_partial: propext, Classical.choice, Quot.sound
Verif.Props.AuthThreads.steps_bounded: propext, Classical.choice, Quot.sound
Verif.Props.Base64.base64_decode_assert: propext, Quot.sound
Verif.Props.Base64.base64_decode_assert_iff: propext, Classical.choice, Quot.sound
Verif.Props.Base64.base64_decode_oob: propext, Quot.sound
Verif.Props.Base64.base64_decode_rejects_partial: propext, Classical.choice, Quot.sound
Verif.Props.Base64.base64_decode_spec_partial: propext, Classical.choice, Quot.sound
Verif.Props.Base64.base64_encode_injective: propext, Classical.choice, Quot.sound
Verif.Props.Base64.base64_encode_is_rfc4648: propext, Classical.choice, Quot.sound
Verif.Props.Base64.base64_encode_shape: propext, Classical.choice, Quot.sound
Verif.Props.Base64.base64_roundtrip: propext, Classical.choice, Quot.sound
Verif.Props.BasicSession.challenged: propext, Classical.choice, Quot.sound
Verif.Props.BasicSession.colon_ambiguous: propext
Verif.Props.BasicSession.colon_mistaken: propext, Quot.sound
Verif.Props.BasicSession.colon_never: propext, Classical.choice, Quot.sound
Verif.Props.BasicSession.open_page: propext, Classical.choice, Quot.sound
Verif.Props.BasicSession.password_opens: propext, Classical.choice, Quot.sound
Verif.Props.BasicSession.scheme_case_sensitive: propext, Classical.choice, Quot.sound
Verif.Props.BasicSession.wrong_password: propext, Classical.choice, Quot.sound
Verif.Props.Blocking.call_ends: propext, Classical.choice, Quot.sound
Verif.Props.Blocking.call_returns: propext, Classical.choice, Quot.sound
Verif.Props.Blocking.calls_receive_all: propext, Classical.choice, Quot.sound
Verif.Props.Blocking.calls_same_partial: propext, Classical.choice, Quot.sound
Verif.Props.Blocking.head_answer_violated: propext, Classical.choice, Quot.sound
Verif.Props.Blocking.head_answer_waits: propext
Verif.Props.Blocking.same_as_reader_partial: propext, Classical.choice, Quot.sound
Verif.Props.Connection.accept_decides: propext, Quot.sound
Verif.Props.Connection.build_without_ssl: propext
Verif.Props.Connection.closed: propext
Verif.Props.Connection.connect_by_name: propext
Verif.Props.Connection.gone_for_good: propext
Verif.Props.Connection.handshake_decides: propext, Quot.sound
Verif.Props.Connection.late_key_file: propext
Verif.Props.Connection.no_clear_text: propext
Verif.Props.Connection.port_wraps: propext
Verif.Props.Connection.reconnect_drops: propext
Verif.Props.Connection.reconnected: propext
Verif.Props.Connection.resolver_error: propext
Verif.Props.Connection.server_secured_partial: propext, Quot.sound
Verif.Props.Connection.stream_secured: propext
Verif.Props.ContentBuffer.members_copied: none
Verif.Props.ContentBuffer.no_leak: propext, Quot.sound
Verif.Props.ContentBuffer.nul_terminated: propext, Quot.sound
Verif.Props.ContentBuffer.self_assignment_loses: propext, Quot.sound
Verif.Props.ContentBuffer.value_semantics: propext, Quot.sound
Verif.Props.Conversation.bad_request_partial: propext, Classical.choice, Quot.sound
Verif.Props.Conversation.conversation_partial: propext, Classical.choice, Quot.sound
Verif.Props.Conversation.final_chunk_stalls: propext
Verif.Props.Conversation.head_breaks_conversation: propext
Verif.Props.Cookie.cookies_exact: propext, Quot.sound
Verif.Props.Cookie.expires_date_becomes_cookie: none
Verif.Props.Cookie.stored_bounded: propext, Quot.sound
Verif.Props.CookieSession.identifier_accepted: propext, Classical.choice, Quot.sound
Verif.Props.CookieSession.identifiers_guessable: propext, Quot.sound
Verif.Props.CookieSession.identifiers_known: propext, Quot.sound
Verif.Props.CookieSession.login_by_form: propext, Classical.choice, Quot.sound
Verif.Props.CookieSession.login_by_query: propext, Classical.choice, Quot.sound
Verif.Props.CookieSession.login_page_with_slash: propext, Classical.choice, Quot.sound
Verif.Props.CookieSession.logout_over_wire: propext, Classical.choice, Quot.sound
Verif.Props.CookieSession.options: propext
Verif.Props.CookieSession.same_second: propext, Quot.sound
Verif.Props.CookieSession.stolen_session: propext, Classical.choice, Quot.sound
Verif.Props.CookieSite.example_guessed: propext, Classical.choice, Quot.sound
Verif.Props.CookieSite.example_session: propext, Classical.choice, Quot.sound
Verif.Props.CookieSite.guessed: propext, Classical.choice, Quot.sound
Verif.Props.CookieSite.login_hides: propext, Classical.choice, Quot.sound
Verif.Props.CookieSite.piond_login_partial: propext, Classical.choice, Quot.sound
Verif.Props.CookieText.accepted: propext, Classical.choice, Quot.sound
Verif.Props.CookieText.accepted_iff: propext, Classical.choice, Quot.sound
Verif.Props.CookieText.kept_before: propext, Classical.choice, Quot.sound
Verif.Props.CookieText.readable: propext, Classical.choice, Quot.sound
Verif.Props.CookieText.refused: propext, Classical.choice, Quot.sound
Verif.Props.CookieText.unambiguous: propext, Classical.choice, Quot.sound
Verif.Props.DataUrl.asked_size_refused: propext, Classical.choice, Quot.sound
Verif.Props.DataUrl.decoded: propext, Classical.choice, Quot.sound
Verif.Props.DataUrl.encoded: propext, Classical.choice, Quot.sound
Verif.Props.DataUrl.encoded_as_form: propext, Classical.choice, Quot.sound
Verif.Props.DataUrl.field_recovered: propext, Classical.choice, Quot.sound
Verif.Props.DataUrl.no_data_url: propext, Quot.sound
Verif.Props.DataUrl.refused: propext, Quot.sound
Verif.Props.DataUrl.rfc2397_refused: propext, Quot.sound
Verif.Props.DataUrl.round_trip: propext, Classical.choice, Quot.sound
Verif.Props.DataUrl.safe: propext, Classical.choice, Quot.sound
Verif.Props.DataUrl.type_runs_into_data: propext, Quot.sound
Verif.Props.DataUrl.undecodable: propext, Classical.choice, Quot.sound
Verif.Props.Dialogue.dialogue_partial: propext, Classical.choice, Quot.sound
Verif.Props.Dialogue.new_connection_violated: propext, Classical.choice, Quot.sound
Verif.Props.Dict.add_exact: propext, Classical.choice, Quot.sound
Verif.Props.Dict.bucket_lookup_complete: propext
Verif.Props.Dict.change_exact: propext, Classical.choice, Quot.sound
Verif.Props.Dict.delete_exact: propext, Classical.choice, Quot.sound
Verif.Props.Dict.get_after_change: propext, Classical.choice, Quot.sound
Verif.Props.Dict.get_after_delete: propext, Classical.choice, Quot.sound
Verif.Props.Dict.get_spec: propext, Quot.sound
Verif.Props.Dict.has_iff: propext, Classical.choice, Quot.sound
Verif.Props.Dict.iequals_iff: propext
Verif.Props.Dict.ihash_eq_of_iequals: propext
Verif.Props.Dict.matching_perm_others: propext
Verif.Props.Dispatch.cyclic_redirects: propext, Classical.choice, Quot.sound
Verif.Props.Dispatch.delivered: propext, Classical.choice, Quot.sound
Verif.Props.Dispatch.dispatched: propext, Classical.choice, Quot.sound
Verif.Props.Dispatch.find_longest: propext, Classical.choice, Quot.sound
Verif.Props.Dispatch.find_none: propext, Classical.choice, Quot.sound
Verif.Props.Dispatch.gate: propext, Classical.choice, Quot.sound
Verif.Props.Dispatch.invalid_reaches_nobody: propext
Verif.Props.Dispatch.loop_ends: propext, Classical.choice, Quot.sound
Verif.Props.Dispatch.loop_fails: propext, Classical.choice, Quot.sound
Verif.Props.Dispatch.not_found_iff: propext, Classical.choice, Quot.sound
Verif.Props.Dispatch.redirects_decided: propext, Classical.choice, Quot.sound
Verif.Props.Dispatch.refused_nothing_runs: propext, Classical.choice, Quot.sound
Verif.Props.Dispatch.stored_path: propext
Verif.Props.Dispatch.too_many_redirects: propext, Classical.choice, Quot.sound
Verif.Props.Errors.attach_late: propext
Verif.Props.Errors.cast_unnamed: propext
Verif.Props.Errors.command_report_partial: propext, Classical.choice, Quot.sound
Verif.Props.Errors.config_report_partial: propext, Classical.choice, Quot.sound
Verif.Props.Errors.diagnostic_says_partial: propext
Verif.Props.Errors.fatal_iff: propext, Classical.choice, Quot.sound
Verif.Props.Errors.fatal_report_partial: propext, Classical.choice, Quot.sound
Verif.Props.Errors.fileOption_none: propext, Quot.sound
Verif.Props.Errors.handler_answer: propext
Verif.Props.Errors.handler_report_partial: propext, Classical.choice, Quot.sound
Verif.Props.Errors.looks_same: propext
Verif.Props.Errors.manager_report: propext, Quot.sound
Verif.Props.Errors.null_cut: propext
Verif.Props.Errors.openLibrary_none: propext
Verif.Props.Errors.reason_lost: propext
Verif.Props.Errors.report_inj: propext, Quot.sound
Verif.Props.Errors.same_type: propext, Quot.sound
Verif.Props.Errors.what_inj_partial: propext, Quot.sound
Verif.Props.Errors.what_says_partial: propext
Verif.Props.Exchange.after_stop: propext, Quot.sound
Verif.Props.Exchange.answered_before_next: propext, Classical.choice, Quot.sound
Verif.Props.Exchange.answers_in_order: propext, Classical.choice, Quot.sound
Verif.Props.Exchange.deadlock: propext
Verif.Props.Exchange.in_turn: propext, Classical.choice, Quot.sound
Verif.Props.Exchange.mixed: propext, Quot.sound
Verif.Props.Exchange.never_stuck: propext, Classical.choice, Quot.sound
Verif.Props.Exchange.not_orphaned: propext, Classical.choice, Quot.sound
Verif.Props.Exchange.not_recovered: propext
Verif.Props.Exchange.one_at_a_time: propext, Classical.choice, Quot.sound
Verif.Props.Exchange.orphan_removed: propext, Quot.sound
Verif.Props.Exchange.others_wait: propext
Verif.Props.Exchange.parts_orderly: propext
Verif.Props.Exchange.removed_while_read: propext, Quot.sound
Verif.Props.Exchange.reply_orderly: propext
Verif.Props.Exchange.stop_lets_finish: propext, Classical.choice, Quot.sound
Verif.Props.Exchange.throws_after_send: propext
Verif.Props.Exchange.unreadable_file: propext
Verif.Props.FileAnswers.answer_markup_partial: propext, Classical.choice, Quot.sound
Verif.Props.FileAnswers.answer_received_partial: propext, Classical.choice, Quot.sound
Verif.Props.FileAnswers.created_received: propext, Classical.choice, Quot.sound
Verif.Props.FileAnswers.date_ok: propext, Classical.choice, Quot.sound
Verif.Props.FileAnswers.delete_markup_violated: propext
Verif.Props.FileAnswers.download_end_to_end_partial: propext, Classical.choice, Quot.sound
Verif.Props.FileAnswers.download_partial: propext, Classical.choice, Quot.sound
Verif.Props.FileAnswers.eot_violated: propext
Verif.Props.FileAnswers.file_is_answer: propext, Classical.choice, Quot.sound
Verif.Props.FileAnswers.file_received: propext, Classical.choice, Quot.sound
Verif.Props.FileAnswers.head_received_partial: propext, Classical.choice, Quot.sound
Verif.Props.FileAnswers.no_ending: none
Verif.Props.FileAnswers.no_page_for_head: propext
Verif.Props.FileAnswers.not_allowed_received: propext, Classical.choice, Quot.sound
Verif.Props.FileAnswers.page_told: propext
Verif.Props.FileAnswers.pages_markup: propext, Classical.choice, Quot.sound
Verif.Props.FileAnswers.pages_say: propext
Verif.Props.FileAnswers.put_failed_page: propext
Verif.Props.FileAnswers.type_by_ending: propext, Quot.sound
Verif.Props.FileAnswers.type_expected_partial: propext, Quot.sound
Verif.Props.FileAnswers.type_unknown: propext, Quot.sound
Verif.Props.FileAnswers.unchanged_received_partial: propext, Classical.choice, Quot.sound
Verif.Props.FileAnswers.unreadable_silent: propext, Quot.sound
Verif.Props.FileHandover.handed_over: propext, Quot.sound
Verif.Props.FileHandover.service_no_overrun: propext, Classical.choice, Quot.sound
Verif.Props.FileLookup.lookup_sound: propext, Quot.sound
Verif.Props.FileLookup.slash_after_file: propext, Quot.sound
Verif.Props.FileLookup.target_lookup: propext, Classical.choice, Quot.sound
Verif.Props.FileSender.deliver_partial: propext, Classical.choice, Quot.sound
Verif.Props.FileSender.finished_once: propext, Classical.choice, Quot.sound
Verif.Props.FileSender.never_finished: propext, Quot.sound
Verif.Props.FileSender.no_overrun: propext, Classical.choice, Quot.sound
Verif.Props.FileSender.on_the_wire: propext, Classical.choice, Quot.sound
Verif.Props.FileSender.shorter_never_finished: none
Verif.Props.FileService.cache2_removed: propext, Quot.sound
Verif.Props.FileService.changes_only: propext, Classical.choice, Quot.sound
Verif.Props.FileService.confined_partial: propext, Classical.choice, Quot.sound
Verif.Props.FileService.created: propext, Classical.choice, Quot.sound
Verif.Props.FileService.deleted: propext, Classical.choice, Quot.sound
Verif.Props.FileService.dotted_escape: propext, Quot.sound
Verif.Props.FileService.failed_write_unnoticed: propext, Classical.choice, Quot.sound
Verif.Props.FileService.get_answered: propext, Classical.choice, Quot.sound
Verif.Props.FileService.get_current: propext, Classical.choice, Quot.sound
Verif.Props.FileService.get_fresh_partial: propext, Classical.choice, Quot.sound
Verif.Props.FileService.get_missing: propext, Classical.choice, Quot.sound
Verif.Props.FileService.link: propext, Classical.choice, Quot.sound
Verif.Props.FileService.link_root: propext, Quot.sound
Verif.Props.FileService.looks_only_at: propext, Classical.choice, Quot.sound
Verif.Props.FileService.not_allowed: propext, Classical.choice, Quot.sound
Verif.Props.FileService.not_implemented: propext, Classical.choice, Quot.sound
Verif.Props.FileService.not_modified: propext, Classical.choice, Quot.sound
Verif.Props.FileService.read_only: propext
Verif.Props.FileService.refused: propext, Classical.choice, Quot.sound
Verif.Props.FileService.relative_directory_escape: propext, Quot.sound
Verif.Props.FileService.root_scan_unfound: propext, Quot.sound
Verif.Props.FileService.safe_methods: propext, Quot.sound
Verif.Props.FileService.same_time_stale: propext, Quot.sound
Verif.Props.FileService.scanned_found: propext, Classical.choice, Quot.sound
Verif.Props.FileService.sibling_escape: propext, Quot.sound
Verif.Props.FileService.trailing_slash_refuses: propext
Verif.Props.FileService.uninitialised_sent: propext, Quot.sound
Verif.Props.FileService.unscanned_refused: propext, Classical.choice, Quot.sound
Verif.Props.FileService.written: propext, Classical.choice, Quot.sound
Verif.Props.FileSite.double_slash: propext, Classical.choice, Quot.sound
Verif.Props.FileSite.piond_directory_partial: propext, Classical.choice, Quot.sound
Verif.Props.FileSite.piond_secret_partial: propext, Classical.choice, Quot.sound
Verif.Props.FileSite.piond_sets_up: propext, Classical.choice, Quot.sound
Verif.Props.FileSite.refused_iff: propext, Classical.choice, Quot.sound
Verif.Props.FileSite.site_download_partial: propext, Classical.choice, Quot.sound
Verif.Props.FileSite.site_nothing_there: propext, Classical.choice, Quot.sound
Verif.Props.FileSite.site_refuses: propext, Classical.choice, Quot.sound
Verif.Props.FileThreads.composed_partial: propext, Classical.choice, Quot.sound
Verif.Props.FileThreads.content_stable: propext, Classical.choice, Quot.sound
Verif.Props.FileThreads.entry_exclusive: propext, Classical.choice, Quot.sound
Verif.Props.FileThreads.failed: propext, Classical.choice, Quot.sound
Verif.Props.FileThreads.fresh: propext, Classical.choice, Quot.sound
Verif.Props.FileThreads.headers: propext, Classical.choice, Quot.sound
Verif.Props.FileThreads.kept_partial: propext, Classical.choice, Quot.sound
Verif.Props.FileThreads.mixed: propext
Verif.Props.FileThreads.no_deadlock: propext, Classical.choice, Quot.sound
Verif.Props.FileThreads.no_overrun: propext, Classical.choice, Quot.sound
Verif.Props.FileThreads.not_found: propext, Classical.choice, Quot.sound
Verif.Props.FileThreads.not_modified: propext, Classical.choice, Quot.sound
Verif.Props.FileThreads.overrun_after_failure: propext
Verif.Props.FileThreads.truncated_for_good: propext
Verif.Props.FileThreads.uninitialised_kept: propext
Verif.Props.FirstLine.first_line_current_partial: propext
Verif.Props.FirstLine.reading_has_no_effect_partial: propext, Quot.sound
Verif.Props.FirstLine.stale_after_change_resource: none
Verif.Props.FloatApi.double_roundtrip_partial: propext, Classical.choice, Quot.sound
Verif.Props.FloatApi.float_roundtrip_partial: propext, Classical.choice, Quot.sound
Verif.Props.FloatApi.long_double_roundtrip_partial: propext, Classical.choice, Quot.sound
Verif.Props.FloatApi.to_double_partial: propext, Classical.choice, Quot.sound
Verif.Props.FloatApi.to_double_wrong: propext, Classical.choice, Quot.sound
Verif.Props.FloatApi.to_float_partial: propext, Classical.choice, Quot.sound
Verif.Props.FloatApi.to_float_violated: propext, Classical.choice, Quot.sound
Verif.Props.FloatApi.to_float_wrong: propext, Classical.choice, Quot.sound
Verif.Props.FloatBytes.decode_normal_partial: propext, Classical.choice, Quot.sound
Verif.Props.FloatBytes.decode_total: propext, Classical.choice, Quot.sound
Verif.Props.FloatBytes.decode_zero: propext, Classical.choice, Quot.sound
Verif.Props.FloatBytes.encode_inf_diverges: propext, Classical.choice, Quot.sound
Verif.Props.FloatBytes.encode_nan_diverges: propext, Classical.choice, Quot.sound
Verif.Props.FloatBytes.encode_normal_partial: propext, Classical.choice, Quot.sound
Verif.Props.FloatBytes.encode_truncates: propext, Classical.choice, Quot.sound
Verif.Props.FloatBytes.encode_zero_partial: propext, Classical.choice, Quot.sound
Verif.Props.FloatBytes.every_buffer: propext, Classical.choice, Quot.sound
Verif.Props.FloatBytes.negative_zero_lost: propext, Classical.choice, Quot.sound
Verif.Props.FloatBytes.roundtrip_partial: propext, Classical.choice, Quot.sound
Verif.Props.FloatBytes.special_decoded_finite: propext, Classical.choice, Quot.sound
Verif.Props.FloatBytes.subnormal_encoded_wrong: propext, Classical.choice, Quot.sound
Verif.Props.FloatBytes.subnormal_halved: propext, Classical.choice, Quot.sound
Verif.Props.FormBody.cut_accepted: propext
Verif.Props.FormBody.cut_delimiter_taken: propext
Verif.Props.FormBody.names_joined: propext
Verif.Props.FormBody.no_boundary: propext, Quot.sound
Verif.Props.FormBody.nothing_invented: propext, Quot.sound
Verif.Props.FormBody.taken_once: propext, Quot.sound
Verif.Props.FormBody.unnamed_added: propext
Verif.Props.FormBody.whole_partial: propext, Quot.sound
Verif.Props.Forward.chunked_not_passed_on: propext
Verif.Props.Forward.closed_passed_on_partial: propext, Classical.choice, Quot.sound
Verif.Props.Forward.content_cut: propext
Verif.Props.Forward.cookies_doubled: propext
Verif.Props.Forward.head_length_lost: propext
Verif.Props.Forward.hops_same_partial: propext, Classical.choice, Quot.sound
Verif.Props.Forward.message_passed_on_partial: propext, Classical.choice, Quot.sound
Verif.Props.Forward.no_cookies: propext, Classical.choice, Quot.sound
Verif.Props.Forward.old_request_not_passed_on: propext
Verif.Props.Forward.received_passed_on_partial: propext, Classical.choice, Quot.sound
Verif.Props.Forward.second_coding_not_passed_on: propext
Verif.Props.ForwardedFor.first_public_exact: propext, Classical.choice, Quot.sound
Verif.Props.ForwardedFor.leading_zero_returned: propext
Verif.Props.ForwardedFor.part_of_number_returned: propext
Verif.Props.ForwardedFor.returned_address_public_partial: propext, Classical.choice, Quot.sound
Verif.Props.ForwardedFor.total: propext, Classical.choice, Quot.sound
Verif.Props.HashTable.finds: propext, Classical.choice, Quot.sound
Verif.Props.HashTable.order_ok: propext, Classical.choice, Quot.sound
Verif.Props.HashTable.visits: propext, Classical.choice, Quot.sound
Verif.Props.HeadFirst.broken_but_valid: propext
Verif.Props.HeadFirst.head_alone_partial: propext, Classical.choice, Quot.sound
Verif.Props.HeadFirst.head_first_partial: propext, Classical.choice, Quot.sound
Verif.Props.HeadFirst.head_first_same: propext, Classical.choice, Quot.sound
Verif.Props.HeadFirst.other_parser_forgets: propext, Quot.sound
Verif.Props.HeadFirst.other_parser_waits: propext
Verif.Props.HeadFirst.parameters_twice: propext
Verif.Props.HelloServer.goes_on: propext, Classical.choice, Quot.sound
Verif.Props.HelloServer.greeting: propext, Classical.choice, Quot.sound
Verif.Props.HelloServer.left_kept: propext, Classical.choice, Quot.sound
Verif.Props.HelloServer.never_dead: propext, Classical.choice, Quot.sound
Verif.Props.HelloServer.port_partial: propext, Quot.sound
Verif.Props.HelloServer.port_wraps: propext
Verif.Props.Host.as_if_alone: propext, Classical.choice, Quot.sound
Verif.Props.Host.each_client: propext, Classical.choice, Quot.sound
Verif.Props.Host.never_stuck: propext, Classical.choice, Quot.sound
Verif.Props.Host.one_handler_blocks_all: propext, Classical.choice, Quot.sound
Verif.Props.Host.stop_returns: propext, Classical.choice, Quot.sound
Verif.Props.Host.stop_waits_for_answers: propext, Classical.choice, Quot.sound
Verif.Props.Host.stop_waits_for_idle_clients: propext, Classical.choice, Quot.sound
Verif.Props.HttpAccounting.error_bytes_not_counted: propext
Verif.Props.HttpAccounting.gap_counted: propext, Classical.choice, Quot.sound
Verif.Props.HttpAccounting.gcount_exact_partial: propext, Classical.choice, Quot.sound
Verif.Props.HttpAccounting.gcount_on_error: propext, Classical.choice, Quot.sound
Verif.Props.HttpAccounting.total_exact_partial: propext, Classical.choice, Quot.sound
Verif.Props.HttpAccounting.total_of_message_partial: propext, Classical.choice, Quot.sound
Verif.Props.HttpBody.bodyless_chunked_waits: propext, Classical.choice, Quot.sound
Verif.Props.HttpBody.bodyless_complete_partial: propext, Classical.choice, Quot.sound
Verif.Props.HttpBody.chunked_completes_partial: propext, Classical.choice, Quot.sound
Verif.Props.HttpBody.chunked_exact: propext, Classical.choice, Quot.sound
Verif.Props.HttpBody.content_length_exact: propext, Classical.choice, Quot.sound
Verif.Props.HttpBody.content_length_exact_handler: propext, Classical.choice, Quot.sound
Verif.Props.HttpBody.content_length_not_before: propext, Classical.choice, Quot.sound
Verif.Props.HttpBody.content_length_wraps: propext
Verif.Props.HttpBody.end_of_stream_delimits: propext, Classical.choice, Quot.sound
Verif.Props.HttpBody.oversized_chunked_never_completes: propext, Classical.choice, Quot.sound
Verif.Props.HttpBody.premature_end_detected: propext, Classical.choice, Quot.sound
Verif.Props.HttpBody.premature_end_empty: propext
Verif.Props.HttpBody.request_without_body: propext, Classical.choice, Quot.sound
Verif.Props.HttpDate.denotes: propext, Classical.choice, Quot.sound
Verif.Props.HttpDate.denotes_unique: propext, Quot.sound
Verif.Props.HttpDate.exists_iff: propext, Classical.choice, Quot.sound
Verif.Props.HttpDate.injective: propext, Classical.choice, Quot.sound
Verif.Props.HttpDate.length_29: propext, Classical.choice, Quot.sound
Verif.Props.HttpDate.not_modified_time: propext, Classical.choice, Quot.sound
Verif.Props.HttpFraming.message_accepted: propext, Classical.choice, Quot.sound
Verif.Props.HttpFraming.message_dictionaries: propext, Classical.choice, Quot.sound
Verif.Props.HttpFraming.message_sound: propext, Classical.choice, Quot.sound
Verif.Props.HttpFraming.message_unique: propext, Classical.choice, Quot.sound
Verif.Props.HttpFraming.trailers_left_unread: propext
Verif.Props.HttpGrammar.departures: propext
Verif.Props.HttpGrammar.head_accepted: propext, Classical.choice, Quot.sound
Verif.Props.HttpGrammar.head_sound: propext, Classical.choice, Quot.sound
Verif.Props.HttpGrammar.message_begins_with_head: propext, Classical.choice, Quot.sound
Verif.Props.HttpGrammar.unambiguous: propext, Classical.choice, Quot.sound
Verif.Props.HttpGrammar.white_space: propext
Verif.Props.HttpGrammar.wire_in_grammar: propext, Quot.sound
Verif.Props.HttpLimits.fields_within_limits: propext, Classical.choice, Quot.sound
Verif.Props.HttpLimits.header_name_too_long: propext, Classical.choice, Quot.sound
Verif.Props.HttpLimits.header_value_too_long: propext, Classical.choice, Quot.sound
Verif.Props.HttpLimits.method_too_long: propext, Classical.choice, Quot.sound
Verif.Props.HttpLimits.query_too_long: propext, Classical.choice, Quot.sound
Verif.Props.HttpLimits.resource_too_long: propext, Classical.choice, Quot.sound
Verif.Props.HttpLimits.status_too_long: propext, Classical.choice, Quot.sound
Verif.Props.HttpMemory.content_within_maximum: propext, Classical.choice, Quot.sound
Verif.Props.HttpMemory.gigabyte: propext, Classical.choice, Quot.sound
Verif.Props.HttpMemory.memory_in_proportion_partial: propext, Classical.choice, Quot.sound
Verif.Props.HttpMemory.no_limit: propext, Classical.choice, Quot.sound
Verif.Props.HttpMemory.parameters_bounded_partial: propext, Classical.choice, Quot.sound
Verif.Props.HttpMemory.parameters_multiply: propext, Classical.choice, Quot.sound
Verif.Props.HttpMissing.content_with_gaps_partial: propext, Classical.choice, Quot.sound
Verif.Props.HttpMissing.gap_beyond_maximum_leaves_garbage: propext
Verif.Props.HttpMissing.gaps_read_as_filler_partial: propext, Classical.choice, Quot.sound
Verif.Props.HttpMissing.never_ok_after_loss: propext, Classical.choice, Quot.sound
Verif.Props.HttpMissing.partial_after_loss: propext, Classical.choice, Quot.sound
Verif.Props.HttpRefusal.cause_exact: propext, Classical.choice, Quot.sound
Verif.Props.HttpRefusal.cause_reported: propext, Classical.choice, Quot.sound
Verif.Props.HttpRefusal.no_space_after_colon: propext, Classical.choice, Quot.sound
Verif.Props.HttpRefusal.refusal: propext, Classical.choice, Quot.sound
Verif.Props.HttpRefusal.texts_differ_partial: none
Verif.Props.HttpRefusal.texts_mislead: propext, Classical.choice, Quot.sound
Verif.Props.HttpRefusalBody.bad_length_reported: propext, Classical.choice, Quot.sound
Verif.Props.HttpRefusalBody.body_cause_exact: propext, Classical.choice, Quot.sound
Verif.Props.HttpRefusalBody.body_cause_reported_partial: propext, Classical.choice, Quot.sound
Verif.Props.HttpRefusalBody.body_refusal_partial: propext, Classical.choice, Quot.sound
Verif.Props.HttpRefusalBody.every_error: propext, Classical.choice, Quot.sound
Verif.Props.HttpRefusalBody.overfull_swallowed: propext, Classical.choice, Quot.sound
Verif.Props.HttpReset.history_after_reset: propext, Classical.choice, Quot.sound
Verif.Props.HttpReset.reset_any_state: propext, Classical.choice, Quot.sound
Verif.Props.HttpRfc.accepts_rfc_partial: propext, Classical.choice, Quot.sound
Verif.Props.HttpRfc.chunked_anywhere: propext
Verif.Props.HttpRfc.coding_ignored: propext
Verif.Props.HttpRfc.connect_has_body: propext
Verif.Props.HttpRfc.ends_as_rfc_partial: propext, Classical.choice, Quot.sound
Verif.Props.HttpRfc.follows_rfc_partial: propext, Classical.choice, Quot.sound
Verif.Props.HttpRfc.head_chunked_waits: propext
Verif.Props.HttpRfc.reset_content_left: propext
Verif.Props.HttpRfc.signed_length_accepted: propext
Verif.Props.HttpRfc.two_lengths_accepted: propext
Verif.Props.HttpSegmentation.parse_terminates_and_progresses: propext, Classical.choice, Quot.sound
Verif.Props.HttpSegmentation.pipeline_as_if_alone: propext, Classical.choice, Quot.sound
Verif.Props.HttpSegmentation.segmentation_independent: propext, Classical.choice, Quot.sound
Verif.Props.HttpSegmentation.total_after_error_depends_on_segmentation: propext
Verif.Props.HttpSegmentation.trailing_bytes_untouched: propext, Classical.choice, Quot.sound
Verif.Props.HttpSegmentation.unread_is_suffix: propext, Classical.choice, Quot.sound
Verif.Props.HttpServer.basic_not_bypassed: propext, Classical.choice, Quot.sound
Verif.Props.HttpServer.cookie_not_bypassed: propext, Classical.choice, Quot.sound
Verif.Props.HttpServer.handler_called: propext, Classical.choice, Quot.sound
Verif.Props.HttpServer.handles_exactly: propext, Classical.choice, Quot.sound
Verif.Props.HttpServer.refused_without_credentials: propext, Classical.choice, Quot.sound
Verif.Props.HttpServer.requests_unique: propext, Classical.choice, Quot.sound
Verif.Props.HttpServer.trailer_credentials: propext, Quot.sound
Verif.Props.HttpUntilClose.accepts_until_close_partial: propext, Classical.choice, Quot.sound
Verif.Props.HttpUntilClose.closes_as_rfc_partial: propext, Classical.choice, Quot.sound
Verif.Props.HttpUntilClose.coding_length_taken: propext
Verif.Props.HttpUntilClose.until_close_accepted: propext, Classical.choice, Quot.sound
Verif.Props.HttpUntilClose.until_close_iff: propext, Quot.sound
Verif.Props.HttpUntilClose.until_close_sound: propext, Classical.choice, Quot.sound
Verif.Props.IntBytes.decode_encode: propext, Classical.choice, Quot.sound
Verif.Props.IntBytes.decode_encode_24: propext, Classical.choice, Quot.sound
Verif.Props.IntBytes.encode_decode: propext, Classical.choice, Quot.sound
Verif.Props.IntBytes.int24_negative_lost: propext, Quot.sound
Verif.Props.IntBytes.to_int24_partial: propext, Classical.choice, Quot.sound
Verif.Props.IntBytes.to_int_twos_complement: propext, Classical.choice, Quot.sound
Verif.Props.IntBytes.to_uint_big_endian: propext, Classical.choice, Quot.sound
Verif.Props.Listen.before_without_after: propext
Verif.Props.Listen.binds_as_administrator: propext, Classical.choice, Quot.sound
Verif.Props.Listen.broken_forever: propext, Classical.choice, Quot.sound
Verif.Props.Listen.endpoint_told: propext, Quot.sound
Verif.Props.Listen.exclusive: propext, Classical.choice, Quot.sound
Verif.Props.Listen.keeps_port: propext, Classical.choice, Quot.sound
Verif.Props.Listen.listens_iff: propext, Classical.choice, Quot.sound
Verif.Props.Listen.port_cut: propext, Quot.sound
Verif.Props.Listen.reports_another: propext
Verif.Props.Listen.reports_partial: propext, Classical.choice, Quot.sound
Verif.Props.Listen.restart: propext, Classical.choice, Quot.sound
Verif.Props.Listen.retry_partial: propext, Classical.choice, Quot.sound
Verif.Props.Listen.retry_violated: propext
Verif.Props.Listen.rights_any_port: propext
Verif.Props.Listen.sockets_le: propext, Classical.choice, Quot.sound
Verif.Props.Listen.start_again: propext, Quot.sound
Verif.Props.Listen.start_answers: propext, Classical.choice, Quot.sound
Verif.Props.Listen.start_stays_administrator: propext
Verif.Props.Listen.stop_closes: propext, Classical.choice, Quot.sound
Verif.Props.Listen.user_partial: propext, Classical.choice, Quot.sound
Verif.Props.LogAnswers.log_forged: none
Verif.Props.LogAnswers.log_lines_partial: propext, Classical.choice, Quot.sound
Verif.Props.LogAnswers.log_received_partial: propext, Classical.choice, Quot.sound
Verif.Props.LogRing.kept_exact: propext, Classical.choice, Quot.sound
Verif.Props.LogRing.largest_max_unbounded: propext, Quot.sound
Verif.Props.LogRing.last_max_partial: propext, Classical.choice, Quot.sound
Verif.Props.Message.chunked_not_read_back: propext
Verif.Props.Message.cookies_sent_again: propext
Verif.Props.Message.send_receive_partial: propext, Classical.choice, Quot.sound
Verif.Props.Message.status_wraps: propext
Verif.Props.Message.write_read_partial: propext, Classical.choice, Quot.sound
Verif.Props.MessageBuild.both_ways_doubles: propext, Quot.sound
Verif.Props.MessageBuild.cleared_content_received: propext, Classical.choice, Quot.sound
Verif.Props.MessageBuild.content_received: propext, Classical.choice, Quot.sound
Verif.Props.MessageBuild.cookie_comes_back: propext, Classical.choice, Quot.sound
Verif.Props.MessageBuild.delete_after_add_sends_both: propext
Verif.Props.MessageBuild.deleted_cookie_expires: propext
Verif.Props.MessageBuild.deleted_cookie_received: propext
Verif.Props.MessageBuild.empty_buffer_keeps_content: propext
Verif.Props.MessageBuild.form_received_partial: propext, Classical.choice, Quot.sound
Verif.Props.MessageBuild.parameters_lost: propext, Quot.sound
Verif.Props.MessageBuild.parameters_not_sent: propext
Verif.Props.MessageBuild.parameters_received_partial: propext, Classical.choice, Quot.sound
Verif.Props.MessageBuild.request_cookie_split: propext
Verif.Props.MessageBuild.request_cookies_received_partial: propext, Classical.choice, Quot.sound
Verif.Props.MessageBuild.response_cookie_cut: propext
Verif.Props.MessageBuild.response_cookies_received_partial: propext, Classical.choice, Quot.sound
Verif.Props.MessageBuild.sent_twice_doubles_cookies: propext
Verif.Props.Multipart.multipart_fields_exact: propext, Quot.sound
Verif.Props.Multipart.multipart_filename_taken_for_name: propext
Verif.Props.Multipart.multipart_negative_length: propext
Verif.Props.Multipart.multipart_negative_length_always: propext, Quot.sound
Verif.Props.Multipart.multipart_quoted_boundary_fails: propext
Verif.Props.Multipart.multipart_safe_partial: propext, Classical.choice, Quot.sound
Verif.Props.Piond.bad_address_throws: propext
Verif.Props.Piond.options_ignored_with_config: propext
Verif.Props.Piond.otherwise_usage: propext, Quot.sound
Verif.Props.Piond.port_meaning: propext, Quot.sound
Verif.Props.Piond.port_read: propext, Quot.sound
Verif.Props.Piond.port_wraps: none
Verif.Props.Piond.served: propext
Verif.Props.Piond.understood: propext, Quot.sound
Verif.Props.Plugin.assign_shares: propext, Classical.choice, Quot.sound
Verif.Props.Plugin.close_closes: propext, Classical.choice, Quot.sound
Verif.Props.Plugin.closed_with_last_reference: propext, Classical.choice, Quot.sound
Verif.Props.Plugin.copy_shares: propext, Quot.sound
Verif.Props.Plugin.events_once: propext, Classical.choice, Quot.sound
Verif.Props.Plugin.loaded_iff_used: propext, Classical.choice, Quot.sound
Verif.Props.Plugin.no_use_after_free: propext, Classical.choice, Quot.sound
Verif.Props.Plugin.open_file_opens: propext, Classical.choice, Quot.sound
Verif.Props.Plugin.open_is_loaded: propext, Classical.choice, Quot.sound
Verif.Props.Plugin.open_name_loads: propext, Classical.choice, Quot.sound
Verif.Props.Plugin.open_name_opens: propext, Classical.choice, Quot.sound
Verif.Props.Plugin.open_twice_blocks: propext, Quot.sound
Verif.Props.Plugin.same_name_shared: propext, Classical.choice, Quot.sound
Verif.Props.Plugin.self_assignment_closes: propext
Verif.Props.Plugin.static_stays: propext, Classical.choice, Quot.sound
Verif.Props.PluginCode.all_unloaded: propext, Classical.choice, Quot.sound
Verif.Props.PluginCode.clear_exact: propext, Classical.choice, Quot.sound
Verif.Props.PluginCode.clone_exact: propext, Classical.choice, Quot.sound
Verif.Props.PluginCode.clone_outlives_library: propext, Quot.sound
Verif.Props.PluginCode.load_exact: propext, Classical.choice, Quot.sound
Verif.Props.PluginCode.loaded_iff_open: propext, Classical.choice, Quot.sound
Verif.Props.PluginCode.managed_partial: propext, Classical.choice, Quot.sound
Verif.Props.PluginCode.openPlugin_exact: propext, Classical.choice, Quot.sound
Verif.Props.PluginCode.other_file_ignored: propext, Classical.choice, Quot.sound
Verif.Props.PluginCode.record_iff: propext, Classical.choice, Quot.sound
Verif.Props.PluginCode.replace_wrong_destroy: propext, Quot.sound
Verif.Props.PluginCode.right_code_partial: propext, Classical.choice, Quot.sound
Verif.Props.PluginCode.unchanged: propext, Classical.choice, Quot.sound
Verif.Props.PluginFiles.confined: propext, Classical.choice, Quot.sound
Verif.Props.PluginFiles.current_directory_first: none
Verif.Props.PluginFiles.first_found: propext
Verif.Props.PluginFiles.hidden_not_found: propext
Verif.Props.PluginFiles.listed_found: propext, Quot.sound
Verif.Props.PluginFiles.listed_iff: propext, Quot.sound
Verif.Props.PluginFiles.name_kept: propext, Classical.choice, Quot.sound
Verif.Props.PluginFiles.names_escape: propext
Verif.Props.PluginFiles.renamed: propext
Verif.Props.PluginInstance.destroyed_once_partial: propext, Classical.choice, Quot.sound
Verif.Props.PluginInstance.load_failure_destructor_throws: propext
Verif.Props.PluginInstance.not_found_destroys_twice: propext
Verif.Props.PluginInstance.reset_destroys_twice: propext
Verif.Props.PluginInstance.second_create_stuck: propext, Quot.sound
Verif.Props.PluginManager.all_destroyed: propext, Classical.choice, Quot.sound
Verif.Props.PluginManager.answers: propext, Classical.choice, Quot.sound
Verif.Props.PluginManager.duplicate_add_leaks: none
Verif.Props.PluginManager.find_exact: propext, Classical.choice, Quot.sound
Verif.Props.PluginManager.find_longest_partial: propext, Classical.choice, Quot.sound
Verif.Props.PluginManager.find_misses: propext, Classical.choice, Quot.sound
Verif.Props.PluginManager.find_none_partial: propext, Classical.choice, Quot.sound
Verif.Props.PluginManager.get_alive: propext, Classical.choice, Quot.sound
Verif.Props.PluginManager.get_registered: propext, Classical.choice, Quot.sound
Verif.Props.PluginManager.owned: propext, Classical.choice, Quot.sound
Verif.Props.PluginManager.owned_once: propext, Classical.choice, Quot.sound
Verif.Props.PluginManager.remove_destroys: propext, Classical.choice, Quot.sound
Verif.Props.PluginManager.replace_self_destroys: none
Verif.Props.PluginManager.replaced_by_wrong_destructor: none
Verif.Props.PluginManager.run_each: propext, Classical.choice, Quot.sound
Verif.Props.PluginManager.run_one: propext, Classical.choice, Quot.sound
Verif.Props.PluginManager.statistic_sum: propext, Classical.choice, Quot.sound
Verif.Props.PluginServer.all_destroyed_partial: propext, Classical.choice, Quot.sound
Verif.Props.PluginServer.callers_counted: propext, Quot.sound
Verif.Props.PluginServer.callers_go_on: propext, Classical.choice, Quot.sound
Verif.Props.PluginServer.destroyed_when_unused: propext, Classical.choice, Quot.sound
Verif.Props.PluginServer.destroyed_while_serving: propext, Quot.sound
Verif.Props.PluginServer.duplicate_never_started: propext, Quot.sound
Verif.Props.PluginServer.failed_start_repeated: propext, Quot.sound
Verif.Props.PluginServer.late_service_not_started: propext, Quot.sound
Verif.Props.PluginServer.lifecycle_partial: propext, Classical.choice, Quot.sound
Verif.Props.PluginServer.not_used_after_destruction: propext, Classical.choice, Quot.sound
Verif.Props.PluginServer.own_requests_partial: propext, Classical.choice, Quot.sound
Verif.Props.PluginServer.requests_delivered: propext, Classical.choice, Quot.sound
Verif.Props.PluginServer.started_partial: propext, Classical.choice, Quot.sound
Verif.Props.PluginServer.told_another_path: propext, Quot.sound
Verif.Props.PluginThreads.callback_deadlock: propext, Quot.sound
Verif.Props.PluginThreads.destroyed_once: propext, Classical.choice, Quot.sound
Verif.Props.PluginThreads.linearizable: propext, Classical.choice, Quot.sound
Verif.Props.PluginThreads.linearizable_partial: propext, Classical.choice, Quot.sound
Verif.Props.PluginThreads.load_race: propext
Verif.Props.PluginThreads.loads_both_succeed: propext, Quot.sound
Verif.Props.PluginThreads.progress_partial: propext, Quot.sound
Verif.Props.PluginThreads.run_uses_destroyed: propext, Quot.sound
Verif.Props.PluginThreads.uses_alive_partial: propext, Classical.choice, Quot.sound
Verif.Props.PostedForm.posted_form_received: propext, Classical.choice, Quot.sound
Verif.Props.PostedForm.posted_form_throws: propext, Classical.choice, Quot.sound
Verif.Props.PostedForm.posted_nothing_invented: propext, Classical.choice, Quot.sound
Verif.Props.PostedForm.posted_pairs_received: propext, Classical.choice, Quot.sound
Verif.Props.PostedForm.posted_pairs_refused: propext, Classical.choice, Quot.sound
Verif.Props.PostedForm.query_received: propext, Classical.choice, Quot.sound
Verif.Props.Process.daemon_clean: propext, Quot.sound
Verif.Props.Process.daemon_other: none
Verif.Props.Process.descriptor_above_limit_kept: none
Verif.Props.Process.no_lost_wakeup: propext, Quot.sound
Verif.Props.Process.permanent: propext, Quot.sound
Verif.Props.Process.returns_partial: propext, Classical.choice, Quot.sound
Verif.Props.Process.returns_spurious_partial: propext, Classical.choice, Quot.sound
Verif.Props.Process.signal_deadlock: propext, Classical.choice, Quot.sound
Verif.Props.Process.stuck_for_ever: propext, Classical.choice, Quot.sound
Verif.Props.Process.two_signals_deadlock: propext, Classical.choice, Quot.sound
Verif.Props.Process.waits: propext, Quot.sound
Verif.Props.Query.name_limit_exact: propext, Quot.sound
Verif.Props.Query.parsed_pairs_bounded: propext, Quot.sound
Verif.Props.Query.query_changes_nul: propext, Quot.sound
Verif.Props.Query.query_drops_empty_name: propext, Quot.sound
Verif.Props.Query.query_roundtrip_append_partial: propext, Classical.choice, Quot.sound
Verif.Props.Query.query_roundtrip_partial: propext, Classical.choice, Quot.sound
Verif.Props.Query.value_limit_exact: propext, Quot.sound
Verif.Props.QueryMeaning.accepted: propext, Classical.choice, Quot.sound
Verif.Props.QueryMeaning.accepted_iff: propext, Classical.choice, Quot.sound
Verif.Props.QueryMeaning.blanks_ignored: propext, Classical.choice, Quot.sound
Verif.Props.QueryMeaning.kept_before: propext, Classical.choice, Quot.sound
Verif.Props.QueryMeaning.refused: propext, Classical.choice, Quot.sound
Verif.Props.QueryMeaning.refused_exact: propext, Classical.choice, Quot.sound
Verif.Props.RawHeaders.not_saved: propext, Classical.choice, Quot.sound
Verif.Props.RawHeaders.one_byte_too_many: propext
Verif.Props.RawHeaders.raw_headers_exact: propext, Classical.choice, Quot.sound
Verif.Props.RawHeaders.raw_headers_partial: propext, Classical.choice, Quot.sound
Verif.Props.RawHeaders.raw_headers_until_close_partial: propext, Classical.choice, Quot.sound
Verif.Props.ReadTimer.aborted_after_timeout: propext, Classical.choice, Quot.sound
Verif.Props.ReadTimer.bytes_not_lost: propext, Classical.choice, Quot.sound
Verif.Props.ReadTimer.cancelled_after_timeout: propext, Classical.choice, Quot.sound
Verif.Props.ReadTimer.never_times_out: propext, Quot.sound
Verif.Props.ReadTimer.reads_bounded: propext, Classical.choice, Quot.sound
Verif.Props.ReadTimer.timeout_taken_for_end: propext
Verif.Props.ReadTimer.times_out_partial: propext, Classical.choice, Quot.sound
Verif.Props.ReadTimer.writes_undisturbed: propext, Classical.choice, Quot.sound
Verif.Props.Reader.all_received: propext, Classical.choice, Quot.sound
Verif.Props.Reader.blocking_decision_partial: propext, Classical.choice, Quot.sound
Verif.Props.Reader.blocking_failure_keeps_lifecycle: propext
Verif.Props.Reader.close_header_closes: propext, Quot.sound
Verif.Props.Reader.close_in_list_kept_alive: propext
Verif.Props.Reader.close_other_case_kept_alive: propext
Verif.Props.Reader.decision_partial: propext, Classical.choice, Quot.sound
Verif.Props.Reader.no_header_version: propext, Quot.sound
Verif.Props.Reader.nothing_after_close_partial: propext, Classical.choice, Quot.sound
Verif.Props.Reader.open_only_after_message_partial: propext, Classical.choice, Quot.sound
Verif.Props.Reader.serve_stream: propext, Classical.choice, Quot.sound
Verif.Props.Responses.allowNothing_page: propext
Verif.Props.Responses.builtin_received_partial: propext, Classical.choice, Quot.sound
Verif.Props.Responses.builtin_sendable: propext, Quot.sound
Verif.Props.Responses.cookieReply_sendable_partial: propext, Classical.choice, Quot.sound
Verif.Props.Responses.cookieService_injection: propext
Verif.Props.Responses.cookieService_sendable_partial: propext, Quot.sound
Verif.Props.Responses.echo_end_to_end_partial: propext, Classical.choice, Quot.sound
Verif.Props.Responses.echo_page: propext, Quot.sound
Verif.Props.Responses.escape_length: propext, Classical.choice, Quot.sound
Verif.Props.Responses.forbidden_markup_partial: propext, Classical.choice, Quot.sound
Verif.Props.Responses.forbidden_markup_violated: propext
Verif.Props.Responses.head_answer_unread: propext, Classical.choice, Quot.sound
Verif.Props.Responses.notFound_shows: propext, Classical.choice, Quot.sound
Verif.Props.Responses.open_redirect: propext, Quot.sound
Verif.Props.Responses.pages_markup: propext, Classical.choice, Quot.sound
Verif.Props.Responses.reply_received_partial: propext, Classical.choice, Quot.sound
Verif.Props.Responses.response_splitting: propext, Quot.sound
Verif.Props.Responses.session_headers: propext
Verif.Props.Responses.status_unset: propext
Verif.Props.Responses.version_told: propext, Classical.choice, Quot.sound
Verif.Props.Scheduler.get_each_once: propext, Classical.choice, Quot.sound
Verif.Props.Scheduler.get_round_robin: propext, Quot.sound
Verif.Props.Scheduler.get_valid: propext, Quot.sound
Verif.Props.Scheduler.get_zero_threads: propext
Verif.Props.Scheduler.join_stopped: propext
Verif.Props.Scheduler.running_with_users_partial: propext, Classical.choice, Quot.sound
Verif.Props.Scheduler.shutdown_counts: propext, Classical.choice, Quot.sound
Verif.Props.Scheduler.shutdown_not_stuck: propext, Classical.choice, Quot.sound
Verif.Props.Scheduler.shutdown_returns: propext, Classical.choice, Quot.sound
Verif.Props.Scheduler.shutdown_waits: propext, Classical.choice, Quot.sound
Verif.Props.Scheduler.stop_threads_joins_caller: propext, Quot.sound
Verif.Props.Scheduler.unpaired_remove_hangs: propext
Verif.Props.Scheduler.user_without_scheduler: propext
Verif.Props.ServerLife.client_served_partial: propext, Classical.choice, Quot.sound
Verif.Props.ServerLife.join_returns: propext, Quot.sound
Verif.Props.ServerLife.join_returns_early: propext, Quot.sound
Verif.Props.ServerLife.join_waits_partial: propext, Quot.sound
Verif.Props.ServerLife.not_used_after_destroyed_partial: propext, Classical.choice, Quot.sound
Verif.Props.ServerLife.scheduler_runs_partial: propext, Classical.choice, Quot.sound
Verif.Props.ServerLife.server_without_scheduler: propext, Quot.sound
Verif.Props.ServerLife.shutdown_after_all_partial: propext, Classical.choice, Quot.sound
Verif.Props.ServerLife.shutdown_not_stuck_partial: propext, Classical.choice, Quot.sound
Verif.Props.ServerLife.shutdown_returns_partial: propext, Classical.choice, Quot.sound
Verif.Props.ServerLife.shutdown_stuck: propext, Quot.sound
Verif.Props.ServerLife.stop_can_return_partial: propext, Classical.choice, Quot.sound
Verif.Props.ServerLife.stop_in_handler_never_returns: propext, Classical.choice, Quot.sound
Verif.Props.ServerLife.stop_needs_scheduler: propext, Classical.choice, Quot.sound
Verif.Props.ServerLife.stop_returned_partial: propext, Classical.choice, Quot.sound
Verif.Props.ServerThreads.answered: propext, Classical.choice, Quot.sound
Verif.Props.ServerThreads.change_possible: propext, Quot.sound
Verif.Props.ServerThreads.gate: propext, Classical.choice, Quot.sound
Verif.Props.ServerThreads.handled: propext, Classical.choice, Quot.sound
Verif.Props.ServerThreads.not_found: propext, Classical.choice, Quot.sound
Verif.Props.ServerThreads.one_answer: propext, Classical.choice, Quot.sound
Verif.Props.ServerThreads.redirect_error: propext, Classical.choice, Quot.sound
Verif.Props.ServerThreads.redirect_race: propext
Verif.Props.ServerThreads.refused: propext, Classical.choice, Quot.sound
Verif.Props.ServerThreads.removed_not_called: propext, Classical.choice, Quot.sound
Verif.Props.ServerThreads.removed_still_called: propext
Verif.Props.ServiceConfig.any_case: propext, Quot.sound
Verif.Props.ServiceConfig.applied_partial: propext, Classical.choice, Quot.sound
Verif.Props.ServiceConfig.command_letters: propext
Verif.Props.ServiceConfig.comment_no_effect: propext, Classical.choice, Quot.sound
Verif.Props.ServiceConfig.error_prefix: propext, Classical.choice, Quot.sound
Verif.Props.ServiceConfig.last_line_ignored: none
Verif.Props.ServiceConfig.load_exact: propext, Classical.choice, Quot.sound
Verif.Props.ServiceConfig.malformed_rejected: propext, Classical.choice, Quot.sound
Verif.Props.ServiceConfig.no_auth_removes: propext, Classical.choice, Quot.sound
Verif.Props.ServiceConfig.second_auth_discards: none
Verif.Props.ServiceConfig.wellformed_accepted: propext, Classical.choice, Quot.sound
Verif.Props.ServiceConfig.written_loaded: propext, Classical.choice, Quot.sound
Verif.Props.ServiceConfig.written_read: propext, Quot.sound
Verif.Props.ServiceFaults.can_start_again: propext, Quot.sound
Verif.Props.ServiceFaults.destroyed_started: propext, Classical.choice, Quot.sound
Verif.Props.ServiceFaults.destructor: propext, Quot.sound
Verif.Props.ServiceFaults.join_returns: propext
Verif.Props.ServiceFaults.join_sleeps: propext, Quot.sound
Verif.Props.ServiceFaults.left_started_partial: propext, Quot.sound
Verif.Props.ServiceFaults.serving_started: propext, Classical.choice, Quot.sound
Verif.Props.ServiceFaults.start_result: propext, Quot.sound
Verif.Props.ServiceFaults.started_twice: propext
Verif.Props.ServiceFaults.stop_result: propext, Quot.sound
Verif.Props.Sleep.long_sleep_violated: propext, Quot.sound
Verif.Props.Sleep.no_sleep: propext, Quot.sound
Verif.Props.Sleep.set_back_violated: propext, Quot.sound
Verif.Props.Sleep.sleep_ends: propext, Quot.sound
Verif.Props.Sleep.sleep_lasts_partial: propext, Classical.choice, Quot.sound
Verif.Props.Sleep.stop_delayed: propext, Quot.sound
Verif.Props.Sleep.stop_ends: propext, Quot.sound
Verif.Props.Sleep.stop_prompt_partial: propext, Quot.sound
Verif.Props.Sleep.stop_waits: propext
Verif.Props.Spdy.all_data_frames: propext, Classical.choice, Quot.sound
Verif.Props.Spdy.bad_first: propext, Quot.sound
Verif.Props.Spdy.control_frame_iff: propext, Classical.choice, Quot.sound
Verif.Props.Spdy.control_has_kind: propext, Classical.choice, Quot.sound
Verif.Props.Spdy.control_iff: propext, Classical.choice, Quot.sound
Verif.Props.Spdy.control_kind: propext
Verif.Props.Spdy.control_stream: propext, Classical.choice, Quot.sound
Verif.Props.Spdy.count_not_checked: propext, Quot.sound
Verif.Props.Spdy.data_frame: propext, Classical.choice, Quot.sound
Verif.Props.Spdy.data_kind_partial: propext, Classical.choice, Quot.sound
Verif.Props.Spdy.data_kind_violated: propext, Classical.choice, Quot.sound
Verif.Props.Spdy.data_not_control: propext, Classical.choice, Quot.sound
Verif.Props.Spdy.distinct_headers: propext, Quot.sound
Verif.Props.Spdy.fields: propext, Classical.choice, Quot.sound
Verif.Props.Spdy.frame_kind: propext, Quot.sound
Verif.Props.Spdy.goaway_assertion: propext, Classical.choice, Quot.sound
Verif.Props.Spdy.goaway_next_frame: propext, Quot.sound
Verif.Props.Spdy.goaway_overrun: propext, Classical.choice, Quot.sound
Verif.Props.Spdy.goaway_refused: propext, Classical.choice, Quot.sound
Verif.Props.Spdy.headers_read: propext, Classical.choice, Quot.sound
Verif.Props.Spdy.headers_refused: propext, Classical.choice, Quot.sound
Verif.Props.Spdy.inside_partial: propext, Classical.choice, Quot.sound
Verif.Props.Spdy.next_frame: propext, Classical.choice, Quot.sound
Verif.Props.Spdy.outside_iff: propext, Classical.choice, Quot.sound
Verif.Props.Spdy.refused: propext, Classical.choice, Quot.sound
Verif.Props.Spdy.short_reply_overrun: propext, Classical.choice, Quot.sound
Verif.Props.Spdy.truncated_header: propext, Classical.choice, Quot.sound
Verif.Props.Spdy.version3_unread: propext, Quot.sound
Verif.Props.Spdy.zero_stream: propext, Classical.choice, Quot.sound
Verif.Props.SpdySession.block_fits: propext, Quot.sound
Verif.Props.SpdySession.block_taken: propext, Quot.sound
Verif.Props.SpdySession.client_headers_unread: propext, Classical.choice, Quot.sound
Verif.Props.SpdySession.dictionary_id: none
Verif.Props.SpdySession.large_block_breaks_session: propext, Classical.choice, Quot.sound
Verif.Props.SpdySession.not_from_the_middle: propext, Classical.choice, Quot.sound
Verif.Props.SpdySession.other_dictionary: propext, Classical.choice, Quot.sound
Verif.Props.SpdySession.rest_of_packet_lost: propext, Classical.choice, Quot.sound
Verif.Props.SpdySession.session_seen_partial: propext, Classical.choice, Quot.sound
Verif.Props.Stream.failed_read_putback: propext
Verif.Props.Stream.failed_write_overrun: propext, Classical.choice, Quot.sound
Verif.Props.Stream.failed_write_resends: none
Verif.Props.Stream.forward_in_order: propext, Quot.sound
Verif.Props.Stream.reads_in_order_partial: propext, Classical.choice, Quot.sound
Verif.Props.Stream.spurious_wakeup_resends: none
Verif.Props.Stream.writes_all: propext, Classical.choice, Quot.sound
Verif.Props.Stream.writes_bounded: propext, Quot.sound
Verif.Props.Stream.writes_defined: propext, Classical.choice, Quot.sound
Verif.Props.Stream.writes_in_order_partial: propext, Classical.choice, Quot.sound
Verif.Props.TcpServer.accepts_next: propext, Classical.choice, Quot.sound
Verif.Props.TcpServer.client_served: propext, Classical.choice, Quot.sound
Verif.Props.TcpServer.connections_exact_partial: propext, Classical.choice, Quot.sound
Verif.Props.TcpServer.connections_off_by_one: propext
Verif.Props.TcpServer.connections_stopped: propext, Classical.choice, Quot.sound
Verif.Props.TcpServer.connections_wraps: propext
Verif.Props.TcpServer.keep_alive_deadlock: propext
Verif.Props.TcpServer.kept_alive: propext, Classical.choice, Quot.sound
Verif.Props.TcpServer.leaves_pool: propext, Classical.choice, Quot.sound
Verif.Props.TcpServer.not_kept_alive: propext, Classical.choice, Quot.sound
Verif.Props.TcpServer.pool_exact: propext, Classical.choice, Quot.sound
Verif.Props.TcpServer.stop_can_return: propext, Classical.choice, Quot.sound
Verif.Props.TcpServer.stop_empty: propext, Classical.choice, Quot.sound
Verif.Props.TcpServer.stop_returns: propext, Classical.choice, Quot.sound
Verif.Props.TcpServer.stop_returns_early: propext
Verif.Props.TcpServer.stop_returns_partial: propext, Classical.choice, Quot.sound
Verif.Props.TestFiles.exact_iff: propext, Classical.choice, Quot.sound
Verif.Props.TestFiles.ignoring_iff_partial: propext, Classical.choice, Quot.sound
Verif.Props.TestFiles.itself: propext, Classical.choice, Quot.sound
Verif.Props.TestFiles.long_lines_differ: propext, Classical.choice, Quot.sound
Verif.Props.TestFiles.long_lines_match: propext, Classical.choice, Quot.sound
Verif.Props.TestFiles.match_iff: propext, Classical.choice, Quot.sound
Verif.Props.TestFiles.zero_bytes_match: propext, Quot.sound
Verif.Props.TestLog.cdata_not_escaped: propext, Quot.sound
Verif.Props.TestLog.exception_mixed: none
Verif.Props.TestLog.not_blocked: propext, Classical.choice, Quot.sound
Verif.Props.TestLog.read_back_partial: propext, Quot.sound
Verif.Props.TestLog.whole_entries_partial: propext, Classical.choice, Quot.sound
Verif.Props.Timer.cancel_leaves_wait: none
Verif.Props.Timer.cancel_releases_partial: propext, Classical.choice, Quot.sound
Verif.Props.Timer.cancelled_never: propext, Quot.sound
Verif.Props.Timer.cancelled_unusable: propext, Quot.sound
Verif.Props.Timer.only_if_expired_partial: propext, Classical.choice, Quot.sound
Verif.Props.Timer.restart_cancels: propext
Verif.Props.Timer.times_out: propext, Classical.choice, Quot.sound
Verif.Props.Timer.times_out_each: propext, Classical.choice, Quot.sound
Verif.Props.Uri.parse_uri_exact: propext, Classical.choice, Quot.sound
Verif.Props.Uri.parse_uri_reassembles: propext, Classical.choice, Quot.sound
Verif.Props.Uri.port_refused: none
Verif.Props.Uri.port_wraps: none
Verif.Props.Uri.query_without_path: none
Verif.Props.Uri.scheme_found_in_query: none
Verif.Props.Uri.stale_query: none
Verif.Props.UrlCodec.url_decode_encode_exact: propext, Quot.sound
Verif.Props.UrlCodec.url_decode_escape: propext, Quot.sound
Verif.Props.UrlCodec.url_decode_length_le: propext, Quot.sound
Verif.Props.UrlCodec.url_decode_lenient: propext
Verif.Props.UrlCodec.url_decode_no_new_nul: propext, Quot.sound
Verif.Props.UrlCodec.url_decode_nul: propext, Quot.sound
Verif.Props.UrlCodec.url_decode_other: propext, Quot.sound
Verif.Props.UrlCodec.url_decode_plain: propext, Quot.sound
Verif.Props.UrlCodec.url_decode_plus: propext, Quot.sound
Verif.Props.UrlCodec.url_decode_truncated: propext
Verif.Props.UrlCodec.url_encode_clean: propext, Quot.sound
Verif.Props.UrlCodec.url_encode_injective: propext, Quot.sound
Verif.Props.UrlCodec.url_encode_no_delimiters: propext, Quot.sound
Verif.Props.UrlCodec.url_roundtrip_fails_on_nul: propext, Quot.sound
Verif.Props.UrlCodec.url_roundtrip_iff: propext, Classical.choice, Quot.sound
Verif.Props.UrlCodec.url_roundtrip_partial: propext, Classical.choice, Quot.sound
Verif.Props.Users.answers_partial: propext, Classical.choice, Quot.sound
Verif.Props.Users.bad_hash_damages: propext
Verif.Props.Users.empty_iff_partial: propext, Classical.choice, Quot.sound
Verif.Props.Users.get_user_iff_partial: propext, Classical.choice, Quot.sound
Verif.Props.Users.get_user_password_partial: propext, Classical.choice, Quot.sound
Verif.Props.Users.get_user_password_plain: propext, Classical.choice, Quot.sound
Verif.Props.Users.non_hex_accepted: propext
Verif.Props.Workers.each_once: propext, Quot.sound
Verif.Props.Workers.idle_sleeps_partial: propext, Classical.choice, Quot.sound
Verif.Props.Workers.in_order: propext, Quot.sound
Verif.Props.Workers.not_asleep: propext, Classical.choice, Quot.sound
Verif.Props.Workers.restart_spins: propext, Classical.choice, Quot.sound
Verif.Props.Workers.served: propext, Classical.choice, Quot.sound
Verif.Props.Workers.shutdown_drops: propext, Quot.sound
Verif.Props.Workers.shutdown_ends: propext, Classical.choice, Quot.sound
Verif.Props.Workers.shutdown_in_handler_hangs: propext, Classical.choice, Quot.sound
Verif.Props.Workers.shutdown_quiet: propext, Quot.sound
Verif.Props.Workers.started_serves: propext, Classical.choice, Quot.sound
Verif.Props.Workers.stop_quiet: propext, Classical.choice, Quot.sound
Verif.Props.Workers.threads_kept: propext, Classical.choice, Quot.sound
Verif.Props.Workers.timer_alone_partial: propext, Classical.choice, Quot.sound
Verif.Props.Workers.timer_race: propext, Quot.sound
Verif.Props.Writer.chunked_request_not_announced: propext
Verif.Props.Writer.chunked_roundtrip_partial: propext, Classical.choice, Quot.sound
Verif.Props.Writer.chunked_wire: propext, Classical.choice, Quot.sound
Verif.Props.Writer.final_chunk_unframed: propext
Verif.Props.Writer.nul_content_lost: propext
Verif.Props.Writer.old_client_plain: propext, Classical.choice, Quot.sound
Verif.Props.Writer.response_chunks: propext
Verif.Props.Writer.response_no_chunks: propext
Verif.Props.Writer.sendChunk_closes: propext
Verif.Props.Writer.send_exact_partial: propext, Classical.choice, Quot.sound
Verif.Props.Writer.send_received_partial: propext, Classical.choice, Quot.sound
Verif.Props.Writer.wire_exact: propext, Quot.sound
Verif.Props.WriterMemory.called_once: propext, Classical.choice, Quot.sound
Verif.Props.WriterMemory.cleared_while_sending: propext
Verif.Props.WriterMemory.complete: propext, Classical.choice, Quot.sound
Verif.Props.WriterMemory.faithful: propext, Classical.choice, Quot.sound
Verif.Props.WriterMemory.freed_partial: propext, Classical.choice, Quot.sound
Verif.Props.WriterMemory.handler_not_called: propext, Quot.sound
Verif.Props.WriterMemory.in_order: propext, Classical.choice, Quot.sound
Verif.Props.WriterMemory.leak: propext, Quot.sound
Verif.Props.WriterMemory.not_kept: propext
Verif.Props.XmlEncode.xml_encode_illformed: propext
Verif.Props.XmlEncode.xml_encode_lossless: propext, Classical.choice, Quot.sound
Verif.Props.XmlEncode.xml_encode_safe: propext, Classical.choice, Quot.sound
Verif.Props.XmlEncode.xml_encode_structure_partial: propext, Quot.sound
Verif.Props.XmlEncode.xml_encode_total: propext, Quot.sound
Verif.Props.XmlEncode.xml_encode_utf8_partial: propext, Quot.sound
