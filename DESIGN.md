# Design

This directory holds a Lean 4 model of the logic of splunk/pion (source in /repo) and machine-checked proofs of the
properties in `properties.jsonl`.

## Layout

* `lean/Verif/Base.lean`      bytes and literals (`b! "text"`, `c! "x"`).
* `lean/Verif/Model/*.lean`   executable model, one file per source area; each definition cites file and lines.
* `lean/Verif/Spec/*.lean`    small independent specifications (what the property says).
* `lean/Verif/Lemmas/*.lean`  helper lemmas, no property statements.
* `lean/Verif/Props/*.lean`   property theorems, with non-vacuity `example`s beside them.
* `MANIFEST.json`             property -> theorem names and status.
* `seeded/LOG.jsonl`          seeded-bug experiments.

## Conventions

* A byte is `UInt8`, a `std::string`/buffer is `List UInt8`. `char` is signed (x86 ABI) where the sign matters.
* `size_t` counters are `Nat` (no 2^64 wrap) unless a comment says otherwise; `uint16_t`/`uint32_t` arithmetic wraps where
  the code can reach it.
* Undefined behaviour (out-of-range read/write, failed assertion, uninitialised memory that is used) is an explicit outcome.
* Hash multimaps are insertion-ordered lists; where the C++ container leaves the order open the model takes an arbitrary
  order as parameter (`Dict.Order`, `TableOrder`), and theorems quantify over it.
* Concurrency: threads interleave at the granularity of the mutex-guarded sections (plug-ins, scheduler, tcp server) or of
  whole calls where the code holds a lock all the time; theorems quantify over all interleavings (lists of steps).
* Clocks, random numbers, file systems, zlib and hash functions are parameters or inputs.
* Where the code violates a property the negation is proved on a concrete witness (or for every case where it happens) and
  the part that does hold is proved as `..._partial`. `MANIFEST.json` says `partial` then, even if nothing more could be
  proved because the rest is false of the code.

## Trusted base

* Lean's kernel (4.33.0).
* Axioms: `propext`, `Classical.choice`, `Quot.sound`, no others. `AXIOMS.txt` has the axioms each theorem of the manifest depends on, as printed by `#print axioms`.
* The reading of the C++ text into the definitions of `Model/` (not machine-checked).
* The documented behaviour of the C/C++ standard library, Boost and asio calls the model replaces (strings, maps, `strtol`,
  `lexical_cast`, `trim`, regular expressions, tokenizer, path normalisation, mutexes, condition variables).

### Modelled code

| source in /repo | model |
| --- | --- |
| src/algorithm.cpp, include/pion/algorithm.hpp | Base64, UrlCodec, Strtol, XmlEncode, IntBytes, FloatBytes, FloatApi |
| src/http_parser.cpp, include/pion/http/parser.hpp | HttpParser, HeadFirst, ErrorText, Chars, Query, Cookie, Uri, ForwardedFor, Multipart, DataUrl |
| src/http_message.cpp, include/pion/http/message.hpp, request.hpp, response.hpp | HttpMessage, MessageIo, Reader (receive), MessageBuild, FirstLine, MessageCopy, ContentBuffer, Dict, Digits |
| include/pion/hash_map.hpp | Dict, HashTable |
| src/http_types.cpp | HttpDate, Query, UrlCodec |
| src/http_reader.cpp, http_request_reader, http_response_reader | Reader, Conversation, ReadTimer |
| src/http_writer.cpp, include/pion/http/writer.hpp, response_writer.hpp, request_writer.hpp | Writer, WriterMemory |
| src/http_server.cpp | Server, HttpServer, Exchange, Host, ServerThreads, Responses, SortedMap |
| src/http_auth.cpp, http_basic_auth.cpp, http_cookie_auth.cpp, include/pion/user.hpp | Auth, BasicSite, AuthThreads, CookieAuth, User, Responses |
| src/http_plugin_server.cpp, include/pion/http/plugin_server.hpp, plugin_service.hpp | ServiceConfig, PluginServer, ServiceFaults |
| src/plugin.cpp, include/pion/plugin.hpp, plugin_manager.hpp | Plugin, PluginManager, PluginFiles, PluginInstance, PluginThreads, PluginCode |
| src/scheduler.cpp, include/pion/scheduler.hpp | Scheduler, Workers, ServerLife, Sleep (`get_wakeup_time`, `sleep`) |
| src/tcp_server.cpp, include/pion/tcp/server.hpp, connection.hpp | TcpServer, ServerLife, Exchange, Host, Listen, Connection |
| src/tcp_timer.cpp | Timer, ReadTimer |
| include/pion/tcp/stream.hpp | Stream |
| src/spdy_parser.cpp, src/spdy_decompressor.cpp | Spdy, SpdyDecompressor, ErrorText |
| src/admin_rights.cpp, include/pion/admin_rights.hpp | AdminRights |
| src/process.cpp, include/pion/process.hpp | Process |
| include/pion/error.hpp and the statements that throw | Errors |
| utils/piond.cpp | Piond, FileSite, Errors |
| utils/helloserver.cpp | HelloServer |
| include/pion/test/unit_test.hpp (not the macros at its end) | TestFiles, TestLog |
| services/*.cpp | FileService, Path, FileSender, FileAnswers, FileThreads, LogRing, LogAnswers, Responses |

### Not modelled

The operating system, sockets and the TLS protocol (C73 models which data goes through the SSL stream, not what the stream does), real threads below lock granularity and memory ordering, dynamic linking, logging,
exceptions from memory allocation, dump files on Windows, zlib itself (a parameter), and `tests/`.

## Seeded bugs

`seeded/LOG.jsonl` has one line per edit of the model in a scratch copy: the definition, the edit, the claim it breaks, the
theorems that failed, and the theorems that were tightened because of the edit.

How to read it. `proofs_broken` are the lemmas and theorems whose proofs Lean no longer accepts; each is replaced by `sorry`
and the build goes on. `theorems_failed` are the theorems of MANIFEST.json that depend on one of them. A theorem in this
list need not be false of the edited program: proofs follow the steps of the model, so an edit can break the proof of a
theorem that remains true, and equivalent programs break proofs too. The field `evidence` tells the cases apart:

* `refuted`: the negation of the theorem, or of an instance of it, was proved of the edited model; the theorem detects the edit.
* `proof failed`: only that the proof no longer checks. This is weak evidence: it does not show that the theorem detects the edit.
* `equivalent program`: the edit breaks no claim.
* `no theorem failed`: the edit went unnoticed.

`predicted_but_did_not_fail` names theorems that were expected to fail before the run and did not.

## Findings: where the code does not have the property

Each line names the theorem with the witness.

* **C03** `base64_decode_oob`: a byte >= 0x80 indexes the decoding table with a negative number where `char` is signed. `base64_decode_assert_iff`: exactly which 7-bit texts trip the assertion on leftover bits.
* **C04** `url_roundtrip_fails_on_nul`: `%00` is left as it is; C20 `query_changes_nul`.
* **C08** `xml_encode_illformed`: overlong forms, surrogates and code points above U+10FFFF pass through.
* **C09** `int24_negative_lost`: signed 24 bit decoding returns positive numbers.
* **C10** subnormals are halved on decoding and mis-encoded, infinities and NaN make the encoder loop for ever, their bytes decode to finite numbers, -0 loses its sign. Where the result is converted to float or double, infinities are right again, and NaN become infinities (`FloatApi.to_float_wrong`, `to_double_wrong`, `to_float_violated`).
* **C11/C19** `total_after_error_depends_on_segmentation`, `error_bytes_not_counted`: an error return does not update the counters.
* **C13** `content_length_wraps`: Content-Length 2^64-1 with the same maximum allocates 0 bytes and writes one.
* **C14** `chunked_request_not_announced`: a request sent with `send_chunk` has no Transfer-Encoding header.
* **C15** `oversized_chunked_never_completes`: chunk bytes beyond the maximum are not counted in the chunk, so the message never ends.
* **C20** `query_drops_empty_name`. **C21** `expires_date_becomes_cookie`: the date of an Expires attribute becomes a cookie.
* **C22** `chunked_not_read_back` (written with both headers), `cookies_sent_again` (second write repeats cookie headers), `status_wraps` (16 bit).
* **C23** `port_wraps`, `query_without_path`, `scheme_found_in_query`, `stale_query` (a URI without query leaves the old one).
* **C24** `leading_zero_returned`, `part_of_number_returned`.
* **C27** `close_other_case_kept_alive`, `close_in_list_kept_alive`, `blocking_failure_keeps_lifecycle`.
* **C28** `nul_content_lost`: content that begins with NUL is announced but not sent. `final_chunk_unframed`.
* **C30** `find_misses`: the walk back stops at the first identifier that is no prefix.
* **C32** `redirect_slash_edge`: after a redirection to a target ending in `//` the authenticator and the dispatcher look at different paths.
* **C34/C35** `basic_twice_the_lifetime`, `basic_refreshed_for_ever`, `basic_old_password_accepted`, `cookie_twice_the_expiry`, `cookie_survives_removal`: cached credentials and sessions outlive expiry, password changes and removal of the user.
* **C36** `bad_hash_damages`: a rejected `update_user_hash` leaves a damaged record; `non_hex_accepted`.
* **C37** `last_line_ignored`, `second_auth_discards`, `no_auth_removes`; an exception midway leaves services loaded without authentication.
* **C38** `open_twice_blocks` (self-deadlock), `self_assignment_closes`.
* **C39** `duplicate_add_leaks`, `replace_self_destroys` (double destruction), `replaced_by_wrong_destructor`.
* **C40** `stop_returns_early`, `connections_off_by_one`, `connections_wraps` (2^64-1), `keep_alive_deadlock`.
* **C41** `user_without_scheduler`, `unpaired_remove_hangs`, `stop_threads_joins_caller`. **C42** `get_zero_threads`.
* **C43** `restart_cancels`, `cancelled_unusable`; `cancel_leaves_wait`: the aborted wait of a timer that is started again clears the flag that `cancel` looks at, and `cancel` then leaves the second wait pending, which keeps the connection until the time has come.
* **C44** `failed_write_resends`, `failed_write_overrun`, `spurious_wakeup_resends`, `failed_read_putback`.
* **C45** `sibling_escape` (directory `/srv/www` serves `/srv/www-private`), `dotted_escape` (`..` after a two-character name with a dot survives Boost's normalisation), `relative_directory_escape`, `trailing_slash_refuses`.
* **C46** `failed_write_unnoticed` (204 although nothing was written).
* **C47** `uninitialised_sent`, `same_time_stale`, `cache2_removed`, `root_scan_unfound` (the scan of the directory `/` drops the first character of each name).
* **C48** `never_finished`, `shorter_never_finished`.
* **C49** `largest_max_unbounded`; `log_forged`: the text of a log message is written to the log as it is, so a line end in it (for example from a request) looks like a further event.
* **C50** `truncated_header`, `short_reply_overrun`, `goaway_overrun`, `count_not_checked` (reads beyond the packet), `goaway_next_frame`, `zero_stream`, `goaway_assertion`, `version3_unread`, `data_kind_violated` (data frames of streams from 2^24 on are not recognised by `get_spdy_frame_type`).
* **C52** `gap_beyond_maximum_leaves_garbage` (uninitialised memory in the content).
* **C53** `bodyless_chunked_waits`.
* **C54** `multipart_negative_length`, `multipart_negative_length_always` (for every body with a named part whose blank line is directly followed by the delimiter; `posted_form_throws` for whole requests), `multipart_filename_taken_for_name`, `multipart_quoted_boundary_fails`. In a server the exception leaves `reader::consume_bytes` after the read timer was cancelled (http_reader.cpp:40-80): the request is not answered, and the connection stays until the server prunes it (read from the code, not proved).
* **C55** `stale_after_change_resource`.
* **C56** `head_answer_unread`: for every HEAD request the page is sent although there must be none, and the client takes it for the next response. `forbidden_markup_violated`.
* **C57** `response_splitting` (end to end from a request anybody can send), `open_redirect`, `cookieService_injection`.
* **C59** `stays_administrator`, `released_violated`: the user id to return to is kept in 16 bits; users with ids that are multiples of 65536 stay administrator after the server has bound its port, others from 32768 on become somebody else.
* **C60** `empty_password_administrator` (empty fields are dropped, so the group's id is taken for the user's), `unknown_user` (not reported), `number` (ids from 2^31 on throw), `user_before_group`.
* **C61** `current_directory_first` (a file in the current directory, even without the extension, comes before the plug-in directories), `names_escape`, `renamed`, `hidden_not_found`.
* **C62** `reset_destroys_twice` (`reset` keeps the pointer), `not_found_destroys_twice`, `load_failure_destructor_throws`, `second_create_stuck`.
* **C63** `self_assignment_loses`: a message assigned to itself loses its content.
* **C64** `exists_iff`: for times whose year does not fit 32 bits a null pointer is followed.
* **C65** `head_breaks_conversation`: after a HEAD request the client takes the page for the next response. `final_chunk_stalls`: a client that announces HTTP/2.0 gets no chunks; if its answer is sent with `send_final_chunk` alone, the answer has no end and the connection stays open.
* **C66** `destroyed_while_serving` (`clear` in one thread while another is in `stop`), `late_service_not_started`, `failed_start_repeated`, `duplicate_never_started` (nor destroyed), `told_another_path` (a name ending in `//` is trimmed twice for the table, once for the service).
* **C67** `departures`: folded lines become headers of their own; a single CR ends a line and CR CR ends the head; `1.1 5` is version 1.15; LF may stand for the H of HTTP; version 65536.0 is version 0, whose headers are not read.
* **C68** `trailers_left_unread`: with a payload handler the trailers after the last chunk are not read and are taken for the next message (http_parser.cpp:86-99).
* **C69** `head_chunked_waits`, `reset_content_left`, `two_lengths_accepted`, `chunked_anywhere`, `coding_ignored`, `signed_length_accepted`, `connect_has_body`, `coding_length_taken`: chunks are tested for before the responses without body; 205 counts as a response without body; of two different lengths one is taken; `chunked` is found anywhere in the value, other codings are ignored; lengths may have a sign; a 2xx response to CONNECT has a body.
* **C70** `signal_deadlock`, `two_signals_deadlock`: the signal handler takes the mutex of the shutdown flag; if the interrupted thread has it, the process never ends.
* **C71** `descriptor_above_limit_kept`. **C72** `port_wraps`, `options_ignored_with_config`, `bad_address_throws`.
* **C73** `build_without_ssl`: in a build without SSL everything is sent in the clear, the handshake reports no error and the server says that it uses SSL. `late_key_file`: a key file set while the server listens does not count for the connection that already waits for a client.
* **C75** `trailer_credentials`: an Authorization header in the trailers of a chunked request counts.
* **C76** `concurrent_logins_share_session`: the random number generator of cookies is used without a lock; two logins at the same time can be given the same cookie, and the second user then acts as the first. `generator_race`, `cleanup_race`: data races on the generator and on the time of the last expiry pass. `refused_without_need`: users and lists are looked at one after the other, so a request can be refused although it needed authentication at no moment.
* **C77** `loads_both_succeed`: `plugin_manager::load` looks for the identifier before it takes the mutex, and does not check whether its insertion succeeded; two loads of the same identifier at the same time both return an object, one of which is not registered and never destroyed. `load_race`: that look is a data race with every change of the map. `run_uses_destroyed`: `run(id, f)` calls `f` after it has released the mutex, with an object that another thread may have removed meanwhile. `callback_deadlock`: `run(f)` holds the mutex while it calls `f`; if `f` uses the manager, neither this call nor any other ever returns.
* **C74** `reconnect_drops`: connecting by name on a connected connection closes it and fails although the host answers. `port_wraps`.
* **C78** `never_times_out`: the timer is started before the read; if the thread is held up in between until it goes off, nothing limits the read. `timeout_taken_for_end`: a time-out (like any error) is taken for the end of a response without length, and no error is reported.
* **C79** `FileAnswers`: a HEAD request for any file is answered with `Content-Length: 0` (`head_received_partial`); the table of types has "eof" instead of "eot" (`eot_violated`); a file named "html" without a dot is text/html (`no_ending`); the page after a failed DELETE contains the unescaped description of the exception, with the path in it (`delete_markup_violated`); the page after a failed PUT says both "201 Created" and "500 Server Error", with a Location header (`put_failed_page`).
* **C80** `Workers`: a `single_service_scheduler` that is shut down and started again never sleeps: the wait of `m_timer` survives the shutdown in the service, and after the restart each call of `keep_running` cancels the wait of the other (`restart_spins`); with several threads they use the timer at the same time (`timer_race`). A `one_to_one_scheduler` destroys its services in `shutdown`, with the handlers that are ready (`shutdown_drops`). A handler that calls `shutdown` waits for its own thread (`shutdown_in_handler_hangs`, see also C41).
* **C81** `DataUrl`: `base64_2binary` reports the size that the data needs, but refuses a buffer of that size, since it requires the length of the whole text (http_parser.cpp:1051, parser.hpp:344) (`asked_size_refused`). The text is not the one of RFC 2397, and that form is refused (`rfc2397_refused`). A type that contains "; base64, ", which the client chooses, runs into the data (`type_runs_into_data`).
* **C82** `ServerThreads`: `handle_request` searches `m_redirects` without `m_resource_mutex` while `add_redirect` may change it (http_server.cpp:70, 80, 178-184), a data race (`redirect_race`). `remove_resource` does not wait for requests that have found the handler: it may be called after `remove_resource` has returned (`removed_still_called`).
* **C83** `FileThreads`: `DiskFile::checkUpdated` stores the new length and time before `read` (FileService.cpp:799-806), and `update` before `read` (300-303): if the reading fails, the entry is kept with a length that its buffer does not have (`overrun_after_failure`: the next request sends memory beyond the buffer) or with a buffer that was never written (`uninitialised_kept`, setting cache 2 with scan 1). The length is read before the time: a file that grows in between is sent cut short with the new time, and conditional requests confirm the cut file from then on (`truncated_for_good`). A file sent from the disk may be a mixture of contents (`mixed`).
* **C84** `WriterMemory`: `writer::clear` empties `m_binary_cache` without deleting the copies, which only the destructor of the cache would do (writer.hpp:93, 308-314): they are lost (`leak`). On a closed connection `send(handler)` calls the finished handler instead of the one given (writer.hpp:278-280, `handler_not_called`). `send(handler)` does not keep the writer: if the handler does not either, what is being sent is freed with it (`not_kept`).
* **C85** `MessageBuild`: the values of cookies are written into requests as they are (request.hpp:183-191), so that `;` or `,` in a value makes other cookies on the server, although the same value set by a server arrives at the client (`request_cookie_split`). A double quote cuts the value in a response, and a path can set another cookie (http_types.cpp:127-147, `response_cookie_cut`). `response::delete_cookie` hides `message::delete_cookie`: after `add_cookie` both cookies are sent (`delete_after_add_sends_both`). The headers made for cookies stay in the message, so that sending it again sends the cookies twice (message.hpp:403-404, `sent_twice_doubles_cookies`). `set_content` with an empty buffer keeps the old content (request.hpp:148-150, `empty_buffer_keeps_content`).
* **C86** `ServerLife`: `start` registers the server with the scheduler after it has begun to listen (tcp_server.cpp:104-108). A `shutdown` in between leaves a server that listens without a scheduler and cannot be stopped, because the pending accept is never aborted (`server_without_scheduler`, `stop_needs_scheduler`); a `stop` in between makes the counter of users wrap, and a `shutdown` waits for ever (`shutdown_stuck`). `join` returns as soon as `stop` has begun (tcp_server.cpp:122, 153-157), so that a server destroyed after `join` is still used by `stop` and by handlers (`join_returns_early`). `stop` called in a handler of the server never returns (`stop_in_handler_never_returns`).
* **C87** `SpdySession`: headers that a client sends in a HEADERS frame are decompressed with the context of the server (spdy_decompressor.cpp:100-104; `client_headers_unread`). A block of 16 KiB or more is refused without giving the rest of it to zlib, so that the context is wrong from then on (spdy_decompressor.cpp:141-174; `large_block_breaks_session`). After a frame that is refused the rest of its packet is lost, with the same effect (`rest_of_packet_lost`).
* **C88** `CookieSession`: the generator of the session identifiers is seeded with the time in seconds and nothing else (http_cookie_auth.cpp:45), so that who knows to an hour when the server was started has 3600 guesses for each session (`identifiers_guessable`); servers started in the same second give the same identifiers (`same_second`). A login page whose option ends in a slash never logs anybody in, because the slash is taken off the request but not off the option (http_cookie_auth.cpp:93-110; `login_page_with_slash`).
* **C89** `clone_outlives_library`: `plugin_manager::clone` (plugin_manager.hpp:229-236) hands out an object without anything that keeps its library loaded; once the manager drops the original, the clone has no code. `replace_wrong_destroy`: `replace` (213-226) keeps the `plugin_ptr` of the object replaced, so that an object of another origin is destroyed by the wrong function. `other_file_ignored`: plug-ins are known by their base name alone (plugin.cpp:109-137), so that a file of the same name in another directory is never opened while the first is in use.
* **C90** `colon_never`: users whose name has a colon, or is empty, can be added to the user manager but never log in with basic authentication, because the credentials are split at the first colon (http_basic_auth.cpp:118-131); `colon_mistaken`: they may be taken for another user. `scheme_case_sensitive`: `Authorization: basic …` is refused (http_basic_auth.cpp:105-116 compares with "Basic " by case), although RFC 7235 says that the case of the scheme does not matter.
* **C91** `double_slash`: services can be loaded for "/a//" and for "/a" (http_plugin_server.cpp:34-42 removes one slash, so the names "/a/" and "/a" are different), but `add_resource` removes another slash and keeps the first entry (http_server.cpp:160-167), so that the second service never gets a request and there is no error.
* **C92** `reason_lost`: plugin.cpp:263-274 attaches the text of `dlerror()` as `errinfo_message`, but neither `what()` nor `pion::diagnostic_information` uses it (error.hpp:49-106, 160-164). `same_type`: `errinfo_message` is declared with the tag of `errinfo_arg_name` and `errinfo_symbol_name` with the one of `errinfo_dir_name` (error.hpp:116-131), so one replaces the other. `cast_unnamed`: FileService.cpp:104 lets `bad_lexical_cast` through. When a file cannot be read, the client gets its path on the server (FileService.cpp:783 with http_server.cpp:115).
* **C93** `broken_forever`: `start` leaves the acceptor open when `bind` or `listen` throws (tcp_server.cpp:81-98), and the next `start` calls `open` on it, which asio refuses; `stop` does nothing on a server that does not listen. `rights_any_port`: `admin_rights(get_port() > 0 && get_port() < 1024)` (tcp_server.cpp:84) passes the condition as `use_log`, the only parameter of the constructor (admin_rights.hpp:34).
* **C94** `unreadable_file`: `DiskFileSender::send` logs that it cannot open or read the file and returns (FileService.cpp:868-878, 890-908), without an answer and without `finish`; the connection is removed only when the server prunes orphans. `mixed`: `handle_request` sends the page of the error handler for an exception although the handler that threw has already sent (http_server.cpp:109-120). `deadlock`: `finish_connection` calls the handlers of pipelined requests with `m_mutex` locked (tcp_server.cpp:247-252), and a handler that calls `finish`, directly or because its connection is closed (writer.hpp:277-280), locks it again; `others_wait`: meanwhile no connection is accepted or finished.
* **C95** `stop_waits_for_idle_clients`: `stop` waits until the pool is empty (tcp_server.cpp:133-140), and a connection whose next request is waited for is in it until its read ends; `stop` does not end the reads of clients that are between two requests (the timeout of the reader does after 10 seconds, C43, unless it was disabled). `one_handler_blocks_all`: the deadlock of C94 stops every other connection too, since `listen`, `stop` and `finish_connection` need the same `m_mutex`.
* **C96** `skip_header_parsing` calls `finish_header_parsing` again (parser.hpp:230-233), which copies the members of the parser into the message and decodes the query string and the cookie headers (http_parser.cpp:698-762). `parameters_twice`: on the parser that has read the head they are inserted twice. `broken_but_valid`: the end of the head-only `parse` marks the message as valid (http_parser.cpp:120-122, 1595-1596), and a later failure does not take this back (124-125). `other_parser_forgets`: the members of another parser are empty (the status code is 0), so the message loses its method, resource and query string, or its status; a 304 is then read as if it had a body (`other_parser_waits`).
* **C97** `parse_headers` appends each byte to the raw headers before it looks at it (http_parser.cpp:262-263). If the empty line is a single CR or LF, the head is known to be complete only when the next byte is seen (http_parser.cpp:677-687); that byte is handed back to the body, but stays in the raw headers (`one_byte_too_many`).
* **C98** `started_twice`, `destroyed_started`: `before_starting` runs outside the `try` of `tcp::server::start` and is not undone (tcp_server.cpp:79, plugin_server.hpp:138-141): if a service throws, those before it stay started, are not stopped by `stop` (the server does not listen) and are destroyed while started, or started again. A FileService with `scan` throws so for a directory it cannot read. `join_sleeps`: `after_stopping` comes before `notify_all` (tcp_server.cpp:145-146); if it throws, threads in `join` are never notified. `destructor`: `~plugin_server` calls `clear` (plugin_server.hpp:38), so that the exception ends the process.
* **C99** `texts_mislead`: ERROR_URI_SIZE has the text "method exceeds maximum size" (parser.hpp:87-88); a reason phrase of more than 1024 characters is an "invalid status character" (http_parser.cpp:509-512); SPDY protocol and internal errors share the default text. `no_space_after_colon`: after `If-None-Match:` a quotation mark is refused (http_parser.cpp, PARSE_SPACE_BEFORE_HEADER_VALUE), with a space before it it is accepted.
* **C100** `overfull_swallowed`: when the cache has max_content_length bytes, parse_chunks neither counts nor stores the bytes of a chunk (http_parser.cpp, PARSE_CHUNK), so that it stays in that state for ever: the text `3\r\nabcd and so on` with a maximum of 2 is not refused.
* **C101** `head_answer_violated`, `head_answer_waits`: `message::receive` calls `clear()` (src/http_message.cpp:55), and `response::clear` (include/pion/http/response.hpp:73-78) forgets the method of the request the response object was made for. A blocking call for the answer to a HEAD request then waits for the content the head announces, or takes the beginning of the next answer for it; a `response_reader` ends the message with its head.
* **C103** `new_connection_violated`: `tcp::connection` starts with LIFECYCLE_CLOSE (connection.hpp:120,140,701) and `message::send` writes it into the Connection header (http_message.cpp:38); a client that just connects, sends and receives gets one answer, and its second request is never received.
* **C104** `guessed`: the session identifiers of a server are a function of the second in which it was started and of the number of logins before (http_cookie_auth.cpp:38-49,133-137), so that somebody who was never told one gets the files (`example_guessed`). `login_hides`: requests for `/login` are answered by the authenticator before any service is looked up (http_cookie_auth.cpp:105-125), even if they are no logins; a file of this name in a directory served as `/` can be had by nobody.
* **C105** `parameters_multiply`, `gigabyte`: every comma in the value of a parameter stores its name (up to 1024 bytes) once more (http_parser.cpp:960-964), so that a request line of one megabyte takes one gigabyte, before any handler or authenticator sees the request. `no_limit`: the sizes of header names and values are limited, their number is not (http_parser.cpp:617-678).
* **C107** `port_wraps`: `helloserver 65536` is accepted and listens on any free port, `helloserver 65616` on port 80, `helloserver -1` on port 65535 (helloserver.cpp:44-45, tcp_server.cpp:56).
* **C109** `long_lines_match`, `long_lines_differ`, `zero_bytes_match`: check_files_exact_match with ignore_line_endings stops at the first line of more than 4095 characters, and says that the files match if they are the same up to there; and what follows a zero byte on its line does not count.
* **C110** `exception_mixed`, `cdata_not_escaped`: log_exception and the functions for the beginning and end of test cases do not lock the mutex: what they write can get into the entry of another thread. A text with "]]>" ends the entry early.
* **C111** A multipart body that ends in the middle of a value is accepted with the part of the value that is there (`cut_accepted`), even with part of a delimiter in it (`cut_delimiter_taken`). A part without a name gets the empty name if its lines end with LF (`unnamed_added`), and two Content-Disposition headers give a name that neither has (`names_joined`).
* **C112** Times are computed from the clock of the system (scheduler.cpp:105): if it is set back, a sleep lasts that much longer (`set_back_violated`), and so does `stop` while it waits for connections that nobody finished (`stop_delayed`). Nanoseconds are rounded down (`no_sleep`), and where `long` has 32 bits a sleep of 2^31 seconds or more ends at once (`long_sleep_violated`).
* **C102** A received message is sent on wrongly: in chunks (`chunked_not_passed_on`), with two codings (`second_coding_not_passed_on`), without version (`old_request_not_passed_on`); its cookies are doubled (`cookies_doubled`), the length announced in an answer to HEAD is replaced by 0 (`head_length_lost`), and a content above the maximum is cut off silently (`content_cut`).

## Plan per property

* **C01 Base64 round trip** — Model/Base64: both functions over List UInt8, encoder by groups of 3, decoder as the C loop. Proof: induction over 3-byte groups, group lemma by bit-vector-free arithmetic.
* **C02 Base64 encoded form** — Same model; induction over 3-byte groups.
* **C03 Base64 decoding of hostile input** — Decoder model has an explicit outcome for an out-of-table index. Expected: false for bytes >= 0x80 where char is signed; counterexample plus _partial theorem for 7-bit input.
* **C04 URL encode/decode round trip** — Model/UrlCodec incl. strtol(…,16). Expected exact condition: no NUL byte. Round trip for NUL-free, counterexample otherwise.
* **C05 URL-encoded text is delimiter-free** — Same model; structural induction over the input.
* **C06 URL decoding is total and shrinking** — Same model; the model reads through bounds-checked access so that totality includes no out-of-range read.
* **C07 XML escaping is injection-safe and lossless** — Model/XmlEncode as pointer loop over NUL-terminated text; spec: independent un-escaper.
* **C08 XML escaping yields well-formed UTF-8** — Same; spec: RFC 3629 UTF-8 grammar. Expected false (overlong, surrogates): counterexample and partial (structural UTF-8).
* **C09 Fixed-width integer wire codecs** — Model/IntBytes over Nat/Int with explicit shifts and masks; arithmetic proofs. Expected: int24 fails for negatives.
* **C10 Floating point wire codecs** — Model/FloatBytes over exact dyadic rationals (no rounding): loops as in the code. Model/FloatApi: the six functions that programs call, with the conversion of the `long double` to the type that is returned, rounded as in IEEE 754. Partial: rounding of the FPU inside the loops is not modelled (there is none for `float` and `double`).
* **C11 HTTP parsing is independent of TCP segmentation** — Model/HttpParser: all state machines byte for byte. Proof: append law for each loop, then induction over the buffer list.
* **C12 The parser never over-reads: pipelined bytes survive** — Same append law gives 'rest ++ tail'; induction over the list of messages.
* **C13 Content-Length bodies are delivered exactly** — Closed-form theorem for consume_content by induction over buffers.
* **C14 Chunked transfer coding round trip** — Model/Writer chunk framing + parser; induction over chunk list.
* **C15 Oversized chunked bodies still terminate** — Expected false (bytes beyond the limit are not counted in the chunk): counterexample and partial (total <= max).
* **C16 Header size limits are enforced** — Invariant over the byte step of parse_headers.
* **C17 The parser always makes progress** — The do/while loop is modelled with fuel and an explicit 'diverged' outcome; theorem: never reached, and indeterminate implies empty rest.
* **C18 Parser reuse after reset** — Frame theorem: every field not touched by reset is dead (overwritten before use); simulation relation between reset parser and new parser.
* **C19 Byte accounting** — Counting lemma for every loop. Expected: fails on error returns; partial for non-error.
* **C20 Query string round trip** — Model/Query: make_query_string and parse_url_encoded; induction over pairs.
* **C21 Cookie header parsing** — Model/Cookie: the scanner; induction over pairs for well-formed headers; limits as invariant.
* **C22 Request line and headers round trip** — Model/Message write + parser; run the scanner state by state over the written text.
* **C23 URI splitting** — Model/Uri; find-first lemmas.
* **C24 X-Forwarded-For never yields a private address** — Model/ForwardedFor: the two regular expressions as hand-written leftmost greedy matchers (backtracking made explicit).
* **C25 Case-insensitive header dictionary** — Model/Dict: multimap as insertion ordered list with a parameter for the order of equal keys.
* **C26 Hash consistency of the dictionary** — Model/Dict: ihash as in the code over byte strings. Model/HashTable: the container itself with chains, growing at any time; refinement of the list of Model/Dict, which also shows that the order of values the other models take as a parameter is one the container has.
* **C27 Connection persistence decision** — Model/Reader: decision logic after parse.
* **C28 Writer output order and framing** — Model/Writer: buffers as list of byte strings; refinement to one byte sequence.
* **C29 Resource dispatch picks the most specific handler** — Model/Server: std::map as sorted list, backwards walk from upper_bound; spec: longest covering key.
* **C30 Plug-in lookup picks the most specific plug-in** — Model/PluginManager: expected false because of the early stop; counterexample and partial.
* **C31 Redirects are bounded** — Model/Server: loop with counter; spec: iterating the redirect map.
* **C32 Authentication gate** — Model/Server: trace of calls produced by handle_request.
* **C33 Restrict/permit semantics** — Model/Auth.
* **C34 Basic authentication soundness** — Model/BasicAuth: state machine with clock; invariant by induction over operations; stale-credential counterexample.
* **C35 Cookie session soundness** — Model/Auth: state machine with clock and an oracle for random bytes.
* **C36 User manager behaves as a map** — Model/UserManager; refinement to a function name -> Option password.
* **C37 Service configuration file** — Model/ServiceConfig: character state machine. Expected false for a last line without newline.
* **C38 Plug-in library reference counting** — Model/Plugin: heap of plug-in data and reference counts; invariant. Expected: self assignment violates.
* **C39 Plug-in manager owns its objects** — Model/PluginManager: ownership ledger; expected: duplicate add leaks.
* **C40 TCP server connection pool** — Model/TcpServer: event system; threads interleave at lock granularity.
* **C41 Scheduler shutdown waits for users** — Model/Scheduler: steps at lock granularity.
* **C42 Round-robin service selection** — Model/Scheduler: round robin counter.
* **C43 Connection timer** — Model/Timer.
* **C44 TCP stream is a faithful byte pipe** — Model/Stream: stream_buffer; refinement to a byte queue.
* **C45 File service stays inside its directory** — Model/FileService: path normalisation and the confinement test. Expected false (sibling directory sharing the prefix): counterexample and partial.
* **C46 File service methods** — Model/FileService: decision logic on abstract file system.
* **C47 File cache freshness** — Model/FileService: cache state machine with abstract file system history.
* **C48 File sender delivers the complete file** — Model/FileSender: loop of send/handle_write.
* **C49 Log ring buffer** — Model/LogRing; refinement to 'last n'. `Model/LogAnswers` adds the format of events and the response of the service; `log_received_partial` composes the buffer with the writer and the parser (C56).
* **C50 SPDY frames are parsed within their bounds** — Model/Spdy: reads through a bounds-checking accessor. Expected false: counterexamples and partial.
* **C51 Premature end of stream is detected** — Model/HttpParser + Reader: check_premature_eof.
* **C52 Missing data handling** — Model/HttpParser: parse_missing_data.
* **C53 Implied-empty responses** — Model/HttpParser: finish_header_parsing.
* **C54 Multipart form parsing** — Model/Multipart.
* **C55 First line** — Model/FirstLine: the cached line and every setter; invariant. Expected false for change_resource.
* **C56 Built-in responses** — Model/Responses: every handler as status, headers and writes; composed with the writer and the client's parser (C28, C13). Expected false for HEAD and the forbidden page.
* **C57 Request text in headers** — Same model; sendable if the text is a legal header value; witness for CR LF, computed from the request bytes through parser, authenticator, writer and client parser.
* **C58 Echo service** — Same model; composition of C22 (request), echo page, C28 (response).
* **C59 Administrative rights** — Model/AdminRights: objects, mutex and the process's ids; invariant over all histories. Expected false for ids above 32767.
* **C60 User and group to run as** — Same model: the lookup in the system file against a specification of its lines.
* **C61 Files of plug-ins** — Model/PluginFiles: the search over a file system given as a predicate on places (Spec/Path), the specification lists the candidates.
* **C62 Plug-in instances** — Model/PluginInstance: the pointer and the calls of create and destroy functions; invariant over sequences of `create`. Expected false after `reset` and failures.
* **C63 Copies of messages** — Model/ContentBuffer: blocks of memory, pointers and the members of the buffer class; refinement of a specification in which contents are values. Expected false for self-assignment.
* **C64 Dates** — Model/HttpDate: `gmtime` by counting years and months, `strftime` by interpreting the format; specification of the calendar by formula and of the text part by part. Composed with C47.
* **C65 Conversation** — Model/Conversation: server loop with its answers, client loop with one reader per request; composed from C27 (reader), C13-C15 (framing), C56 (replies), C14/C28 (answers in chunks, or up to the end of the connection: Lemmas/Answers). The lifecycle after an answer is the one the writer leaves. Induction over the list of requests; `Reads` (the bytes are one message whatever follows) is the interface between the wire and the loops. Requests after which the parser fails: `bad_request_partial`.
* **C66 PluginServer** — Model/PluginServer: composition of TcpServer (C40), PluginManager (C39) and Server (C29) with a trace of the calls services get; `clear` in four stages so that it can overlap with `stop`. Spec: an automaton for the life of a service (`Phase.next`). Three invariants (`Good`: threads and connections, `Objs`: who is registered, bound, destroyed, `Life`: the phase of every service), by induction over steps.
* **C67 HttpGrammar** — Spec/HttpGrammar: the language of heads as inductive relations, without parser states. Soundness (Lemmas/HttpGrammarSound): an invariant that relates each state of the header machine to a prefix of the grammar. Completeness (Lemmas/HttpGrammarComplete): the machine run on each construct. Unambiguity follows from both, since the machine is deterministic.
* **C68 HttpFraming** — Spec/HttpFraming: the language of bodies (length, chunks, trailers) as inductive relations. Acceptance: the chunk machine run on each construct (Lemmas/HttpFraming, HttpFramingRun). Soundness: an invariant relating each state of the chunk machine to a prefix of the grammar. Uniqueness follows from acceptance by a deterministic machine. Props/HttpUntilClose: bodies that last until the connection closes; soundness by the invariant that a parser past a head that announces the end of the body never comes to wait for the end of the connection.
* **C69 HttpRfc** — Spec/HttpRfc: the rules of RFC 7230, 3.3.3, written from the RFC. `follows_rfc_partial`: for heads about whose framing there is no doubt (`Plain`) the body of C68 is the one of the RFC; `accepts_rfc_partial` and `ends_as_rfc_partial` say it of the parser. Missing: the heads that are not `Plain`, for which the findings show that the property is false (also `coding_length_taken`). Bodies up to the end of the connection have no end inside the stream: Props/HttpUntilClose has them, `accepts_until_close_partial` and `closes_as_rfc_partial`.
* **C70 Process shutdown** — Model/Process: threads as stacks of calls, so that signal handlers run on top of them; mutex and condition variable with spurious wake-ups. Invariants: the mutex is had by the call that thinks so; a sleeping call without notification implies a notifier. Termination of all schedules by a measure; when nothing can go on no call is left. Expected false for a signal on the thread that has the mutex.
* **C71 Daemon** — Model/Process: descriptor table with lowest-free allocation.
* **C72 Command line of piond** — Model/Piond: the loop over the arguments. Spec/Piond: options, their arguments and their meaning, from the usage text. Both directions: what is rendered is understood, what is understood was rendered.
* **C73 Encrypted connections** — Model/Connection: the socket, the flag, and two logs of the data, through the SSL stream and past it; the server's connections with the phases accepting, shaking, handled. Induction over the operations; invariant over the histories of a server.
* **C74 Connecting by name** — Same model: the loop over the endpoints, with a log of those tried. Induction over the list.
* **C75 A server handles exactly the requests of a connection** — Model/HttpServer: the loop of reader and `handle_request` on one connection, with arbitrary tables, authenticator and state at each request. Spec/HttpServer: the requests of a stream by the grammar of C68 alone. Proof: reader = feeding the parser (C27), `message_sound`/`message_accepted` (C68), the invariant that a request parser never waits for the end of the connection, induction over the number of requests; then the gates of C32.
* **C76 Authentication by several threads** — Model/AuthThreads: every call of `handle_request` of basic_auth and cookie_auth split at its accesses to shared memory (user manager, lists, clock, clean-up time, cache mutex, generator); any number of calls, any interleaving with changes of users, lists and clock. Spec/AuthThreads: moments are beginnings of the observed sequence. Proof: an invariant with, for each place in a call, what was true at some moment of the call; for sessions the login that made the entry and the logouts decided since; rank function for the number of steps; the holder of the mutex can always move.
* **C77 A plug-in manager used by several threads** — Model/PluginThreads: every call of the manager split at its accesses to the map and the mutex, on top of Model/PluginManager; any number of calls, any interleaving. Spec/PluginThreads: linearizability (`Order`) with respect to the calls made one after another. Proof: the moment at which a call's locked section runs is its place in the order, kept as an invariant with the history; under `OneEach` the identifier of a `load` stays free from its look to its insertion; conservation of objects; the holder of the mutex can always step.
* **C78 The time limit for reads** — Model/ReadTimer: one connection over its whole life, the timers of Model/Timer for each read, callbacks at any moment; what the parser makes of the bytes is open. Spec/ReadTimer: words about the sequence of events (`WaitingSince`, `Arrived`, `Fired`), schedules in which everything is done at once (`Prompt`). Proof: an invariant with the history; every timer but the current one is cancelled, the current one belongs to the last call of `read_bytes_with_timeout`.
* **C79 What the file service answers is what its client receives** — `Model/FileAnswers` turns the outcomes of `Model/FileService` into calls on the writer, with the sender for files; `file_received` composes C48 (pieces), the writer (chunked, plain or up to the end) and the parser; `download_partial` adds the history of the cache (C47); `download_end_to_end_partial` starts from the bytes of the request. Everything else is a `Reply` that can be sent (C56).
* **C80 A started scheduler executes the work it is given, once and in order, and its threads neither end nor spin** — `Model/Workers`: the service (ready handlers, waits of the timer, pending operations, stopped flag) and the threads in `process_service_work` as a transition system. Invariant: while running there is a handler of the timer ready, waiting or in execution, so there is work (`started_serves`). FIFO by an invariant on two logs (`in_order`); progress (`served`, `shutdown_ends`, `idle_sleeps_partial`) by measures that every step of a worker decreases.
* **C81 Binary fields of a form can be recovered from their text, within the buffer** — `Model/DataUrl`: Boost's `transform_width` as a state machine over a reader, with reads outside the range as outcomes. Encoding and decoding by induction over groups of three bytes or four characters, for every position of the range; texts are classified by the first mark and by their padding.
* **C82 A server can be changed while it handles requests** — `Model/ServerThreads`: `handle_request` split at its accesses to the tables, with any number of calls and changes between. Invariant: what each call has seen was so at a moment while it was open; since redirects are never changed once added, the whole chain holds at its last moment.
* **C83 Files are sent to several clients while they change** — `Model/FileThreads`: `operator()` split at `m_cache_mutex` and at each call of the file system; the history of the file is kept, and each byte read may come from any version since the file was opened. Invariant over all runs: what is in the entry and in each call was so while a call was open, and a buffer is written by one call only, before any other can reach it.
* **C84 What a writer sends stays in memory until it is sent** — `Model/WriterMemory`: the writer with addresses instead of bytes, a heap of blocks that can be given back, and a connection that takes one byte at a time at any moment. Refinement: by an invariant the blocks hold what the writer with values (`Writer`) holds; counting shows that no block is given back twice and none is forgotten.
* **C85 Parameters, forms and cookies arrive as they were put in** — `Model/MessageBuild`: the functions that fill a message before it is sent. Composition: what is sent is of the grammar of C68 (`Lemmas/WireGrammar`), whose theorem gives the cookies and parameters of the parsed message; C20 and C21 undo their encoding; parsing cookies only adds to the table, so that the order of the headers does not matter.
* **C86 Servers that share a scheduler** — `Model/ServerLife`: any number of servers and threads, one scheduler; steps between the points at which mutexes are taken. Invariant: the counter of users is the number of servers that are started or being stopped; connections are alive only while their server listens or is being stopped. The ways to the end of `stop` are constructed by finishing the connections one by one.
* **C87 A SPDY session is seen as it was sent** — `Model/SpdyDecompressor`: the calls to zlib; zlib is a parameter, its promises are a structure with a compressor. Invariant: each of the two streams has read what the compressor of its side has written. Induction over the frames of a packet and over the packets.
* **C88 A session from login to logout, over the wire** — `Model/CookieAuth`: the object with seed, position of the generator and options, on top of `Model/Auth`. The object is one of the histories of C35 (`after_create`), with the bytes drawn; the way over the wire is that of C85 and C56. What identifiers there are follows from counting the draws.
* **C89 The code of a plug-in is loaded while its objects live** — `Model/PluginCode`: managers, `plugin_ptr`s and objects on top of the reference counted libraries of `Model/Plugin`, each call run to its end; objects remember who made them, and every call and destruction notes whether that code is loaded. Invariants over all histories: the slots in use are those of entries and pointers; each entry has the functions of the maker of its object.
* **C90 A page behind a password, from the question to the answer** — `Model/BasicSite`: the server of `Model/Server` with the authenticator of `Model/Auth` and the answers of `Model/Responses`. A client writes its question and the server reads it (C85), decides (C34) and calls (C29), the answer is written and read (C56): the theorems compose these.
* **C91 A directory of files on a web server, from the command line or the configuration file to the client** — `Model/FileSite`: the server as `main` of piond sets it up, composed of `Model/Piond` (C72), `Model/ServiceConfig` (C37), `Model/Server` (C29), `Model/Auth` (C34), `Model/FileService` (C47) and `Model/FileAnswers` (C79). `Spec/FileSite` says what a configuration means and what can happen to a running site; `Downloads` and `Refuses` say what a client gets.
* **C92 Errors are reported with what went wrong and the name it went wrong with** — `Model/Errors`: the exception classes with the information attached to them and the text that is made once, all statements of the library that throw, and for the calls of C37, C39, C72 and C91 which exception they throw (`fileOption_none`, `manager_report`, `fatal_iff`: exactly if those models say that they fail). `Spec/Errors` says what has to be reported, and what can be wrong with a command.
* **C93 A server listens where it was told** — `Model/Listen`: endpoint, acceptor and `m_is_listening` of each server of a process, the user of the process (`Model/AdminRights`), and a log of the system calls with the user that makes them. `Spec/Listen` reads from the log where a server listens, how many sockets it has and whether a start has failed, and from the calls what the server was told. One invariant relates each server to the log.
* **C94 The answers on a connection do not mix** — `Model/Exchange`: what a handler does with the connection is a tree of sends, finishes and throws; the state is the readers, writes and calls under way and the bytes sent; steps interleave freely. `Spec/Exchange` says what an orderly handler is. One invariant says which one thing is going on, another that calls holding the mutex never need it.
* **C95 Connections do not disturb one another, and stop waits for the answers** — `Model/Host`: any number of connections of `Model/Exchange` that share `m_is_listening`, the mutex and the pool. The steps projected to one connection are steps that it can do alone; conversely its own steps can be done in the server if no other holds the mutex, so first the one that holds it and then the others are brought to rest.
* **C96 A message can be read in two steps: its head first, its body later** — `Model/HeadFirst`: the two calls. The two states agree up to query parameters, cookies, the mark, the status and `lastRead`; no step behind the head reads these (`Lemmas/HeadFirst`), except the end of a form, which appends to the query parameters.
* **C97 The raw headers that a parser saves are the bytes of the head** — `Spec/RawHeaders`: saved exactly or with one more byte; trailers in terms of the grammar of C67. `Lemmas/RawHeaders`: each step of the header machine appends its byte; the chunk machine and the body leave the raw headers alone; the split of the stream comes from the soundness and completeness of the grammar.
* **C98 Services that throw when they are started or stopped** — `Model/ServiceFaults`: the server as a sequence of calls, with an oracle that says which call of a service throws. `Spec/ServiceFaults`: the last event of a service. Invariant `Good` over all histories; `Rests` for servers that do not listen.
* **C99 Why the head of a message is refused** — `Spec/HttpRefusal`: `Viable` (some head of the grammar begins so) and `Cause` (what is wrong with the next byte). The prefix invariant of C67 gives the cause of every refusal; from every state of the header machine a head can be completed (`completes`); every cause is reached by a run (`cause_fails`). `Model/ErrorText`: the texts.
* **C100 Why a message is refused after its head, and why no other error exists** — `Spec/HttpRefusalBody`: `BodyViable`, `ChunkCause` (seven reasons), `BodyCause` (with the trailers, whose causes are those of C99), `Overfull`. The prefix invariant of C68 gives the cause of every refusal (`cat_fail`, `sect_fail`); the other direction runs the machine over the grammar; `runs_fate` joins the passes of the main loop.
* **C101 Blocking calls receive what readers receive** — `Spec/Blocking`: `calls` (a program that makes blocking calls), `Agree` (one call and one reader). `Lemmas/HttpErrors`: `parse` sets the error code exactly if it returns false. Induction over the reads shows that the loop of the call and the steps of the reader agree; `serve` of C27 then gives the messages.
* **C102 A message that was received can be sent on** — `PassedOn`: `transmit` of the message object, read by any next parser, gives `SameMessage` (C22). By C68 the received bytes are a message of the grammar; first line and headers of the grammar satisfy the conditions for writing; an invariant of the parser (`Lemmas/Forward`) says that every cookie is made of characters of a cookie header and no longer than it, and that the flag against sending the length is untouched. Induction over the hops: a message without cookies that was received can be written again (`received_writable`), so the step theorem applies after every hop (`hops_same_partial`).
* **C103 A client made of blocking calls and a server understand one another** — `Model/Dialogue`: both ends in turn, with the functions of C22 (`transmit`), C75 (`receive`, `respond`) and C101 (`syncReceive`), and what was not read kept for the next round. One round by C65 (`request_reads`, `answer_reads_by`) and C101 (a blocking call does what a reader does); induction over the requests with the invariant that nothing is pending at either end.
* **C104 Files behind a login page, from the configuration file to the client** — `Model/FileSite` extended by authenticators with cookies (`Model/CookieAuth`, C88). `Spec/CookieSite`: what happens to the site step by step, and who has a session. `LoginWorks` by C88 (`login_by_query`, `login_by_form`: the session starts), C65 (requests that are sent are read as valid) and C91 (`served_file`); `OthersDenied` by C35 (`cookie_no_session`) and an induction over sessions back to their login (`session_login`).
* **C105 The memory that one message takes** — `Spec/HttpMemory`: what is counted. An invariant of the parser with the number of bytes read as ghost variable (`Lemmas/HttpMemoryRun`), over the loops of the headers, chunks and content, with potentials for the header being read; lemmas for query strings, cookies and multipart forms (`Lemmas/HttpMemory`, `Lemmas/HttpMemoryForm`).
* **C106 What the text of a query says** — `Spec/Query` divides the text as a whole (`splitOn`, `takeWhile`). Induction over the text with the pairs still to be added as a function of the state of the loop (`Lemmas/QueryMeaning`). Of a refused text, `refused_exact` tells what had been added: induction from the end shows which name the loop holds where it stops. `PostedForm`, `PostedPairs`: whole requests, whose content is sent with its length or in chunks (`Spec/Posted`), from the bytes to the parameters (also for C54).
* **C107 The program helloserver** — `Model/HelloServer` adds the pending writes to the model of the TCP server (C40). Invariant over all traces (`Lemmas/HelloServer`): what was sent is the beginning of the greeting, connections are not abandoned, so that none is orphaned; a measure for the progress.
* **C108 What the text of a cookie header says** — `Spec/CookieText` is a grammar of all texts. Induction over how a text is read, with one lemma for each part of an entry that says what the loop does over it, accepted or not (`Lemmas/CookieText`).
* **C109 Comparing files in tests** — Streams as what is left to read; `read` and `getline` with the order in which the standard looks for the end of the file, the delimiter and the end of the buffer. Induction on the length of the file; sorted lists are equal exactly if they are permutations of each other (`Lemmas/TestFiles`).
* **C110 Several threads write the log of a test** — Each call is one step; invariant: the output is the text of whole entries and of the open one, and the division of the entries among the threads is what their own calls say.
* **C111 Whatever is posted as a form, nothing is invented** — The model of C54. `Spec/FormBody` tells what an honest entry is, by positions in the body. Induction on the steps of the loop, with the place where the next stretch can begin.
* **C112 How long threads sleep, and how long stop waits for connections that are gone** — `Model/Sleep`: the clock is any function of the moment; sleeping and waiting are relations between the moments of call and return, with signals and spurious wakeups at any moments; the loop of `stop` as an inductive relation.
