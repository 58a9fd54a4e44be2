{"id": "C01", "title": "Base64 round trip", "statement": "algorithm::base64_decode applied to the output of algorithm::base64_encode succeeds and returns exactly the original bytes.", "quantifier": "every byte string of every length (all 256 byte values)", "why_tests_cant": "Tests check a handful of strings; the three length classes mod 3 interact with every byte value and padding at every length.", "anchors": ["src/algorithm.cpp:base64_encode", "src/algorithm.cpp:base64_decode"]}
{"id": "C02", "title": "Base64 encoded form", "statement": "base64_encode output has length 4*ceil(n/3), uses only the 64 alphabet characters followed by 0-2 '=' whose number is determined by n mod 3, so it is safe to place in a header.", "quantifier": "every byte string", "why_tests_cant": "Needs all lengths and byte values; a wrong pad count shows only for particular residues.", "anchors": ["src/algorithm.cpp:base64_encode"]}
{"id": "C03", "title": "Base64 decoding of hostile input", "statement": "base64_decode never reads outside its lookup table or its input whatever bytes a client sends in an Authorization header, and rejects input containing a byte outside the alphabet before the first '='.", "quantifier": "every byte string, including bytes >= 0x80 and truncated groups", "why_tests_cant": "The failing inputs are particular byte values at particular offsets in an unbounded input space.", "anchors": ["src/algorithm.cpp:base64_decode"]}
{"id": "C04", "title": "URL encode/decode round trip", "statement": "algorithm::url_decode(algorithm::url_encode(s)) == s.", "quantifier": "every byte string s; exact characterisation of the strings for which it holds", "why_tests_cant": "Only special byte values (NUL) break it and at any position; sampling misses them.", "anchors": ["src/algorithm.cpp:url_encode", "src/algorithm.cpp:url_decode"]}
{"id": "C05", "title": "URL-encoded text is delimiter-free", "statement": "url_encode output consists only of printable ASCII without any of the delimiters & = ? # + / ; : space quotes or control characters; '%' occurs only as the start of a %XX triple of two upper-case hex digits.", "quantifier": "every byte string", "why_tests_cant": "A universal statement over all 256 byte values in every position.", "anchors": ["src/algorithm.cpp:url_encode"]}
{"id": "C06", "title": "URL decoding is total and shrinking", "statement": "url_decode never reads outside its argument, never grows the text, decodes '+' to space and every valid %XX (other than %00) to its byte and leaves text without '%' and '+' unchanged.", "quantifier": "every byte string, including truncated and malformed escapes at the end", "why_tests_cant": "Boundary reads occur only for escapes at the very end of arbitrary strings.", "anchors": ["src/algorithm.cpp:url_decode"]}
{"id": "C07", "title": "XML escaping is injection-safe and lossless", "statement": "xml_encode output contains no raw < > \" ' and no & other than the start of one of the five entities; it contains no control characters besides tab, LF, CR; and un-escaping the output gives back the input whenever the input is well-formed UTF-8 text.", "quantifier": "every byte string, including malformed UTF-8 and truncated multi-byte sequences", "why_tests_cant": "An attacker picks the input; a single byte combination leaking through is a script injection in the server's error pages.", "anchors": ["src/algorithm.cpp:xml_encode", "src/http_server.cpp:handle_not_found_request"]}
{"id": "C08", "title": "XML escaping yields well-formed UTF-8", "statement": "xml_encode output is always well-formed UTF-8.", "quantifier": "every byte string", "why_tests_cant": "The exceptions (overlong forms, surrogates) are a few of millions of byte triples.", "anchors": ["src/algorithm.cpp:xml_encode"]}
{"id": "C09", "title": "Fixed-width integer wire codecs", "statement": "to_intN(from_intN(x)) == x and to_uintN(from_uintN(x)) == x for N in 8,16,24,32,64, and the byte order is big-endian.", "quantifier": "every value of every width (signed and unsigned)", "why_tests_cant": "2^64 values; sign-extension errors occur on half of the domain only.", "anchors": ["include/pion/algorithm.hpp:to_uint8 .. from_int64"]}
{"id": "C10", "title": "Floating point wire codecs", "statement": "float/double/long double byte encodings terminate and decode back to the encoded value.", "quantifier": "every finite value, zero, infinities and NaN", "why_tests_cant": "Whole-domain statement incl. subnormals and specials; non-termination cannot be tested.", "anchors": ["src/algorithm.cpp:float_from_bytes", "src/algorithm.cpp:float_to_bytes", "include/pion/algorithm.hpp:to_float", "include/pion/algorithm.hpp:from_float", "include/pion/algorithm.hpp:to_double", "include/pion/algorithm.hpp:from_double", "include/pion/algorithm.hpp:to_long_double", "include/pion/algorithm.hpp:from_long_double"]}
{"id": "C11", "title": "HTTP parsing is independent of TCP segmentation", "statement": "Feeding a byte stream to http::parser in any sequence of buffers gives the same parse result, error code, message contents and number of consumed bytes as feeding it in one buffer.", "quantifier": "every byte stream and every way of cutting it into buffers, requests and responses", "why_tests_cant": "The number of segmentations is exponential, and every internal state can be the cut point.", "anchors": ["src/http_parser.cpp:parse", "src/http_parser.cpp:parse_headers", "src/http_parser.cpp:parse_chunks", "src/http_parser.cpp:consume_content"]}
{"id": "C12", "title": "The parser never over-reads: pipelined bytes survive", "statement": "When the parser reports a complete message, the unread part of the buffer is exactly the bytes after that message, so that following pipelined messages are parsed as if they had been sent alone.", "quantifier": "every first message, every byte string following it", "why_tests_cant": "Must hold for every message type, body framing and follow-up stream.", "anchors": ["src/http_parser.cpp:parse", "src/http_parser.cpp:consume_content", "src/http_parser.cpp:parse_chunks", "src/http_reader.cpp:consume_bytes"]}
{"id": "C13", "title": "Content-Length bodies are delivered exactly", "statement": "For a message with Content-Length N (and no chunked encoding) the delivered content is exactly the N bytes after the headers (cut to the configured maximum), the message finishes at the N-th byte, not before, and no byte after it is touched.", "quantifier": "every N up to 2^64-2 (what happens at 2^64-1 is stated as well), every maximum, every body and every following byte stream, every segmentation", "why_tests_cant": "Off-by-one needs body lengths around arbitrary buffer borders and limits.", "anchors": ["src/http_parser.cpp:finish_header_parsing", "src/http_parser.cpp:consume_content"]}
{"id": "C14", "title": "Chunked transfer coding round trip", "statement": "A body written chunk by chunk with http::writer (send_chunk / send_final_chunk) is reassembled by http::parser into exactly the concatenation of the chunks.", "quantifier": "every list of chunks (every size, all byte values), every segmentation of the wire bytes", "why_tests_cant": "Infinite family; hex length formatting, CRLF placement and the terminating chunk interact.", "anchors": ["include/pion/http/writer.hpp:send_chunk", "src/http_writer.cpp:prepare_write_buffers", "src/http_parser.cpp:parse_chunks"]}
{"id": "C15", "title": "Oversized chunked bodies still terminate", "statement": "A chunked message longer than the configured maximum content length is truncated to the maximum, but the message still completes at its terminating chunk.", "quantifier": "every chunk list and maximum content length", "why_tests_cant": "Needs bodies crossing the limit at every offset within a chunk.", "anchors": ["src/http_parser.cpp:parse_chunks", "src/http_parser.cpp:consume_content_as_next_chunk"]}
{"id": "C16", "title": "Header size limits are enforced", "statement": "No parsed method, resource, query string, status message, header name or header value ever exceeds its documented maximum; exceeding input makes parsing fail with the specific error, so memory used per message head is bounded field-wise.", "quantifier": "every byte stream, every segmentation", "why_tests_cant": "Unbounded attacker-controlled input; limits must hold in every state.", "anchors": ["src/http_parser.cpp:parse_headers", "src/http_parser.cpp:METHOD_MAX..HEADER_VALUE_MAX"]}
{"id": "C17", "title": "The parser always makes progress", "statement": "http::parser::parse terminates on every buffer, and whenever it wants more data (indeterminate result) it has consumed the whole buffer it was given.", "quantifier": "every reachable parser state and every buffer", "why_tests_cant": "A stuck state (busy loop, lost bytes) is only reachable by particular prefixes.", "anchors": ["src/http_parser.cpp:parse"]}
{"id": "C18", "title": "Parser reuse after reset", "statement": "A parser that is reset behaves on the next message exactly like a newly constructed parser with the same configuration, whatever it parsed before.", "quantifier": "every history of parse calls followed by reset, every subsequent stream", "why_tests_cant": "A left-over field matters only after particular prior messages.", "anchors": ["include/pion/http/parser.hpp:reset"]}
{"id": "C19", "title": "Byte accounting", "statement": "gcount()/get_total_bytes_read() equal the number of bytes taken from the buffers.", "quantifier": "every sequence of buffers", "why_tests_cant": "Discrepancies occur only on particular return paths.", "anchors": ["src/http_parser.cpp:parse", "include/pion/http/parser.hpp:gcount"]}
{"id": "C20", "title": "Query string round trip", "statement": "parse_url_encoded(make_query_string(params)) succeeds and yields exactly the same name/value pairs.", "quantifier": "every list of name/value pairs over all byte values within the size limits", "why_tests_cant": "Combination of escaping and splitting over arbitrary bytes.", "anchors": ["src/http_types.cpp:make_query_string", "src/http_parser.cpp:parse_url_encoded"]}
{"id": "C21", "title": "Cookie header parsing", "statement": "A Cookie header n1=v1; n2=v2; ... is parsed into exactly the listed pairs; quoted values are unquoted; RFC2109 attributes ($Path ...) are ignored; every parsed name and value respects the limits.", "quantifier": "every list of legal cookie names and values", "why_tests_cant": "Unbounded strings with a multi-state scanner.", "anchors": ["src/http_parser.cpp:parse_cookie_header", "src/http_types.cpp:make_set_cookie_header"]}
{"id": "C22", "title": "Request line and headers round trip", "statement": "A request or response written by message::write and read back by message::read has the same method, resource, query, version, status, headers and content.", "quantifier": "every message whose fields satisfy the HTTP grammar", "why_tests_cant": "Infinite family of messages; each field passes a separate state of the scanner.", "anchors": ["include/pion/http/message.hpp:append_headers", "include/pion/http/request.hpp:update_first_line", "include/pion/http/response.hpp:update_first_line", "src/http_message.cpp:write", "src/http_message.cpp:read"]}
{"id": "C23", "title": "URI splitting", "statement": "parse_uri on scheme://host[:port]/path[?query] returns those components; re-assembling them yields the URI.", "quantifier": "every scheme, host, port, path and query of the permitted alphabets", "why_tests_cant": "Infinite family and several scanner states.", "anchors": ["src/http_parser.cpp:parse_uri"]}
{"id": "C24", "title": "X-Forwarded-For never yields a private address", "statement": "parse_forwarded_for only returns an address which occurs in the header and is outside 10/8, 192.168/16 and 127/8 (and 172.16/12 as far as the code checks), and returns the first such address.", "quantifier": "every header value", "why_tests_cant": "Attacker-controlled unbounded text.", "anchors": ["src/http_parser.cpp:parse_forwarded_for"]}
{"id": "C25", "title": "Case-insensitive header dictionary", "statement": "get_header/has_header/change_header/delete_header/add_header behave as a case-insensitive multi-map: after change_header(k,v) exactly one entry matches k in any letter case, others are untouched; after delete_header none.", "quantifier": "every dictionary, key and value", "why_tests_cant": "Needs all spellings of keys and all prior contents.", "anchors": ["include/pion/http/message.hpp:get_value", "include/pion/http/message.hpp:change_value", "include/pion/http/message.hpp:delete_value", "include/pion/hash_map.hpp:iequal_to"]}
{"id": "C26", "title": "Hash consistency of the dictionary", "statement": "Keys that compare equal (iequal_to) hash equally (ihash), so lookups never miss an entry: after any insertions, changes, deletions and reorganisations of the table, lookups find exactly the entries under the key in any letter case, and iteration visits every entry once.", "quantifier": "every pair of strings; every sequence of operations on a table, growing at any time", "why_tests_cant": "All pairs of strings.", "anchors": ["include/pion/hash_map.hpp:ihash", "include/pion/hash_map.hpp:iequal_to"]}
{"id": "C27", "title": "Connection persistence decision", "statement": "After a message is received the connection is marked keep-alive/pipelined only if the message allows it (HTTP/1.1 or later, no 'Connection: close'), pipelined iff unread bytes remain; otherwise it is closed after the response.", "quantifier": "every message version/header combination and every rest of buffer", "why_tests_cant": "Whole decision table combined with all parser end states.", "anchors": ["src/http_message.cpp:receive", "src/http_reader.cpp:consume_bytes", "include/pion/http/message.hpp:check_keep_alive"]}
{"id": "C28", "title": "Writer output order and framing", "statement": "The bytes http::writer puts on the wire are the headers exactly once followed by the payload in the order of the write calls, with Content-Length equal to the number of payload bytes for a non-chunked message.", "quantifier": "every sequence of write / write_no_copy / send calls", "why_tests_cant": "Interleavings of copied and no-copy buffers are unbounded.", "anchors": ["include/pion/http/writer.hpp", "src/http_writer.cpp:prepare_write_buffers", "include/pion/http/response_writer.hpp:prepare_buffers_for_send"]}
{"id": "C29", "title": "Resource dispatch picks the most specific handler", "statement": "The server dispatches a request to the handler registered for the longest registered path that equals the resource or is followed by '/', and answers 404 iff no such path is registered.", "quantifier": "every set of registered resources and every requested resource", "why_tests_cant": "The lexicographic search interacts with all registered strings.", "anchors": ["src/http_server.cpp:find_request_handler", "src/http_server.cpp:add_resource"]}
{"id": "C30", "title": "Plug-in lookup picks the most specific plug-in", "statement": "plugin_manager::find returns the plug-in registered for the longest identifier that equals the resource or is followed by '/'.", "quantifier": "every set of identifiers and every resource", "why_tests_cant": "The early-stop heuristic fails only for special neighbour sets.", "anchors": ["include/pion/plugin_manager.hpp:find"]}
{"id": "C31", "title": "Redirects are bounded", "statement": "Request handling follows at most MAX_REDIRECTS (10) redirects, terminates for cyclic redirect tables with a server error, and otherwise delivers the end of the redirect chain.", "quantifier": "every redirect table and requested resource", "why_tests_cant": "Cycles of any length and any entry point.", "anchors": ["src/http_server.cpp:handle_request"]}
{"id": "C32", "title": "Authentication gate", "statement": "With an authenticator installed, a request handler runs only if the (redirected) resource needs no authentication or the authenticator accepted the request; otherwise no handler runs.", "quantifier": "every server configuration, request and authenticator state", "why_tests_cant": "Security statement over all configurations.", "anchors": ["src/http_server.cpp:handle_request", "src/http_auth.cpp:need_authentication"]}
{"id": "C33", "title": "Restrict/permit semantics", "statement": "A resource needs authentication iff users exist, a restricted path covers it (equal or followed by '/') and no permitted path covers it.", "quantifier": "every restrict list, white list and resource", "why_tests_cant": "The set lookup is a lexicographic scan, all sets matter.", "anchors": ["src/http_auth.cpp:need_authentication", "src/http_auth.cpp:find_resource"]}
{"id": "C34", "title": "Basic authentication soundness", "statement": "Basic authentication succeeds only with credentials of a registered user whose password matched (now, or within the cache life time); without a valid Authorization header a protected resource is answered 401.", "quantifier": "every history of requests, user changes and clock readings", "why_tests_cant": "Depends on the history of cached credentials and on time.", "anchors": ["src/http_basic_auth.cpp:handle_request", "src/http_basic_auth.cpp:expire_cache", "include/pion/user.hpp:get_user"]}
{"id": "C35", "title": "Cookie session soundness", "statement": "A protected resource is served under cookie authentication only when the presented session cookie was issued at a login with correct credentials, has not been logged out, and has been used within the expiry time.", "quantifier": "every history of logins, logouts, requests and clock readings", "why_tests_cant": "Depends on unbounded histories.", "anchors": ["src/http_cookie_auth.cpp:handle_request", "src/http_cookie_auth.cpp:process_login", "src/http_cookie_auth.cpp:expire_cache"]}
{"id": "C36", "title": "User manager behaves as a map", "statement": "user_manager add/update/remove/get behave as a finite map from names to passwords: get_user(name,pw) succeeds iff the last successful operation on name left it present with password pw; empty()/locked state consistent.", "quantifier": "every sequence of operations", "why_tests_cant": "Unbounded histories.", "anchors": ["include/pion/user.hpp:user_manager"]}
{"id": "C37", "title": "Service configuration file", "statement": "load_service_config applies exactly the commands written in the file, in order, and rejects malformed ones; comments and blank lines have no effect.", "quantifier": "every configuration file text", "why_tests_cant": "Unbounded text; the last line / comment boundaries are special.", "anchors": ["src/http_plugin_server.cpp:load_service_config"]}
{"id": "C38", "title": "Plug-in library reference counting", "statement": "A loaded plug-in library stays loaded while any plugin object refers to it and is closed exactly when the last reference goes; statically linked plug-ins are never unloaded; no object ever refers to a closed library.", "quantifier": "every sequence of open/copy/assign/close operations on any number of plugin objects", "why_tests_cant": "Use-after-unload needs specific interleavings of operations.", "anchors": ["src/plugin.cpp:open", "src/plugin.cpp:release_data", "src/plugin.cpp:grab_data"]}
{"id": "C39", "title": "Plug-in manager owns its objects", "statement": "Every plug-in object handed to plugin_manager is destroyed exactly once, by remove/replace/clear, and never while still registered. A function run over the plug-ins, or a statistic asked of them, reaches each registered object once.", "quantifier": "every sequence of add/load/remove/replace/clear", "why_tests_cant": "Leaks/double frees need specific sequences.", "anchors": ["include/pion/plugin_manager.hpp"]}
{"id": "C40", "title": "TCP server connection pool", "statement": "Every accepted connection is either in the pool or finished; stop() returns only when the pool is empty or only orphans remain; get_connections() equals the number of connections being served; after stop no connection is kept alive.", "quantifier": "every interleaving of accept, finish, prune, start and stop events", "why_tests_cant": "Schedules are unbounded.", "anchors": ["src/tcp_server.cpp"]}
{"id": "C41", "title": "Scheduler shutdown waits for users", "statement": "scheduler::shutdown completes only when the number of remove_active_user calls equals the number of add_active_user calls; the scheduler is running while it has users.", "quantifier": "every interleaving of add/remove/startup/shutdown steps", "why_tests_cant": "Race windows.", "anchors": ["src/scheduler.cpp:add_active_user", "src/scheduler.cpp:shutdown"]}
{"id": "C42", "title": "Round-robin service selection", "statement": "one_to_one_scheduler::get_io_service always returns a valid pool entry and over any n consecutive calls (n threads) uses each service once.", "quantifier": "every thread count and number of calls", "why_tests_cant": "All residues and histories incl. thread count changes.", "anchors": ["include/pion/scheduler.hpp:one_to_one_scheduler::get_io_service"]}
{"id": "C43", "title": "Connection timer", "statement": "A timer cancels its connection only if it expired before being cancelled; a cancelled timer never cancels the connection, and does not keep it: no wait is pending any more.", "quantifier": "every interleaving of start, cancel and expiry", "why_tests_cant": "Race between expiry and cancel.", "anchors": ["src/tcp_timer.cpp"]}
{"id": "C44", "title": "TCP stream is a faithful byte pipe", "statement": "Bytes written to tcp::stream with put/write/flush are sent in order without loss or duplication, and reads return the received bytes in order; up to 10 characters may be put back.", "quantifier": "every sequence of writes/flushes/reads and every way the network splits transfers", "why_tests_cant": "Buffer-boundary cases at every offset.", "anchors": ["include/pion/tcp/stream.hpp:stream_buffer"]}
{"id": "C45", "title": "File service stays inside its directory", "statement": "FileService only reads, writes or deletes files inside the configured directory (or the configured file).", "quantifier": "every request path, including encoded '..' segments", "why_tests_cant": "Attacker-controlled path; traversal needs special paths and sibling directory names.", "anchors": ["services/FileService.cpp:operator()", "include/pion/http/plugin_service.hpp:get_relative_resource"]}
{"id": "C46", "title": "File service methods", "statement": "Without the writable option no request modifies the file system; unsupported methods are answered 501, disallowed ones 405; GET/HEAD never modify.", "quantifier": "every request and configuration", "why_tests_cant": "Whole decision table.", "anchors": ["services/FileService.cpp:operator()"]}
{"id": "C47", "title": "File cache freshness", "statement": "With cache=1 a GET returns content of the file as of a version with the current size and modification time; with cache=0 the current content; 304 is only answered if the If-Modified-Since text equals the current timestamp.", "quantifier": "every history of file changes and requests", "why_tests_cant": "Unbounded histories.", "anchors": ["services/FileService.cpp:operator()", "services/FileService.cpp:checkUpdated"]}
{"id": "C48", "title": "File sender delivers the complete file", "statement": "DiskFileSender sends exactly the bytes of the file in order, in pieces not larger than max_chunk_size, and finishes the connection exactly once.", "quantifier": "every file length and chunk size, every write outcome", "why_tests_cant": "All residues of length modulo chunk size.", "anchors": ["services/FileService.cpp:DiskFileSender::send", "services/FileService.cpp:DiskFileSender::handle_write"]}
{"id": "C49", "title": "Log ring buffer", "statement": "LogServiceAppender keeps exactly the last max_events log strings in order; a client that asks LogService for the log receives exactly these, as text/plain, one line for each event.", "quantifier": "every sequence of log strings and limit changes", "why_tests_cant": "Unbounded histories.", "anchors": ["services/LogService.cpp:addLogString", "services/LogService.cpp:writeLogEvents", "services/LogService.cpp:LogService::operator()"]}
{"id": "C50", "title": "SPDY frames are parsed within their bounds", "statement": "spdy::parser reads only bytes of the packet it was given and reports the frame fields stored big-endian in the packet.", "quantifier": "every packet", "why_tests_cant": "Hostile lengths.", "anchors": ["src/spdy_parser.cpp"]}
{"id": "C51", "title": "Premature end of stream is detected", "statement": "If the peer closes the connection inside a message the reader reports an error unless the message is delimited by the close itself (no content length, not chunked), in which case the content is everything received.", "quantifier": "every message prefix", "why_tests_cant": "All prefixes of all messages.", "anchors": ["include/pion/http/parser.hpp:check_premature_eof", "src/http_parser.cpp:finish", "src/http_reader.cpp:handle_read_error"]}
{"id": "C52", "title": "Missing data handling", "statement": "After lost bytes (parse_missing_data) the message is flagged PARTIAL/TRUNCATED, never OK; the delivered content keeps its length and positions.", "quantifier": "every position and length of the gap", "why_tests_cant": "Gap position/length product.", "anchors": ["src/http_parser.cpp:parse_missing_data", "src/http_parser.cpp:compute_msg_status"]}
{"id": "C53", "title": "Implied-empty responses", "statement": "Responses to HEAD and 1xx/204/205/304 responses are complete at the end of the headers whatever their headers claim.", "quantifier": "every such response", "why_tests_cant": "All status/method/header combinations.", "anchors": ["include/pion/http/response.hpp:is_content_length_implied", "src/http_parser.cpp:finish_header_parsing"]}
{"id": "C54", "title": "Multipart form parsing", "statement": "parse_multipart_form_data returns the fields of a well-formed multipart/form-data body in order: fields with a text type or no type verbatim, other fields as base64 text; parts without a name are skipped. For every body it terminates and never reads outside the body.", "quantifier": "every list of fields, every boundary not occurring in the data", "why_tests_cant": "Unbounded text with a multi-state scanner.", "anchors": ["src/http_parser.cpp:parse_multipart_form_data"]}
{"id": "C55", "title": "The first line sent is current", "statement": "The first line of a message (request line or status line) that is sent or returned is always made of the current method, resource, query string, version and status, whatever setters were called before and however often the line was read in between.", "quantifier": "every sequence of setter and getter calls", "why_tests_cant": "The line is cached; every order of calls must invalidate it.", "anchors": ["include/pion/http/message.hpp:get_first_line", "include/pion/http/request.hpp:change_resource", "include/pion/http/response.hpp:update_first_line"]}
{"id": "C56", "title": "Built-in responses arrive whole and cannot be injected into", "statement": "The pages the server and its authenticators make up themselves (400, 401, 403, 404, 405, 500) are received by the client of a request as exactly one response with the intended status, reason, headers and page, leaving the connection in step for the next response; text taken from the request or from an error never adds HTML markup to the page.", "quantifier": "every request (any method, resource, version), error text, segmentation of the stream and following bytes", "why_tests_cant": "The page contains request text of any content and length, and the framing must match the body for every one of them and for every request method.", "anchors": ["src/http_server.cpp:handle_bad_request", "src/http_server.cpp:handle_not_found_request", "src/http_server.cpp:handle_server_error", "src/http_server.cpp:handle_forbidden_request", "src/http_server.cpp:handle_method_not_allowed", "src/http_basic_auth.cpp:handle_unauthorized"]}
{"id": "C57", "title": "Request text in response headers stays in its header", "statement": "When a handler of the library copies text of a request into a response header (redirection target after login or logout, cookie name and value), the client receives exactly the headers the handler set and one response; the text cannot end the header, add headers or start another response.", "quantifier": "every request, every query parameter value, every cookie", "why_tests_cant": "An attacker chooses the text; every byte sequence matters.", "anchors": ["src/http_cookie_auth.cpp:process_login", "src/http_cookie_auth.cpp:handle_redirection", "services/CookieService.cpp:operator()", "src/http_types.cpp:make_set_cookie_header"]}
{"id": "C58", "title": "The echo service returns the request", "statement": "A request sent to the echo service comes back in the page the client receives: method, resources, query string, version, every header, query parameter and cookie, and the content byte for byte.", "quantifier": "every well-formed request with any content, both streams cut in any way", "why_tests_cant": "It ranges over all requests and segmentations, and passes through the writer, both parsers and the service.", "anchors": ["services/EchoService.cpp:operator()", "include/pion/http/writer.hpp:send", "src/http_parser.cpp:parse"]}
{"id": "C59", "title": "Administrative rights are held by one object at a time and given back", "statement": "Objects that obtain administrative rights for the process exclude each other: while one has the rights the others wait, and the process runs as the administrator exactly then. When the object releases the rights or is destroyed, the process runs as the same user as before. A process that may not become the administrator goes on unchanged and no lock is left held.", "quantifier": "all user ids of the process, all sequences of constructions and releases of such objects by any number of threads", "why_tests_cant": "A test runs as one user with one id; the loss of the upper bits of a user id only shows for ids that no test machine has, and exclusion depends on the order of the threads' steps.", "anchors": ["src/admin_rights.cpp: admin_rights::admin_rights, admin_rights::release", "include/pion/admin_rights.hpp: admin_rights", "src/tcp_server.cpp: server::start"]}
{"id": "C60", "title": "The process runs as the user and group it was told to", "statement": "A name or a number given for the user or group to run as is resolved to the id that the system's file of users or groups has for it, in its first entry with that name. The process then runs as that user or group, or the caller is told that it does not.", "quantifier": "all names, all contents of the files, all ids of the process", "why_tests_cant": "It depends on the content of system files (empty fields, missing entries, large ids) that a test machine has in one form only.", "anchors": ["src/admin_rights.cpp: admin_rights::find_system_id, admin_rights::run_as_user, admin_rights::run_as_group"]}
{"id": "C61", "title": "The file loaded for the name of a plug-in", "statement": "The file used for a name is the first regular file among: the name itself, the name with the extension, then both in each plug-in directory in the order they were added; none is found only if none of these exists. For a plain name the file lies in the current directory or a plug-in directory and has that name. Every name in the list of all plug-ins is one that can be found, and the list has all the files with the extension.", "quantifier": "all file systems, directory lists and names", "why_tests_cant": "It ranges over all contents of the file system and all names, with dots, slashes and existing or missing files in any combination.", "anchors": ["src/plugin.cpp: find_file, check_for_file, get_plugin_name, get_all_plugin_names, add_plugin_directory"]}
{"id": "C62", "title": "A plug-in instance held by a smart pointer is destroyed once", "statement": "Every instance made through a plug-in instance pointer is destroyed exactly once, by the plug-in that made it, when the pointer is reset, gets a new instance or is destroyed; after a reset the pointer is empty. Failure to open another plug-in leaves no destroyed instance behind, and no call blocks for ever.", "quantifier": "all sequences of calls, all sets of plug-ins that can be found or loaded", "why_tests_cant": "A double destruction or dangling pointer after a failure shows only for particular sequences of calls and need not crash.", "anchors": ["include/pion/plugin.hpp: plugin_instance_ptr"]}
{"id": "C63", "title": "Copies of messages are equal and independent", "statement": "A message copied or assigned from another has the same members and content; changing, clearing or destroying one afterwards does not affect the other. The content is always followed by a NUL byte, accesses stay inside allocated memory, and the memory is freed when the messages are destroyed.", "quantifier": "all sequences of constructions, copies, assignments, resizes, writes and destructions of any number of messages", "why_tests_cant": "Shared or dangling buffers show only for particular sequences of operations, and use of freed memory need not be visible.", "anchors": ["include/pion/http/message.hpp: message::message, message::operator=, content_buffer_t", "include/pion/http/response.hpp: response::response"]}
{"id": "C64", "title": "Date texts denote their time", "statement": "The date text made for a time (for example the Last-Modified header) is the RFC 1123 text of the Gregorian date and time of day that lies that many seconds after 1 January 1970, with the right day of the week; different times have different texts, so that a file server answers 'not modified' to a client's text for time t only if the file's time of modification is t.", "quantifier": "all times that can be represented", "why_tests_cant": "It ranges over all times; errors of calendars show only at leap years, ends of centuries and before 1970.", "anchors": ["src/http_types.cpp: types::get_date_string", "services/FileService.cpp: DiskFile::update, DiskFile::checkUpdated", "include/pion/http/response.hpp: set_last_modified"]}
{"id": "C65", "title": "A pipelined conversation stays in step", "statement": "A client sends any number of requests over one connection without waiting for the answers. The server receives exactly these requests in order, and the client receives exactly one response per request, in the order of the requests, each with the status, headers and page its handler produced; nothing is left over. The connection is closed after the last response exactly if the last request asked for it; something that is not a request is answered with 400 after all the answers before it, and the connection is closed.", "quantifier": "all lists of well-formed requests (without body, with length, chunked), all ways in which both byte streams are cut into reads, all replies of the handlers, sent as a whole or in chunks", "why_tests_cant": "It ranges over all sequences of requests, all segmentations of two streams and all replies; a parser or writer that is off by one byte in a rare case puts every later response out of step.", "anchors": ["src/http_server.cpp: server::handle_connection, server::handle_request", "src/http_reader.cpp: reader::receive, reader::consume_bytes", "include/pion/http/response_writer.hpp: response_writer", "include/pion/http/writer.hpp: send, send_chunk, send_final_chunk", "include/pion/http/response_reader.hpp: response_reader", "src/tcp_server.cpp: server::finish_connection"]}
{"id": "C66", "title": "The life of the services of a plug-in server", "statement": "Every web service handed over to a plug-in server is told its resource before anything else, is started before it gets its first request, gets requests only while it is started and only for resources under its own path, is stopped as often as it was started, and is destroyed exactly once, when it is stopped and no connection is open; nothing happens to it afterwards.", "quantifier": "all interleavings of add_service, load_service, set_service_option, start, stop, clear, changes of resources and redirects with connections being accepted, served and finished", "why_tests_cant": "The order of calls depends on the schedule of server threads, connection threads and the threads that administrate the server; a use after destruction shows only in rare interleavings.", "anchors": ["src/http_plugin_server.cpp: plugin_server::add_service, load_service, set_service_option", "include/pion/http/plugin_server.hpp: plugin_server::clear, before_starting, after_stopping", "include/pion/http/plugin_service.hpp: plugin_service", "src/tcp_server.cpp: server::start, server::stop", "src/http_server.cpp: server::handle_request, server::add_resource"]}
{"id": "C67", "title": "The exact language of message heads", "statement": "A parser of message heads reports success exactly when the bytes it has read are a head of a stated grammar (first line, header lines, empty line); the message then has the first line and the headers the grammar gives, and what follows the head is left unread. The grammar is unambiguous, contains the usual form of every well-formed head, and a parser of whole messages never reports success without having read such a head.", "quantifier": "all byte streams, cut into buffers in any way", "why_tests_cant": "The accepted language is infinite; leniencies such as line ends, folded lines and odd versions are used for request smuggling and are not found by sampling.", "anchors": ["src/http_parser.cpp: parser::parse_headers", "src/http_parser.cpp: parser::finish_header_parsing", "include/pion/http/message.hpp: update_content_length_using_header"]}
{"id": "C68", "title": "The exact language of complete messages", "statement": "A parser of whole messages reports success exactly when the bytes it has read are a message of a stated grammar: a head, then the body its headers announce (nothing, a length, or chunks with trailers). It delivers the content and the trailers that the grammar gives and leaves what follows unread. In a given setting a stream begins with at most one message. The end of the connection is taken for the end of a message exactly after the head of a response that may have a body and announces neither a length nor chunks; everything after the head is then its content.", "quantifier": "all byte streams, cut into buffers in any way; all settings of the parser", "why_tests_cant": "Where a message ends decides what the next message is; a single odd chunk line among infinitely many suffices for request smuggling.", "anchors": ["src/http_parser.cpp: parser::parse", "src/http_parser.cpp: parser::parse_chunks", "src/http_parser.cpp: parser::consume_content", "src/http_parser.cpp: parser::finish_header_parsing"]}
{"id": "C69", "title": "Messages end where RFC 7230 says", "statement": "The end of a message is found by the rules of RFC 7230, section 3.3.3: responses that cannot have a body have none, Transfer-Encoding goes before Content-Length, contradicting or malformed headers are rejected.", "quantifier": "all heads, bodies and following bytes, cut into buffers in any way", "why_tests_cant": "A peer that follows the RFC must agree with the parser about the end of every message, for every combination of headers.", "anchors": ["src/http_parser.cpp: parser::finish_header_parsing", "include/pion/http/message.hpp: update_transfer_encoding_using_header, update_content_length_using_header", "include/pion/http/response.hpp: is_content_length_implied"]}
{"id": "C70", "title": "Waiting for the shutdown of the process", "statement": "wait_for_shutdown returns only after shutdown was called or SIGINT or SIGTERM has arrived, and once that has happened every call of shutdown and wait_for_shutdown returns: no wake-up is lost, in whatever order threads and signals come. A shutdown is for good.", "quantifier": "all schedules of any number of threads that call shutdown and wait_for_shutdown, with signals and spurious wake-ups at any point", "why_tests_cant": "Lost wake-ups and self-deadlocks show only if a signal or a context switch falls into a window of a few instructions.", "anchors": ["src/process.cpp: process::shutdown, process::wait_for_shutdown, handle_signal", "include/pion/process.hpp: process::config_type"]}
{"id": "C71", "title": "A daemon inherits no descriptors", "statement": "After daemonize the surviving process is the leader of a new session, has a file mode mask of 027 and has nothing open but standard input, output and error on /dev/null; the process that called it exits, and a process that is a daemon already is left as it is.", "quantifier": "all sets of open descriptors, all outcomes of fork and open", "why_tests_cant": "Which descriptors are open depends on the process that starts the server; a leaked one shows only as a resource that is never released.", "anchors": ["src/process.cpp: process::daemonize"]}
{"id": "C72", "title": "The command line of piond", "statement": "piond understands exactly the command lines of its usage text: options in any order and number, then RESOURCE and WEBSERVICE, or a configuration file. Of repeated settings the last one counts, service options are applied in order and split at the first equals sign, the port is the number given. Everything else is answered with the usage.", "quantifier": "all lists of arguments", "why_tests_cant": "The number of combinations and orders of options is unbounded.", "anchors": ["utils/piond.cpp: main, argument_error"]}
{"id": "C73", "title": "Encrypted connections", "statement": "Nothing that is read or written on a connection made for SSL goes past the SSL stream; on any other connection only what comes before the first handshake does. A stream made for SSL reports success only if the handshake succeeded, and a server with a key file hands only connections to its handler on which the handshake succeeded; a client whose handshake fails is dropped.", "quantifier": "all sequences of operations on a connection, all behaviours of the network, all histories of a server", "why_tests_cant": "Data in the clear is not visible to either end, and which operations come before a handshake depends on the program.", "anchors": ["include/pion/tcp/connection.hpp: connection", "include/pion/tcp/stream.hpp: stream::connect", "src/tcp_server.cpp: server::listen, handle_accept, handle_ssl_handshake"]}
{"id": "C74", "title": "Connecting by name", "statement": "Connecting by name tries the addresses of the host in the order of the resolver until one answers; it succeeds exactly if one does, and is then connected to the first one that does. If none answers the connection is closed and the error is that of the last address. A closed connection is not open, can be closed again and can be connected again.", "quantifier": "all lists of addresses, all sets of addresses that answer", "why_tests_cant": "A test host has few addresses, which all answer or all do not.", "anchors": ["include/pion/tcp/connection.hpp: connection::connect, close, is_open"]}
{"id": "C75", "title": "A server handles exactly the requests of a connection", "statement": "The requests that an HTTP server handles on a connection are exactly the requests that the bytes received consist of, one directly after another from the first byte, each once, in order and intact, up to the first that is not complete or not a request or that closes the connection. Every call of a resource handler is for such a request, and if an authenticator is set, either the resource of that request needs no authentication or that request itself, and no other bytes of the connection, carries credentials or a session cookie that the authenticator accepts.", "quantifier": "all byte streams, all ways they are cut into reads and end, all registrations, users and authenticator histories, which may change between requests", "why_tests_cant": "Bypasses by request smuggling use particular streams and cuts; tests try few streams, mostly one request per read.", "anchors": ["src/http_server.cpp: server::handle_connection, handle_request", "src/http_reader.cpp: reader::receive, consume_bytes, handle_read_error", "src/tcp_server.cpp: server::finish_connection", "src/http_parser.cpp: parser::parse"]}
{"id": "C76", "title": "Authentication by several threads", "statement": "If several threads let the same authenticator check requests while users, lists and time change, a request is passed on without a user only if it needed no authentication at some moment while it was checked; with a user only if it carries credentials that were correct while a request that carried them was checked, or the cookie of a session which that user's login was given and which no later call had logged out before the request; it is refused only if it needed authentication and its credentials were not correct at some moment, or its session had ended. A session just opened can be used for an hour by whoever logged in and nobody else. No interleaving makes a call wait for ever, and none accesses memory without synchronisation.", "quantifier": "all numbers of threads and requests, all interleavings of the steps of their calls with changes of users, lists and clock, all authenticator settings", "why_tests_cant": "The outcome depends on the interleaving of steps inside calls, which a test can not choose and seldom meets.", "anchors": ["src/http_auth.cpp: auth::need_authentication", "src/http_basic_auth.cpp: basic_auth::handle_request", "src/http_cookie_auth.cpp: cookie_auth::handle_request, process_login, expire_cache", "include/pion/user.hpp: user_manager"]}
{"id": "C77", "title": "A plug-in manager used by several threads", "statement": "If several threads add, load, remove, replace, clear, look up and run the objects of one plug-in manager, what their calls return is what they would return if made one after another in some order that keeps the order of calls that do not overlap, and the manager holds the objects it would hold after them. No object is destroyed twice or while it is registered; a function given to run is called with live objects only. No interleaving makes a call wait for ever, and none accesses memory without synchronisation.", "quantifier": "all numbers of threads and calls, all interleavings of the steps of the calls, all identifiers, objects and libraries", "why_tests_cant": "The result depends on where other threads' calls fall between the steps of a call, which a test can not choose; there are unboundedly many interleavings.", "anchors": ["include/pion/plugin_manager.hpp: plugin_manager::add, load, remove, replace, clear, empty, get, get_lib_ptr, find, run"]}
{"id": "C78", "title": "The time limit for reads", "statement": "A reader with a time limit aborts a read exactly if it has been waiting for bytes for as long as the limit: not before, not if bytes have arrived, and not because of timers of earlier reads or messages; the user is then told of an error. What else is done with the connection, such as writing the answer, is never aborted by these timers.", "quantifier": "all time limits, all numbers of messages and reads on a connection, all interleavings of reads, writes, expiries and callbacks", "why_tests_cant": "The races between arrival of bytes, expiry, cancellation and callbacks on other threads can not be chosen by a test.", "anchors": ["src/http_reader.cpp: reader::receive, consume_bytes, read_bytes_with_timeout, handle_read_error", "src/tcp_timer.cpp: timer", "include/pion/tcp/connection.hpp: connection::cancel"]}
{"id": "C79", "title": "What the file service answers is what its client receives", "statement": "A GET request for a file served by FileService makes the client receive status 200, exactly the current content of the file, the Content-Type for the name asked for and the time of modification, in one piece, in chunks or up to the end of the connection; HEAD, unchanged and missing files, refused, created and deleted ones are answered with a response the client reads as it is meant; names and methods in a request add no markup to a page; the type depends on the ending of the name alone.", "quantifier": "every history of the service and its files, every cache, scan and chunk setting, every HTTP version of the client, every file content, every division of the stream into buffers", "why_tests_cant": "Joins path resolution, cache, file sender, writer and parser; each has its own unbounded inputs, and the framing depends on all of them together.", "anchors": ["services/FileService.cpp:operator()", "services/FileService.cpp:sendNotFoundResponse", "services/FileService.cpp:findMIMEType", "services/FileService.cpp:createMIMETypes", "services/FileService.cpp:DiskFileSender"]}
{"id": "C80", "title": "A started scheduler executes the work it is given, once and in order, and its threads neither end nor spin", "statement": "While a scheduler is started none of its threads ends and its service never runs out of work, whatever handlers are posted, complete or throw. Handlers are executed at most once and in the order in which they became ready; a single-service scheduler executes everything it accepted, also across shutdown and restart. A thread that goes on executes everything that is ready in a bounded number of its steps. After shutdown nothing is executed; shutdown ends when the handlers return. A scheduler without work sleeps.", "quantifier": "every interleaving of startup, shutdown, posts, completions, expiries of the timer and steps of any number of worker threads, handlers throwing or not", "why_tests_cant": "Needs every schedule of the threads and every moment for an exception, a shutdown or the expiry of the timer.", "anchors": ["src/scheduler.cpp:process_service_work", "src/scheduler.cpp:keep_running", "src/scheduler.cpp:shutdown", "src/scheduler.cpp:single_service_scheduler::startup", "src/scheduler.cpp:one_to_one_scheduler::startup", "include/pion/scheduler.hpp:stop_threads", "include/pion/scheduler.hpp:finish_services"]}
{"id": "C81", "title": "Binary fields of a form can be recovered from their text, within the buffer", "statement": "The text that is stored for binary data is \"data:\", the type, \"; base64, \" and the RFC 4648 text of the data. Decoding this text into a buffer as long as it gives back exactly the data, a terminating NUL, the size and the type. Whatever the text and the buffer, decoding reads nothing outside the text and writes nothing outside the buffer: it returns, refuses (too small a buffer, no such text) or throws (characters that are not base64).", "quantifier": "all data, all types, all texts, all buffer sizes, both behaviours of Boost for the padding character", "why_tests_cant": "Depends on the length of the data modulo three, on every byte and on every malformed text.", "anchors": ["src/http_parser.cpp:parser::binary_2base64", "src/http_parser.cpp:parser::base64_2binary", "include/pion/http/parser.hpp:base64_2binary"]}
{"id": "C82", "title": "A server can be changed while it handles requests", "statement": "While resources and redirects are added and removed and any number of threads handle requests, each request gets exactly one answer: the handler of the longest path that covers the end of the redirects, as the redirects were at one moment and the handlers at a later one while the request was open; or \"not found\", if there was none; or an error, if there were more than ten redirects. With an authenticator nothing is handled that it did not let pass after the redirects. A handler that was removed before a request came is not called for it. No request waits for another.", "quantifier": "every interleaving of any number of requests, decisions of the authenticator, ends of handlers and changes of the tables", "why_tests_cant": "Needs every schedule of the threads and every moment for a change.", "anchors": ["src/http_server.cpp:server::handle_request", "src/http_server.cpp:server::find_request_handler", "src/http_server.cpp:server::add_resource", "src/http_server.cpp:server::remove_resource", "src/http_server.cpp:server::add_redirect", "include/pion/http/server.hpp:clear"]}
{"id": "C83", "title": "Files are sent to several clients while they change", "statement": "While any number of threads answer requests for a file, and the file is changed, removed and made again at any moment: a file sent with \"200 OK\" has a length, a time and bytes that the file had while the request was open (with a cache that is never checked: since the start), and is the file itself if it was not changed meanwhile. \"304 Not Modified\" is answered only if the file had the time that the client knows while the request was open; \"404 Not Found\" only if there was no file at some moment meanwhile; an error only if it was removed or became shorter. What is being sent from memory is not changed, nothing is read beyond a buffer, and no request waits for ever.", "quantifier": "every interleaving of any number of requests with any number of changes of the file, every setting of the cache, and every way in which the bytes read come from the contents during the reading", "why_tests_cant": "Needs every schedule of the threads and every moment for a change of the file.", "anchors": ["services/FileService.cpp:FileService::operator()", "services/FileService.cpp:DiskFile::update", "services/FileService.cpp:DiskFile::read", "services/FileService.cpp:DiskFile::checkUpdated", "services/FileService.cpp:DiskFileSender::send", "services/FileService.cpp:FileService::stop"]}
{"id": "C84", "title": "What a writer sends stays in memory until it is sent", "statement": "The bytes written with a response or request writer may be taken by the connection long after send has returned. If the writer is not used, nor its message changed, until the handler is called, and memory given to write_no_copy is kept until the writer is cleared or gone, then no memory is used after it was given back or beyond its end, or given back twice; the connection takes exactly the bytes that were written, in order, and all of them unless it fails; for each send exactly one function is called; and all the memory of the writer is given back with it.", "quantifier": "every sequence of writes, sends, changes of the user's memory, and bytes taken by the connection, in any order that the rules allow, for both kinds of writer", "why_tests_cant": "Needs every moment at which the connection may take a byte; freed memory often still holds its old content, so that tests pass.", "anchors": ["include/pion/http/writer.hpp:writer::write", "include/pion/http/writer.hpp:writer::write_no_copy", "include/pion/http/writer.hpp:writer::clear", "include/pion/http/writer.hpp:writer::send_more_data", "include/pion/http/writer.hpp:writer::binary_cache_t", "src/http_writer.cpp:writer::prepare_write_buffers", "include/pion/http/response_writer.hpp:response_writer::handle_write", "include/pion/http/request_writer.hpp:request_writer::handle_write"]}
{"id": "C85", "title": "Parameters, forms and cookies arrive as they were put in", "statement": "Parameters that a client puts into a request and turns into the query string or into the content of a POST request are the parameters that the server reads from the request, each as often as it was put in. Cookies that a client adds to a request are the cookies that the server reads, and cookies that a server sets in a response, with any path and age, are those that the client reads; a cookie that the client sends back is found by the server with its value. Content arrives as it was set, with its content type as the only one, and cleared content leaves neither. The rest of the message arrives unchanged.", "quantifier": "every set of parameters or cookies whose names and values can be written (no empty names, no zero bytes in parameters, no separators in the values of cookies), every order in which the tables of the two sides keep them, every way in which the connection cuts the message, and whatever follows it", "why_tests_cant": "Combines encoding, header generation, framing and three parsers over all names and values, all orders of the hash tables and all cuts of the stream.", "anchors": ["include/pion/http/request.hpp:request::use_query_params_for_query_string", "include/pion/http/request.hpp:request::use_query_params_for_post_content", "include/pion/http/request.hpp:request::add_query", "include/pion/http/request.hpp:request::set_content", "include/pion/http/message.hpp:message::add_cookie", "include/pion/http/response.hpp:response::set_cookie", "include/pion/http/response.hpp:response::delete_cookie", "src/http_types.cpp:types::make_query_string", "src/http_types.cpp:types::make_set_cookie_header", "src/http_parser.cpp:parser::update_message_with_header_data", "src/http_parser.cpp:parser::finish"]}
{"id": "C86", "title": "Servers that share a scheduler", "statement": "Servers share a scheduler: while a started server listens or has a connection that is not finished the scheduler runs and clients are served; stop() and the destructor of a server return only when its connections are finished, and can return; nothing uses a server after its destructor; shutdown() of the scheduler returns only when every server has been stopped, and is not left waiting; join() of a server returns when the server has stopped.", "quantifier": "any number of servers, user threads and scheduler threads, and every interleaving of calls of start, stop, join, destructor, startup and shutdown with the handlers of the connections", "why_tests_cant": "The failures depend on which thread runs between two critical sections of two classes with two mutexes and three condition variables.", "anchors": ["src/tcp_server.cpp:server::start", "src/tcp_server.cpp:server::stop", "src/tcp_server.cpp:server::join", "src/tcp_server.cpp:server::listen", "src/tcp_server.cpp:server::handle_accept", "src/tcp_server.cpp:server::finish_connection", "include/pion/tcp/server.hpp:server::~server", "src/scheduler.cpp:scheduler::shutdown", "src/scheduler.cpp:scheduler::add_active_user", "src/scheduler.cpp:scheduler::remove_active_user", "src/scheduler.cpp:scheduler::process_service_work"]}
{"id": "C87", "title": "A SPDY session is seen as it was sent", "statement": "A program that gives the packets of a SPDY session to spdy::parser, with one decompressor, is told for every frame its kind, the number of its stream, the headers, the content and whether it is the last of its stream, as the client and the server sent them: headers are decompressed with the context of the side that compressed them.", "quantifier": "every sequence of packets with any frames of both sides and of any number of streams in any order, every set of headers, and every compressor and decompressor that keep the promises of zlib", "why_tests_cant": "Decompression depends on all blocks of headers that came before; the tests parse single captured frames.", "anchors": ["src/spdy_parser.cpp:parser::parse", "src/spdy_parser.cpp:parser::parse_spdy_frame", "src/spdy_parser.cpp:parser::parse_header_payload", "src/spdy_decompressor.cpp:decompressor::decompressor", "src/spdy_decompressor.cpp:decompressor::decompress", "src/spdy_decompressor.cpp:decompressor::spdy_decompress_header"]}
{"id": "C88", "title": "A session from login to logout, over the wire", "statement": "A client that asks for the login page with the name and the password of a user, in the query string or as a form, and puts the cookie of the answer into its later requests is taken for this user on every protected page, for an hour and until the session is logged out; after a logout the cookie is worth nothing. Nobody who has not seen the answer can name the cookie. The options of the authenticators change what their names say, and unknown names are refused.", "quantifier": "every history of requests, user changes and changes of the lists before, between and after, every order in which tables keep their entries, every way in which the connection cuts the messages, every random number generator whose identifiers do not repeat, every user, password and setting", "why_tests_cant": "It is a statement about the whole way of the cookie through two parsers, two writers and the session table, for all histories; what others can compute is not something a test observes.", "anchors": ["src/http_cookie_auth.cpp:cookie_auth::cookie_auth", "src/http_cookie_auth.cpp:cookie_auth::handle_request", "src/http_cookie_auth.cpp:cookie_auth::process_login", "src/http_cookie_auth.cpp:cookie_auth::set_option", "src/http_basic_auth.cpp:basic_auth::set_option"]}
{"id": "C89", "title": "The code of a plug-in is loaded while its objects live", "statement": "Objects of plug-ins are made by the create function of the library loaded for their name, and destroyed once, by the destroy function of the same library; while an object is in a manager, or the program keeps a plugin_ptr to its library, the library stays loaded, so that calls and destruction find the code. A library is unloaded when the last manager entry and the last plugin_ptr that use it are gone. A load that fails, because there is no such file, a function is missing or the create function throws, changes nothing and leaves nothing open.", "quantifier": "every history of calls of any number of managers and plugin_ptrs, every set of files and functions in them, static and dynamic plug-ins, every failure of a load or of a create function", "why_tests_cant": "Which library is loaded at a moment depends on the whole history of all managers; a test that calls code of an unloaded library crashes or does not, depending on the memory.", "anchors": ["include/pion/plugin_manager.hpp:plugin_manager::load", "include/pion/plugin_manager.hpp:plugin_manager::clone", "include/pion/plugin_manager.hpp:plugin_manager::replace", "include/pion/plugin_manager.hpp:plugin_manager::get_lib_ptr", "include/pion/plugin.hpp:plugin_ptr", "src/plugin.cpp:plugin::open_plugin"]}
{"id": "C90", "title": "A page behind a password, from the question to the answer", "statement": "A client that asks a server with basic authentication for a protected page gets status 401 and the realm if it gives no credentials or a wrong password, and the answer of the handler, unchanged, if it gives the name and the password of a user of the server as RFC 7617 has it; pages that are not protected are answered without. The request that the handler sees is attributed to this user.", "quantifier": "every message that can be written as a request, every name without a colon and every password (any bytes), every history of the authenticator, every registration of handlers, every answer of a handler that can be sent, every way the connection cuts both streams into buffers, whatever follows", "why_tests_cant": "The bytes of names and passwords, the cuts of the stream and the histories of users, paths and requests are unbounded.", "anchors": ["src/http_basic_auth.cpp:basic_auth::handle_request", "src/http_basic_auth.cpp:basic_auth::parse_authorization", "src/http_basic_auth.cpp:basic_auth::parse_credentials", "src/http_basic_auth.cpp:basic_auth::handle_unauthorized", "src/http_server.cpp:server::handle_request"]}
{"id": "C91", "title": "A directory of files on a web server, from the command line or the configuration file to the client", "statement": "piond with a command line that names a directory, or with a configuration file that also has a user and restricts the resource, sets up a server from which a client downloads every file of the directory by its path: exactly the content the file has at that time, its type and the time of its last change. With a password, only clients that give the name and the password of the user get files; all others get status 401 and the realm. A request for which no service is loaded gets 404. What happens while the server runs does not change this.", "quantifier": "every directory and every file in it with a plain path, every text of the options and of the configuration (names, passwords, resources), every history of requests of any client to any service and of changes of the file system by others, every request that can be written, every way the connection cuts both streams into buffers", "why_tests_cant": "Command lines, configuration files, file systems, histories of requests and cuts of the streams are unbounded.", "anchors": ["utils/piond.cpp:main", "src/http_plugin_server.cpp:plugin_server::load_service", "src/http_plugin_server.cpp:plugin_server::load_service_config", "src/http_server.cpp:server::handle_request", "services/FileService.cpp:FileService::operator()", "src/http_basic_auth.cpp:basic_auth::handle_request"]}
{"id": "C92", "title": "Errors are reported with what went wrong and the name it went wrong with", "statement": "The text of every exception that the library throws says what has gone wrong and names the option, file, directory, plug-in, symbol or resource it has gone wrong with; texts of different errors differ; they stay the same however often they are asked for. piond with a command line that it understands logs such a text, for the first thing that is wrong with the command line or the configuration file, exactly if it does not get its server running. When the handler of a request throws, the text is logged and can be read on the page that the client receives.", "quantifier": "every statement that throws and every name, every order of looking at an exception, every command line, configuration file, file system and set of plug-in libraries", "why_tests_cant": "Names, command lines and configuration files are unbounded, and so are the combinations of what can be wrong with them.", "anchors": ["include/pion/error.hpp:exception::what", "include/pion/error.hpp:diagnostic_information", "src/plugin.cpp:plugin::open_plugin", "include/pion/plugin_manager.hpp:plugin_manager::load", "src/http_plugin_server.cpp:plugin_server::load_service_config", "services/FileService.cpp:FileService::set_option", "src/http_server.cpp:server::handle_request", "utils/piond.cpp:main"]}
{"id": "C93", "title": "A server listens where it was told", "statement": "A server that says it is listening has exactly one socket, which listens on the address and port that the server was told last, or, if it was told port 0, on a port chosen by the system that the server then answers when asked and asks for again when it is started again. start returns exactly if the system grants all it is asked for; otherwise it throws, the server does not listen, and it can be started later. Once stop returns, the socket is closed. Two servers never listen on one endpoint. The process is the same user after start as before, and is administrator only while it binds a port below 1024.", "quantifier": "every sequence of constructions, settings, starts, stops and destructions of any number of servers, all answers of the system, all users of the process, all endpoints", "why_tests_cant": "Failures of system calls and their order are up to the system; histories and user ids are unbounded.", "anchors": ["src/tcp_server.cpp:server::server", "src/tcp_server.cpp:server::start", "src/tcp_server.cpp:server::stop", "include/pion/tcp/server.hpp:server::set_port", "include/pion/tcp/server.hpp:server::get_endpoint", "src/admin_rights.cpp:admin_rights::admin_rights"]}
{"id": "C94", "title": "The answers on a connection do not mix", "statement": "However the threads of the server, the network and stop interleave: on a connection of an HTTP server whose handlers send their answer and let it finish the connection, or throw before they send anything, at most one of waiting for a request, handling one and sending goes on at a time; the client gets the answers in the order of its requests, each complete before the next request is read; each request is finished once, before the next is handled; and the connection never gets stuck, nor is it closed as orphaned. A stop that waits cuts off no answer, and at most one more request is handled after it.", "quantifier": "all requests and handlers (as what they do with the connection), all pipelining, all interleavings of their steps, of partial writes, of failures to read and write, of stop and of the use of the server by others", "why_tests_cant": "The interleavings of threads and the sizes of partial writes are unbounded and not under the control of a test.", "anchors": ["src/http_server.cpp:server::handle_request", "src/http_server.cpp:server::handle_connection", "src/tcp_server.cpp:server::finish_connection", "src/tcp_server.cpp:server::prune_connections", "src/http_reader.cpp:reader::receive", "include/pion/http/writer.hpp:writer::send_more_data", "services/FileService.cpp:DiskFileSender::send"]}
{"id": "C95", "title": "Connections do not disturb one another, and stop waits for the answers", "statement": "Whatever the other clients of an HTTP server do and whatever their handlers are, a client sees what it would see if it were alone. When a stop that waits returns, every client has the whole answer to every request received from it, unless its connection was closed or broke. If all handlers send their answer and let it finish the connection, the server never gets stuck, and a server that has been stopped comes to its end once its clients go away.", "quantifier": "any number of connections accepted at any time, all handlers of each, all interleavings of their steps, of partial writes, of failures, of accepting and of stop", "why_tests_cant": "The interleavings of any number of connections, each with its own handlers, cannot be enumerated.", "anchors": ["src/tcp_server.cpp:server::listen", "src/tcp_server.cpp:server::handle_accept", "src/tcp_server.cpp:server::stop", "src/tcp_server.cpp:server::finish_connection", "src/tcp_server.cpp:server::prune_connections", "src/http_server.cpp:server::handle_connection", "src/http_server.cpp:server::handle_request"]}
{"id": "C96", "title": "A message can be read in two steps: its head first, its body later", "statement": "A parser that has been told to read headers only stops behind the head of a message. If the caller then makes it skip the headers and go on with the body, it ends as a parser that has read everything at once: with the same result, the same unread bytes, the same message, payload and counts.", "quantifier": "all configurations, all requests and responses with all kinds of bodies, all ways to cut the bytes into pieces, complete, incomplete and broken messages", "why_tests_cant": "The heads, the bodies and the ways to cut them are infinitely many, and the second step starts from whatever state the first has left behind.", "anchors": ["include/pion/http/parser.hpp:parser::parse_headers_only", "include/pion/http/parser.hpp:parser::skip_header_parsing", "src/http_parser.cpp:parser::finish_header_parsing", "src/http_parser.cpp:parser::parse"]}
{"id": "C97", "title": "The raw headers that a parser saves are the bytes of the head", "statement": "If a parser has been told to save the raw headers, then after a complete message they are the bytes of the head of this message, followed by the bytes of its trailers if it has any, and nothing else: no byte of the body or of the next message, and none is lost. A parser that has not been told so saves nothing.", "quantifier": "all configurations, all requests and responses that the parser accepts, with all kinds of line ends and bodies, all ways to cut the bytes into pieces", "why_tests_cant": "The heads and the ways to cut them into buffers are infinitely many, and what is saved depends on how each line ends.", "anchors": ["include/pion/http/parser.hpp:parser::set_save_raw_headers", "include/pion/http/parser.hpp:parser::get_raw_headers", "src/http_parser.cpp:parser::parse_headers"]}
{"id": "C98", "title": "Services that throw when they are started or stopped", "statement": "start of a server either returns, and then every service was started once, in order, and the server listens; or it throws, exactly if a service did or the address cannot be bound, and then the server does not listen, does not keep the scheduler alive, no later service is started, those started before are stopped again, and it can be started later. While the server listens, start of each of its services has returned and nothing happened to the service since; stop of a service is called only then. If a service throws in stop, the server does not listen all the same, the other services are stopped, and threads in join return. The destructor stops and destroys every service once.", "quantifier": "all sets of services, all choices of which calls of start and stop throw, all sequences of adding services, start, stop, clear, join and destruction", "why_tests_cant": "Which service throws, at which call, and what is called afterwards are unbounded choices; tests have services that do not throw.", "anchors": ["include/pion/http/plugin_server.hpp:plugin_server::before_starting", "include/pion/http/plugin_server.hpp:plugin_server::after_stopping", "include/pion/http/plugin_server.hpp:plugin_server::clear", "include/pion/plugin_manager.hpp:plugin_manager::run", "src/tcp_server.cpp:server::start", "src/tcp_server.cpp:server::stop", "src/tcp_server.cpp:server::join"]}
{"id": "C99", "title": "Why the head of a message is refused", "statement": "As long as no head is complete, the parser wants more if what it has read can still become a head; otherwise it has stopped at the very byte with which this became impossible: it has not read that byte or anything after it, the message is not complete, and the error says what is wrong there. The error is a function of the bytes read and that byte, not of the buffers they came in; every error of the head has exactly the causes that its name says, and different errors have different texts.", "quantifier": "all byte streams, all cuts of them into buffers, requests and responses, all configurations of the parser", "why_tests_cant": "The first byte that makes a head impossible can be at any place of any stream; tests try single malformed requests and look at the result only.", "anchors": ["src/http_parser.cpp:parser::parse_headers", "include/pion/http/parser.hpp:parser::error_value_t", "include/pion/http/parser.hpp:parser::error_category_t::message", "include/pion/spdy/parser.hpp:parser::error_category_t::message"]}
{"id": "C100", "title": "Why a message is refused after its head, and why no other error exists", "statement": "After a head that announces chunks, as long as the body is not complete, the parser wants more if what it has read can still become a body; otherwise it has stopped at the very byte with which this became impossible, has not read that byte, and the error says what is wrong with the frame of the chunks or with the trailers. A Content-Length that matters and is not a number is an error at the end of the head. No message is refused for any other reason: every error that the parser reports is one of these or one of the causes in the head, and bodies whose length is given or that end with the connection are never refused.", "quantifier": "all byte streams, all cuts of them into buffers, requests and responses, all configurations of the parser of whole messages", "why_tests_cant": "The first byte that makes a body impossible can be at any place of any stream, after any number of chunks; tests try single malformed bodies, and cannot show that there is no further reason for an error.", "anchors": ["src/http_parser.cpp:parser::parse_chunks", "src/http_parser.cpp:parser::finish_header_parsing", "src/http_parser.cpp:parser::parse", "src/http_parser.cpp:parser::consume_content", "src/http_parser.cpp:parser::consume_content_as_next_chunk"]}
{"id": "C101", "title": "Blocking calls receive what readers receive", "statement": "A program that receives messages from a connection with the blocking call, one after another until an error or until the connection is not to be kept open, gets the same messages in the same order as one that uses asynchronous readers, and the error at the same place, whatever the socket delivers, however it is cut, and wherever it ends. Well-formed messages are all received intact. A call returns as soon as the message is complete, its result is the number of bytes of the message, and bytes behind it are kept for the next call. When the connection ends within a message there is an error, except if the end of the connection is the end of the message. After an error the connection is left as it was before the call.", "quantifier": "all sequences of reads with data and errors, all states of the connection between messages, all configurations of the parser, any number of calls", "why_tests_cant": "The blocking and the asynchronous path are written twice; that they agree must hold for every byte stream, every cut of it into reads, and every point at which the connection ends.", "anchors": ["src/http_message.cpp:message::receive", "include/pion/http/message.hpp:message::receive", "src/http_reader.cpp:reader::receive", "src/http_reader.cpp:reader::consume_bytes", "src/http_reader.cpp:reader::handle_read_error"]}
{"id": "C102", "title": "A message that was received can be sent on", "statement": "A message that a program has received from one connection, with any spelling that the parser accepts, can be sent over another connection as it is: what the next receiver gets has the same first line, the same content and the same headers, apart from the headers that concern the connection and the length, whatever bytes the message was received from, in whatever pieces it is received, and in whatever order the header tables are kept. A response that ended with its connection is sent on with its length. So a message also arrives unchanged through any number of programs in a row.", "quantifier": "all byte streams from which the parser accepts a message, all cuts of both streams, all orders of the header tables, all states of the connection and of the message object of the next receiver", "why_tests_cant": "The set of spellings that the parser accepts is infinite and wider than what the library itself writes; a message that is read one way and written another way is the source of request smuggling, and no set of sample messages shows its absence.", "anchors": ["src/http_parser.cpp:parser::parse", "include/pion/http/message.hpp:message::prepare_buffers_for_send", "include/pion/http/message.hpp:message::prepare_headers_for_send", "include/pion/http/request.hpp:request::append_cookie_headers", "include/pion/http/response.hpp:response::append_cookie_headers", "src/http_message.cpp:message::send"]}
{"id": "C103", "title": "A client made of blocking calls and a server understand one another", "statement": "A client connects to a server, sends requests with the blocking send and receives a response with the blocking receive after each, any number of times over one connection. The server receives every request as it was sent: the same first line, headers, cookies and content. The client gets after each request exactly the answer of the handler to this request, with its status, headers and page, whether the handler sends it as a whole or in parts, and neither side waits for the other. The connection stays open between requests.", "quantifier": "all lists of requests with and without content, all handlers, all cuts of what is sent in both directions, all orders of the header tables, all contents of the response object used before", "why_tests_cant": "Client and server each keep a lifecycle for the connection and an own idea of where a message ends; that they agree after every exchange is a statement about all sequences of exchanges and all cuts of the streams.", "anchors": ["src/http_message.cpp:message::send", "src/http_message.cpp:message::receive", "src/http_reader.cpp:reader::receive", "src/http_server.cpp:server::handle_request", "include/pion/http/writer.hpp:writer", "include/pion/tcp/connection.hpp:connection::get_keep_alive"]}
{"id": "C104", "title": "Files behind a login page, from the configuration file to the client", "statement": "With a configuration file that asks for cookie authentication, names a user, restricts a resource and serves a directory under it, the server starts. Somebody who sends the name and the password of the user to the login page, as a query string or as a form, gets an answer with a cookie; every later request with this cookie for a file gets exactly the content of the file at that moment, for an hour and whatever others do, unless somebody logs out with the cookie. A request under the resource without the cookie of somebody who logged in and did not log out gets status 401 and none of the content, and so does a login with another name or password.", "quantifier": "all users, passwords, resources and directories, all histories of requests and changes of the file system, all cuts of the byte streams in both directions, all orders of the tables, all random number generators", "why_tests_cant": "Whether the cookie of a login opens the files depends on the configuration, on all requests before and between, on the clock, on the parsing of requests, queries, forms and cookies at both ends and on the cache of the file service; a test fixes all of these.", "anchors": ["src/http_plugin_server.cpp:plugin_server::load_service_config", "src/http_cookie_auth.cpp:cookie_auth::handle_request", "src/http_cookie_auth.cpp:cookie_auth::process_login", "src/http_server.cpp:server::handle_request", "services/FileService.cpp:FileService::operator()", "utils/piond.cpp:main"]}
{"id": "C105", "title": "The memory that one message takes", "statement": "What the parser and the message hold while and after a message is received is in proportion to the bytes received and the configured maximum of content, whatever is received and however it is cut: no announced length makes it take more, no part of the message is stored over and over again.", "quantifier": "all byte streams (valid messages or not), all cuts into buffers, all configurations without raw headers, requests and responses, at every moment between two buffers and after the end", "why_tests_cant": "An attacker chooses the bytes; a test can only measure the memory of the messages somebody thought of.", "anchors": ["src/http_parser.cpp:parser::parse", "src/http_parser.cpp:parser::parse_headers", "src/http_parser.cpp:parser::parse_url_encoded", "src/http_parser.cpp:parser::parse_multipart_form_data", "src/http_parser.cpp:parser::parse_cookie_header", "src/http_parser.cpp:parser::finish_header_parsing"]}
{"id": "C106", "title": "What the text of a query says", "statement": "For every text, parse_url_encoded adds to the dictionary exactly the pairs the text says: fields are divided at ampersands, name and value at the first equals sign, several values at commas, line ends and tabs count for nothing, fields without a name say nothing, and both parts are decoded. It refuses a text exactly when it has another control character or a name or value that is too long; what was closed by a comma or an ampersand before the first bad character has then been added, no more and no less. What the dictionary held before stays.", "quantifier": "all texts over all byte values, of any length, and all dictionaries", "why_tests_cant": "The texts come from the network; a character-by-character automaton has to agree with the division of the text as a whole on all of them, not only on well-formed ones.", "anchors": ["src/http_parser.cpp:parser::parse_url_encoded", "include/pion/http/parser.hpp:parser::is_control"]}
{"id": "C107", "title": "The program helloserver", "statement": "Every client that connects is sent the greeting, all of it and nothing else, and its connection is then closed, whatever other clients do, while the server is being stopped too; no thread of the program waits for ever. The program listens on the port given as argument, 8080 without one.", "quantifier": "all interleavings of accepts, writes (cut anywhere by the system, or failing), starts and stops, any number of clients; all arguments", "why_tests_cant": "The order in which many clients connect, read and go away, and in which a stop falls between, is up to them and to the system.", "anchors": ["utils/helloserver.cpp:HelloServer::handle_connection", "utils/helloserver.cpp:main", "src/tcp_server.cpp:server::finish_connection", "src/tcp_server.cpp:server::server"]}
{"id": "C108", "title": "What the text of a cookie header says", "statement": "For every text of a Cookie or Set-Cookie header, parse_cookie_header adds to the dictionary exactly the cookies the text says: entries are divided at semicolons and commas outside quotes, the name ends at the first equals sign, spaces in names count for nothing, spaces before a value are left out, a value may stand in single or double quotes and what follows the closing quote is passed over, an entry without a name, or whose name is an attribute, is not kept. It refuses a text exactly when a name, or a value without quotes, has a control character, or a name or value is too long. What the dictionary held before stays.", "quantifier": "all texts over all byte values, of any length, both kinds of header, and all dictionaries", "why_tests_cant": "The texts come from the network; a character-by-character automaton has to agree with the division of the text as a whole on all of them, not only on well-formed ones.", "anchors": ["src/http_parser.cpp:parser::parse_cookie_header", "include/pion/http/parser.hpp:parser::is_cookie_attribute"]}
{"id": "C109", "title": "Comparing files in tests", "statement": "check_files_exact_match says that two files match exactly if they have the same bytes; when it is to ignore line endings, exactly if they have the same lines but for carriage returns at their ends. check_files_match says that two files match exactly if the lines that are neither blank nor comments occur equally often in both, in any order, without the white space at their ends.", "quantifier": "all pairs of files of any size and contents", "why_tests_cant": "The functions decide whether other tests pass. They compare block by block and line by line with a buffer of fixed size; that no difference is missed has to hold for all contents and sizes.", "anchors": ["include/pion/test/unit_test.hpp:check_files_exact_match", "include/pion/test/unit_test.hpp:check_files_match", "include/pion/test/unit_test.hpp:read_lines_from_file", "include/pion/test/unit_test.hpp:trim"]}
{"id": "C110", "title": "Several threads write the log of a test", "statement": "With safe_xml_log_formatter, whatever the order in which threads get to write, the log consists of whole entries, each of them written by one thread, and each thread finds its entries in its order; a thread that wants to begin an entry waits only while another has one open; and a reader of the log finds in each entry the text that was logged.", "quantifier": "all numbers of threads, all sequences of entries and values, all interleavings", "why_tests_cant": "Whether entries are mixed depends on the schedule.", "anchors": ["include/pion/test/unit_test.hpp:safe_xml_log_formatter"]}
{"id": "C111", "title": "Whatever is posted as a form, nothing is invented", "statement": "For every body, well-formed or not, parse_multipart_form_data leaves what the dictionary held, and each entry that it adds is honest: its value is a stretch of the body (as it is, or in base64), which does not reach over a delimiter and stops at one; its name is text of one line without quotes. The stretches come in the order of the body with a delimiter between any two, so that nothing is taken twice. Without a boundary in the type of the content nothing is added. A body that was cut off is not accepted.", "quantifier": "all bodies over all byte values, all boundaries, all types of content, all dictionaries", "why_tests_cant": "The body comes from the network: an attacker chooses every byte of it, and where it ends.", "anchors": ["src/http_parser.cpp:parser::parse_multipart_form_data"]}
{"id": "C112", "title": "How long threads sleep, and how long stop waits for connections that are gone", "statement": "scheduler::sleep returns after the time that was asked for, and not before. When a server is stopped, stop waits until no connection is left, and leaves its loop within a quarter of a second after the last one is gone, even if nothing is signaled.", "quantifier": "all numbers of seconds and nanoseconds, all moments, all clocks, all signals and spurious wakeups, all histories of the connections", "why_tests_cant": "A test sleeps for a few chosen times, and nobody sets the clock of the system while it runs.", "anchors": ["src/scheduler.cpp:scheduler::get_wakeup_time", "include/pion/scheduler.hpp:scheduler::sleep", "src/tcp_server.cpp:server::stop"]}
