{"id": "C01", "title": "Parsing accepts exactly one stated language", "statement": "Constructing a url_view (or url) from a byte string succeeds exactly when the string is in a closed grammar: the RFC 3986 URI-reference grammar with an explicit, finite list of lexical deviations (no digits in schemes, only upper-case hex digits, no IPvFuture, a relaxed first path character after a single leading slash, two relaxed IPv6 forms). Every other string is rejected with an error.", "quantifier": "for every finite byte string, of any length and any byte values", "why_tests_cant": "The set of inputs is infinite, and acceptance of a string depends on backtracking between alternatives; tests only sample it.", "anchors": ["include/boost/url/detail/parse.hpp: parse_url, parser", "include/boost/url/impl/url_view.ipp: url_view::url_view"]}
{"id": "C02", "title": "Parsing loses nothing", "statement": "When parsing succeeds, the nine offsets are nondecreasing, start at 0 and end at the input length, and the concatenation of the raw component substrings (scheme with ':', user with '//', password with ':' and '@', host, port with ':', path, query with '?', fragment with '#') is the input byte for byte; encoded_url() returns the input.", "quantifier": "for every accepted byte string", "why_tests_cant": "Offset arithmetic must be right on every parse path, including the ones that backtrack out of userinfo; tests check a few dozen strings.", "anchors": ["include/boost/url/detail/parts.hpp: parts::resize, parts::get", "include/boost/url/detail/parse.hpp: parser::mark", "include/boost/url/impl/url_view.ipp: encoded_url"]}
{"id": "C03", "title": "Components are the RFC 3986 components, uniquely", "statement": "If a string is assembled from syntactically valid components (scheme, userinfo, host, port, path, query, fragment) by the RFC 3986 recomposition rules, parsing it succeeds and each accessor returns exactly that component. In particular no string has two valid decompositions.", "quantifier": "for every valid tuple of components", "why_tests_cant": "Ambiguity of the grammar (authority against path, scheme against first segment, userinfo against host:port) can only be excluded by an argument over all tuples.", "anchors": ["include/boost/url/detail/parse.hpp: parse_url, parse_hier_part, parse_authority", "include/boost/url/impl/url_view.ipp: scheme, encoded_user, encoded_password, encoded_host, port, encoded_path, encoded_query, encoded_fragment"]}
{"id": "C04", "title": "Accepted strings are RFC 3986 URI-references", "statement": "Every string accepted by the parser is a URI-reference as defined by RFC 3986.", "quantifier": "for every byte string", "why_tests_cant": "A soundness claim over all inputs; accepting one extra string may only show on inputs nobody thought to write.", "anchors": ["include/boost/url/detail/parse.hpp: parse_url, parse_path_absolute, parse_ip_v6", "doc/qbk/intro.qbk"]}
{"id": "C05", "title": "RFC 3986 URI-references are accepted", "statement": "Every URI-reference as defined by RFC 3986 is accepted by the parser, and the accessors return its RFC components.", "quantifier": "for every RFC 3986 URI-reference", "why_tests_cant": "A completeness claim over an infinite language.", "anchors": ["include/boost/url/detail/char_type.hpp: hex_digit, is_scheme_char", "include/boost/url/detail/parse.hpp: match_scheme, parse_ip_literal", "include/boost/url/url_base.hpp: set_scheme documentation"]}
{"id": "C06", "title": "IPv4 classification is exact", "statement": "host_type() is ipv4 exactly when the host is four decimal octets 0..255 without leading zeros separated by dots; a host that merely looks similar (256, 00, trailing dot, fifth octet, extra letters) is a reg-name, an empty host is none.", "quantifier": "for every accepted URL", "why_tests_cant": "Octet arithmetic and the missing rewind after a failed IPv4 match must be right for every digit string.", "anchors": ["include/boost/url/detail/parse.hpp: match_octet, match_ip_v4, parse_ipv4_or_domain"]}
{"id": "C07", "title": "IPv6 literals are exactly the RFC 3986 IPv6 addresses", "statement": "A bracketed host is accepted exactly when its content is an IPv6address of RFC 3986 (8 groups, or fewer with one '::', with an optional dotted-quad tail).", "quantifier": "for every byte string between the brackets", "why_tests_cant": "The acceptor is a hand written loop over group counters; the language is large and the ABNF has nine alternatives.", "anchors": ["include/boost/url/detail/parse.hpp: parse_ip_literal, parse_ip_v6, parse_word, maybe_octet"]}
{"id": "C08", "title": "The parser is total and memory safe", "statement": "For every input the parser terminates, never reads outside the input and never violates an internal assertion, whether it accepts or rejects.", "quantifier": "for every byte string", "why_tests_cant": "Termination and absence of out-of-range reads on all inputs cannot be observed by running examples.", "anchors": ["include/boost/url/detail/parse.hpp: parser::parse_ip_v6, parse_word, parse_query", "include/boost/url/detail/char_type.hpp: pct_encoding::parse"]}
{"id": "C09", "title": "Percent-encoding round trip", "statement": "For every component character set used by the library, percent-decoding the percent-encoding of a plain string returns the plain string, and encoding is injective.", "quantifier": "for every plain byte string and every one of the eight character sets", "why_tests_cant": "All byte strings, including NUL, '%' and bytes above 127.", "anchors": ["include/boost/url/detail/char_type.hpp: pct_encoding::encode, decode, decode<>"]}
{"id": "C10", "title": "Encoded text is always acceptable and minimal", "statement": "The output of encoding a plain string for a component passes that component's validator, contains only characters permitted there, leaves permitted characters unchanged and replaces every other byte by exactly one upper-case escape.", "quantifier": "for every plain byte string and every character set", "why_tests_cant": "Relates two 256-entry tables over all strings.", "anchors": ["include/boost/url/detail/char_type.hpp: pct_encoding::encode, check, needed"]}
{"id": "C11", "title": "Size computations agree with what is written", "statement": "encoded_size(s) is the number of bytes encode writes; decoded_size and raw_decoded_size agree with each other on validated input and equal the number of bytes decode writes; the port formatter needs at most 10 digits for any unsigned value. So no encode or decode overruns its destination.", "quantifier": "for every byte string; for every 32-bit unsigned value", "why_tests_cant": "A buffer overrun appears only for the inputs on which the two computations differ.", "anchors": ["include/boost/url/detail/char_type.hpp: encoded_size, encode, decoded_size, raw_decoded_size, decode, port_string"]}
{"id": "C12", "title": "Validation accepts exactly well formed escapes", "statement": "pct_encoding::validate accepts a string exactly when every byte is a permitted character of the set or starts a '%' followed by two accepted hex digits; parse stops at the first byte that is neither, and never consumes past it.", "quantifier": "for every byte string and every character set", "why_tests_cant": "Two independent scanning loops must agree on all strings.", "anchors": ["include/boost/url/detail/char_type.hpp: check, validate, parse, check_escape"]}
{"id": "C13", "title": "Escaped keys compare by decoded value", "statement": "For a validly escaped string e and a plain string m, key_equal(e, m) is true exactly when decoding e gives m; no byte outside e is read.", "quantifier": "for every validly escaped e and every m", "why_tests_cant": "Length pre-checks and early exits must be right for every pair of strings.", "anchors": ["include/boost/url/detail/char_type.hpp: key_equal"]}
{"id": "C14", "title": "Decoding accessors are safe on every accepted URL", "statement": "For every accepted URL, user(), password(), host(), query(), fragment() and the plain value of every path segment are computed without reading outside the URL, and equal the percent-decoding of the encoded component.", "quantifier": "for every accepted URL", "why_tests_cant": "decode assumes validated input; whether every accepted component is validated depends on every parser path.", "anchors": ["include/boost/url/url_view.hpp: user, password, host, query, fragment, segments_type", "include/boost/url/detail/parse.hpp: parse_path_absolute", "include/boost/url/detail/char_type.hpp: decode"]}
{"id": "C15", "title": "Plain setters store what they are given", "statement": "After set_user(s), set_password(s), set_host(s), set_query(s) or set_fragment(s) returns, the corresponding plain getter returns s for every non-empty s, and the stored encoded text is the percent-encoding of s.", "quantifier": "for every byte string s and every reachable well-formed URL state", "why_tests_cant": "The stored text depends on s, on which of the neighbouring components are present and on the buffer state.", "anchors": ["include/boost/url/impl/url_base.ipp: set_user, set_password, set_host, set_query, set_fragment"]}
{"id": "C16", "title": "Encoded setters store what they are given", "statement": "After set_scheme(s), set_encoded_user(s), set_encoded_password(s), set_encoded_host(s), set_port(s), set_encoded_path(s), set_encoded_query(s) or set_encoded_fragment(s) returns, the corresponding encoded getter returns s.", "quantifier": "for every byte string s accepted by the setter and every reachable well-formed URL state", "why_tests_cant": "Same as above; the in-place buffer edit must be right for every combination of present and absent components.", "anchors": ["include/boost/url/impl/url_base.ipp: set_scheme, set_encoded_user, set_encoded_password, set_encoded_host, set_port, set_encoded_path, set_encoded_query, set_encoded_fragment"]}
{"id": "C17", "title": "A setter changes only its component", "statement": "A setter that returns leaves every other component's text unchanged, apart from the documented addition or removal of the '//' authority marker.", "quantifier": "for every setter, argument and reachable well-formed URL state", "why_tests_cant": "A wrong memmove length or a wrong offset update corrupts a neighbour only for particular lengths.", "anchors": ["include/boost/url/impl/url_base.ipp: resize(id,n), resize(first,last,n) and every setter", "include/boost/url/detail/parts.hpp: resize, split"]}
{"id": "C18", "title": "Strong exception guarantee", "statement": "If a modifying call throws (invalid argument, size limit, allocation failure), the URL is unchanged: same text, same components, same counts, same buffer.", "quantifier": "for every modifying call, argument, reachable state and every pattern of allocation failures", "why_tests_cant": "Allocation failures and size limits are not injected by the tests, and every throw point matters.", "anchors": ["include/boost/url/impl/url_base.ipp: all setters", "include/boost/url/detail/storage.hpp: reserve, resize", "include/boost/url/url_base.hpp: exception safety notes"]}
{"id": "C19", "title": "Encoded setters accept exactly their documented grammar", "statement": "Each set_encoded_* / set_scheme / set_port call returns exactly when its argument matches the ABNF documented for it (given that allocation succeeds), and throws otherwise.", "quantifier": "for every byte string", "why_tests_cant": "Membership in an infinite language.", "anchors": ["include/boost/url/url_base.hpp: ABNF notes of the setters", "include/boost/url/impl/url_base.ipp", "include/boost/url/detail/parse.hpp: parse_scheme, match_port, match_path_absolute"]}
{"id": "C20", "title": "Clearing a component removes its delimiters", "statement": "Calling a setter with the empty string makes the component absent: its delimiter disappears, has_*/empty getters agree, and when the authority becomes empty the '//' is removed as documented.", "quantifier": "for every reachable well-formed URL state", "why_tests_cant": "Depends on the combination of the other components.", "anchors": ["include/boost/url/impl/url_base.ipp: set_scheme, set_user, set_password, set_host, set_port, set_query, set_fragment"]}
{"id": "C21", "title": "The URL stays syntactically valid", "statement": "After any sequence of modifications the text of the URL parses, and parsing it gives back exactly the components the object reports.", "quantifier": "for every finite sequence of modifications with every argument, from every initial URL", "why_tests_cant": "A property of all histories; the interesting failures need particular combinations of present and absent parts.", "anchors": ["doc/qbk/intro.qbk: design goals", "include/boost/url/impl/url_base.ipp"]}
{"id": "C22", "title": "The buffer is null terminated", "statement": "Whenever a url owns a buffer, the byte after the text is a null character.", "quantifier": "for every finite sequence of modifications", "why_tests_cant": "The terminator is moved by memmove; it can be lost only in particular growth situations, and reading it is not part of any test.", "anchors": ["include/boost/url/url_base.hpp: data(), encoded_url notes", "include/boost/url/impl/url_base.ipp: resize", "include/boost/url/detail/storage.hpp: resize"]}
{"id": "C23", "title": "Modifications never touch memory outside the buffer and never expose uninitialised bytes", "statement": "No modification or accessor reads or writes outside the allocated buffer, and every byte of the URL text has been written.", "quantifier": "for every finite sequence of modifications with every argument", "why_tests_cant": "Memory errors need particular lengths and histories.", "anchors": ["include/boost/url/impl/url_base.ipp", "include/boost/url/detail/storage.hpp"]}
{"id": "C24", "title": "Capacity discipline", "statement": "size() never exceeds capacity(); capacity never decreases; a modification whose result fits into the current capacity does not allocate; otherwise capacity at least doubles (up to the allocator limit) and the old text is preserved.", "quantifier": "for every sequence of modifications and every allocator", "why_tests_cant": "Amortised growth is a property of all sequences.", "anchors": ["include/boost/url/detail/storage.hpp: alloc_storage", "include/boost/url/url_base.hpp: capacity, size"]}
{"id": "C25", "title": "Independent modifications commute", "statement": "Setting two different components (scheme, query, fragment, path, authority parts) in either order gives the same URL text and components.", "quantifier": "for every pair of setters of different components, all arguments and all reachable well-formed URLs", "why_tests_cant": "All pairs, arguments and states.", "anchors": ["doc/qbk/intro.qbk: order of modification", "include/boost/url/impl/url_base.ipp"]}
{"id": "C26", "title": "Setters are idempotent and overwrite", "statement": "Calling the same setter twice has the effect of the second call alone.", "quantifier": "for every setter, pair of arguments and reachable well-formed URL", "why_tests_cant": "Hidden state (presence of authority, stale offsets) could make the first call visible.", "anchors": ["include/boost/url/impl/url_base.ipp"]}
{"id": "C27", "title": "Every accepted URL can be built from an empty one", "statement": "For every accepted URL text there is a sequence of component modifications that turns an empty url into exactly that text with the same components.", "quantifier": "for every accepted URL", "why_tests_cant": "An existence claim for infinitely many targets.", "anchors": ["doc/qbk/intro.qbk: design goals", "include/boost/url/impl/url_base.ipp"]}
{"id": "C28", "title": "Scheme normalisation", "statement": "normalize_scheme() changes only ASCII upper-case letters of the scheme to lower case, keeps the length and every other component, is idempotent, and the result re-parses.", "quantifier": "for every reachable well-formed URL", "why_tests_cant": "All scheme strings.", "anchors": ["include/boost/url/impl/url_base.ipp: normalize_scheme"]}
{"id": "C29", "title": "Numeric ports", "statement": "set_port(n) stores the decimal representation of n without leading zeros; reading it back as a number gives n.", "quantifier": "for every 32-bit unsigned n", "why_tests_cant": "Four billion values.", "anchors": ["include/boost/url/detail/char_type.hpp: port_string", "include/boost/url/impl/url_base.ipp: set_port(unsigned)"]}
{"id": "C30", "title": "Userinfo setter splits user and password", "statement": "After set_encoded_userinfo(\"u:p\") the encoded user is u and the encoded password is p; after set_encoded_userinfo(\"u\") the user is u and there is no password.", "quantifier": "for every u and p in the userinfo grammar and every reachable well-formed URL", "why_tests_cant": "The split offset is computed from lengths; the existing tests look at the whole text only.", "anchors": ["include/boost/url/impl/url_base.ipp: set_encoded_userinfo, set_userinfo_part"]}
{"id": "C31", "title": "Authority setter", "statement": "set_encoded_authority(s) accepts exactly the authority grammar, replaces the whole authority, and afterwards user, password, host, host type and port are those of s.", "quantifier": "for every byte string s and every reachable well-formed URL", "why_tests_cant": "All authorities and all previous states, including stale cached data.", "anchors": ["include/boost/url/impl/url_base.ipp: set_encoded_authority"]}
{"id": "C32", "title": "Origin setter", "statement": "set_encoded_origin(s) accepts exactly scheme://authority strings, and afterwards encoded_origin() is s and path, query and fragment are unchanged.", "quantifier": "for every byte string s and every reachable well-formed URL", "why_tests_cant": "All arguments; the failure is visible only through components other than the ones tests look at.", "anchors": ["include/boost/url/impl/url_base.ipp: set_encoded_origin", "include/boost/url/detail/parse.hpp: parse_origin"]}
{"id": "C33", "title": "Cached counts and host type stay in step with the text", "statement": "segments().size(), params().size() and host_type() always equal what parsing the current text would report.", "quantifier": "for every finite sequence of modifications", "why_tests_cant": "Caches go stale only after particular modification sequences.", "anchors": ["include/boost/url/impl/url_base.ipp: set_encoded_path, set_query, set_encoded_authority, set_host", "include/boost/url/url_base.hpp: segments_type::size, params_type::size"]}
{"id": "C34", "title": "Segments of a mutable url enumerate the path", "statement": "Iterating segments() of a parsed url from begin() to end() terminates, visits exactly size() segments, and their encoded strings are the path split at '/' (a leading '/' starting the first segment); joining them reproduces the path.", "quantifier": "for every accepted URL", "why_tests_cant": "All paths, including empty segments and neighbouring query or fragment text.", "anchors": ["include/boost/url/impl/url_base.ipp: segments_type::iterator", "include/boost/url/url_base.hpp: segments_type"]}
{"id": "C35", "title": "Segments of a url_view enumerate the path", "statement": "The same for url_view::segments() (and segments() of a const url).", "quantifier": "for every accepted URL", "why_tests_cant": "All paths and all queries.", "anchors": ["include/boost/url/impl/url_view.ipp: segments_type::iterator"]}
{"id": "C36", "title": "Segment iterators are bidirectional", "statement": "For a mutable url, decrementing an incremented segment iterator (and vice versa) gives back the same position and segment.", "quantifier": "for every accepted URL and every dereferenceable position", "why_tests_cant": "All positions in all paths.", "anchors": ["include/boost/url/impl/url_base.ipp: segments_type::iterator::operator++, operator--"]}
{"id": "C37", "title": "Editing segments is list editing", "statement": "insert, erase and replace on segments() change the list of segments exactly like the corresponding list operation, update size(), and leave all other components unchanged.", "quantifier": "for every accepted URL, every position or range and every segment text", "why_tests_cant": "All positions, texts and neighbouring components.", "anchors": ["include/boost/url/impl/url_base.ipp: segments_type::insert_encoded_impl, insert_impl, erase, replace"]}
{"id": "C38", "title": "Query parameters enumerate the query", "statement": "Iterating params() terminates after exactly size() steps and yields the key/value pairs of the query string split at '&' and at the first '=' of each piece.", "quantifier": "for every accepted URL", "why_tests_cant": "All queries, with and without a fragment.", "anchors": ["include/boost/url/impl/url_view.ipp: params_type::iterator", "include/boost/url/impl/url_base.ipp: params_type::iterator", "include/boost/url/detail/parse.hpp: parse_query"]}
{"id": "C39", "title": "Parameter lookup agrees with iteration", "statement": "contains(k), count(k), find(k), operator[](k) and at(k) are determined by the decoded keys in iteration order: count is the number of matches, find and [] pick the first match, at throws exactly when there is none.", "quantifier": "for every accepted URL and every key", "why_tests_cant": "All queries and keys, including escaped keys.", "anchors": ["include/boost/url/impl/url_view.ipp: params_type::contains, count, find, operator[]", "include/boost/url/impl/url_view.hpp: params_type::at"]}
{"id": "C40", "title": "Parameter iterators are bidirectional", "statement": "Decrementing an incremented parameter iterator gives back the same position, key and value.", "quantifier": "for every accepted URL and every dereferenceable position", "why_tests_cant": "All positions in all queries.", "anchors": ["include/boost/url/impl/url_view.ipp: params_type::iterator::operator--", "include/boost/url/impl/url_base.ipp: params_type::iterator::operator--"]}
{"id": "C41", "title": "Presence predicates", "statement": "has_authority(), has_userinfo() and the documented equivalences (has_authority() iff !encoded_authority().empty(), and so on) hold.", "quantifier": "for every accepted URL", "why_tests_cant": "All combinations of present but empty parts.", "anchors": ["include/boost/url/impl/url_base.ipp: has_authority, has_userinfo", "include/boost/url/url_base.hpp: has_authority documentation"]}
{"id": "C42", "title": "Known schemes", "statement": "string_to_scheme maps a string to a known scheme exactly when it equals one of the six names ignoring ASCII case, and to unknown otherwise; to_string of a known scheme maps back to it; is_special holds for exactly ftp, file, http, https, ws and wss.", "quantifier": "for every byte string", "why_tests_cant": "Exactness over all strings.", "anchors": ["include/boost/url/impl/scheme.ipp", "include/boost/url/scheme.hpp"]}
{"id": "C43", "title": "Fixed buffer allocator", "statement": "Blocks handed out by a static_pool lie inside its buffer, are aligned as requested and never overlap; when the buffer is exhausted allocation throws.", "quantifier": "for every buffer size, every buffer address and every finite sequence of requests", "why_tests_cant": "The failing cases need particular alignments and remaining sizes.", "anchors": ["include/boost/url/static_pool.hpp: basic_static_pool::allocate"]}
{"id": "C44", "title": "Assignment copies", "statement": "After a = b, a has the text of b.", "quantifier": "for every pair of urls", "why_tests_cant": "No test assigns urls; the claim is about all pairs.", "anchors": ["include/boost/url/basic_url.hpp: operator="]}
{"id": "C45", "title": "Joined accessors are consistent with the single ones", "statement": "encoded_origin(), encoded_authority(), encoded_userinfo(), encoded_host_and_port(), port_part(), query_part() and fragment_part() are the recompositions of the single components, and encoded_url() is the recomposition of them all.", "quantifier": "for every accepted URL", "why_tests_cant": "Eight optional components give all combinations, each with arbitrary text.", "anchors": ["include/boost/url/impl/url_base.ipp and impl/url_view.ipp: encoded_origin, encoded_authority, encoded_userinfo, encoded_host_and_port, port_part, query_part, fragment_part"]}
{"id": "C46", "title": "Password part accessor and setter", "statement": "password_part() returns ':' followed by the encoded password when one is present, and set_password_part(\":\" + p) stores p; an argument not starting with ':' is rejected.", "quantifier": "for every reachable well-formed URL and every byte string", "why_tests_cant": "All states and arguments.", "anchors": ["include/boost/url/impl/url_base.ipp: password_part, set_password_part"]}
{"id": "C47", "title": "Port part setter keeps the authority marker", "statement": "set_port_part(\":\") and set_port_part(\":\" + digits) produce a URL whose text has '//' before the port.", "quantifier": "for every reachable well-formed URL", "why_tests_cant": "Depends on whether an authority is present.", "anchors": ["include/boost/url/impl/url_base.ipp: set_port_part"]}
{"id": "C48", "title": "Error codes", "statement": "Every error code of the library compares equal to condition::parse_error, no other value of the category does, and different error codes have different messages.", "quantifier": "for every integer value of an error code", "why_tests_cant": "The claim is about all values, including those that no input produces.", "anchors": ["include/boost/url/impl/error.ipp: make_error_code", "include/boost/url/error.hpp: enum class error"]}
{"id": "C49", "title": "Assertions only detect", "statement": "A call in a build with assertions either fails an assertion (or faults while evaluating one) or has exactly the outcome it has in a build without assertions.", "quantifier": "for every modifying call, segment edit and accessor, every argument, every state and every allocator", "why_tests_cant": "Tests run in one build mode; the claim compares two for all states.", "anchors": ["include/boost/url/impl/url_base.ipp: BOOST_ASSERT throughout", "include/boost/url/detail/parts.hpp: split"]}
{"id": "C50", "title": "Arguments that are part of the url itself", "statement": "A modifying call whose string argument is a part of the url's own text does what it does with a copy of that part.", "quantifier": "for every modifying call and every edit of a segment with a string argument, every url reachable by calls, every part of its text and every allocator", "why_tests_cant": "Whether it goes wrong depends on the capacity, the allocator and the position of the argument relative to what is set; tests cover few combinations and often do not notice reads of released memory.", "anchors": ["include/boost/url/impl/url_base.ipp: resize", "include/boost/url/impl/url_base.ipp: set_encoded_path", "include/boost/url/detail/storage.hpp: reserve"]}
{"id": "C51", "title": "The calls left out of histories are exactly the wrong ones", "statement": "From a url reached by calls that act as documented, a call that returns has the documented effect on what the accessors report if and only if it is not one of the calls listed as defective (removing a user that is not there counts as having it). A call ends in undefined behaviour or a failed assertion in one case only: in a build with assertions, removing the user where there is an authority without a userinfo.", "quantifier": "for every modifying call, every argument, every url reachable by calls and segment edits, every allocator, with and without assertions", "why_tests_cant": "That no other call misbehaves, for any argument and state, is a universal statement; and tests of the listed calls could pass for some arguments.", "anchors": ["include/boost/url/impl/url_base.ipp: set_user", "include/boost/url/impl/url_base.ipp: set_password_part", "include/boost/url/impl/url_base.ipp: set_port_part", "include/boost/url/impl/url_base.ipp: set_encoded_userinfo", "include/boost/url/impl/url_base.ipp: set_encoded_origin"]}
{"id": "C52", "title": "Sizes do not wrap", "statement": "Every modifying call and every edit of segments computes the same outcome with sizes modulo the range of std::size_t as with unbounded sizes.", "quantifier": "for every modifying call and segment edit, every argument, every url reachable by calls, every allocator and every largest std::size_t", "why_tests_cant": "The arguments for which sums of sizes wrap have billions of characters, and whether a shorter one can make a sum wrap in some state is a question about all states.", "anchors": ["include/boost/url/detail/char_type.hpp: encoded_size", "include/boost/url/detail/storage.hpp: reserve", "include/boost/url/impl/url_base.ipp: resize", "include/boost/url/detail/parts.hpp: resize"]}
{"id": "C53", "title": "Every allocation is freed once, with its size", "statement": "At any time a url owns exactly one block if it has a buffer and none otherwise; every block is freed exactly once and with the size it was allocated with, also when calls or the constructor throw, and none is left when the url is destroyed.", "quantifier": "for every sequence of modifying calls and segment edits, returning or throwing, every argument and every allocator", "why_tests_cant": "Leaks and wrong sizes would show only for particular combinations of growth, failing allocations and exceptions; the statement is about all of them.", "anchors": ["include/boost/url/detail/storage.hpp: reserve", "include/boost/url/detail/storage.hpp: ~alloc_storage", "include/boost/url/basic_url.hpp: basic_url"]}
{"id": "C54", "title": "A url is determined by its text and its parts", "statement": "Two urls that agree in their text and in their parts table cannot be told apart: every accessor returns the same, and every modifying call and every segment edit either returns for both and leaves urls that agree again, or rejects its argument for both, or fails for lack of memory.", "quantifier": "for every two urls reachable by calls and edits in any two builds with any two allocators, every accessor, every sequence of calls, every edit and every argument", "why_tests_cant": "It compares all pairs of histories that lead to the same text; a leftover of a previous value would show only in particular pairs.", "anchors": ["include/boost/url/impl/url_base.ipp", "include/boost/url/detail/parts.hpp: parts", "include/boost/url/detail/storage.hpp: resize"]}
{"id": "C55", "title": "Iterators survive changes to other parts of a url", "statement": "An iterator to a segment or a parameter that was obtained before a modification still points to the same segment or parameter after it, unless that was taken away: the loop from it to end() visits the same elements.", "quantifier": "for every url reachable by calls and edits, every position of an iterator, every call that sets another component and every edit of another segment, and every argument", "why_tests_cant": "Iterators store offsets; whether an offset is still right depends on the lengths of everything in front of it before and after the call.", "anchors": ["include/boost/url/impl/url_base.ipp: url_base::segments_type::iterator", "include/boost/url/impl/url_base.ipp: url_base::params_type::iterator"]}
{"id": "C56", "title": "What a const url handed out stays usable while the url is modified", "statement": "A range of segments or parameters obtained from a const url before a modification visits, after it, what a new range would visit; and a string returned by an accessor before a call that sets a later component still has the same characters.", "quantifier": "for every url reachable by calls and edits, every modifying call and argument, in both builds and for every allocator", "why_tests_cant": "The range keeps the old buffer pointer beside a pointer to the live parts table; whether it is still the buffer depends on whether this call had to allocate, which depends on the capacity that all calls before left.", "anchors": ["include/boost/url/impl/url_base.hpp: url_view::segments_type::segments_type", "include/boost/url/impl/url_base.hpp: url_view::params_type::params_type", "include/boost/url/detail/storage.hpp: reserve"]}
{"id": "C57", "title": "Edits through iterators into the path change the path only", "statement": "erase, insert and replace, given iterators whose offsets lie in the path, wherever they come from, replace exactly the text between these offsets, leave the text of every other component as it was, return the iterator behind what was inserted, and do nothing undefined in a build without assertions; afterwards all calls, accessors, increments, decrements and loops are defined as well.", "quantifier": "for every url modified by any calls and edits whatsoever, all iterators into its path including out of date ones and ones inside a segment, every argument, and every allocator", "why_tests_cant": "Out of date iterators are arbitrary offsets, the states include those with indeterminate bytes and wrong counts, and whether undefined behaviour shows depends on what happens to be in memory.", "anchors": ["include/boost/url/impl/url_base.ipp: url_base::segments_type::erase", "include/boost/url/impl/url_base.ipp: url_base::segments_type::insert_impl", "include/boost/url/impl/url_base.ipp: url_base::segments_type::replace", "include/boost/url/impl/url_base.ipp: url_base::segments_type::iterator::parse"]}
{"id": "C58", "title": "Ranges and iterators of no url or of another url", "statement": "A default constructed range is empty and nothing is found in it. A loop from an iterator of one object never comes to an end at an iterator of another object or a default constructed one. An edit given an iterator of another url never returns in a build with assertions and leaves the url as it was if it throws; without assertions, unless it is undefined, it changes the url exactly as an iterator of the url itself at the same offset would; with a default constructed iterator an edit never returns unless it erases nothing.", "quantifier": "for all objects, iterators, edits, arguments, states, allocators, and both builds", "why_tests_cant": "Pairs of unrelated objects with arbitrary contents and iterators at arbitrary offsets are unbounded, and that a loop never ends cannot be observed.", "anchors": ["include/boost/url/impl/url_base.hpp: operator==", "include/boost/url/impl/url_base.ipp: url_base::segments_type::erase", "include/boost/url/impl/url_base.ipp: url_base::segments_type::insert_impl", "include/boost/url/impl/url_view.ipp: url_view::params_type::find"]}
{"id": "C59", "title": "The accessors agree with the regular expression of RFC 3986", "statement": "For every accepted string the accessors for scheme, authority, path, query and fragment return the groups of the regular expression in appendix B of RFC 3986, and tell absent components from empty ones as it does. The grammar of the RFC is unambiguous: a text has at most one decomposition, down to user, password, host and port, and the regular expression finds it.", "quantifier": "for every byte string", "why_tests_cant": "Two independent ways of splitting a text have to agree on all of infinitely many strings.", "anchors": ["include/boost/url/detail/parse.hpp: parse_url", "include/boost/url/impl/url_view.ipp: url_view::encoded_path", "include/boost/url/impl/url_view.ipp: url_view::encoded_query"]}
{"id": "C60", "title": "Urls that share a static pool", "statement": "Urls constructed with the allocator of one static_pool are urls like any other and do not disturb each other: their buffers lie in the buffer of the pool and never overlap, whatever calls and edits are made on whichever of them, and whichever are destroyed. A call asks the pool at most once; it does exactly what it does with unlimited memory if it needs no new buffer or the pool has room for it, and otherwise throws bad_alloc and leaves the url as it was. A url takes at most three times its capacity from the pool, so a pool of 6n bytes per url never refuses while no call needs more than n characters. The memory of destroyed urls can be used again, a copy of a pool hands out memory of its own, and a url with a default constructed allocator can be used.", "quantifier": "for all pools, numbers of urls, sequences of constructions, calls, edits and destructions, arguments and both builds", "why_tests_cant": "Interleavings of calls on several urls are unbounded, an overlap shows only by later corruption, and the test of the library for the pool is empty.", "anchors": ["include/boost/url/static_pool.hpp: basic_static_pool::allocate", "include/boost/url/detail/storage.hpp: alloc_storage::reserve", "include/boost/url/basic_url.hpp: basic_url"]}
{"id": "C61", "title": "What is thrown, and when", "statement": "A call that would return with enough memory throws in exactly two cases: too_large if the size of its result is more than the largest size, and bad_alloc if the result does not fit into the capacity and the allocator refuses the block of twice the capacity or of the size of the result; in both cases the object is as before. An edit of a segment throws exactly if an encoded argument is not a segment or there is no memory. Functions declared noexcept (normalize_scheme, erase) and calls by which a part is removed never throw. Nothing but invalid_part, too_large and bad_alloc is thrown.", "quantifier": "for all calls, edits, arguments, states after any calls and edits, allocators, and both builds", "why_tests_cant": "A test would have to refuse every single request of every call in every state, with results beyond the largest size.", "anchors": ["include/boost/url/detail/storage.hpp: alloc_storage::reserve", "include/boost/url/impl/url_base.ipp: url_base::resize", "include/boost/url/impl/url_base.ipp: url_base::segments_type::erase", "include/boost/url/url_base.hpp: url_base::normalize_scheme"]}
{"id": "C62", "title": "Setting a component to the text it has", "statement": "Giving a setter what the getter of the same name returns is accepted and changes neither the text nor the boundaries of the components, and a call that returns changes nothing only if what it sets was there already.", "quantifier": "for all urls after any calls, all setters of the container, all arguments, both builds", "why_tests_cant": "The law relates every getter to every setter over all urls; the exceptions (empty components, passwords that start with a colon, paths that are read as something else) are found only if all cases are covered.", "anchors": ["include/boost/url/impl/url_base.ipp: url_base::set_encoded_query", "include/boost/url/impl/url_base.ipp: url_base::set_encoded_password", "include/boost/url/impl/url_base.ipp: url_base::set_encoded_userinfo", "include/boost/url/impl/url_base.ipp: url_base::set_encoded_url"]}
{"id": "C63", "title": "Which characters occur in a url, and where", "statement": "The text of every view and of every url after any calls consists of characters of URIs and escapes, and no component contains a delimiter that would end it: no control character, space, quote or byte above 126 gets into a url.", "quantifier": "for all accepted texts, all urls after any calls and edits, both builds", "why_tests_cant": "It is an invariant of all histories of calls and edits over all arguments; the one exception (any byte behind the first slash of a path without authority, which edits can move) is a single position.", "anchors": ["include/boost/url/detail/parse.hpp: parse_path_absolute", "include/boost/url/impl/url_base.ipp: url_base::set_encoded_path", "include/boost/url/impl/url_base.ipp: insert_encoded_impl", "include/boost/url/detail/char_type.hpp: pct_encoding::check"]}
{"id": "C64", "title": "Parts of accepted texts can be recombined, cut and extended", "statement": "The scheme, authority, path, query and fragment of accepted texts, put together in that order, are accepted with exactly these parts if and only if the path fits behind what is now before it. In particular a text without a fragment can be followed by `#` and exactly the fragments, one without query and fragment by `?` and exactly the queries, one without a scheme can be preceded by exactly the schemes; what remains when query or fragment are cut off is accepted with its remaining parts.", "quantifier": "for all accepted texts (five at once), all appended and prepended texts", "why_tests_cant": "It relates the results of the parser on several unbounded texts at once, and says of every other appended text that it is rejected; the exception (a lone slash takes the delimiter behind it into the path) is one position.", "anchors": ["include/boost/url/detail/parse.hpp: parse_url", "include/boost/url/detail/parse.hpp: parse_hier_part", "include/boost/url/detail/parse.hpp: parse_relative_part", "include/boost/url/detail/parse.hpp: parse_path_absolute"]}
{"id": "C65", "title": "Components can be copied from one url to another", "statement": "What an encoded getter of one url or view returns is accepted by the setter of the same name of any other url, and then read there.", "quantifier": "for all accepted views, all pairs of urls after any calls and edits (also with different allocators and builds), all seventeen pairs of a getter and a setter", "why_tests_cant": "It quantifies over the histories of two urls at once; the exceptions (a password that starts with a colon, a path that does not fit, the userinfo part `@`) depend on both.", "anchors": ["include/boost/url/impl/url_base.ipp: url_base::set_encoded_authority", "include/boost/url/impl/url_base.ipp: url_base::set_encoded_path", "include/boost/url/impl/url_base.ipp: url_base::set_encoded_password", "include/boost/url/impl/url_view.ipp: url_view::encoded_authority"]}
{"id": "C66", "title": "Parsing takes linear time", "statement": "A text of n characters is parsed with at most 4*n+18 reads of a character, whether it is accepted or not; no smaller factor than 4 will do.", "quantifier": "for all texts; for the factor, for all lengths", "why_tests_cant": "The parser goes back to the start twice (after a failed scheme and after a failed userinfo) and scans the host with two scanners; that this never adds up to more than four passes is a statement about all texts, and a timing test only sees the texts it was given.", "anchors": ["include/boost/url/detail/parse.hpp: parse_url", "include/boost/url/detail/parse.hpp: parse_authority", "include/boost/url/detail/parse.hpp: parse_ip_v6", "include/boost/url/detail/parse.hpp: parse_query", "include/boost/url/detail/char_type.hpp: pct_encoding::parse"]}
{"id": "C67", "title": "Allocations are rare", "statement": "However often a url is modified, it has allocated at most as many blocks as its capacity has binary digits; without the terminators these blocks add up to less than twice the capacity, and the blocks the text was copied from to less than the capacity. If the text never had more than B characters, the capacity is at most 2*B+2, so all the blocks together have little more than 4*B bytes.", "quantifier": "for all sequences of calls and edits, returning or throwing, and all behaviours of the allocator", "why_tests_cant": "The bound is on the sum over a history of any length; a test sees single histories, and growth by a constant amount instead of a factor would look the same in short ones.", "anchors": ["include/boost/url/detail/storage.hpp: reserve", "include/boost/url/detail/storage.hpp: resize", "include/boost/url/impl/url_base.ipp: resize", "include/boost/url/impl/url_base.ipp: set_password_part"]}
{"id": "C68", "title": "Walking and looking up take linear time", "statement": "A loop over the parameters reads each character of the query at most 4 times, and a lookup (contains, count, find) at most 5 times, however long the key is; neither factor can be lowered. Whatever happens, a loop that faults included, there are at most 4*n+4 (5*n+4) reads for a text of n characters. A loop over the segments that returns k segments of a path of n characters makes at most n+2*k+2 reads.", "quantifier": "for all objects, builds, keys and numbers of steps; the sharp bounds for all accepted texts and all urls after any calls", "why_tests_cant": "An iterator parses again at each step, up to the end of the text if the parameter does not end before; that the steps never read the same characters more often than this, also in the faulty cases, is a statement about all queries and keys.", "anchors": ["include/boost/url/impl/url_view.ipp: params_type::iterator::parse", "include/boost/url/impl/url_view.ipp: params_type::find", "include/boost/url/impl/url_view.ipp: segments_type::iterator::parse", "include/boost/url/impl/url_base.ipp: params_type::iterator::parse", "include/boost/url/detail/char_type.hpp: key_equal"]}
{"id": "C69", "title": "Exactly which modifications make a text that reads differently", "statement": "If the text of a url parses to its components, then after a modification that returns it does so again except in these cases, in each of which it does not: (a) the authority disappears and the path starts with // or is a lone slash before a query or fragment; (b) an authority appears and the path is not a sequence of well formed segments each with a slash before it; (c) the scheme is removed from a url without authority and the first segment of the path has a colon; (d) without authority, a path that is a lone slash gets a query or fragment, or the path of a url with a query or fragment becomes a lone slash; (e) without authority, an edit of segments makes the first segment of an absolute path empty with more segments behind it, or the only one with a query or fragment behind it, or inserts a segment before a first one that is not well formed. set_encoded_url and the normalizations are never among them.", "quantifier": "for every url after any calls and edits whose text parses to its components, every call and edit with every argument; C69_history for all sequences of modifications that are not listed", "why_tests_cant": "The cases depend on which parts are present before, on the argument and on the first characters of the path; that the list is complete and that each entry is really a failure is a statement about all urls.", "anchors": ["include/boost/url/impl/url_base.ipp: url_base::set_scheme", "include/boost/url/impl/url_base.ipp: url_base::set_encoded_authority", "include/boost/url/impl/url_base.ipp: url_base::set_encoded_path", "include/boost/url/impl/url_base.ipp: segments_type::insert_encoded", "include/boost/url/detail/parse.hpp: parse_url"]}
{"id": "C70", "title": "What was read before modifications restores a url after them", "statement": "Let a component of a url (scheme, authority, path, query or fragment) be read, let the url then be modified by any calls and edits that touch this component only, returning or throwing, and let the setter of the component be given what was read. The call is rejected exactly if it would have been rejected before the modifications, and otherwise it restores the url exactly unless the component was present and empty and the getter did not say so. The same holds for the user, the password, the host and the port, except that a url without authority which got one by setting its user or password keeps the slashes. Giving set_encoded_url the whole text restores the url after any modifications whatsoever exactly if the text parsed to its components.", "quantifier": "for every url after any calls and edits, every further sequence of calls and edits of the component, and every getter and setter", "why_tests_cant": "Whether the old value can be put back depends on all that happened in between, which is unbounded: that no sequence of calls leaves a trace, such as slashes, a colon or an escape, is a statement about all sequences.", "anchors": ["include/boost/url/impl/url_base.ipp: url_base::set_encoded_url", "include/boost/url/impl/url_base.ipp: url_base::set_encoded_user", "include/boost/url/impl/url_base.ipp: url_base::set_encoded_host", "include/boost/url/impl/url_base.ipp: url_base::set_encoded_query", "include/boost/url/impl/url_base.ipp: url_base::set_encoded_path"]}
{"id": "C71", "title": "What every call makes of the eight texts, after any calls", "statement": "A url consists of eight texts: scheme, user, password, host, port, path, query and fragment with their delimiters. After any calls and edits, also those whose defects leave texts that are not the parts of a URL, the eight texts after a call that returns are a function of the eight texts before it and the argument, given for each of the calls; whether the call accepts its argument is a function of them as well. The only exception is a url with exactly one character behind its scheme, where clearing or setting the userinfo may leave a byte that was never written.", "quantifier": "for every history of calls and edits, every build, every modifying call and every argument", "why_tests_cant": "The states reached through defective calls are not described by the grammar, so that tests have no oracle for them; that none of the capacity, the bytes beyond the text, the recorded numbers or the allocator matters is a statement about all pairs of histories.", "anchors": ["include/boost/url/impl/url_base.ipp: url_base::set_encoded_userinfo", "include/boost/url/impl/url_base.ipp: url_base::set_user", "include/boost/url/impl/url_base.ipp: url_base::set_password_part", "include/boost/url/impl/url_base.ipp: url_base::set_host", "include/boost/url/impl/url_base.ipp: url_base::set_port_part", "include/boost/url/impl/url_base.ipp: url_base::set_encoded_origin"]}
{"id": "C72", "title": "A modification writes linearly many characters", "statement": "Counting every byte stored into the memory of a url, by assignment, copying, moving or encoding, a modifying call writes at most twice as many bytes as the text has characters, plus twice those it stores for its argument, plus eleven; set_password_part(\":\") writes at most three times as many as the text has, plus 19. Inserting or erasing segments, through any iterators, writes at most twice as many as the text has, plus twice those inserted, plus four. Replacing a segment may besides copy as many characters as the storage records, which may be those of an earlier, longer text: no bound in the text and the argument alone holds for it. Conversely it writes at least as many as there are bytes in the memory afterwards that were not there before, so that the whole text is written when there is a new block.", "quantifier": "for every history of calls and edits, every build, every allocator, every modifying call or edit and every argument, whether it returns or throws", "why_tests_cant": "The number of writes cannot be observed from outside, and a bound in the size of the text is a statement about texts of all lengths.", "anchors": ["include/boost/url/impl/url_base.ipp: url_base::resize", "include/boost/url/detail/storage.hpp: alloc_storage::reserve", "include/boost/url/impl/url_base.ipp: url_base::set_password_part", "include/boost/url/impl/url_base.ipp: url_base::segments_type::replace"]}
{"id": "C73", "title": "Copies to new blocks are paid for; appending is linear, prepending quadratic", "statement": "Apart from as many bytes as its capacity grows by, a modifying call writes at most the characters behind the part it replaces, those it stores for its argument, and eight; set_password_part(\":\") at most twice the characters behind, and 13; changing the case of the scheme at most its length. An insertion or erasure writes at most the characters behind what it removes, those inserted, and four; a replacement at most twice the characters behind its position, those inserted, and ten. So over any history the bytes written are at most the sum of these and the final capacity, however often the text was copied. If segments are appended one after the other to the path of a url without query and fragment, all of them together write at most seven bytes for each character of the final text. An insertion writes at least what is behind its position and what is inserted, so k segments put in front of a path one after the other write at least k*(k+3)/2 bytes.", "quantifier": "for every history of calls and edits, every build, every allocator and every argument, whether the calls return or throw", "why_tests_cant": "A bound over histories of any length, of a number that cannot be observed from outside; growth by a constant amount instead of a factor looks the same in short histories.", "anchors": ["include/boost/url/impl/url_base.ipp: url_base::resize", "include/boost/url/detail/storage.hpp: alloc_storage::reserve", "include/boost/url/detail/storage.hpp: alloc_storage::resize", "include/boost/url/impl/url_base.ipp: url_base::segments_type::insert_encoded_impl", "include/boost/url/impl/url_base.ipp: url_base::segments_type::erase"]}
{"id": "C74", "title": "A loop may edit the segments it walks over", "statement": "A loop from begin() to end() of the segments of a url that keeps each segment with ++it, takes it away with it = erase(it) or changes it with it = replace(it, s) ends, does nothing undefined and fails no assertion. If it returns, each segment became what was wanted of it, in order, each having been looked at once; the cached count is right, a further loop sees the new segments, and no other component changed. If it throws, it is bad_alloc from replace, the segments before that one are changed and the others are not. A loop that does not replace never throws.", "quantifier": "for every url in order, every decision by the content of a segment, every allocator and both builds", "why_tests_cant": "The number of iterations, the decisions and the allocator's failures are unbounded; each returned iterator has to be valid for the text it is used on next.", "anchors": ["include/boost/url/impl/url_base.ipp: url_base::segments_type::erase", "include/boost/url/impl/url_base.ipp: url_base::segments_type::replace", "include/boost/url/impl/url_base.ipp: url_base::segments_type::iterator::operator++", "include/boost/url/impl/url_base.hpp: url_base::segments_type::iterator::operator==", "include/boost/url/impl/url_base.ipp: url_base::segments_type::end"]}
{"id": "C75", "title": "Strings inserted one after the other are read back", "statement": "Inserting a list of strings of any bytes with it = insert(it, s), starting at any position, puts them there in order: a loop over the segments then sees those before the position, for each string one that decodes to it, and those that were behind. The last iterator returned is the one behind them, the cached count is right, and no other component changed. If memory runs out, the strings before that one are in place and the url is in order. So after erasing all segments, any list of strings can be made the path and is read back.", "quantifier": "for every url in order, every list of strings, every position, every allocator and both builds", "why_tests_cant": "Lists of any length of any strings, including empty ones and ones of slashes and percent signs; each returned iterator is used on the text the insertion made.", "anchors": ["include/boost/url/impl/url_base.ipp: url_base::segments_type::insert_impl", "include/boost/url/impl/url_base.ipp: url_base::segments_type::iterator::parse", "include/boost/url/url_base.hpp: segments_type"]}
