import json
P=[]
def p(id,title,statement,quantifier,why,anchors):
    P.append(dict(id=id,title=title,statement=statement,quantifier=quantifier,why_tests_cant=why,anchors=anchors))
U="pyslet/unicode5.py"; I="pyslet/iso8601.py"; R="pyslet/rfc2396.py"; G="pyslet/http/grammar.py"; PA="pyslet/http/params.py"; S="pyslet/streams.py"; B="pyslet/blockstore.py"; X="pyslet/xml/xsdatatypes.py"
p("C01","CharClass is a set of characters",
 "After any sequence of CharClass constructor arguments, add_char, add_range, add_class, subtract_char, subtract_range, subtract_class and negate calls, a character tests as a member exactly when it is in the set obtained by performing the corresponding set operations (insert, union, difference, complement up to maxunicode).",
 "every finite operation history and every code point","the number of histories and of code points (0..0x10FFFF) is unbounded; interval-merge and split bugs show up only for particular adjacencies",
 [U+":CharClass.add_range",U+":CharClass.subtract_range",U+":CharClass.add_char",U+":CharClass.subtract_char",U+":CharClass.negate",U+":CharClass._merge",U+":CharClass._bisection_search"])
p("C02","CharClass equality is set equality",
 "Two CharClass objects built by any two histories compare equal with == if and only if they contain the same characters (the stored ranges are always canonical: sorted, non-empty, separated by at least one missing character).",
 "every pair of operation histories","needs canonicity of every reachable representation",[U+":CharClass.__eq__",U+":CharClass._merge",U+":CharClass.add_range"])
p("C03","The block cache of CharClass.test is invisible",
 "At every point of every history of mutations and test calls, test(c) returns the same answer as the uncached test_slow(c), whatever characters were tested before (so whatever blocks are cached), including characters beyond the 256 cached blocks.",
 "every interleaving of mutating calls and test calls on one object; every character","cache staleness depends on the history; block boundaries fall in every possible position relative to ranges",
 [U+":CharClass.test",U+":CharClass._clear_cache",U+":CharClass.test_slow"])
p("C04","Copying a CharClass gives an independent object",
 "Building a class with CharClass(other) (or add_class on an empty class) and then modifying the copy never changes the members of other. [The code violates this: the copy shares the mutable range lists, and a later subtract on the copy edits them in place; e.g. the XML Schema regular expression [\\p{L}-[a-z]] corrupts the global Unicode category table.]",
 "every pair of objects and every later history on the copy","aliasing is invisible to tests that look at one object",
 [U+":CharClass.add_class",U+":CharClass.subtract_range",X+":RegularExpressionParser.require_char_group"])
p("C05","Look-ahead parser methods never move on failure and consume exactly what they return",
 "For BasicParser on every source and at every position: when parse, parse_insensitive, parse_one, parse_digit(s), parse_integer, parse_hex_digit(s) or parse_production return None the position is unchanged; when they succeed the position advances by exactly the matched text, which is the slice of the source at the old position; parse_until splits the rest of the source at the first occurrence.",
 "every source string, position and argument","unbounded inputs",[U+":BasicParser.parse",U+":BasicParser.parse_until",U+":BasicParser.parse_digits",U+":BasicParser.parse_integer",U+":ParserMixin.parse_production"])
p("C06","parse_integer is exact and respects its bounds",
 "parse_integer(min,max,max_digits) returns v only if the source at the current position starts with a maximal (up to max_digits) run of digits whose decimal value is v and min<=v<=max; it returns None otherwise; printing any natural number and parsing it back returns that number.",
 "every source and every bound","unbounded integers and strings",[U+":BasicParser.parse_integer",U+":BasicParser.parse_digits"])
p("C07","Absolute day number is a bijection",
 "Date(absolute_day=n) followed by get_absolute_day() returns n for every representable n>=1, and Date(absolute_day=d.get_absolute_day()) is d for every complete valid date d; the constructed date always satisfies the calendar checks.",
 "every day from 0001-01-01 to 9999-12-31","3.6 million days; leap-rule corner cases (quad-century, century, quad-year ends)",[I+":Date._set_from_absolute_day",I+":Date.get_absolute_day",I+":Date._set_from_ordinal_day"])
p("C08","Absolute day numbers count days and order dates",
 "The day after any valid date in the calendar has absolute day exactly one larger, and d1<d2 by calendar comparison iff absolute_day(d1)<absolute_day(d2).",
 "every pair of valid complete dates","quadratic in 3.6 million dates",[I+":Date.get_absolute_day",I+":Date.sortkey"])
p("C09","Weekdays advance by one each day and agree with the absolute day number",
 "day_of_week is 1..7 and equals (absolute_day-1) mod 7 + 1 for every valid date, so it advances cyclically by one each day.",
 "every valid date","unbounded years; formula special-cases January/February in leap years",[I+":day_of_week"])
p("C10","ISO week dates round trip",
 "For every valid complete date d with a representable week year, constructing a Date from d.get_week_day() gives back d; week numbers lie in 1..week_count(year), and week_count(year) is the true number of ISO weeks in that year.",
 "every valid date","year-boundary weeks 52/53/1 depend on the weekday and leapness of two adjacent years",[I+":Date.get_week_day",I+":Date._set_from_week_day",I+":week_count"])
p("C11","Ordinal dates and Julian dates round trip",
 "get_ordinal_day/ordinal constructor are mutually inverse on valid dates, and from_julian/get_julian_day are mutually inverse.",
 "every valid date / every valid Julian date","unbounded",[I+":Date.get_ordinal_day",I+":Date._set_from_ordinal_day",I+":Date.from_julian",I+":Date.get_julian_day"])
p("C12","Date.offset is addition of days",
 "For complete dates offset(days=a,weeks=w) moves the absolute day by exactly a+7w or raises; offsets compose additively and offset by -n undoes offset by n; month-precision and week-precision offsets move the month/week count by exactly the requested amount.",
 "every date and every offset","unbounded offsets",[I+":Date.offset"])
p("C13","Time.offset conserves seconds",
 "For complete times without fractional parts (hour, t.offset(h,m,s)) returns (t2,days) with 86400*days + seconds(t2) = seconds(t) + 3600h+60m+s and t2 a valid time of day; Time(total_seconds=n).get_total_seconds() = n for 0<=n<86400.",
 "every time and every (possibly negative) offset","unbounded offsets, negative floor division",[I+":Time.offset",I+":Time.get_total_seconds",I+":Time._set_from_total_seconds"])
p("C14","Zone shifts preserve the instant",
 "TimePoint.shift_zone returns a time point in the requested zone denoting the same instant whenever it returns; shifting to UTC never fails except by leaving the calendar range. [For zones more than 24 hours apart the code can raise 'hour out of range' instead of returning.]",
 "every time point and zone","zones x days x times; carries across midnight, month and year ends",[I+":Time.shift_zone",I+":TimePoint.shift_zone"])
p("C15","TimePoint comparison is comparison of instants",
 "For complete zoned time points without 24:00:00 or leap seconds, ==, < and hash agree with equality and order of the instants (get_unixtime), regardless of zone.",
 "every pair of time points in every pair of zones","quadratic",[I+":TimePoint.sortkey",I+":TimePoint.otherkey",I+":TimePoint.get_unixtime"])
p("C16","Unix time round trips",
 "TimePoint.from_unix_time(n).get_unixtime() = n for every integer n in calendar range.",
 "every integer second count in range","10^11 values",[I+":TimePoint.from_unix_time",I+":TimePoint.get_unixtime"])
p("C17","ISO 8601 date strings round trip",
 "Formatting a valid complete date in basic or extended calendar, ordinal or week format and parsing it back gives the same date.",
 "every valid date and the six formats","millions of dates and a large hand written state machine parser",[I+":Date.get_calendar_string",I+":Date.get_ordinal_string",I+":Date.get_week_string",I+":ISO8601Parser.parse_date_format"])
p("C18","URI escaping round trips and emits only URI characters",
 "unescape_data(escape_data(b)) = b for every byte string b and every reserved test, as long as '%' is not in the allowed set; with the default tests every output character is an allowed URI character or part of a %XX escape, so the result is wholly accepted by parse_uric.",
 "every byte string, every reserved predicate","unbounded strings",[R+":escape_data",R+":unescape_data",R+":parse_uric"])
p("C19","canonicalize_data is idempotent and meaning preserving",
 "For every well-formed URI string, canonicalize_data is idempotent and does not change the octets denoted by the string (unescape_data of both agree).",
 "every string accepted by parse_uric","unbounded strings, interaction of escapes and reserved sets",[R+":canonicalize_data"])
p("C20","Path normalization is a normal form",
 "normalize_segments terminates for every list of segments; the result contains no '.' segment, '..' occurs only as a leading run, and normalizing again changes nothing.",
 "every list of path segments","unbounded lists; in-place deletion with index backtracking",[R+":normalize_segments"])
p("C21","Parsing a URI loses nothing",
 "For every string accepted by URI(...), str(uri) is the original string and the scheme, authority, path, query and fragment components reassemble to it.",
 "every accepted string","unbounded; a 6-state hand written scanner",[R+":URI.__init__",R+":URI.parse_scheme_specific_part",R+":URI._parse_relative_uri",R+":parse_uric",R+":_parse_scheme"])
p("C22","relative() is undone by resolve()",
 "For hierarchical URIs with equal scheme and authority and normalized absolute paths u and b, resolving u.relative(b) against b gives back u.",
 "every pair of normalized paths","quadratic in unbounded path lists",[R+":URI.relative",R+":URI.resolve",R+":_relativize_segments",R+":_make_rel_path_abs"])
p("C23","Authority splitting is lossless",
 "split_server returns userinfo, host and port such that reassembling them gives the authority back, port consists only of digits, and userinfo contains no '@'.",
 "every authority string","unbounded strings",[R+":split_server"])
p("C24","URN namespace-specific strings round trip",
 "translate_from_urnchar(translate_to_urnchar(s)) = s for every zero-free Unicode string s, for every additional reserved test, and the encoded form uses URN characters only.",
 "every Unicode string","unbounded",["pyslet/urn.py:translate_to_urnchar","pyslet/urn.py:translate_from_urnchar","pyslet/urn.py:parse_urn"])
p("C25","HTTP quoted strings round trip",
 "decode_quoted_string(quote_string(s)) = s for every byte string; the quoted form is tokenized by WordParser as exactly one word and decoded to s. [Without force, the empty string is written as nothing; an unterminated quoted string is accepted.]",
 "every byte string","unbounded",[G+":quote_string",G+":decode_quoted_string",G+":OctetParser.parse_quoted_string"])
p("C26","HTTP parameters round trip",
 "Formatting a media type, transfer encoding, chunk header or entity tag and parsing it back yields an equal object for every valid value. [Violated for empty parameter values: quote_string(b'',force=False) prints nothing and the text cannot be parsed back; and for parameter names with bytes above 127, which are parsed but cannot be formatted.]",
 "every token, parameter dictionary and byte-string value","unbounded",[G+":format_parameters",G+":WordParser.parse_parameters",PA+":MediaType",PA+":EntityTag",PA+":Chunk",PA+":HTTPVersion"])
p("C27","HTTP dates round trip",
 "FullDate.to_bytes followed by from_http_str returns the same instant (in GMT) for every valid time point; parsed dates always have the right weekday.",
 "every time point","10^11 values",[PA+":FullDate.to_bytes",PA+":ParameterParser.require_fulldate"])
p("C28","Pipe delivers bytes exactly once, in order",
 "For every interleaving of atomic pipe operations by any number of readers and writers, the concatenation of all data returned by reads followed by what is buffered equals the concatenation of all data accepted by writes (until the pipe is closed), and EOF is only reported after everything was delivered. [Violated by writing an empty bytearray: the next read reports EOF.]",
 "every schedule of write/write_eof/read/readinto/readmatch calls of any sizes","unbounded interleavings and sizes",[S+":Pipe.write",S+":Pipe.read",S+":Pipe.readinto",S+":Pipe.readmatch",S+":Pipe._consolidate_buffer",S+":Pipe.write_eof"])
p("C29","Pipe flow-control accounting is exact",
 "buffered() always equals the number of undelivered bytes, canwrite() never reports more than the remaining space, a mutable-buffer write never exceeds the buffer size, and a non-blocking write returns None exactly when the buffer is full. [Violated by readmatch, which drops delivered bytes without reducing the count: writers can be held up for ever on an empty pipe.]",
 "every operation history","unbounded histories",[S+":Pipe.canwrite",S+":Pipe.buffered",S+":Pipe.write"])
p("C30","BufferedStreamWrapper is transparent",
 "Reading a BufferedStreamWrapper with any sequence of read sizes returns the bytes of the source in order, each exactly once, whether or not the source fitted the buffer; peek never changes what later reads return. When the source fits in the buffer, seek and tell behave as for a file. [Violated by a seek to a negative position, which raises but moves the position.]",
 "every source behaviour (short reads), buffer size and read sequence","unbounded",[S+":BufferedStreamWrapper.__init__",S+":BufferedStreamWrapper.readinto",S+":BufferedStreamWrapper.peek"])
p("C31","Stored streams behave as byte files",
 "A BlockStream opened on a new stream behaves under every sequence of write, read and seek within the file like an ordinary in-memory byte file: reads return the most recently written bytes, across block boundaries, and the flushed blocks concatenate to the file's content. [Opening an existing non-empty stream with mode 'w' and writing, and writing or reading after a seek to a later block, raise IndexError in the code; a seek to a negative position is not refused by the code and is not modelled.]",
 "every operation sequence, block size and data","unbounded histories; block boundary corner cases",[B+":BlockStream.write",B+":BlockStream.readinto",B+":BlockStream.seek",B+":BlockStream.flush"])
p("C32","Block store never loses referenced blocks and never leaks orphans",
 "After any sequence of completed store_block, update_block and delete_blocks operations on any number of streams, every block referenced by a stream is in the block store with the content whose hash it carries, and every block in the store is referenced; at any crash point inside an operation no referenced block written before is missing. This holds for every interleaving of threads that use the locks. [The code violates this for store_block of data larger than the maximum block size, which leaves a block without data, and for two updates of one block by clients with stale copies, which leave an orphan.]",
 "every operation history over many streams and every crash point inside update/delete","crash points and sharing of identical blocks between streams",[B+":StreamStore.store_block",B+":StreamStore.update_block",B+":StreamStore.delete_blocks",B+":FileBlockStore.store"])
p("C33","Locks are mutually exclusive until they expire",
 "For every interleaving of lock and unlock attempts by any owners, between a successful lock by A and its unlock no other owner acquires the lock unless lock_timeout has elapsed since the lock was (re)created; a stale owner's unlock never removes a lock taken over by another owner before the unlock started. [The code violates this for an unlock that takes longer than the rest of the lock's life between its check and its delete, and with the in-memory entity set, which ignores concurrency tokens.]",
 "every schedule of any number of clients and every clock history","unbounded schedules",[B+":LockStore.lock",B+":LockStore.unlock"])
p("C34","White space facets",
 "white_space_collapse and white_space_replace are idempotent; the collapsed string has no leading, trailing or double spaces and the same sequence of words. [The code violates this: after leading white space the first character of the first word is split off, ' ab' becomes 'a b'.]",
 "every string","unbounded",[X+":white_space_collapse",X+":white_space_replace"])
p("C35","Parser errors point at the furthest position reached",
 "When a parser error is raised after any sequence of parse attempts and backtracking, the position recorded for the error is the largest position at which an error was noted so far, and the recorded furthest error never moves backwards.",
 "every history of parse attempts, backtracks and errors","unbounded histories",[U+":BasicParser.parser_error",U+":ParserError"])
p("C36","Truncated dates resolve to the first matching date on or after the base",
 "A truncated date (day; month-day; year-month-day; ordinal; year-ordinal; weekday; week-weekday; year-week-weekday) constructed with a complete base date is the earliest calendar date on or after the base that has the given components; otherwise the constructor raises.",
 "every base date and every truncated representation","3.6 million base dates times all component values",[I+":Date._set_from_calendar_day",I+":Date._set_from_ordinal_day",I+":Date._set_from_week_day",I+":Date._add_month",I+":Date._add_year",I+":Date._add_week"])
p("C37","The Date constructor accepts exactly the dates that exist",
 "With century, year, month and day given the constructor returns the date exactly when it exists in the proleptic Gregorian calendar of years 1..9999 and raises otherwise; likewise for the century, year and month precisions and for year-week precision (week exists in that year). [The code violates this for week 0, which it accepts.]",
 "every combination of constructor arguments at each precision","unbounded integer arguments; leap years and 53-week years",[I+":Date.__init__",I+":Date._check_date",I+":week_count"])
p("C38","Truncated times resolve to the first matching time at or after the base",
 "Time.extend with only a second, or with a minute and a second, returns the earliest time of day at or after the base that has these components, in the base's zone, with the overflow into the next day. [extend(minute=m) with m the base's own minute raises TypeError in Python 3.]",
 "every base time, zone and component values","all combinations of base and components, wrapping at the hour and at midnight",[I+":Time.extend",I+":Time.offset"])
p("C39","parse_uric finds the longest run of URI characters",
 "parse_uric(source, pos, allowed_test) returns the length of the longest prefix of source[pos:] that is a sequence of allowed characters and complete %XX escapes, for every allowed test that excludes '%'.",
 "every text, position and allowed test","unbounded texts",[R+":parse_uric"])
p("C40","Times of day compare within one zone only",
 "Two complete times with the same zone offset (or both without zone) are ordered and equal exactly as their hour, minute and second readings; times in different zones are neither ordered nor equal.",
 "every pair of times and zones","unbounded pairs",[I+":Time.sortkey",I+":Time.otherkey"])
p("C41","Time construction accepts exactly the valid times",
 "Time(hour, minute, second, zdirection, zhour, zminute) succeeds exactly for valid clock readings (00:00:00 to 23:59:60 and 24:00:00) with a zone less than 24 hours from Greenwich; reduced precision likewise. [Violated: zone minutes over 59, negative zone offsets and seconds without minutes are accepted unchecked.]",
 "all integer components","unbounded integers",[I+":Time._check_time",I+":Time._set_from_values"])
p("C42","Reference resolution follows RFC 2396",
 "resolve(base) of a reference gives: the reference itself when it has a scheme; the base document with the reference's fragment when the reference is otherwise empty; else the base's scheme, the reference's authority or else the base's, the reference's absolute path or else the location reached by following its relative path from the base's directory, the reference's query and fragment. [Violated for a base with authority and no path, where the path is glued to the host.]",
 "every accepted base with an absolute path and every accepted reference","unbounded paths with '.' and '..'",[R+":URI.resolve",R+":normalize_segments",R+":split_path"])
p("C43","Canonical URLs",
 "For a server based URL with a scheme, canonicalize() gives the URL with scheme and host in lower case, without an empty or default port, other ports written without leading zeros, and the same userinfo, path, query and fragment; it addresses the same host and port, and canonicalizing again changes nothing. [Violated for hosts that themselves end in ':' and digits, and for opaque parts, which are dropped.]",
 "every accepted URL and default port","unbounded strings",[R+":ServerBasedURL.canonicalize",R+":ServerBasedURL.get_addr",R+":split_server"])
p("C44","URN syntax and canonical form",
 "URN(text) is accepted exactly when the part after the scheme is a namespace identifier (a letter or digit followed by letters, digits and hyphens, at most 32 characters, not 'urn' in any case), ':' and URN characters; nid and nss are these parts. canonicalize() lower-cases scheme and NID and upper-cases escapes, denotes the same octets, is itself a valid URN, and is idempotent.",
 "every string","unbounded strings; hand-written state machine with a length limit",["pyslet/urn.py:URN.parse_scheme_specific_part","pyslet/urn.py:URN.canonicalize"])
p("C45","HTTP parameter parsers fail only with ValueError",
 "from_str of media types, transfer encodings, entity tags, versions, product tokens and language tags, FullDate.from_http_str and Chunk.from_str return a value or raise ValueError (BadSyntax), whatever the bytes. [Violated by Chunk and FullDate: TypeError when a separator stands where a number is required; FullDate raises DateTimeError, not a ValueError, for dates that do not exist.]",
 "every byte string","unbounded malformed inputs",[PA+":MediaType.from_str",PA+":Chunk.from_str",PA+":FullDate.from_http_str",G+":WordParser.parse_integer",G+":is_digits"])
p("C46","Pipe.readmatch delivers up to the first match",
 "After every history, readmatch(m) returns the shortest initial part of the undelivered bytes that ends with m, if there is one; otherwise it delivers nothing: b'' after EOF, else it raises ENOBUFS, waits or returns None.",
 "every schedule of pipe operations and every match","unbounded interleavings; matches across buffers",[S+":Pipe.readmatch",S+":Pipe._consolidate_buffer"])
p("C47","Pipe blocking modes are those set last",
 "Whatever reads and writes are done, readblocking() and writeblocking() return the modes set last. [Violated by readall, which leaves the pipe in blocking mode because of a misspelt attribute.]",
 "every operation history","unbounded histories",[S+":Pipe.readall",S+":Pipe.set_readblocking"])
p("C48","The stored stream digest is that of the content",
 "After every sequence of operations on a BlockStream (write, read, seek within the file, flush) the digest stored with the stream on flush is either null or the digest of the stream's content; when a new stream is only written sequentially it is the digest of the content.",
 "every operation sequence, block size, mode and data","unbounded histories; rewrites of earlier blocks",[B+":BlockStream.write",B+":BlockStream.flush"])
p("C49","XML Schema integers, decimals and booleans",
 "integer_from_str, decimal_from_str and boolean_from_str accept exactly the lexical representations of XML Schema (optional sign, digits, at most one point with at least one digit; true, false, 1, 0), return the value denoted, raise ValueError for every other string, and read back what integer_to_str and boolean_to_str write.",
 "every string and every integer","unbounded strings",[X+":integer_from_str",X+":decimal_from_str",X+":boolean_from_str",X+":integer_to_str",X+":boolean_to_str"])
M="pyslet/http/messages.py"; CL="pyslet/http/client.py"
p("C50","A response is received whole, however its bytes arrive",
 "A client receives a response (after any interim 1xx responses), delimited by Content-Length, chunked coding or the absence of a body, however its bytes are split over reads of the socket and however often the stream for the body blocks or accepts only part of the data: it is complete when its last byte has been read, with the status, header fields (and trailer) and exactly the body sent, no byte left over; before that it is not complete and the stream has received a prefix of the body. [Violated when flush blocks at the end of a chunked body, and when the connection is closed to delimit the body.]",
 "every response, segmentation into reads and schedule of blocking writes","unbounded segmentations and blocking schedules",[CL+":Connection._recv_task",M+":Message.recv",M+":Message._recv_buffered"])
p("C51","Pipelined responses are matched to their requests",
 "With several requests in flight on one connection, the responses are completed in order, each with its own status, header fields and body, and each as soon as its last byte has been read. [Violated: when several responses arrive in one read only the first is completed.]",
 "every queue of responses and segmentation","unbounded queues and segmentations",[CL+":Connection._recv_task"])
p("C52","Header fields survive transmission and determine the body length",
 "The header fields sent by send_header are received with the same names (compared without case), values and order of values, for every dictionary of fields whose values have no line breaks or surrounding space; and the received fields determine the framing: no body for 1xx, 204, 304 and responses to HEAD; chunked when Transfer-Encoding is chunked, even with a Content-Length; else Content-Length octets. [Violated: values with line breaks are sent verbatim (header injection); negative Content-Length is accepted.]",
 "every dictionary of header fields","unbounded fields",[M+":Message.send_header",M+":Message.recv_headerlist",M+":Message.recv_transferlength",M+":Message.get_transfer_encoding",M+":Message.get_content_length"])
p("C53","A response is sent as the application built it",
 "For every response between HTTP/1.1 parties (status, reason phrase, header fields, body from bytes or a stream that may block or return short reads), the bytes a server writes are one correctly framed response: a client receives the same status and reason, the application's header fields, and exactly the body, whatever the segmentation (chunked for a stream of unknown length, Content-Length otherwise; no body for 1xx, 204, 304 and HEAD). [Violated: a stream that ends before the declared Content-Length is not detected.]",
 "every response, body and schedule of reads","unbounded bodies and schedules",[M+":Message.send_body",M+":Message.send_transferlength",M+":Response.send_start",M+":Response.send_transferlength",M+":Message.start_sending",M+":Message.send_header"])
p("C54","A multipart/byteranges body ends at its first closing boundary",
 "A response with Content-Type multipart/byteranges and no other length information is complete with the read that completes the first occurrence of CR LF '--' boundary '--', however the body is split over reads and however the stream for the body blocks; its body ends there; before that it is not complete and the stream has all that was received. [Violated on re-used connections: bytes of the next response in the same read are discarded.]",
 "every body, boundary, segmentation and blocking schedule","boundaries split over reads, overlapping partial matches",[M+":Message.recv",M+":Message.recv_transferlength"])
p("C55","A chunked request body is read as its data",
 "Reads of a ChunkedReader, of any positive sizes, return the data of the chunks in order, at least one byte while data is left and nothing afterwards; then exactly the body with its trailer has been taken from the source. Chunk extensions are ignored.",
 "every chunked body with extensions and trailer, every sequence of read sizes, every following data","unbounded bodies and read sizes; reads across chunks",[M+":ChunkedReader.readinto",M+":ChunkedReader._read_chunksize"])
p("C56","A WSGI application sees exactly the request body",
 "Whatever sequence of reads and seeks (within the seekable first part) an application does on its input, and however short the reads of the server's stream are, each read returns the next bytes of the body at the position told, at least one while there are any; reading everything returns the rest; seeks outside the seekable part are refused once it has been left; and no byte after Content-Length is taken from the stream. [Violated by seeks beyond the buffer: after a short read the position is wrong, and a later read may take bytes after the body.]",
 "every request body, content length, buffer size, sequence of operations and schedule of short reads","unbounded histories and short reads",[M+":WSGIInputWrapper.__init__",M+":WSGIInputWrapper.read",M+":WSGIInputWrapper.seek",M+":WSGIInputWrapper.readall"])
CK="pyslet/http/cookie.py"
p("C57","The cookie store sends exactly the right cookies",
 "After any history of set_cookie, search, expire_cookies, end_session, add_public_suffix and add_private_suffix calls, search(url) returns exactly the cookies that were accepted, not replaced (same domain, name and path) and not expired, whose domain, path, Secure and HttpOnly attributes match the request by RFC 6265, longest path first and then oldest first. set_cookie refuses exactly HttpOnly cookies from other protocols, domains the host does not belong to, and public domains other than the host. So a cookie is never sent to a host outside the domain it was set for. [Violated: identical paths do not match unless they end in '/'; IP addresses are domain-matched; hosts that are not LDH names raise UnboundLocalError.]",
 "every history of operations, every request","unbounded histories and trees of domains; confidentiality over all hosts",[CK+":CookieStore.set_cookie",CK+":CookieStore.search",CK+":CookieStore.expire_cookies",CK+":CookieStore.end_session",CK+":CookieStore._expand_node"])
p("C58","Public suffix rules are applied, whatever their order",
 "After any history of operations with rules of the public suffix list: a domain that is (or matches, for *.R) a public rule, or has at most tld_depth labels, is public unless it was added as private; a private one never is; no other domain is public; and get_registered_domain returns the shortest parent that is not public, or None. [Violated: a rule also makes its parents public when they were not in the tree.]",
 "every history of rules and cookies in every order, every domain","unbounded sets of rules, order independence",[CK+":CookieStore.add_public_suffix",CK+":CookieStore.add_private_suffix",CK+":CookieStore.test_public_domain",CK+":CookieStore.get_registered_domain"])
p("C59","Cookie dates are read as RFC 6265 says",
 "The Expires date of a cookie is read from any text by the algorithm of RFC 6265 section 5.1.1: the first token that is a time, then the first other token that is a day, then a month, then a year (with the two digit rule); dates that do not exist or are before 1601 are ignored. In particular each of the three HTTP date formats is read as the date it shows.",
 "every text","unbounded texts, ambiguous tokens",[CK+":CookieParser.require_cookie_date",CK+":split_time",CK+":split_year",CK+":split_month",CK+":split_day_of_month",CK+":CookieParser.parse_cookie_date_tokens"])
p("C60","Set-Cookie headers are read as RFC 6265 says",
 "For every Set-Cookie header, the name and value are the trimmed texts around the first '=' of the first part; the header is ignored exactly if there is none or the name is empty; attributes are recognised in any order and case with surrounding white space ignored; the last acceptable Expires, Max-Age, Domain and Path count, and Secure and HttpOnly are set if present. [Violated: Secure and HttpOnly after '; ' are never recognised.]",
 "every header","unbounded lists of attributes",[CK+":CookieParser.require_set_cookie_string",CK+":CookieParser.require_name_value_pair"])
OC="pyslet/odata2/core.py"; CS="pyslet/odata2/csdl.py"
p("C61","OData literals survive the URI",
 "For every simple value, the literal ODataURI.format_literal writes is read back by Parser.parse_uri_literal as the same value (the same number for Byte, SByte and Int16, which have no literal form of their own; +00:00 for UTC), wherever a literal may stand in a URI or expression. [Violated: an empty Binary value comes back as a character string; the text of a large Double, such as 1e+16D, is rejected.]",
 "every value of every simple type (whole seconds, no floating point), every following text","unbounded strings and binaries, all numbers, dates, times and zones",[OC+":LiteralExpression.__unicode__",OC+":Parser.parse_uri_literal",CS+":Parser.parse_numeric_literal",CS+":Parser.parse_datetime_literal"])
p("C62","Filter expressions are parsed as the OData grammar says, and survive formatting",
 "Parser.parse_common_expression reads every text of the expression grammar (literals, properties, methods, brackets; unary operators bind tightest, then mul/div/mod, add/sub, comparison, equality, and, or; binary operators associate to the left; any white space) as the expression it stands for; formatting an expression and parsing the text gives the same expression. [Violated: a right operand of the same precedence loses its brackets; chained unary operators are misparsed; a negated property whose name begins with inf or nan, properties named like literals, and parameters inside brackets are not read.]",
 "every expression and every text","unbounded nesting and white space",[OC+":Parser.parse_common_expression",OC+":CommonExpression.__unicode__",OC+":BinaryExpression.__unicode__",OC+":UnaryExpression.__unicode__"])
p("C64","Operands are promoted to the wider type",
 "Numeric operands of different types are promoted to the wider of the two (Byte, Int16, Int32, Int64, Decimal, Single, Double), independently of their order; a null takes the type of the other operand; other types are only combined with themselves; every pair of numeric types can be compared and added. [Violated: SByte cannot be combined with anything; two operands of type Byte or Int16, and two Booleans, cannot be compared.]",
 "every pair and triple of types","all combinations",[OC+":CommonExpression.promote_types",OC+":BinaryExpression.evaluate_relation"])
p("C65","Integer arithmetic in expressions is exact",
 "add, sub, mul, div and mod on integers give the mathematical result in the wider type (division truncates towards zero), or an error when it does not fit or the divisor is 0; they never wrap around; null gives null. [Violated: Int64 division and remainder go through floating point and lose precision.]",
 "all integers of all integer types","unbounded domains; rounding only shows for operands beyond 2^53",[OC+":BinaryExpression.evaluate_arithmetic",OC+":BinaryExpression.evaluate_add",OC+":BinaryExpression.evaluate_div",OC+":BinaryExpression.evaluate_mod"])
p("C66","A filter accepts exactly the entities its formula describes",
 "check_filter accepts an entity exactly when the formula of and, or and not over its comparisons holds; comparisons give true or false even with null operands; integers of different types are compared by value; null equals only null and is neither less nor greater than anything. [Violated: ordering a String against null raises TypeError; or with a null operand is false even if the other is true.]",
 "every formula, entity and pair of numbers","unbounded formulas",[OC+":BinaryExpression.evaluate_logical",OC+":BinaryExpression.evaluate_relation",OC+":BinaryExpression.evaluate_eq",OC+":EntityCollection.check_filter"])
p("C67","String methods mean what they say",
 "substringof, startswith, endswith, indexof, length, concat, substring, replace and trim compute containment, prefix, suffix, first position (or -1), length, concatenation, the part from a position counted from 0, the text with every occurrence (found from left to right) replaced, and the text without white space at its ends, on all strings; a null argument gives null. [Violated: a negative start of substring counts from the end.]",
 "all strings and positions","unbounded strings",[OC+":CallExpression.evaluate",OC+":CallExpression.evaluate_indexof",OC+":CallExpression.evaluate_substring",OC+":CallExpression.evaluate_replace",OC+":CallExpression.evaluate_trim"])
p("C68","Key predicates survive the URI",
 "For every entity key, the path segment made of the entity set's name and format_key_dict(key) is split by split_segment into the same name and the same keys and values, whatever quotes, commas, equals signs, brackets and slashes are in them. [Violated: key text is unescaped twice: a String with a percent sign can come back changed, and one that is not ASCII raises an exception.]",
 "every key of any number of properties of any type","unbounded strings with delimiters and quotes",[OC+":ODataURI.format_key_dict",OC+":ODataURI.split_segment",OC+":uri_literal_from_str"])
p("C63","Paging through a collection meets every entity once",
 "After set_page(top, skip), calling iterpage(set_next=True) again and again gives consecutive pages from position skip, each of the requested width or the server's limit if smaller, until the end: joined together they are exactly the entities from skip on, each once, in order; the end is reported exactly when it is reached, after finitely many pages.",
 "every collection, page size, server limit, starting position and number of pages","unbounded collections and page sequences",[CS+":EntityCollection.iterpage",CS+":EntityCollection.set_page",CS+":EntityCollection.next_skiptoken",CS+":EntityCollection.set_topmax"])
p("C69","Following the next links of a server reads the whole collection",
 "A server with a page limit answers a request with the first entities after $skip and a link; following the links gives the remaining entities in order, each once, and ends; never more than $top entities are returned in total. [Violated: links are given even on the last page and past it, so they never end (pyslet's own client stops at an empty page and is complete); $top above the limit is dropped from the links, so more is returned than asked for.]",
 "every collection, limit, $top, $skip and number of links followed","unbounded collections and link chains",[CS+":EntityCollection.iterpage",CS+":EntityCollection.next_skiptoken","pyslet/odata2/server.py:Server.return_entity_collection","pyslet/odata2/client.py:EntityCollection.iterpage"])
p("C70","$orderby sorts as specified, and pages of a sorted collection are stable",
 "Ordering only rearranges the entities; they come out sorted by the first rule, ties by the second, and so on, descending rules reversed one by one; while paging, remaining ties are sorted by key so that the sequence does not depend on the order in which the store holds the entities; otherwise ties keep the store's order. [Violated: one null order value makes ordering two or more entities fail with TypeError.]",
 "every collection, list of rules and store order","unbounded collections and rule lists",[CS+":EntityCollection.order_entities",OC+":EntityCollection.calculate_order_key"])
MD="pyslet/odata2/memds.py"
p("C71","Both directions of an association agree",
 "After any history of links added and removed and of entities deleted at either end, the links found from an entity are exactly the ones the history leaves, the links found in the other direction are the same ones, none is reported twice, and nothing is left of a deleted entity in either direction.",
 "every history","unbounded histories of two mirrored dictionaries",[MD+":InMemoryAssociationIndex.add_link",MD+":InMemoryAssociationIndex.remove_link",MD+":InMemoryAssociationIndex.delete_hook",MD+":InMemoryAssociationIndex.rdelete_hook"])
p("C72","The in-memory container keeps referential integrity",
 "After any history of calls on an in-memory container, failed ones included, every link joins two existing entities and is seen from both of its ends, an end with multiplicity 0..1 or 1 has at most one entity, and only existing entities have streams; a call that fails changes nothing. [Violated: navigation collections of deleted entities still add links; replace links to missing entities and gives a target a second partner; an insert that fails while binding leaves the new entity behind.]",
 "every schema and history of calls","unbounded histories over arbitrary association graphs",[MD+":EntityCollection.insert_entity",MD+":NavigationCollection.insert_entity",MD+":NavigationCollection.__setitem__",MD+":NavigationCollection.replace",MD+":NavigationCollection.__delitem__",MD+":EntityCollection.__delitem__"])
p("C73","Deleting an entity deletes exactly what depends on it",
 "Deleting an entity removes it with its stream and all its links, removes every entity that needs a removed one (through an end of multiplicity 1), removes no others, and changes nothing else; an entity nothing depends on can always be deleted. [Violated: a deletion that fails half way has deleted some dependents; in associations of a set with itself the wrong end can be deleted.]",
 "every schema, reachable container and entity","unbounded cascades over arbitrary association graphs",[MD+":EntityCollection.__delitem__",MD+":EntityCollection.delete_link",MD+":InMemoryEntityStore.delete_entity",MD+":InMemoryEntityStore.start_deleting_entity"])
p("C74","The in-memory store reads back what was written",
 "After any history of inserts, merging and replacing updates and deletes (refused ones included), reading a property of an entity, simple or complex, gives the value of the last call that set it; its default when the insert or a replacing update left it out; key properties never change.",
 "every entity type, history and selection","unbounded histories and nesting of complex types",[MD+":InMemoryEntityStore.add_entity",MD+":InMemoryEntityStore.read_entity",MD+":InMemoryEntityStore.update_entity"])
XP="pyslet/xml/parser.py"
XS="pyslet/xml/structures.py"
p("C75","Child elements are accepted exactly when the content model allows them",
 "For every content model (sequences, choices, ?, *, +, nested in any way, also ambiguous ones), mixed content, EMPTY and ANY, a ContentParticleCursor accepts a sequence of children and the end tag exactly when the declaration allows it; it refuses a child as soon as no continuation could be allowed, and not before; expected() lists exactly the names that could come next, each once, and whether the end tag could; a refused name changes nothing.",
 "every content model and sequence of children","unbounded nesting and sequences",[XP+":ContentParticleCursor.next",XP+":ContentParticleCursor.expected",XS+":ElementType.build_model",XS+":XMLSequenceList.build_particle_maps",XS+":XMLChoiceList.build_particle_maps",XS+":XMLNameParticle.build_particle_maps"])
p("C76","is_deterministic recognises ambiguous content models",
 "ElementType.is_deterministic() is true exactly when, in every allowed sequence of children, each child can be matched with its particle without looking ahead (XML 1.0, appendix E).",
 "every content model","quantifies over all sequences of the model's language",[XS+":ElementType.is_deterministic",XS+":XMLContentParticle.is_deterministic"])
p("C77","Validation accepts exactly the documents with valid element content",
 "With checkValidity set, parsing a document gives no validity error exactly when the root has the declared name, every element is declared, and every element's children and character data are what its declaration allows. [Violated: an empty-element tag is accepted for an element whose declaration requires children; a child in an element declared EMPTY raises AttributeError instead of a validity error.]",
 "every document type and document","unbounded documents and nesting",[XP+":XMLParser.parse_element",XP+":XMLParser.check_expected_particle",XP+":XMLParser.handle_data"])
p("C78","An XML entity delivers its text with line ends normalised, however it is read",
 "Whatever pieces the source returns, the characters next_char delivers are those of the text without a leading byte order mark and with CR LF and single CR replaced by LF, in order; line_num is one more than the number of line feeds delivered so far. [Violated: line_pos is one too high on lines after CR LF.]",
 "every text, division into pieces and number of characters read","unbounded texts and all ways pieces can split CR LF pairs",[XS+":XMLEntity.next_char",XS+":XMLEntity.next_line",XS+":XMLEntity.reset"])
p("C79","XML documents are parsed as the grammar of XML 1.0 says",
 "A text (after its XML declaration, without document type declaration) is accepted exactly when it is a document of XML 1.0, and gives the tree the grammar assigns to it: names, attributes with normalised values, child elements and joined character data from text, references and CDATA sections; a document has one tree; parsing always ends. [Violated: ']]>' in character data loops for ever; a processing instruction whose data ends with an odd number of '?' swallows what follows; an unclosed comment or processing instruction at the end is accepted; spaces are accepted between '--' and '>' of a comment. What is accepted is characterised exactly.]",
 "every text","unbounded texts and nesting",[XP+":XMLParser.parse_document",XP+":XMLParser.parse_element",XP+":XMLParser.parse_content",XP+":XMLParser.parse_att_value",XP+":XMLParser.parse_reference",XP+":XMLParser.parse_comment",XP+":XMLParser.parse_pi"])
p("C80","Elements survive writing and reading",
 "Writing an element with generate_xml (with either escape function) and parsing the text gives an element that compares equal, for every tree of elements, attributes and data, whatever characters are in them; the comparison ignores repeated white space unless xml:space is 'preserve'; escape_char_data7 writes only ASCII; escape_cdsect is read back as the text. [Violated: tabs and line feeds in attribute values come back as spaces; an element with empty data is written with a space; carriage returns come back as line feeds from CDATA sections.]",
 "every tree, text and attribute value","unbounded trees and texts",[XS+":Element.generate_xml",XS+":escape_char_data",XS+":escape_char_data7",XS+":escape_cdsect",XS+":Element.get_canonical_children",XS+":Element.__eq__"])
AU="pyslet/http/auth.py"
HC="pyslet/http/client.py"
p("C81","Credentials are offered unasked only within the folders they have been good for",
 "After any history of successes, BasicCredentials.test_path(path) is true exactly when the path, with '.' and '..' followed, lies in the folder of one of the documents on which the credentials were successful, or deeper; only the most general prefixes are stored. [Violated: an empty folder name in a successful path ('/a//c') matches any folder; the empty path, which names the root, is not covered by a success on the root.]",
 "every history of paths and every path","unbounded histories and depths, all forms of dot segments",[AU+":BasicCredentials.test_path",AU+":BasicCredentials.add_success_path",AU+":BasicCredentials.is_prefix",AU+":BasicCredentials.test_url"])
p("C82","Credentials are sent only to their own server, and refused credentials are given up",
 "Whatever servers answer and wherever they redirect a request, an Authorization header with credentials is only sent to URLs in the credentials' protection space, and a header set by hand only to the server it was set for; a request that meets nothing but 401 is sent at most once for each of the client's credentials and once more; a 302 for a method other than GET and HEAD is not followed. [Violated: after a redirect to another server the text 'None' is sent as Authorization and that server's credentials are not used; refusing credentials that are not the last ones added raises IndexError; credentials with a realm raise AttributeError when challenged; circular redirects are followed for ever.]",
 "every set of credentials, request and history of responses","unbounded histories of adversarial responses",[HC+":ClientRequest.finished",HC+":ClientRequest.resend",HC+":ClientRequest.send_header",HC+":Client.remove_credentials",HC+":Client.find_credentials",HC+":Client.find_credentials_by_url",AU+":Credentials.match_challenge"])
p("C83","Credentials and challenges survive the header",
 "Basic credentials written in an Authorization header are read back (userid and password); a challenge written in a WWW-Authenticate header is read back with its parameters in order, whatever bytes the values contain; parameters are found by name in any case; every challenge has a realm. [Violated: passwords with a colon are refused when read; no header is read as more than one challenge; other schemes than Basic lose their scheme or raise TypeError; from_str cannot read a challenge with two parameters.]",
 "every userid, password, list of parameters and header","all byte strings",[AU+":BasicCredentials.to_bytes",AU+":BasicCredentials.set_basic_credentials",AU+":Credentials.from_str",AU+":Challenge.to_bytes",AU+":Challenge.list_from_str",AU+":Challenge.__getitem__",AU+":AuthorizationParser.require_challenge"])
SQ="pyslet/odata2/sqlds.py"
p("C84","The SQL for an OData expression means the expression",
 "Whatever $filter or $orderby expression is translated, the SQL text, with the parameters put in as the driver does, has exactly one reading under the precedence rules of SQL, and this reading applies the corresponding SQL operators and functions to the corresponding operands; an expression that cannot be translated raises NotImplementedError or EvaluationError. [Violated: right operands of the same precedence lose their brackets, 'a sub (b sub c)' becomes a - b - c; 'a lt (b eq c)' and '(a eq b) lt c' are read differently by SQLite.]",
 "every expression, context and parameter style","unbounded nesting of operators",[SQ+":SQLCollectionBase.sql_expression",SQ+":SQLCollectionBase.sql_bracket",SQ+":SQLCollectionBase.sql_expression_generic_binary",SQ+":SQLOperatorPrecedence"])
p("C85","Values never become part of the SQL text",
 "The text of a query for an expression does not depend on the values of the literals in it; there is one placeholder for each parameter, in order; with the placeholders of any parameter style bound to the parameters the text is the same.",
 "every expression and every value","all literal values, including hostile strings",[SQ+":SQLParams.add_param",SQ+":QMarkParams",SQ+":NumericParams",SQ+":NamedParams",SQ+":SQLCollectionBase.sql_expression"])
p("C86","A filter selects the same entities in SQLite as in memory",
 "For every filter, a row is selected by the SQL condition exactly when the OData evaluation of the filter for the entity in the row is true. [Violated: 'A eq null' selects nothing in SQL, and 'A ne B' does not select rows in which one of them is null.]",
 "every filter and row","unbounded expressions, all values including null",[SQ+":SQLCollectionBase.sql_expression",SQ+":SQLCollectionBase.where_clause",OC+":BinaryExpression.evaluate"])
p("C87","startswith, endswith, substringof and indexof mean the same in SQLite as in memory",
 "A row is selected by the SQL form of startswith, endswith or substringof exactly when the text begins with, ends with or contains the other; indexof gives the same position. [Violated: '%' and '_' in the pattern are wildcards; letters match in either case; POSITION counts from 1, and SQLite has no such function.]",
 "every pair of texts","all texts",[SQ+":SQLCollectionBase.sql_expression_startswith",SQ+":SQLCollectionBase.sql_expression_endswith",SQ+":SQLCollectionBase.sql_expression_substringof",SQ+":SQLCollectionBase.sql_expression_indexof"])
p("C88","The condition of a skiptoken selects the rows after the token",
 "The WHERE clause of a page that continues after a skiptoken holds for a row exactly when the row satisfies the filter and comes after the values of the token in the order of the query (each term ascending or descending, then the keys). [Violated: rows with a null order value are lost; an order expression that is a comparison is misread.]",
 "every filter, order, token and row","any number of order terms",[SQ+":SQLCollectionBase.where_skiptoken_clause",SQ+":SQLCollectionBase.where_clause",SQ+":SQLCollectionBase.set_orderby"])
p("C89","Reading a SQL collection page by page visits every entity once, in order",
 "For every table, order, top, skip, topmax and starting token, successive calls of iterpage(True) deliver the entities after the token, without the first skip ones, in pages of min(top, topmax), each exactly once and in order, then empty pages; a client that sends next_skiptoken() with its next request gets the following entities, and there is no token when the page was not full. [Violated: if the texts of the order values have more than 512 characters the first page raises TypeError and later pages repeat for ever; skip without top and topmax is invalid SQL in SQLite.]",
 "every table, paging parameters and number of pages","unbounded tables and numbers of pages",[SQ+":SQLCollectionBase.page_generator",SQ+":SQLCollectionBase.iterpage",SQ+":SQLCollectionBase.set_page",SQ+":SQLiteEntityContainer.limit_clause"])
p("C90","A skiptoken survives being sent as text",
 "The text next_skiptoken() returns is read by set_page as a token with the same values, so that the requested page starts at the entity after the last one delivered.",
 "every token","all values, including texts with quotes and commas",[SQ+":SQLCollectionBase.next_skiptoken",SQ+":SQLCollectionBase.set_page"])
QV="pyslet/qtiv2/variables.py"; QE="pyslet/qtiv2/expressions.py"; QP="pyslet/qtiv2/processing.py"
p("C91","QTI expressions evaluate to well-typed values",
 "For every expression and session whose values match their types, evaluate returns a value that matches the base type and cardinality it reports: a container is not empty unless it is NULL, every element has the base type, integers fit in 32 bits; misuse is reported as ProcessingError. [Violated: integer literals are not checked against 32 bits; sums that overflow raise ValueError; references to template variables in attributes raise AttributeError; a record emptied field by field is not NULL.]",
 "every expression tree and session state","unbounded expression trees",[QE+":Expression.evaluate",QV+":SingleValue",QV+":OrderedContainer",QV+":MultipleContainer",QV+":RecordContainer"])
p("C92","QTI logic treats NULL as an unknown truth value",
 "and, or, not and anyN give true (false) exactly when the condition is true (false) for every way of replacing the NULL operands by true and false, and NULL otherwise. [Violated: anyN with min greater than max can give NULL.]",
 "every list of operands","any number of operands",[QE+":And",QE+":Or",QE+":Not",QE+":AnyN"])
p("C93","QTI container operators work on bags and sequences",
 "multiple and ordered collect the values of their operands with repetitions; containerSize counts them; match compares multiple containers as bags and ordered ones as sequences; member, delete, contains and index have their meaning on bags and sequences; random draws an element and can draw each. NULL operands give NULL. [Violated: record operands of multiple and ordered are silently dropped, not refused.]",
 "every operand value","containers of any size",[QE+":Multiple",QE+":Ordered",QE+":ContainerSize",QE+":Match",QE+":Member",QE+":Delete",QE+":Contains",QE+":Index",QE+":Random"])
p("C94","QTI numeric operators compute with numbers, and with NULL for no number",
 "sum, product, subtract, divide, integerDivide, integerModulus, comparisons, truncate, round, integerToFloat, durations and equal (exact, absolute, relative) give the mathematical result of the right base type when all operands are set (float exactness is not modelled) and NULL when one is NULL or a divisor is 0; randomInteger and randomFloat draw exactly the allowed values. [Violated: equal with a relative tolerance is wrong for negative numbers.]",
 "every operand","all numbers, any number of operands",[QE+":Sum",QE+":Product",QE+":Subtract",QE+":Divide",QE+":IntegerDivide",QE+":IntegerModulus",QE+":Round",QE+":Truncate",QE+":Equal",QE+":RandomInteger",QE+":RandomFloat"])
p("C95","QTI mappings and lookup tables give the documented number",
 "map_value sums the numbers mapped to the distinct elements of a value, with the default for unmapped ones, and keeps the result between the bounds; an area mapping counts each area hit once and the default for each point outside; a match table gives the target of the entry with the number, an interpolation table that of the first entry whose boundary is not above the number, else the default.",
 "every value and table","values and tables of any size",[QV+":Mapping.map_value",QV+":AreaMapping.map_value",QV+":MatchTable.lookup",QV+":InterpolationTable.lookup"])
p("C96","QTI processing changes only what its rules may set",
 "However it ends, response processing changes outcome variables only and template processing template variables, defaults and correct responses only; no variable changes its type; exactly one branch of a condition runs, the first whose condition is true (NULL counts as false); nothing runs after an exit; after a set rule the variable holds the value of the expression. [Violated: set loses the multiplicities of a multiple container; variables named like 'R.CORRECT' share storage with the correct response of R.]",
 "every rule tree and state","rule trees of any size",[QP+":ResponseProcessing.run",QP+":TemplateProcessing.run",QP+":ResponseCondition.run",QP+":SetOutcomeValue.run",QV+":SessionState.__setitem__"])
p("C97","An item session goes through its life consistently",
 "After creation, begin_session, begin_attempt, save_session and submit_session in any number and order (even with refused parameters and failing rules), every variable keeps its declared type and numAttempts is the number of begin_attempts; begin_session gives outcomes their defaults (numbers 0), the first begin_attempt gives responses theirs; submit_session gives each response the last value submitted or saved for it, and for an item that is not adaptive the result does not depend on earlier outcomes. [Violated: a value submitted twice is counted once; ordered responses cannot be submitted; identifiers with a '.' cannot be submitted.]",
 "every item, history of calls and parameters","unbounded histories",[QV+":ItemSessionState.begin_session",QV+":ItemSessionState.begin_attempt",QV+":ItemSessionState.save_session",QV+":ItemSessionState.submit_session",QV+":ItemSessionState.end_attempt"])
H4="pyslet/html401.py"
p("C98","HTML attribute values survive being written as text",
 "Length, Coords, Color and MediaDesc values are read back by from_str from the text they print; a length is read as the leading digits, a percentage exactly if a percent sign follows; colours are read without regard to case; media descriptors hold only lower case names, and their union and intersection are those of sets; resolve_value rounds a percentage to the nearest whole number. [Violated: Length(-5) is accepted but its text is refused.]",
 "every value and every text","unbounded texts and numbers",[H4+":Length",H4+":Coords",H4+":Color",H4+":MediaDesc"])
p("C99","A point is in an image map area exactly when the geometry says so",
 "test_poly follows the even-odd rule for every closed polygon: independent of direction, of the first corner and of whether the first corner is repeated; when a polygon is cut along a line between two corners every point of it is in exactly one part; rectangles and triangles agree with their usual definition; test_rect takes any two opposite corners; test_circle is the disc, a percentage radius relative to the smaller dimension.",
 "every list of coordinates and every point","polygons with any number of corners",[H4+":Coords.test_poly",H4+":Coords.test_rect",H4+":Coords.test_circle"])
p("C100","Data-changing methods of the SQL data services are atomic",
 "insert_entity, update_entity, delete_entity and the link methods either return, and then all their SQL statements (including those of the methods they call) are committed exactly once and in order, or raise an exception, and then the database is as before; nothing stays pending on the connection; a lost connection is reopened and the request retried only before the first statement; a method does not fail without a reason. [Violated: cascading deletes and inserts called without the transaction commit early; new_stream and update_stream never commit.]",
 "every sequence of statements and nested calls, every pattern of server failures","any statement can fail, at any depth of nested calls",[SQ+":SQLTransaction",SQ+":SQLEntityCollection.insert_entity",SQ+":SQLEntityCollection.delete_entity",SQ+":SQLEntityCollection.update_entity",SQ+":SQLCollectionBase.new_stream",SQ+":SQLEntityCollection.update_stream"])
p("C101","Optimistic concurrency control loses no update",
 "update_entity changes exactly the row with the entity's key, and only when the concurrency tokens in the row are those of the entity; otherwise it raises (KeyError when the row is missing) and changes nothing; for any interleaving of clients an update succeeds exactly when no other update succeeded since the copy was read. [Violated: a refused update increments the token of the entity, so that repeating the call overwrites the other update; a NULL token always conflicts; an update that changes nothing does not notice that the entity is missing.]",
 "every table, entity and history of reads and updates by any number of clients","unbounded histories and interleavings",[SQ+":SQLEntityCollection.update_entity","pyslet/odata2/csdl.py:Entity.set_concurrency_tokens"])
p("C102","The pool of database connections is exclusive and bounded",
 "Whatever acquire_connection, release_connection and the pool cleaner do in any interleaving, no connection is held by two threads, a thread that acquires again gets its own connection, locks are counted, there are never more than max_connections connections, and a thread waits only while all of them are held by others. [Violated: when a thread dies holding a connection, the connection is closed but still counted.]",
 "every sequence of pool operations by any number of threads","unbounded schedules",[SQ+":SQLEntityContainer.acquire_connection",SQ+":SQLEntityContainer.release_connection",SQ+":SQLEntityContainer.pool_cleaner"])
p("C103","SQL literals, names and parameters mean what they stand for",
 "The literal of a default value is read by the database as exactly that value whatever its characters, and the text after it is untouched; a quoted name is one identifier; different properties have different columns and different entity sets different tables; formatting a query with its parameters gives the text written with each value in its place. [Violated: Address_City and Address/City share a column; default literals are not escaped for % formatting.]",
 "every value, name, path and query","arbitrary texts, including quotes and percent signs",[SQ+":SQLEntityContainer.prepare_sql_literal",SQ+":SQLiteEntityContainer.prepare_sql_literal",SQ+":SQLEntityContainer.quote_identifier",SQ+":SQLEntityContainer.mangle_name",SQ+":FormatParams",SQ+":PyFormatParams"])
VF="pyslet/vfs.py"
p("C104","Virtual file paths mean the directory they lead to",
 "From every directory a path and its normpath lead to the same place ('.' stays, '..' goes up); normpath is idempotent, and two relative paths lead to the same place from every directory (deep enough) exactly when their normal forms are equal; an absolute path has the normal form '/a/b/c'; join leads where following its parts one after another leads; abspath and realpath are absolute and lead to the same place; head and tail of split, joined, are the path; is_root holds of the root only; splitext splits the last component at its last full stop. [Violated: '/a/..//b' normalizes to '//b'; MemFilePath('', 'b') is '/b'; the extension of 'a.d/b' is '.d/b'.]",
 "every text as a path, every directory","paths of any length and depth",[VF+":VirtualFilePath.normpath",VF+":VirtualFilePath.join",VF+":VirtualFilePath.split",VF+":VirtualFilePath.splitext",VF+":VirtualFilePath.abspath",VF+":VirtualFilePath.realpath",VF+":VirtualFilePath.is_root"])
p("C105","The file system in memory behaves like a tree of files and directories",
 "After any history of operations: exists, isfile and isdir tell what is at the place a path leads to; mkdir makes one directory, when there is nothing there and its parent exists; makedirs makes the missing ancestors too; listdir names each thing directly inside once; remove removes a closed file; rmtree removes a directory with all that is inside, unless a file there is open; open refuses directories and open files; what is read from a file is what was written to it, in order; nothing else changes; everything is inside a directory. [Violated: rmtree leaves the directory itself; open makes a file that does not exist even for reading and even if its directory does not exist; mkdir makes directories inside files.]",
 "every history of operations and every path without '//'","unbounded histories, trees and file contents",[VF+":MemFilePath.mkdir",VF+":MemFilePath.open",VF+":MemFilePath.listdir",VF+":MemFilePath.remove",VF+":MemFilePath.rmtree",VF+":VirtualFilePath.makedirs",VF+":MemFilePath.chdir"])
WS="pyslet/wsgi.py"
p("C106","A request reaches the handler registered for its path, and static pages stay inside their directory",
 "The handler that is called was the last one registered for a pattern that matches the path (a star matches one component, at the end any number); a pattern equal to the path has precedence; otherwise the longest matching pattern wins, and a handler is called whenever a pattern matches; a static page is always a file below the directory of static files, reached through the components of the path, which are made of letters, digits and hyphens, and every such file is served. [Violated: with /a/x/y and /*/x registered, /a/x is not found; a static path outside ASCII is an internal error.]",
 "every list of registrations and every path","unbounded sets of patterns and hostile paths",[WS+":WSGIApp.set_method",WS+":WSGIApp.__call__",WS+":WSGIApp.static_page"])
p("C107","Application keys can be changed without losing data, and signatures cannot be moved to other messages",
 "In every history of an application with several processes: what any of them encrypted is decrypted by every process whose key is the same or at most 100 changes newer, and refused by one with an older key; after change_key a process keeps encrypting with the key before until the given time and uses the new key from then on; decrypt always ends, whatever the database holds; a signature made by one process is verified by the others; ascii_sign carries its message; a signature is accepted only if it holds the hash of salt and message under the key with its number, so that a salt of four bytes binds the message unless the hash has a collision. [Violated: the length of the salt is not checked, so a signature of 'abc' gives one of 'bc'; the signature of the empty message cannot be verified; an empty message asked for is not compared; an unknown key number raises RuntimeError; AESAppCipher cannot sign; a constructor with when raises ValueError; two changes before the first takes effect; a number used again after 100 changes loses data; an empty key is replaced by the next one.]",
 "every history of starting processes, changing keys, encrypting and decrypting, all data, all times","unbounded histories over several processes",[WS+":AppCipher.change_key",WS+":AppCipher._get_cipher",WS+":AppCipher.encrypt",WS+":AppCipher.decrypt",WS+":AppCipher.sign",WS+":AppCipher.check_signature",WS+":AppCipher.ascii_sign",WS+":PlainTextCipher",WS+":AESCipher"])
p("C108","Sessions: forms are accepted from the session's own pages, sessions end in time, and redirects stay in the application",
 "The session of a request is new and not established, or established just now under a new identifier from one begun within two minutes, or the established session in a cookie with a valid signature seen within the time limit; a page is made for that session only, the client has the test cookie and gets the session as its cookie; a page is made for a POST only if the token in the form is the identifier in such a cookie, and no session cookie is valid that the application did not make; only new sessions that are not established appear in addresses; ctest and wlaunch redirect only to pages of the application, for a query with a valid signature of path and user agent, and ctest only if cookie and query agree; a session is read back from its text. [Violated: anybody can forge a cookie for any session by sending its text as the user agent and moving the rest of the signed message into the salt; a form sent after the time limit is processed in a new session; a wrong cookie is an internal error in ctest, as are cookies outside ASCII or with an unknown key for all pages.]",
 "every request, cookie, time, key and history of key changes","hostile requests, arbitrary times",[WS+":CookieSession",WS+":SessionApp.session_wrapper",WS+":SessionApp.set_session",WS+":SessionApp.session_page",WS+":SessionApp.ctest",WS+":SessionApp.wlaunch",WS+":SessionApp.check_redirect"])
LT="pyslet/imsbltiv1p0.py"
p("C109","An LTI launch request is accepted once",
 "For every sequence of launch requests a key and nonce are accepted exactly when they were not accepted during the last 90 minutes, whatever the other requests are: two accepted requests with the same key and nonce are at least 5399 seconds apart (a second may be lost in storing), and the first use of a key and nonce is accepted; this holds also for requests handled at the same time. [Violated: key and nonce are hashed without separator, so key 'a' uses up nonces of key 'ab'; two simultaneous replays of a nonce last seen more than 90 minutes ago are both accepted.]",
 "every sequence of requests, every clock, every schedule of concurrent requests","unbounded histories and interleavings",[LT+":ToolProvider.validate_timestamp_and_nonce",LT+":ToolConsumer.nonce_key"])
p("C110","The permissions of an LTI launch are those of its roles",
 "For every list of roles: read, write and configure exactly if one of them is an Instructor role of the context vocabulary, by handle or as URN, with or without sub-role; read only exactly if there is no such role but a Learner role; otherwise none; a role that is not known gives no permission. [Violated: a role that is not known, a URN outside LTI or an empty element makes the launch fail with ValueError.]",
 "every roles parameter","arbitrary texts from the consumer",[LT+":ToolProviderApp.set_launch_permissions",LT+":ToolProviderApp.get_permissions",LT+":split_role",LT+":is_subrole",LT+":ROLE_HANDLES"])
p("C111","Pages of an LTI resource are shown only to sessions that launched it, as the user who launched it",
 "After every history of launches and established sessions, a session sees a resource exactly if it launched it and no other user of the same consumer launched anything in the session since; permissions and user are those of the last launch; establishing a session moves its access to the new identifier and leaves none with the old; all pages of a consumer in one session belong to one user; sessions, consumers and resources do not affect each other otherwise.",
 "every history of launches and sessions, any choice of keys","unbounded histories",[LT+":ToolProviderApp.new_visit",LT+":ToolProviderApp.find_visit",LT+":ToolProviderApp.establish_session",LT+":ToolProviderApp.load_visit",LT+":ToolConsumer.get_resource",LT+":ToolConsumer.get_user"])
p("C112","What is known about contexts, resources and users follows the launches",
 "After every history of launches, a launch gets the context, resource and user of its own consumer with the identifiers that were sent, and each title or name is the last one sent that was not empty (or the first); consumers do not affect each other. [Violated: the keys of contexts are hashes of consumer key and context identifier without separator; a launch in the context 'bc' of consumer 'a' makes all launches in the context 'c' of consumer 'ab' fail.]",
 "every history of launches of any number of consumers","unbounded histories",[LT+":ToolConsumer.get_context",LT+":ToolConsumer.get_resource",LT+":ToolConsumer.get_user"])
QT="pyslet/qtiv2/tests.py"
p("C113","Every form of a test obeys its selection and ordering rules",
 "For every test and all results of the random module, a TestForm that is built lists the test itself, then all test parts and their sections in order, each closed by its closing identifier inside whatever was open; every section contributes exactly the number of children its selection rule asks for (all of them without a rule), every required child among them and no child twice unless withReplacement is set; without shuffling children keep document order (and without any rules the form is the document order), with shuffling fixed children keep their order and place and the other identifiers are permuted among the remaining slots; a form is built whenever the rules can be met and a SelectionError is raised when a rule cannot be met. (Violated: a shuffled section with a sub-section that may move raises AttributeError; an empty invisible section leaves a None in the form or raises IndexError.)",
 "every test tree, every sequence of random choices","random choices and unbounded nesting",[QT+":TestForm.__init__",QT+":TestForm.select"])
p("C114","The key of a test session is accepted once",
 "In every history of events an event is accepted exactly when it presents the current key of the session; other events change nothing and are answered with SessionKeyExpired exactly when the key was accepted before, otherwise with SessionKeyMismatch; accepted events form a chain, each presenting the key issued by the accepted event before it; when the clock advances between events (and the digest does not collide) no key is accepted twice. (Violated: with three events in one tick of the clock an old key becomes current again and the elapsed time is negative.)",
 "every history of events, forged and replayed ones included, every clock","unbounded histories",[QV+":TestSessionState.event_update"])
p("C115","A test session moves forward and ends",
 "For every test, form and state of the session, looking for the next question terminates; the next question is at a later position of the form and is an item all of whose preConditions are true, so a session presents at most as many questions as the form has items; in a linear test without preConditions and branchRules the questions come in the order of the form; a branch to an identifier goes to its next occurrence or ends the test, EXIT_TESTPART goes behind the end of the part, EXIT_SECTION behind the end of the section. (Violated: EXIT_SECTION stops behind the next sub-section; a section whose preCondition is false is entered all the same; items of non-linear parts are never presented.)",
 "every test, form, position and every sequence of session states","unbounded forms and histories",[QV+":TestSessionState._next_question",QV+":TestSessionState._branch_target",QT+":SectionPart.check_pre_conditions",QT+":SectionPart.get_branch_target"])
p("C116","Time spent on an item is counted for exactly what contains it",
 "In every form of a test and at every item, the time of an event is added to the durations of the item, of exactly the sections and the part that contain this occurrence of the item, and of the test; all other durations stay as they are, and no time is counted when the test is over.",
 "every test, form, position, time and previous durations","unbounded nesting",[QV+":TestSessionState.add_duration"])
NS="pyslet/xml/namespace.py"
p("C117","Names survive being written with namespaces and read back",
 "For every document whose elements all have a namespace and whose attributes are in no namespace, in the XML namespace or in a namespace not used for elements, whatever prefixes were declared on the document and its elements with make_prefix or by reading, writing it and reading the result gives the same tree of expanded names and attributes; it can always be written if no element declares a default namespace itself. (Violated: an attribute in the default namespace comes back in no namespace; an element without namespace comes back in the default namespace of its parent; an element whose map declares another default namespace cannot be written; attributes named xmlns... are dropped; xmlns=\"\" does not apply to descendants; undeclared prefixes are accepted.)",
 "every tree of elements, every set of declarations on every node, every document read into","unbounded trees and declarations",[NS+":NSNode.get_prefix",NS+":NSElement.generate_xml",NS+":NSElement.write_xml_attributes",NS+":XMLNSParser.expand_qname",NS+":XMLNSParser.parse_nsattrs"])
p("C118","Writing a document twice gives the same text",
 "Writing a namespaced document adds prefix declarations to its nodes; writing it again gives the same tags and declares nothing more.",
 "every tree of elements with any declarations","unbounded trees",[NS+":NSElement.generate_xml",NS+":NSNode.make_prefix"])
p("C119","New prefixes are found and prefixes found are in force",
 "new_prefix always terminates with the first of ns1, ns2, ... that means nothing at the node, hence not declared by it or its parents; a prefix returned by get_prefix for a namespace is looked up by get_ns with that namespace as the result, so that a prefix hidden by a nearer declaration is never used.",
 "every chain of nodes and every map made with make_prefix or read","unbounded chains",[NS+":NSNode.new_prefix",NS+":NSNode.get_prefix",NS+":NSNode.get_ns"])
CP="pyslet/imscpv1p2.py"
p("C120","Expanding an archive stays inside the directory of the package and overwrites nothing",
 "For every archive, whatever the names, flags and contents of its entries, and whether expand_zip succeeds or fails part way, nothing outside the directory of the package changes and nothing that existed changes; what is new is a directory or a file with the contents of an entry at a place on the way of the name of an entry; on success every entry is there with its contents, and an archive in which an entry leaves the directory even for part of its way is refused. Names declared as UTF-8 are used as they are. [The last is violated when another flag bit is set; witness C120_violation_flags.]",
 "every archive, every state of the file system","attacker-controlled archives of any size",[CP+":ContentPackage.expand_zip",CP+":ContentPackage.package_path"])
p("C121","A package that is exported and expanded is the same",
 "For every package directory, exporting it as an archive and expanding the archive into an empty directory succeeds and gives exactly the same files with the same contents and the same directories, empty ones included, leaving out exactly what ignore_file rejects and everything inside a rejected directory.",
 "every directory tree, every ignore pattern, all names, ASCII or not","unbounded trees",[CP+":ContentPackage.export_to_pif",CP+":ContentPackage.add_to_zip",CP+":ContentPackage.expand_zip"])
p("C122","Paths in a package are relative to it and unique",
 "path_in_path gives None exactly if the child does not lead into the parent, and otherwise the names, free of navigation, that lead from the parent to the child; get_unique_path ends for every table of files and every random number, and gives the suggested path if that is not in the table, otherwise that path with a number added to its name before the extension, never a path in the table; paths outside the package and the root are refused with CPFilePathError. [Violated: the numbered candidates are looked up with the wrong hash and may be taken; the number may go into the name of a directory; the root gives AttributeError.]",
 "every pair of paths, every table, every random number, every hash function","all inputs and random choices",[CP+":path_in_path",CP+":ContentPackage.get_unique_path","pyslet/vfs.py:VirtualFilePath.__hash__"])
p("C123","The table of files lists exactly the files and references of a package",
 "After rebuild_file_table the keys are the paths, from the root of the package, of exactly the regular files that are not ignored nor inside an ignored directory, other than the manifest, together with the paths referred to by the manifest; the value of each lists exactly the File objects that refer to it, in document order.",
 "every directory tree, ignore pattern and list of references","unbounded trees",[CP+":ContentPackage.rebuild_file_table",CP+":ContentPackage.file_scanner"])
HM="pyslet/http/messages.py"
p("C124","The media type chosen is the best one the Accept header allows",
 "For every list of ranges in an Accept header and every list of media types on offer, select_type gives the first of those of the highest quality, and None exactly if every one has the quality 0; the quality of a type is the q of the most specific range it is in (a type with parameters before a type, before type/*, before */*), 0 if it is in none. [Violated for ranges constructed in upper case, names that start with ~, and */x; witnesses.]",
 "every list of ranges with any parameters and quality values, every list of types","unbounded lists; depends on the order produced by sorting",[HM+":AcceptList.select_type",HM+":MediaRange.match_media_type",HM+":AcceptItem.sortkey"])
p("C125","The charset, encoding and language chosen are the best ones allowed",
 "As C124 for Accept-Charset, Accept-Encoding, tokens and Accept-Language: the first (for encodings: one) of the options of the highest quality, compared without regard to case, where * stands for what is not mentioned; iso-8859-1 that is not mentioned has the quality 1, identity that is not mentioned is acceptable only if nothing else is; the quality of a language is that of the longest range its tag starts with; None if nothing is acceptable. [Violated: select_token of languages gives the text 'None'; tokens that start with ~ sort after *.]",
 "every list of items, every list of options","unbounded lists; depends on the order produced by sorting",[HM+":AcceptTokenList.select_token",HM+":AcceptCharsetList.select_token",HM+":AcceptEncodingList.select_token",HM+":AcceptLanguageList.select_language","pyslet/http/params.py:LanguageTag.partial_match"])
XT="pyslet/xml/structures.py"
p("C126","The id table of a document is right",
 "After every sequence of Document(), Document(root=e), add_child, remove_child, set_id, add_data, set_value and reset, get_element_by_id gives e exactly if e is in the tree of the document and has the id; parents and children agree; get_document gives the document an element can be reached from; set_id raises XMLIDClashError exactly if another element of the document has the id; no KeyError is raised and a call that fails changes nothing. [Violated after a clash: the element keeps the id and removing it unregisters the other one; Document(root=e) raises AttributeError if there are ids.]",
 "every history of calls on any number of documents and elements","unbounded histories and trees",[XT+":Document.register_element",XT+":Document.unregister_element",XT+":Element.set_id",XT+":Element.detach_from_doc",XT+":Element.remove_child",XT+":Element.reset",XT+":Document.__init__"])
p("C127","New ids are unused names",
 "get_unique_id ends, and gives an id that is not in use and that set_id accepts; the suggested one if it is free. [Violated without a suggestion: ids of hexadecimal digits may start with a digit.]",
 "every table of ids, every suggestion, every random number","all random choices and tables",[XT+":Document.get_unique_id"])
p("C128","Searching finds the elements of a class",
 "find_children_depth_first gives exactly the elements of the class below an element, in document order, down to max_depth, and only the outermost if sub_match is False; find_children_breadth_first gives the same ones, level by level. [Violated: max_depth and sub_match are lost in the recursive call; the order is not breadth first.]",
 "every tree, class and depth","unbounded trees",[XT+":Element.find_children_depth_first",XT+":Element.find_children_breadth_first"])
p("C129","Character data is kept in order",
 "add_data adds to the end of the content, content_changed changes neither the characters and elements nor their order and leaves no two texts next to each other; get_value gives the characters in order, and raises XMLMixedContentError exactly if there is an element and ignore_elements is not set; a value that is set is read.",
 "every list of children","unbounded lists",[XT+":Element.add_data",XT+":Element.content_changed",XT+":Element.get_value",XT+":Element.set_value"])
SV="pyslet/odata2/server.py"
p("C130","The path a server is given reads as the one the client wrote",
 "encode_pathinfo refuses exactly the texts that cannot be encoded in UTF-8; its result, with percent escapes decoded, is the UTF-8 of the path; it never contains a question mark; and the separators between segments are exactly the slashes outside quoted literals, so that segments with paired quotes, joined with slashes and encoded, are those the URI parser sees. [Violated for an unpaired quote: the slashes after it are escaped; witness.]",
 "every text; every list of segments","unbounded texts, any combination of quotes, slashes and escapes",[SV+":Server.encode_pathinfo"])
p("C131","$expand and $select are read as the trees they describe",
 "For every text, the parsers of $expand and $select succeed exactly if the text is a comma-separated list of paths of names (with * as the last step for $select) and give the tree in which each path of the list, and nothing else, can be followed.",
 "every text","unbounded lists and depths",[OC+":Parser.parse_expand_option",OC+":Parser.parse_select_option"])
p("C132","Writing $expand and $select is canonical and can be read back",
 "A tree with at least one name is read back from the text format_expand or format_select writes for it; two trees with the same paths are written the same; the text that is written for a text that was read depends only on its paths. [Violated by the empty tree, which is written as a text that is refused.]",
 "every tree of names","unbounded trees; sorting",[OC+":format_expand",OC+":format_select"])
p("C133","$orderby is read and written unambiguously",
 "A list of expressions each followed by asc, desc or nothing is read as those expressions with 1, -1, 1; no text can be read as two different lists; a list that orderby_to_str writes is read back. [Violated by the empty list.]",
 "every list of expressions and directions","unbounded lists and expressions",[OC+":CommonExpression.orderby_from_str",OC+":CommonExpression.orderby_to_str"])
p("C134","The resource path of a data service URI",
 "ODataURI accepts a resource path exactly if it is a sequence of segments of names with key predicates followed by at most one path option, or a $links followed by one more segment and nothing else; the navigation path, option and links property are those written; everything else is refused. [Violated: $metadata and $batch are accepted after names and $links before any, an unknown option raises ValueError and not InvalidPathOption.]",
 "every text","unbounded paths",[OC+":ODataURI.__init__",OC+":ODataURI.split_segment"])
p("C135","The query options of a data service URI",
 "A query is refused exactly if one of its pieces is a malformed or unknown system query option or a custom option whose name cannot be decoded; each system option has the value of its last occurrence; custom options are kept as they are in order; get_param_value gives the literal of the last occurrence of a parameter and null without one; with a path option only the options the protocol allows are accepted; $skip and $top are non-negative. [Violated: the prefix of the service is compared as text, so that /odataX is taken as part of the service at /odata.]",
 "every query text","unbounded queries, repeated options",[OC+":ODataURI.__init__",OC+":ODataURI.parse_sys_query_option",OC+":ODataURI.validate_sys_query_options",OC+":ODataURI.get_param_value"])
p("C136","A request reaches the resource its path leads to",
 "For a path that does not start with a function import, the server finds a resource exactly if every segment of the path names a feed, an entity of it with that key, a property or a navigation property of what precedes it, and the path option and query options make sense for the last one; the resource is that one; it reports 'not found' exactly if a segment names something that is not there or the path ends at a link to nothing; finding it changes nothing.",
 "every service, path, option and state of the data","unbounded paths, every data layer and state",[SV+":Server.get_resource_from_uri",SV+":Server.validate_sys_query_options"])
p("C137","Reading changes nothing",
 "A GET or HEAD request, and any request to a ReadOnlyServer, leaves the data as it is; a ReadOnlyServer refuses any other method with 403. [Violated by function imports, which GET executes.]",
 "every service, request and state of the data","every data layer, request and state",[SV+":Server.handle_request",SV+":ReadOnlyServer.handle_request",SV+":Server.__call__"])
p("C138","A request that fails changes nothing",
 "If the operations of the data layer are atomic, a request that is answered with an error status leaves the data as it is; the statuses are 200, 201, 204, 400, 403, 404, 405, 406 and 500. [Violated when content negotiation or rendering fails after the change: POST with an Accept header that allows no type of the server adds the entity and answers 406.]",
 "every service with atomic operations, request and state","every failure point of every request",[SV+":Server.handle_request",SV+":Server.odata_error"])
p("C139","What each method does",
 "A request is answered without error exactly in these cases, with this effect: GET of the service, metadata, $count, entities, feeds, values, streams and links; POST to a feed inserts the entity of the body and gives its location; PUT and MERGE update the entity, DELETE removes it; PUT and DELETE of values, streams and links change only those. [Violated by lenient cases: methods other than GET for $count and the service document answer 200; $value is ignored for feeds; HEAD of a feed is refused.]",
 "every service, request and state","all combinations of method, resource and option; every data layer",[SV+":Server.handle_request",SV+":Server.return_entity",SV+":Server.return_collection"])
p("C140","Negotiation of the protocol version",
 "A request whose DataServiceVersion (2.0 if absent) is above 2.0 is refused with 400 before anything is read or changed; otherwise the response has version 2.0 if the MaxDataServiceVersion (that of the request if absent) has a major number of at least 2, and 1.0 otherwise; headers that do not start with two numbers separated by a dot are refused with 400. [Violated for a maximum below 1.0, answered with 1.0.]",
 "every pair of versions, user agent texts and header values","unbounded texts and numbers",[SV+":Server.check_capability_negotiation",OC+":parse_dataservice_version",OC+":parse_max_dataservice_version"])
p("C141","The pool of connections of a client",
 "Whatever requests, releases, upgrades and clean-ups happen in whatever order of the threads, a client never has more than max_connections connections in use or idle; no connection is worked on by two threads or is both in use and idle; a thread has at most one connection to a server; no connection that has been closed is in use or idle; and the client never fails with KeyError. [Violated: when active_cleanup takes a connection away from a thread and the thread asks for another one to the same server, finishing with the old one makes the pool forget the new one and hand the killed one to the next thread.]",
 "every number of threads, servers and connections, and every history of events","all interleavings; unbounded histories",[HC+":Client.queue_request",HC+":Client._activate_connection",HC+":Client._deactivate_connection",HC+":Client.active_cleanup"])
p("C142","Which connection is used for a request",
 "A request is handed to the connection its thread already has to the server; else to the idle connection to the server that was used last; else to a new connection, for which, when there are max_connections already, the idle connection unused for longest is closed; only when all connections are in use does it wait. The connection is always one to the server of the request, of the thread of the request, and not closed.",
 "every reachable pool, thread and server","unbounded histories and pools",[HC+":Client.queue_request",HC+":Client._new_connection",HC+":Client._delete_idle_connection"])
p("C143","No request waits without reason",
 "While a request waits for a connection and has not been notified, all connections are in use or promised to requests that have been notified; a notified request gets a connection if one is free when it runs; after close() no request gets a connection; a request does not wait for its own thread. [Violated: upgrading a connection notifies nobody; a thread that holds the only connection waits for itself; a request that waits when the client is closed gets a new connection.]",
 "every history of events","all interleavings; lost wake-ups cannot be tested for",[HC+":Client.queue_request",HC+":Client._deactivate_connection",HC+":Client._upgrade_connection",HC+":Client.close"])
p("C144","Retries after a lost connection",
 "Whatever happens on a connection, a request that is not idempotent is sent again only if no byte of it has ever been sent; a request is started at most max_retries times more than the application asked for; and every request asked for is finished exactly once, with the status of a complete response or as an error. [Violated: a 2xx response that arrives before the request has been sent raises TypeError, and the request is finished three times and executed twice; a connection closed in the middle of a response is reported as that response; a retried request can be finished with the status of its earlier attempt.]",
 "every set of requests and every history of events of a connection","every point at which a connection can be lost; unbounded histories",[HC+":Connection.close",HC+":Connection.connection_task",HC+":ClientRequest.disconnect",HC+":ClientRequest.can_retry",HC+":ClientRequest.response_finished"])
p("C145","Pipelining",
 "The responses received on a connection belong to the requests in the order in which these were started; a request that is not idempotent is started only when all requests before it have been answered; the bytes sent are the requests, complete, one after the other; requests are started in the order in which they were asked for. [Violated: a retried request is started after those that waited for it; when an error response arrives before the body has been sent, a part of the body is left out and the connection goes on being used.]",
 "every set of requests and every history of events of a connection","all interleavings of sending, receiving and losing the connection",[HC+":Connection.connection_task",HC+":Connection._start_request",HC+":Connection._send_request_data",HC+":ClientRequest.response_finished"])
p("C146","Compound names in scopes",
 "In every scope that can be built by declaring and undeclaring values, in it and in the scopes within it, looking up a compound name 'a.b.c' gives a value exactly if a is declared there, b in a, and c in b - also if the names themselves contain dots; no name leads to two values; iterating gives exactly the names that can be looked up, each once, and len is their number. A declaration is refused exactly if its name is already declared, or if one of the two names is the other up to a dot; otherwise the value and all that is in it can be looked up afterwards and all other names lead where they did. After undeclaring a value its name and all names in it are not found and the others still are. (Violated in part: undeclaring a value whose declaration was refused removes the value that was declared.)",
 "all scopes nested to any depth, all names, all histories of declare and undeclare",
 "The number of scopes, nestings and histories is unbounded; ambiguity arises only from certain combinations of dotted names.",
 [CS+":NameTableMixin"])
p("C147","Detection of encodings",
 "An XML entity that starts with a byte order mark in UTF-8, UTF-16 or UTF-32 is read in that encoding, starting with the first character after the mark; one in UTF-8 without a mark is read as UTF-8 from its first byte, whatever it contains; one in UTF-16 that starts with '<?' and one in UTF-32 that starts with '<' is read in its encoding. detect_encoding recognises every text in UTF-8, and every text in the other encodings that starts with two ASCII characters, and those with a mark (in UTF-16 if the next character is Latin-1). (Violated: EBCDIC is never detected, because of a slip in the table; detect_encoding does not recognise single characters in UTF-16 and takes other UTF-16 for UTF-8 or for nothing.)",
 "all texts without NUL, of any length, in each of the five Unicode encodings",
 "The texts are unbounded in number, and a byte pattern of one encoding might occur in another.",
 [XS+":XMLEntity.auto_detect_encoding", U+":detect_encoding"])
p("C148","Durations",
 "Reading an ISO 8601 duration succeeds on a whole text exactly if it is PnW, or P followed by some of nY nM nD and possibly T followed by some of nH nM nS, in that order, with at least one part, also after T, and at most one n with a decimal fraction; the result has exactly the values written, with 0 for parts missing before one that is given. What get_string writes, with or without leading zeros, is read back as the same duration, for all precisions; so are fractions if as many digits are asked for as they have, up to 12; and with the sign in XML Schema. (Violated: text after a duration is ignored; a fraction is accepted before the last value; 'P1' and 'P1.Y' raise TypeError and AttributeError; weeks cannot be written; a fraction of .9999999999999 is written as 1000 in three digits; -P1Y == P1Y in XML Schema.)",
 "all texts, all durations of any precision and all numbers of digits",
 "The texts and values are unbounded; the parser has many optional parts and a flag passed along.",
 [I+":Duration.get_string", I+":ISO8601Parser.parse_duration", X+":Duration"])
p("C149","Attributes and their declarations",
 "Of several declarations of an attribute of an element type the first counts. With declarations, the application sees the attributes written in a start tag, with the white space of all but CDATA ones normalised, and the default values of those not written, and no others. Checking validity reports no error exactly if all required attributes are there, all are declared, every value meets its type (names, name tokens, unparsed entities that are declared, one of the values listed), IDs are unique in the document, every IDREF is an ID in it (also one that comes later), fixed attributes have their values and a standalone document does not depend on external declarations. (Violated: a fixed attribute that is not written is reported and not supplied; the value of a fixed attribute is compared before it is normalised.)",
 "all declarations, in any order and with repetitions, and all documents of any size, for any set of entities",
 "Documents and declarations are unbounded; IDs and references connect any two places of a document.",
 [XP+":XMLParser.check_attributes", XP+":normalize_space", XS+":XMLDTD.declare_attribute", XS+":XMLDTD.get_attribute_list"])
p("C150", "The JSON text of an entity is the JSON object it stands for",
 "generate_entity_type_in_json and generate_entity_set_in_json write text that a JSON parser reads as exactly the object the entity or page stands for: metadata, one member for each selected property with its value, and for each selected navigation property the deferred link, null, the expanded entity or the expanded page with its count and its link to the next page; no character in a value, name or URI can break out of its place.",
 "every entity and page: any strings, any number of properties and entities, complex values and expansions nested to any depth, both versions of the format",
 "Strings, nesting and numbers of entities are unbounded; one unescaped character or misplaced comma breaks the document.",
 [OC+":Entity.generate_entity_type_in_json", OC+":EntityCollection.generate_entity_set_in_json", OC+":simple_value_to_json_str", OC+":complex_value_to_json_str"])
p("C151", "Values survive JSON",
 "Writing a value, a complex value or an entity as JSON and reading the text with set_from_json_object gives back the same values for the selected properties and NULL for the others.",
 "every value of every simple type except Single and Double, complex values nested to any depth, entities with any properties",
 "The domains are unbounded or astronomically large: all dates, numbers, byte strings and texts.",
 [OC+":simple_value_to_json_str", OC+":simple_value_from_json", OC+":parse_asp_dot_net_date", OC+":complex_value_from_json", OC+":Entity.set_from_json_object"])
p("C152", "The bindings of a new entity survive JSON",
 "A new entity that is written as JSON (for an insert request) and read by the server has the same properties and is bound to the same entities, existing or new, in the same order.",
 "every new entity with any bindings, nested to any depth",
 "Deep inserts nest without bound.",
 [OC+":Entity.generate_entity_type_in_json", OC+":Entity.set_from_json_object"])
p("C153", "Content-Range headers are read and written faithfully",
  "ContentRange.from_str accepts exactly the values 'bytes' (any case) first-last or '*', '/', total or '*' (with optional spaces between the parts) and returns the numbers written; str() of any range of non-negative positions is read back as the same range; is_valid() tells exactly whether the range names positions inside the instance, and len() is the number of positions, or ValueError when there is none.",
  "every byte string, every content range", "the header values and the numbers are unbounded", [HM + ":ContentRange", HM + ":HeaderParser.require_contentrange"])
p("C154", "Allow and Accept-Ranges headers",
  "Allow.from_str and AcceptRanges.from_str read exactly the lists of tokens (empty items are ignored) and give the tokens in order, upper-cased for Allow; what they write is read back as an equal value; is_allowed(m) holds exactly for the listed methods whatever the case; equality ignores order (and case); 'none' stands alone for an empty list of range units.",
  "every byte string, every list of tokens", "lists and tokens are unbounded", [HM + ":Allow", HM + ":AcceptRanges", "pyslet/http/grammar.py:WordParser.parse_tokenlist"])
p("C155", "Cache-Control directives",
  "A CacheControl value holds the directives it was given, names compared without regard to case; to_bytes writes each directive with its value so that it can be read again, and from_str reads what to_bytes wrote.",
  "every list of directives and values", "lists of directives are unbounded", [HM + ":CacheControl"])
p("C156", "The text of a character class",
  "The text of a CharClass (str()) is a regular expression of Python that matches exactly the characters of the class, alone and inside a larger expression. (Violated for two classes: the class of all characters gives an expression that matches nothing, and the class of all but the backslash one that cannot be compiled.)",
  "every character class, built by any sequence of operations, and any text that follows it", "There are 2^1114112 classes; hyphens, carets, brackets and backslashes may be at any place, as characters or ends of ranges.",
  [U+":CharClass.__unicode__", U+":CharClass.format_re"])
p("C157", "XML Schema regular expressions match what they describe",
  "RegularExpression(src).match(text) is true exactly if the whole text is one the expression describes. (Violated: only true is reliable; when the first way to match a beginning of the text stops before the end, as 'a|ab' does for 'ab', the answer is false.)",
  "every expression, with any nesting of groups, alternatives, repetitions and classes, and every text", "Expressions and texts are unbounded; which of several ways to match is found depends on the whole expression.",
  [X+":RegularExpression.match", X+":RegularExpressionParser"])
p("C158", "The parser of XML Schema regular expressions follows the grammar",
  "Every regular expression of XML Schema - characters, escapes, categories, blocks, classes with ranges, negation and subtraction, groups, alternatives and quantifiers - is accepted and given the meaning the specification states; anything else is refused. (Violated: what follows an expression is ignored, so that 'a)b' and 'a**' are accepted.)",
  "every expression of the grammar, nested to any depth, with any tables of categories and blocks", "The grammar generates infinitely many expressions, nested without bound.",
  [X+":RegularExpression.__init__", X+":RegularExpressionParser"])
p("C159", "Enumerations",
  "A class derived from Enumeration decodes a string exactly if, white space removed, it is a name or an alias, to the value of that name; every value is written as its own name (never an alias), None as the name of the default; a list written and read again is the same list; dictionaries with the same keys give the same, sorted, string; EnumerationNoCase with from_str_lower ignores case. dict_from_str gives a dictionary with every value of the string. (Violated: dict_from_str keeps only the last word, and raises UnboundLocalError for no word.)",
  "every definition of an enumeration and every string, list and dictionary of values", "Definitions are written by the users of the package; aliases, names and defaults may be related in any way.",
  [X+":Enumeration", X+":EnumerationNoCase"])
p("C160", "The order of product tokens",
  "Product tokens are totally ordered: comparison never fails, is antisymmetric and transitive; dotted decimal versions of the same product are compared as the lists of their numbers; a version with a modifier (1.0a) precedes the version without it, modifiers are compared by their text and then their number, and a longer version follows its prefix.",
  "all product tokens and versions of any length", "A key mixes numbers and strings, whose comparison would be a TypeError in Python 3: that this never happens depends on all pairs of versions.",
  [PA+":ProductToken.explode", PA+":ProductToken.sortkey", "pyslet/py2.py:SortableMixin"])
p("C161", "Rounding and the parts of dates in expressions",
  "round, floor and ceiling of a Decimal or integer give the nearest integer (of two the one farther from zero), the greatest integer not above and the least not below it, exactly and without overflow; year, month, day, hour, minute and second of a datetime literal are the parts of the date and time it was written from.",
  "every Decimal with any number of digits and any exponent, and every valid date and time", "Signs, ties and numbers of fractional digits without bound.",
  [OC+":CallExpression.evaluate_round", OC+":CallExpression.evaluate_floor", OC+":CallExpression.evaluate_ceiling", OC+":CallExpression.evaluate_year"])
QC="pyslet/qtiv2/core.py"
p("C162", "Identifiers for QTI",
  "validate_identifier returns, for every string, an XML name without colons; identifiers are returned unchanged; characters keep their places, colons becoming hyphens and other characters underscores. (Different values may give the same identifier, as 'a b' and 'a_b' do.)",
  "every string and every prefix that is an identifier", "All strings of all characters; the first character has rules of its own.",
  [QC+":validate_identifier"])
p("C163", "Bounds and offsets of regions",
  "calculate_shape_bounds gives a box that holds every point for which test_point is true (in a field of 1024 by 768); offset_shape moves the region: a point is in the old region exactly if the moved point is in the new one. (Violated: for polygons both functions never return; the box of a rectangle given by its lower right corner first is empty; an ellipse with a radius of 0 has points outside its box.)",
  "all coordinates, in pixels or percentages, and all points", "Unbounded coordinates; circles and ellipses need the inequality of their equations, not cases.",
  [QC+":calculate_shape_bounds", QC+":offset_shape", QC+":ShapeElementMixin.test_point", QC+":ShapeElementMixin.test_ellipse"])
p("C164", "Receiving requests from a socket",
  "However the bytes of a connection are divided into the pieces that recv returns, the server receives the requests that were sent: each request is given its own line, header lines and body, no byte is lost, repeated or moved between requests, and every request on the connection is handled in order. (Violated: a chunked request is never completed when a piece ends inside or just after the data of a chunk that began in the buffer, because the buffer becomes a str; and whatever arrives in the same piece after the end of a request is dropped, so pipelined requests are lost.)",
  "all requests, all divisions of the stream into pieces, everything that follows on the connection", "The divisions of a stream into pieces are the schedules of the network: there are exponentially many and they cannot be listed.",
  ["pyslet/http/server.py:Connection.handle_requests", "pyslet/http/server.py:split_socket", "pyslet/http/server.py:split_socket1", "pyslet/http/server.py:read_socket", HM+":Message.recv"])
p("C165", "Names in the new style",
  "make_attr_name turns every name into the documented form: an upper case letter becomes lower case, preceded by an underscore exactly if it follows a lower case letter, or follows an upper case letter and is followed by a lower case one; everything else stays. The result has no upper case letters, and a name without upper case letters is not changed, so applying it twice changes nothing more. getattr on a PEP8Compatibility object finds the attribute of the given name, else that of the new-style name, else raises AttributeError; it never recurses without end and never depends on earlier look-ups.",
  "every string over any alphabet with a case table, every object and every history of look-ups", "All strings; the rule looks at both neighbours; the cache of names makes the outcome depend on history unless proved otherwise.",
  ["pyslet/pep8.py:make_attr_name", "pyslet/pep8.py:PEP8Compatibility.__getattr__"])
p("C166", "Renamed methods in class hierarchies",
  "In a hierarchy of migrated classes the old and the new name of a renamed method always run the same function: the definition nearest in the resolution order, under whichever of the two names it was written. A class that defines both, or changes the type of the method, is refused with TypeError; all others are accepted. (Violated for bases that are not derived from the class that declares the rename: a mixin's definition under the old name is not used for the new one.)",
  "every set of renames without clashes, every class body, every number of bases in every order", "Hierarchies of any depth and shape.",
  ["pyslet/pep8.py:MigratedMetaclass.__new__", "pyslet/pep8.py:old_method", "pyslet/pep8.py:DeprecatedMethod"])
Q1I="pyslet/qtiv1/item.py"; Q1C="pyslet/qtiv1/common.py"
p("C167", "Migrated response conditions run like the originals",
  "Migrating the response processing of a version 1 item gives version 2 rules that do in every session what the version 1 conditions say: conditions are looked at in turn, a matching one has its actions done, and unless it says continue=\"Yes\" no later condition is looked at; the final values and the exception, if there is one, are the same. Extensions between the conditions change nothing.",
  "every list of conditions with every pattern of the continue attribute and every session state", "The version 2 form nests else branches as deep as the pattern of continue flags demands: all patterns of all lengths.",
  [Q1I+":ResProcessing.migrate_to_v2", Q1I+":RespCondition.migrate_rule_to_v2", QP+":ResponseCondition.run"])
p("C168", "Migrated tests have the same truth",
  "The version 2 expression that a version 1 conditionvar is migrated to is true in a session exactly when the version 1 condition holds: varequal when the value is among the answers (strings without regard to case unless case=\"Yes\"), varlt and so on by comparing numbers, not, and, or and the implicit and in the usual sense; evaluation raises no exception. (Violated: the negation of a test of an unanswered response holds in version 1 and is not true in version 2; an indexed varequal on an ordered response raises ProcessingError; containers of strings are always compared with regard to case.)",
  "all conditions of any depth, all declarations and all session states", "Nested conditions of any depth over all values, including missing ones.",
  [Q1C+":ConditionVar.migrate_expression_to_v2", Q1C+":VarEqual.migrate_expression_to_v2", Q1C+":VarInequality.migrate_expression_to_v2", Q1C+":Not.migrate_expression_to_v2", Q1C+":And.migrate_expression_to_v2", Q1C+":Or.migrate_expression_to_v2"])
p("C169", "Migrated actions",
  "The rule that setvar is migrated to sets the outcome to the value given, or to the sum, difference, product or quotient of the outcome and the value, and changes nothing else; the rule for displayfeedback adds the identifier of the feedback with that name to FEEDBACK. (Violated: Divide on an integer outcome ends with ValueError, since the quotient is a float; a name that is not an identifier is changed for the feedback but not for the rule, so that the feedback is never shown.)",
  "all outcomes, values and session states", "Unbounded values, and the types of every combination of operation and outcome.",
  [Q1C+":SetVar.migrate_rule_to_v2", Q1C+":DisplayFeedback.migrate_rule_to_v2", Q1I+":ItemFeedback.migrate_to_v2"])
p("C170", "Areas of version 1 migrated",
  "migrate_area_to_v2 takes as coordinates the numbers in the text, whatever stands between them, and gives a version 2 region that has the points of the version 1 area: a rectangle given by its corner, height and width, an ellipse by its centre and diameters; it never has points that the area has not. What is missing is filled in as the log says. The yes/no attributes are written as they are read. (Violated: anything before the first number, such as a space, splits that number in two; the last column and row of a rectangle are lost and a rectangle without size gets a pixel; an ellipse with a diameter of 1 becomes a whole line; no is written as Nes.)",
  "every text, every separator, all coordinates and all points", "Unbounded coordinates and arbitrary separators; ellipses need the inequality of their equations.",
  ["pyslet/qtiv1/core.py:migrate_area_to_v2", "pyslet/qtiv1/core.py:yn_from_str", "pyslet/qtiv1/core.py:yn_to_str", QC+":ShapeElementMixin.test_point"])
p("C171", "Language, white space and base are inherited",
  "resolve_lang gives the xml:lang of the nearest element, itself included, that has one, else that of the document; resolve_space the same for xml:space, None if there is none; resolve_base the base of XML Base, every xml:base being resolved against the base in force for the parent; resolve_uri resolves a reference against that base. Setting the language changes it for the element and what is in it, down to elements with their own. (Violated: xml:lang=\"\" does not end the inherited language; resolve_space raises NotImplementedError in a document without xml:space; two relative bases are put together bottom-up, which is wrong if the outer one ends in \"..\".)",
  "elements at any depth, with any attributes on any of their ancestors, in and out of documents", "Chains of ancestors of any length, and resolution of references is associative only under conditions.",
  [XS+":Element.resolve_base", XS+":Element.resolve_uri", XS+":Element.resolve_lang", XS+":Element.resolve_space", XS+":Element.set_lang", XS+":Document.get_space"])
p("C172", "Comparison of content",
  "Two elements compare as equal in their content exactly if they have the same characters and equal elements in the same order, but for the amount of white space between them and white space at the start and the end; get_canonical_children gives that content with single spaces, and applied to its own result changes nothing. With xml:space=\"preserve\" the children are compared as they are. (Violated: an element with text and nothing else keeps the space at the end, so <p>a </p> and <p>a</p> differ, and so do <p> </p> and <p/>; an empty text between elements counts as a space.)",
  "all lists of children, of any length, with any white space", "Unbounded content; exactly-if over all pairs of contents.",
  [XS+":Element.get_canonical_children", XS+":collapse_space", XS+":Element.__eq__"])
p("C173", "What a page is told about its request",
  "The URL of a request that WSGIContext gives is the canonical root, then a path that stands, escapes decoded, for the bytes of SCRIPT_NAME and PATH_INFO and holds no ? or #, then the query as sent. The root of the application ends in a slash and every URL of a request below it begins with it. The canonical root names the port exactly if it is not the default of the scheme. get_content gives the first Content-Length bytes of the input however the input cuts them into pieces, gives the same again when asked again, and never reads more than MAX_CONTENT; a longer body is refused as a bad request. (Violated: on Python 3 a byte outside ASCII in the path is encoded twice, /%E9 becomes /%C3%A9; a Content-Length such as a superscript two ends in ValueError.)",
  "all environs, all input streams and all ways in which they return their data in pieces", "Unbounded paths and bodies; every way to cut a stream into pieces.",
  ["pyslet/wsgi.py:WSGIContext.get_url", "pyslet/wsgi.py:WSGIContext.get_app_root", "pyslet/wsgi.py:WSGIContext._get_canonical_root", "pyslet/wsgi.py:WSGIContext.get_content"])
p("C174", "Where a request goes and when it is tried again",
  "A ClientRequest for an http or https URL with a host goes to the host and port that the URL means; its only Host header names that host and port and no other, its request line has the path (/ if there is none) and the query, and other headers are kept. Any other URL is refused with HTTPException (NotImplementedError for user information) and leaves the request as it was. The time waited before the i-th new attempt is between 3/4 and 5/4 of the i-th Fibonacci number times min_retry_time, and grows with every two attempts. (Violated: schemes without a server part raise AttributeError; after a refusal the request has the refused URL, or its path, with the old Host header.)",
  "all URLs, all earlier states of the request, all numbers of attempts and all random numbers", "All URLs and headers; histories of disconnects of any length, with random numbers.",
  ["pyslet/http/client.py:ClientRequest.set_url", "pyslet/http/client.py:ClientRequest.disconnect", "pyslet/http/messages.py:Message.set_header"])
open('/verif/properties.jsonl','w').write('\n'.join(json.dumps(x) for x in P)+'\n')
