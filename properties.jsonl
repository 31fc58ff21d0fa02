{"id": "C01", "title": "CharClass is a set of characters", "statement": "After any sequence of CharClass constructor arguments, add_char, add_range, add_class, subtract_char, subtract_range, subtract_class and negate calls, a character tests as a member exactly when it is in the set obtained by performing the corresponding set operations (insert, union, difference, complement up to maxunicode).", "quantifier": "every finite operation history and every code point", "why_tests_cant": "the number of histories and of code points (0..0x10FFFF) is unbounded; interval-merge and split bugs show up only for particular adjacencies", "anchors": ["pyslet/unicode5.py:CharClass.add_range", "pyslet/unicode5.py:CharClass.subtract_range", "pyslet/unicode5.py:CharClass.add_char", "pyslet/unicode5.py:CharClass.subtract_char", "pyslet/unicode5.py:CharClass.negate", "pyslet/unicode5.py:CharClass._merge", "pyslet/unicode5.py:CharClass._bisection_search"]}
{"id": "C02", "title": "CharClass equality is set equality", "statement": "Two CharClass objects built by any two histories compare equal with == if and only if they contain the same characters (the stored ranges are always canonical: sorted, non-empty, separated by at least one missing character).", "quantifier": "every pair of operation histories", "why_tests_cant": "needs canonicity of every reachable representation", "anchors": ["pyslet/unicode5.py:CharClass.__eq__", "pyslet/unicode5.py:CharClass._merge", "pyslet/unicode5.py:CharClass.add_range"]}
{"id": "C03", "title": "The block cache of CharClass.test is invisible", "statement": "At every point of every history of mutations and test calls, test(c) returns the same answer as the uncached test_slow(c), whatever characters were tested before (so whatever blocks are cached), including characters beyond the 256 cached blocks.", "quantifier": "every interleaving of mutating calls and test calls on one object; every character", "why_tests_cant": "cache staleness depends on the history; block boundaries fall in every possible position relative to ranges", "anchors": ["pyslet/unicode5.py:CharClass.test", "pyslet/unicode5.py:CharClass._clear_cache", "pyslet/unicode5.py:CharClass.test_slow"]}
{"id": "C04", "title": "Copying a CharClass gives an independent object", "statement": "Building a class with CharClass(other) (or add_class on an empty class) and then modifying the copy never changes the members of other. [The code violates this: the copy shares the mutable range lists, and a later subtract on the copy edits them in place; e.g. the XML Schema regular expression [\\p{L}-[a-z]] corrupts the global Unicode category table.]", "quantifier": "every pair of objects and every later history on the copy", "why_tests_cant": "aliasing is invisible to tests that look at one object", "anchors": ["pyslet/unicode5.py:CharClass.add_class", "pyslet/unicode5.py:CharClass.subtract_range", "pyslet/xml/xsdatatypes.py:RegularExpressionParser.require_char_group"]}
{"id": "C05", "title": "Look-ahead parser methods never move on failure and consume exactly what they return", "statement": "For BasicParser on every source and at every position: when parse, parse_insensitive, parse_one, parse_digit(s), parse_integer, parse_hex_digit(s) or parse_production return None the position is unchanged; when they succeed the position advances by exactly the matched text, which is the slice of the source at the old position; parse_until splits the rest of the source at the first occurrence.", "quantifier": "every source string, position and argument", "why_tests_cant": "unbounded inputs", "anchors": ["pyslet/unicode5.py:BasicParser.parse", "pyslet/unicode5.py:BasicParser.parse_until", "pyslet/unicode5.py:BasicParser.parse_digits", "pyslet/unicode5.py:BasicParser.parse_integer", "pyslet/unicode5.py:ParserMixin.parse_production"]}
{"id": "C06", "title": "parse_integer is exact and respects its bounds", "statement": "parse_integer(min,max,max_digits) returns v only if the source at the current position starts with a maximal (up to max_digits) run of digits whose decimal value is v and min<=v<=max; it returns None otherwise; printing any natural number and parsing it back returns that number.", "quantifier": "every source and every bound", "why_tests_cant": "unbounded integers and strings", "anchors": ["pyslet/unicode5.py:BasicParser.parse_integer", "pyslet/unicode5.py:BasicParser.parse_digits"]}
{"id": "C07", "title": "Absolute day number is a bijection", "statement": "Date(absolute_day=n) followed by get_absolute_day() returns n for every representable n>=1, and Date(absolute_day=d.get_absolute_day()) is d for every complete valid date d; the constructed date always satisfies the calendar checks.", "quantifier": "every day from 0001-01-01 to 9999-12-31", "why_tests_cant": "3.6 million days; leap-rule corner cases (quad-century, century, quad-year ends)", "anchors": ["pyslet/iso8601.py:Date._set_from_absolute_day", "pyslet/iso8601.py:Date.get_absolute_day", "pyslet/iso8601.py:Date._set_from_ordinal_day"]}
{"id": "C08", "title": "Absolute day numbers count days and order dates", "statement": "The day after any valid date in the calendar has absolute day exactly one larger, and d1<d2 by calendar comparison iff absolute_day(d1)<absolute_day(d2).", "quantifier": "every pair of valid complete dates", "why_tests_cant": "quadratic in 3.6 million dates", "anchors": ["pyslet/iso8601.py:Date.get_absolute_day", "pyslet/iso8601.py:Date.sortkey"]}
{"id": "C09", "title": "Weekdays advance by one each day and agree with the absolute day number", "statement": "day_of_week is 1..7 and equals (absolute_day-1) mod 7 + 1 for every valid date, so it advances cyclically by one each day.", "quantifier": "every valid date", "why_tests_cant": "unbounded years; formula special-cases January/February in leap years", "anchors": ["pyslet/iso8601.py:day_of_week"]}
{"id": "C10", "title": "ISO week dates round trip", "statement": "For every valid complete date d with a representable week year, constructing a Date from d.get_week_day() gives back d; week numbers lie in 1..week_count(year), and week_count(year) is the true number of ISO weeks in that year.", "quantifier": "every valid date", "why_tests_cant": "year-boundary weeks 52/53/1 depend on the weekday and leapness of two adjacent years", "anchors": ["pyslet/iso8601.py:Date.get_week_day", "pyslet/iso8601.py:Date._set_from_week_day", "pyslet/iso8601.py:week_count"]}
{"id": "C11", "title": "Ordinal dates and Julian dates round trip", "statement": "get_ordinal_day/ordinal constructor are mutually inverse on valid dates, and from_julian/get_julian_day are mutually inverse.", "quantifier": "every valid date / every valid Julian date", "why_tests_cant": "unbounded", "anchors": ["pyslet/iso8601.py:Date.get_ordinal_day", "pyslet/iso8601.py:Date._set_from_ordinal_day", "pyslet/iso8601.py:Date.from_julian", "pyslet/iso8601.py:Date.get_julian_day"]}
{"id": "C12", "title": "Date.offset is addition of days", "statement": "For complete dates offset(days=a,weeks=w) moves the absolute day by exactly a+7w or raises; offsets compose additively and offset by -n undoes offset by n; month-precision and week-precision offsets move the month/week count by exactly the requested amount.", "quantifier": "every date and every offset", "why_tests_cant": "unbounded offsets", "anchors": ["pyslet/iso8601.py:Date.offset"]}
{"id": "C13", "title": "Time.offset conserves seconds", "statement": "For complete times without fractional parts (hour, t.offset(h,m,s)) returns (t2,days) with 86400*days + seconds(t2) = seconds(t) + 3600h+60m+s and t2 a valid time of day; Time(total_seconds=n).get_total_seconds() = n for 0<=n<86400.", "quantifier": "every time and every (possibly negative) offset", "why_tests_cant": "unbounded offsets, negative floor division", "anchors": ["pyslet/iso8601.py:Time.offset", "pyslet/iso8601.py:Time.get_total_seconds", "pyslet/iso8601.py:Time._set_from_total_seconds"]}
{"id": "C14", "title": "Zone shifts preserve the instant", "statement": "TimePoint.shift_zone returns a time point in the requested zone denoting the same instant whenever it returns; shifting to UTC never fails except by leaving the calendar range. [For zones more than 24 hours apart the code can raise 'hour out of range' instead of returning.]", "quantifier": "every time point and zone", "why_tests_cant": "zones x days x times; carries across midnight, month and year ends", "anchors": ["pyslet/iso8601.py:Time.shift_zone", "pyslet/iso8601.py:TimePoint.shift_zone"]}
{"id": "C15", "title": "TimePoint comparison is comparison of instants", "statement": "For complete zoned time points without 24:00:00 or leap seconds, ==, < and hash agree with equality and order of the instants (get_unixtime), regardless of zone.", "quantifier": "every pair of time points in every pair of zones", "why_tests_cant": "quadratic", "anchors": ["pyslet/iso8601.py:TimePoint.sortkey", "pyslet/iso8601.py:TimePoint.otherkey", "pyslet/iso8601.py:TimePoint.get_unixtime"]}
{"id": "C16", "title": "Unix time round trips", "statement": "TimePoint.from_unix_time(n).get_unixtime() = n for every integer n in calendar range.", "quantifier": "every integer second count in range", "why_tests_cant": "10^11 values", "anchors": ["pyslet/iso8601.py:TimePoint.from_unix_time", "pyslet/iso8601.py:TimePoint.get_unixtime"]}
{"id": "C17", "title": "ISO 8601 date strings round trip", "statement": "Formatting a valid complete date in basic or extended calendar, ordinal or week format and parsing it back gives the same date.", "quantifier": "every valid date and the six formats", "why_tests_cant": "millions of dates and a large hand written state machine parser", "anchors": ["pyslet/iso8601.py:Date.get_calendar_string", "pyslet/iso8601.py:Date.get_ordinal_string", "pyslet/iso8601.py:Date.get_week_string", "pyslet/iso8601.py:ISO8601Parser.parse_date_format"]}
{"id": "C18", "title": "URI escaping round trips and emits only URI characters", "statement": "unescape_data(escape_data(b)) = b for every byte string b and every reserved test, as long as '%' is not in the allowed set; with the default tests every output character is an allowed URI character or part of a %XX escape, so the result is wholly accepted by parse_uric.", "quantifier": "every byte string, every reserved predicate", "why_tests_cant": "unbounded strings", "anchors": ["pyslet/rfc2396.py:escape_data", "pyslet/rfc2396.py:unescape_data", "pyslet/rfc2396.py:parse_uric"]}
{"id": "C19", "title": "canonicalize_data is idempotent and meaning preserving", "statement": "For every well-formed URI string, canonicalize_data is idempotent and does not change the octets denoted by the string (unescape_data of both agree).", "quantifier": "every string accepted by parse_uric", "why_tests_cant": "unbounded strings, interaction of escapes and reserved sets", "anchors": ["pyslet/rfc2396.py:canonicalize_data"]}
{"id": "C20", "title": "Path normalization is a normal form", "statement": "normalize_segments terminates for every list of segments; the result contains no '.' segment, '..' occurs only as a leading run, and normalizing again changes nothing.", "quantifier": "every list of path segments", "why_tests_cant": "unbounded lists; in-place deletion with index backtracking", "anchors": ["pyslet/rfc2396.py:normalize_segments"]}
{"id": "C21", "title": "Parsing a URI loses nothing", "statement": "For every string accepted by URI(...), str(uri) is the original string and the scheme, authority, path, query and fragment components reassemble to it.", "quantifier": "every accepted string", "why_tests_cant": "unbounded; a 6-state hand written scanner", "anchors": ["pyslet/rfc2396.py:URI.__init__", "pyslet/rfc2396.py:URI.parse_scheme_specific_part", "pyslet/rfc2396.py:URI._parse_relative_uri", "pyslet/rfc2396.py:parse_uric", "pyslet/rfc2396.py:_parse_scheme"]}
{"id": "C22", "title": "relative() is undone by resolve()", "statement": "For hierarchical URIs with equal scheme and authority and normalized absolute paths u and b, resolving u.relative(b) against b gives back u.", "quantifier": "every pair of normalized paths", "why_tests_cant": "quadratic in unbounded path lists", "anchors": ["pyslet/rfc2396.py:URI.relative", "pyslet/rfc2396.py:URI.resolve", "pyslet/rfc2396.py:_relativize_segments", "pyslet/rfc2396.py:_make_rel_path_abs"]}
{"id": "C23", "title": "Authority splitting is lossless", "statement": "split_server returns userinfo, host and port such that reassembling them gives the authority back, port consists only of digits, and userinfo contains no '@'.", "quantifier": "every authority string", "why_tests_cant": "unbounded strings", "anchors": ["pyslet/rfc2396.py:split_server"]}
{"id": "C24", "title": "URN namespace-specific strings round trip", "statement": "translate_from_urnchar(translate_to_urnchar(s)) = s for every zero-free Unicode string s, for every additional reserved test, and the encoded form uses URN characters only.", "quantifier": "every Unicode string", "why_tests_cant": "unbounded", "anchors": ["pyslet/urn.py:translate_to_urnchar", "pyslet/urn.py:translate_from_urnchar", "pyslet/urn.py:parse_urn"]}
{"id": "C25", "title": "HTTP quoted strings round trip", "statement": "decode_quoted_string(quote_string(s)) = s for every byte string; the quoted form is tokenized by WordParser as exactly one word and decoded to s. [Without force, the empty string is written as nothing; an unterminated quoted string is accepted.]", "quantifier": "every byte string", "why_tests_cant": "unbounded", "anchors": ["pyslet/http/grammar.py:quote_string", "pyslet/http/grammar.py:decode_quoted_string", "pyslet/http/grammar.py:OctetParser.parse_quoted_string"]}
{"id": "C26", "title": "HTTP parameters round trip", "statement": "Formatting a media type, transfer encoding, chunk header or entity tag and parsing it back yields an equal object for every valid value. [Violated for empty parameter values: quote_string(b'',force=False) prints nothing and the text cannot be parsed back; and for parameter names with bytes above 127, which are parsed but cannot be formatted.]", "quantifier": "every token, parameter dictionary and byte-string value", "why_tests_cant": "unbounded", "anchors": ["pyslet/http/grammar.py:format_parameters", "pyslet/http/grammar.py:WordParser.parse_parameters", "pyslet/http/params.py:MediaType", "pyslet/http/params.py:EntityTag", "pyslet/http/params.py:Chunk", "pyslet/http/params.py:HTTPVersion"]}
{"id": "C27", "title": "HTTP dates round trip", "statement": "FullDate.to_bytes followed by from_http_str returns the same instant (in GMT) for every valid time point; parsed dates always have the right weekday.", "quantifier": "every time point", "why_tests_cant": "10^11 values", "anchors": ["pyslet/http/params.py:FullDate.to_bytes", "pyslet/http/params.py:ParameterParser.require_fulldate"]}
{"id": "C28", "title": "Pipe delivers bytes exactly once, in order", "statement": "For every interleaving of atomic pipe operations by any number of readers and writers, the concatenation of all data returned by reads followed by what is buffered equals the concatenation of all data accepted by writes (until the pipe is closed), and EOF is only reported after everything was delivered. [Violated by writing an empty bytearray: the next read reports EOF.]", "quantifier": "every schedule of write/write_eof/read/readinto/readmatch calls of any sizes", "why_tests_cant": "unbounded interleavings and sizes", "anchors": ["pyslet/streams.py:Pipe.write", "pyslet/streams.py:Pipe.read", "pyslet/streams.py:Pipe.readinto", "pyslet/streams.py:Pipe.readmatch", "pyslet/streams.py:Pipe._consolidate_buffer", "pyslet/streams.py:Pipe.write_eof"]}
{"id": "C29", "title": "Pipe flow-control accounting is exact", "statement": "buffered() always equals the number of undelivered bytes, canwrite() never reports more than the remaining space, a mutable-buffer write never exceeds the buffer size, and a non-blocking write returns None exactly when the buffer is full. [Violated by readmatch, which drops delivered bytes without reducing the count: writers can be held up for ever on an empty pipe.]", "quantifier": "every operation history", "why_tests_cant": "unbounded histories", "anchors": ["pyslet/streams.py:Pipe.canwrite", "pyslet/streams.py:Pipe.buffered", "pyslet/streams.py:Pipe.write"]}
{"id": "C30", "title": "BufferedStreamWrapper is transparent", "statement": "Reading a BufferedStreamWrapper with any sequence of read sizes returns the bytes of the source in order, each exactly once, whether or not the source fitted the buffer; peek never changes what later reads return. When the source fits in the buffer, seek and tell behave as for a file. [Violated by a seek to a negative position, which raises but moves the position.]", "quantifier": "every source behaviour (short reads), buffer size and read sequence", "why_tests_cant": "unbounded", "anchors": ["pyslet/streams.py:BufferedStreamWrapper.__init__", "pyslet/streams.py:BufferedStreamWrapper.readinto", "pyslet/streams.py:BufferedStreamWrapper.peek"]}
{"id": "C31", "title": "Stored streams behave as byte files", "statement": "A BlockStream opened on a new stream behaves under every sequence of write, read and seek within the file like an ordinary in-memory byte file: reads return the most recently written bytes, across block boundaries, and the flushed blocks concatenate to the file's content. [Opening an existing non-empty stream with mode 'w' and writing, and writing or reading after a seek to a later block, raise IndexError in the code; a seek to a negative position is not refused by the code and is not modelled.]", "quantifier": "every operation sequence, block size and data", "why_tests_cant": "unbounded histories; block boundary corner cases", "anchors": ["pyslet/blockstore.py:BlockStream.write", "pyslet/blockstore.py:BlockStream.readinto", "pyslet/blockstore.py:BlockStream.seek", "pyslet/blockstore.py:BlockStream.flush"]}
{"id": "C32", "title": "Block store never loses referenced blocks and never leaks orphans", "statement": "After any sequence of completed store_block, update_block and delete_blocks operations on any number of streams, every block referenced by a stream is in the block store with the content whose hash it carries, and every block in the store is referenced; at any crash point inside an operation no referenced block written before is missing. This holds for every interleaving of threads that use the locks. [The code violates this for store_block of data larger than the maximum block size, which leaves a block without data, and for two updates of one block by clients with stale copies, which leave an orphan.]", "quantifier": "every operation history over many streams and every crash point inside update/delete", "why_tests_cant": "crash points and sharing of identical blocks between streams", "anchors": ["pyslet/blockstore.py:StreamStore.store_block", "pyslet/blockstore.py:StreamStore.update_block", "pyslet/blockstore.py:StreamStore.delete_blocks", "pyslet/blockstore.py:FileBlockStore.store"]}
{"id": "C33", "title": "Locks are mutually exclusive until they expire", "statement": "For every interleaving of lock and unlock attempts by any owners, between a successful lock by A and its unlock no other owner acquires the lock unless lock_timeout has elapsed since the lock was (re)created; a stale owner's unlock never removes a lock taken over by another owner before the unlock started. [The code violates this for an unlock that takes longer than the rest of the lock's life between its check and its delete, and with the in-memory entity set, which ignores concurrency tokens.]", "quantifier": "every schedule of any number of clients and every clock history", "why_tests_cant": "unbounded schedules", "anchors": ["pyslet/blockstore.py:LockStore.lock", "pyslet/blockstore.py:LockStore.unlock"]}
{"id": "C34", "title": "White space facets", "statement": "white_space_collapse and white_space_replace are idempotent; the collapsed string has no leading, trailing or double spaces and the same sequence of words. [The code violates this: after leading white space the first character of the first word is split off, ' ab' becomes 'a b'.]", "quantifier": "every string", "why_tests_cant": "unbounded", "anchors": ["pyslet/xml/xsdatatypes.py:white_space_collapse", "pyslet/xml/xsdatatypes.py:white_space_replace"]}
{"id": "C35", "title": "Parser errors point at the furthest position reached", "statement": "When a parser error is raised after any sequence of parse attempts and backtracking, the position recorded for the error is the largest position at which an error was noted so far, and the recorded furthest error never moves backwards.", "quantifier": "every history of parse attempts, backtracks and errors", "why_tests_cant": "unbounded histories", "anchors": ["pyslet/unicode5.py:BasicParser.parser_error", "pyslet/unicode5.py:ParserError"]}
{"id": "C36", "title": "Truncated dates resolve to the first matching date on or after the base", "statement": "A truncated date (day; month-day; year-month-day; ordinal; year-ordinal; weekday; week-weekday; year-week-weekday) constructed with a complete base date is the earliest calendar date on or after the base that has the given components; otherwise the constructor raises.", "quantifier": "every base date and every truncated representation", "why_tests_cant": "3.6 million base dates times all component values", "anchors": ["pyslet/iso8601.py:Date._set_from_calendar_day", "pyslet/iso8601.py:Date._set_from_ordinal_day", "pyslet/iso8601.py:Date._set_from_week_day", "pyslet/iso8601.py:Date._add_month", "pyslet/iso8601.py:Date._add_year", "pyslet/iso8601.py:Date._add_week"]}
{"id": "C37", "title": "The Date constructor accepts exactly the dates that exist", "statement": "With century, year, month and day given the constructor returns the date exactly when it exists in the proleptic Gregorian calendar of years 1..9999 and raises otherwise; likewise for the century, year and month precisions and for year-week precision (week exists in that year). [The code violates this for week 0, which it accepts.]", "quantifier": "every combination of constructor arguments at each precision", "why_tests_cant": "unbounded integer arguments; leap years and 53-week years", "anchors": ["pyslet/iso8601.py:Date.__init__", "pyslet/iso8601.py:Date._check_date", "pyslet/iso8601.py:week_count"]}
{"id": "C38", "title": "Truncated times resolve to the first matching time at or after the base", "statement": "Time.extend with only a second, or with a minute and a second, returns the earliest time of day at or after the base that has these components, in the base's zone, with the overflow into the next day. [extend(minute=m) with m the base's own minute raises TypeError in Python 3.]", "quantifier": "every base time, zone and component values", "why_tests_cant": "all combinations of base and components, wrapping at the hour and at midnight", "anchors": ["pyslet/iso8601.py:Time.extend", "pyslet/iso8601.py:Time.offset"]}
{"id": "C39", "title": "parse_uric finds the longest run of URI characters", "statement": "parse_uric(source, pos, allowed_test) returns the length of the longest prefix of source[pos:] that is a sequence of allowed characters and complete %XX escapes, for every allowed test that excludes '%'.", "quantifier": "every text, position and allowed test", "why_tests_cant": "unbounded texts", "anchors": ["pyslet/rfc2396.py:parse_uric"]}
{"id": "C40", "title": "Times of day compare within one zone only", "statement": "Two complete times with the same zone offset (or both without zone) are ordered and equal exactly as their hour, minute and second readings; times in different zones are neither ordered nor equal.", "quantifier": "every pair of times and zones", "why_tests_cant": "unbounded pairs", "anchors": ["pyslet/iso8601.py:Time.sortkey", "pyslet/iso8601.py:Time.otherkey"]}
{"id": "C41", "title": "Time construction accepts exactly the valid times", "statement": "Time(hour, minute, second, zdirection, zhour, zminute) succeeds exactly for valid clock readings (00:00:00 to 23:59:60 and 24:00:00) with a zone less than 24 hours from Greenwich; reduced precision likewise. [Violated: zone minutes over 59, negative zone offsets and seconds without minutes are accepted unchecked.]", "quantifier": "all integer components", "why_tests_cant": "unbounded integers", "anchors": ["pyslet/iso8601.py:Time._check_time", "pyslet/iso8601.py:Time._set_from_values"]}
{"id": "C42", "title": "Reference resolution follows RFC 2396", "statement": "resolve(base) of a reference gives: the reference itself when it has a scheme; the base document with the reference's fragment when the reference is otherwise empty; else the base's scheme, the reference's authority or else the base's, the reference's absolute path or else the location reached by following its relative path from the base's directory, the reference's query and fragment. [Violated for a base with authority and no path, where the path is glued to the host.]", "quantifier": "every accepted base with an absolute path and every accepted reference", "why_tests_cant": "unbounded paths with '.' and '..'", "anchors": ["pyslet/rfc2396.py:URI.resolve", "pyslet/rfc2396.py:normalize_segments", "pyslet/rfc2396.py:split_path"]}
{"id": "C43", "title": "Canonical URLs", "statement": "For a server based URL with a scheme, canonicalize() gives the URL with scheme and host in lower case, without an empty or default port, other ports written without leading zeros, and the same userinfo, path, query and fragment; it addresses the same host and port, and canonicalizing again changes nothing. [Violated for hosts that themselves end in ':' and digits, and for opaque parts, which are dropped.]", "quantifier": "every accepted URL and default port", "why_tests_cant": "unbounded strings", "anchors": ["pyslet/rfc2396.py:ServerBasedURL.canonicalize", "pyslet/rfc2396.py:ServerBasedURL.get_addr", "pyslet/rfc2396.py:split_server"]}
{"id": "C44", "title": "URN syntax and canonical form", "statement": "URN(text) is accepted exactly when the part after the scheme is a namespace identifier (a letter or digit followed by letters, digits and hyphens, at most 32 characters, not 'urn' in any case), ':' and URN characters; nid and nss are these parts. canonicalize() lower-cases scheme and NID and upper-cases escapes, denotes the same octets, is itself a valid URN, and is idempotent.", "quantifier": "every string", "why_tests_cant": "unbounded strings; hand-written state machine with a length limit", "anchors": ["pyslet/urn.py:URN.parse_scheme_specific_part", "pyslet/urn.py:URN.canonicalize"]}
{"id": "C45", "title": "HTTP parameter parsers fail only with ValueError", "statement": "from_str of media types, transfer encodings, entity tags, versions, product tokens and language tags, FullDate.from_http_str and Chunk.from_str return a value or raise ValueError (BadSyntax), whatever the bytes. [Violated by Chunk and FullDate: TypeError when a separator stands where a number is required; FullDate raises DateTimeError, not a ValueError, for dates that do not exist.]", "quantifier": "every byte string", "why_tests_cant": "unbounded malformed inputs", "anchors": ["pyslet/http/params.py:MediaType.from_str", "pyslet/http/params.py:Chunk.from_str", "pyslet/http/params.py:FullDate.from_http_str", "pyslet/http/grammar.py:WordParser.parse_integer", "pyslet/http/grammar.py:is_digits"]}
{"id": "C46", "title": "Pipe.readmatch delivers up to the first match", "statement": "After every history, readmatch(m) returns the shortest initial part of the undelivered bytes that ends with m, if there is one; otherwise it delivers nothing: b'' after EOF, else it raises ENOBUFS, waits or returns None.", "quantifier": "every schedule of pipe operations and every match", "why_tests_cant": "unbounded interleavings; matches across buffers", "anchors": ["pyslet/streams.py:Pipe.readmatch", "pyslet/streams.py:Pipe._consolidate_buffer"]}
{"id": "C47", "title": "Pipe blocking modes are those set last", "statement": "Whatever reads and writes are done, readblocking() and writeblocking() return the modes set last. [Violated by readall, which leaves the pipe in blocking mode because of a misspelt attribute.]", "quantifier": "every operation history", "why_tests_cant": "unbounded histories", "anchors": ["pyslet/streams.py:Pipe.readall", "pyslet/streams.py:Pipe.set_readblocking"]}
{"id": "C48", "title": "The stored stream digest is that of the content", "statement": "After every sequence of operations on a BlockStream (write, read, seek within the file, flush) the digest stored with the stream on flush is either null or the digest of the stream's content; when a new stream is only written sequentially it is the digest of the content.", "quantifier": "every operation sequence, block size, mode and data", "why_tests_cant": "unbounded histories; rewrites of earlier blocks", "anchors": ["pyslet/blockstore.py:BlockStream.write", "pyslet/blockstore.py:BlockStream.flush"]}
{"id": "C49", "title": "XML Schema integers, decimals and booleans", "statement": "integer_from_str, decimal_from_str and boolean_from_str accept exactly the lexical representations of XML Schema (optional sign, digits, at most one point with at least one digit; true, false, 1, 0), return the value denoted, raise ValueError for every other string, and read back what integer_to_str and boolean_to_str write.", "quantifier": "every string and every integer", "why_tests_cant": "unbounded strings", "anchors": ["pyslet/xml/xsdatatypes.py:integer_from_str", "pyslet/xml/xsdatatypes.py:decimal_from_str", "pyslet/xml/xsdatatypes.py:boolean_from_str", "pyslet/xml/xsdatatypes.py:integer_to_str", "pyslet/xml/xsdatatypes.py:boolean_to_str"]}
{"id": "C50", "title": "A response is received whole, however its bytes arrive", "statement": "A client receives a response (after any interim 1xx responses), delimited by Content-Length, chunked coding or the absence of a body, however its bytes are split over reads of the socket and however often the stream for the body blocks or accepts only part of the data: it is complete when its last byte has been read, with the status, header fields (and trailer) and exactly the body sent, no byte left over; before that it is not complete and the stream has received a prefix of the body. [Violated when flush blocks at the end of a chunked body, and when the connection is closed to delimit the body.]", "quantifier": "every response, segmentation into reads and schedule of blocking writes", "why_tests_cant": "unbounded segmentations and blocking schedules", "anchors": ["pyslet/http/client.py:Connection._recv_task", "pyslet/http/messages.py:Message.recv", "pyslet/http/messages.py:Message._recv_buffered"]}
{"id": "C51", "title": "Pipelined responses are matched to their requests", "statement": "With several requests in flight on one connection, the responses are completed in order, each with its own status, header fields and body, and each as soon as its last byte has been read. [Violated: when several responses arrive in one read only the first is completed.]", "quantifier": "every queue of responses and segmentation", "why_tests_cant": "unbounded queues and segmentations", "anchors": ["pyslet/http/client.py:Connection._recv_task"]}
{"id": "C52", "title": "Header fields survive transmission and determine the body length", "statement": "The header fields sent by send_header are received with the same names (compared without case), values and order of values, for every dictionary of fields whose values have no line breaks or surrounding space; and the received fields determine the framing: no body for 1xx, 204, 304 and responses to HEAD; chunked when Transfer-Encoding is chunked, even with a Content-Length; else Content-Length octets. [Violated: values with line breaks are sent verbatim (header injection); negative Content-Length is accepted.]", "quantifier": "every dictionary of header fields", "why_tests_cant": "unbounded fields", "anchors": ["pyslet/http/messages.py:Message.send_header", "pyslet/http/messages.py:Message.recv_headerlist", "pyslet/http/messages.py:Message.recv_transferlength", "pyslet/http/messages.py:Message.get_transfer_encoding", "pyslet/http/messages.py:Message.get_content_length"]}
{"id": "C53", "title": "A response is sent as the application built it", "statement": "For every response between HTTP/1.1 parties (status, reason phrase, header fields, body from bytes or a stream that may block or return short reads), the bytes a server writes are one correctly framed response: a client receives the same status and reason, the application's header fields, and exactly the body, whatever the segmentation (chunked for a stream of unknown length, Content-Length otherwise; no body for 1xx, 204, 304 and HEAD). [Violated: a stream that ends before the declared Content-Length is not detected.]", "quantifier": "every response, body and schedule of reads", "why_tests_cant": "unbounded bodies and schedules", "anchors": ["pyslet/http/messages.py:Message.send_body", "pyslet/http/messages.py:Message.send_transferlength", "pyslet/http/messages.py:Response.send_start", "pyslet/http/messages.py:Response.send_transferlength", "pyslet/http/messages.py:Message.start_sending", "pyslet/http/messages.py:Message.send_header"]}
{"id": "C54", "title": "A multipart/byteranges body ends at its first closing boundary", "statement": "A response with Content-Type multipart/byteranges and no other length information is complete with the read that completes the first occurrence of CR LF '--' boundary '--', however the body is split over reads and however the stream for the body blocks; its body ends there; before that it is not complete and the stream has all that was received. [Violated on re-used connections: bytes of the next response in the same read are discarded.]", "quantifier": "every body, boundary, segmentation and blocking schedule", "why_tests_cant": "boundaries split over reads, overlapping partial matches", "anchors": ["pyslet/http/messages.py:Message.recv", "pyslet/http/messages.py:Message.recv_transferlength"]}
{"id": "C55", "title": "A chunked request body is read as its data", "statement": "Reads of a ChunkedReader, of any positive sizes, return the data of the chunks in order, at least one byte while data is left and nothing afterwards; then exactly the body with its trailer has been taken from the source. Chunk extensions are ignored.", "quantifier": "every chunked body with extensions and trailer, every sequence of read sizes, every following data", "why_tests_cant": "unbounded bodies and read sizes; reads across chunks", "anchors": ["pyslet/http/messages.py:ChunkedReader.readinto", "pyslet/http/messages.py:ChunkedReader._read_chunksize"]}
{"id": "C56", "title": "A WSGI application sees exactly the request body", "statement": "Whatever sequence of reads and seeks (within the seekable first part) an application does on its input, and however short the reads of the server's stream are, each read returns the next bytes of the body at the position told, at least one while there are any; reading everything returns the rest; seeks outside the seekable part are refused once it has been left; and no byte after Content-Length is taken from the stream. [Violated by seeks beyond the buffer: after a short read the position is wrong, and a later read may take bytes after the body.]", "quantifier": "every request body, content length, buffer size, sequence of operations and schedule of short reads", "why_tests_cant": "unbounded histories and short reads", "anchors": ["pyslet/http/messages.py:WSGIInputWrapper.__init__", "pyslet/http/messages.py:WSGIInputWrapper.read", "pyslet/http/messages.py:WSGIInputWrapper.seek", "pyslet/http/messages.py:WSGIInputWrapper.readall"]}
{"id": "C57", "title": "The cookie store sends exactly the right cookies", "statement": "After any history of set_cookie, search, expire_cookies, end_session, add_public_suffix and add_private_suffix calls, search(url) returns exactly the cookies that were accepted, not replaced (same domain, name and path) and not expired, whose domain, path, Secure and HttpOnly attributes match the request by RFC 6265, longest path first and then oldest first. set_cookie refuses exactly HttpOnly cookies from other protocols, domains the host does not belong to, and public domains other than the host. So a cookie is never sent to a host outside the domain it was set for. [Violated: identical paths do not match unless they end in '/'; IP addresses are domain-matched; hosts that are not LDH names raise UnboundLocalError.]", "quantifier": "every history of operations, every request", "why_tests_cant": "unbounded histories and trees of domains; confidentiality over all hosts", "anchors": ["pyslet/http/cookie.py:CookieStore.set_cookie", "pyslet/http/cookie.py:CookieStore.search", "pyslet/http/cookie.py:CookieStore.expire_cookies", "pyslet/http/cookie.py:CookieStore.end_session", "pyslet/http/cookie.py:CookieStore._expand_node"]}
{"id": "C58", "title": "Public suffix rules are applied, whatever their order", "statement": "After any history of operations with rules of the public suffix list: a domain that is (or matches, for *.R) a public rule, or has at most tld_depth labels, is public unless it was added as private; a private one never is; no other domain is public; and get_registered_domain returns the shortest parent that is not public, or None. [Violated: a rule also makes its parents public when they were not in the tree.]", "quantifier": "every history of rules and cookies in every order, every domain", "why_tests_cant": "unbounded sets of rules, order independence", "anchors": ["pyslet/http/cookie.py:CookieStore.add_public_suffix", "pyslet/http/cookie.py:CookieStore.add_private_suffix", "pyslet/http/cookie.py:CookieStore.test_public_domain", "pyslet/http/cookie.py:CookieStore.get_registered_domain"]}
{"id": "C59", "title": "Cookie dates are read as RFC 6265 says", "statement": "The Expires date of a cookie is read from any text by the algorithm of RFC 6265 section 5.1.1: the first token that is a time, then the first other token that is a day, then a month, then a year (with the two digit rule); dates that do not exist or are before 1601 are ignored. In particular each of the three HTTP date formats is read as the date it shows.", "quantifier": "every text", "why_tests_cant": "unbounded texts, ambiguous tokens", "anchors": ["pyslet/http/cookie.py:CookieParser.require_cookie_date", "pyslet/http/cookie.py:split_time", "pyslet/http/cookie.py:split_year", "pyslet/http/cookie.py:split_month", "pyslet/http/cookie.py:split_day_of_month", "pyslet/http/cookie.py:CookieParser.parse_cookie_date_tokens"]}
{"id": "C60", "title": "Set-Cookie headers are read as RFC 6265 says", "statement": "For every Set-Cookie header, the name and value are the trimmed texts around the first '=' of the first part; the header is ignored exactly if there is none or the name is empty; attributes are recognised in any order and case with surrounding white space ignored; the last acceptable Expires, Max-Age, Domain and Path count, and Secure and HttpOnly are set if present. [Violated: Secure and HttpOnly after '; ' are never recognised.]", "quantifier": "every header", "why_tests_cant": "unbounded lists of attributes", "anchors": ["pyslet/http/cookie.py:CookieParser.require_set_cookie_string", "pyslet/http/cookie.py:CookieParser.require_name_value_pair"]}
{"id": "C61", "title": "OData literals survive the URI", "statement": "For every simple value, the literal ODataURI.format_literal writes is read back by Parser.parse_uri_literal as the same value (the same number for Byte, SByte and Int16, which have no literal form of their own; +00:00 for UTC), wherever a literal may stand in a URI or expression. [Violated: an empty Binary value comes back as a character string; the text of a large Double, such as 1e+16D, is rejected.]", "quantifier": "every value of every simple type (whole seconds, no floating point), every following text", "why_tests_cant": "unbounded strings and binaries, all numbers, dates, times and zones", "anchors": ["pyslet/odata2/core.py:LiteralExpression.__unicode__", "pyslet/odata2/core.py:Parser.parse_uri_literal", "pyslet/odata2/csdl.py:Parser.parse_numeric_literal", "pyslet/odata2/csdl.py:Parser.parse_datetime_literal"]}
{"id": "C62", "title": "Filter expressions are parsed as the OData grammar says, and survive formatting", "statement": "Parser.parse_common_expression reads every text of the expression grammar (literals, properties, methods, brackets; unary operators bind tightest, then mul/div/mod, add/sub, comparison, equality, and, or; binary operators associate to the left; any white space) as the expression it stands for; formatting an expression and parsing the text gives the same expression. [Violated: a right operand of the same precedence loses its brackets; chained unary operators are misparsed; a negated property whose name begins with inf or nan, properties named like literals, and parameters inside brackets are not read.]", "quantifier": "every expression and every text", "why_tests_cant": "unbounded nesting and white space", "anchors": ["pyslet/odata2/core.py:Parser.parse_common_expression", "pyslet/odata2/core.py:CommonExpression.__unicode__", "pyslet/odata2/core.py:BinaryExpression.__unicode__", "pyslet/odata2/core.py:UnaryExpression.__unicode__"]}
{"id": "C64", "title": "Operands are promoted to the wider type", "statement": "Numeric operands of different types are promoted to the wider of the two (Byte, Int16, Int32, Int64, Decimal, Single, Double), independently of their order; a null takes the type of the other operand; other types are only combined with themselves; every pair of numeric types can be compared and added. [Violated: SByte cannot be combined with anything; two operands of type Byte or Int16, and two Booleans, cannot be compared.]", "quantifier": "every pair and triple of types", "why_tests_cant": "all combinations", "anchors": ["pyslet/odata2/core.py:CommonExpression.promote_types", "pyslet/odata2/core.py:BinaryExpression.evaluate_relation"]}
{"id": "C65", "title": "Integer arithmetic in expressions is exact", "statement": "add, sub, mul, div and mod on integers give the mathematical result in the wider type (division truncates towards zero), or an error when it does not fit or the divisor is 0; they never wrap around; null gives null. [Violated: Int64 division and remainder go through floating point and lose precision.]", "quantifier": "all integers of all integer types", "why_tests_cant": "unbounded domains; rounding only shows for operands beyond 2^53", "anchors": ["pyslet/odata2/core.py:BinaryExpression.evaluate_arithmetic", "pyslet/odata2/core.py:BinaryExpression.evaluate_add", "pyslet/odata2/core.py:BinaryExpression.evaluate_div", "pyslet/odata2/core.py:BinaryExpression.evaluate_mod"]}
{"id": "C66", "title": "A filter accepts exactly the entities its formula describes", "statement": "check_filter accepts an entity exactly when the formula of and, or and not over its comparisons holds; comparisons give true or false even with null operands; integers of different types are compared by value; null equals only null and is neither less nor greater than anything. [Violated: ordering a String against null raises TypeError; or with a null operand is false even if the other is true.]", "quantifier": "every formula, entity and pair of numbers", "why_tests_cant": "unbounded formulas", "anchors": ["pyslet/odata2/core.py:BinaryExpression.evaluate_logical", "pyslet/odata2/core.py:BinaryExpression.evaluate_relation", "pyslet/odata2/core.py:BinaryExpression.evaluate_eq", "pyslet/odata2/core.py:EntityCollection.check_filter"]}
{"id": "C67", "title": "String methods mean what they say", "statement": "substringof, startswith, endswith, indexof, length, concat, substring, replace and trim compute containment, prefix, suffix, first position (or -1), length, concatenation, the part from a position counted from 0, the text with every occurrence (found from left to right) replaced, and the text without white space at its ends, on all strings; a null argument gives null. [Violated: a negative start of substring counts from the end.]", "quantifier": "all strings and positions", "why_tests_cant": "unbounded strings", "anchors": ["pyslet/odata2/core.py:CallExpression.evaluate", "pyslet/odata2/core.py:CallExpression.evaluate_indexof", "pyslet/odata2/core.py:CallExpression.evaluate_substring", "pyslet/odata2/core.py:CallExpression.evaluate_replace", "pyslet/odata2/core.py:CallExpression.evaluate_trim"]}
{"id": "C68", "title": "Key predicates survive the URI", "statement": "For every entity key, the path segment made of the entity set's name and format_key_dict(key) is split by split_segment into the same name and the same keys and values, whatever quotes, commas, equals signs, brackets and slashes are in them. [Violated: key text is unescaped twice: a String with a percent sign can come back changed, and one that is not ASCII raises an exception.]", "quantifier": "every key of any number of properties of any type", "why_tests_cant": "unbounded strings with delimiters and quotes", "anchors": ["pyslet/odata2/core.py:ODataURI.format_key_dict", "pyslet/odata2/core.py:ODataURI.split_segment", "pyslet/odata2/core.py:uri_literal_from_str"]}
{"id": "C63", "title": "Paging through a collection meets every entity once", "statement": "After set_page(top, skip), calling iterpage(set_next=True) again and again gives consecutive pages from position skip, each of the requested width or the server's limit if smaller, until the end: joined together they are exactly the entities from skip on, each once, in order; the end is reported exactly when it is reached, after finitely many pages.", "quantifier": "every collection, page size, server limit, starting position and number of pages", "why_tests_cant": "unbounded collections and page sequences", "anchors": ["pyslet/odata2/csdl.py:EntityCollection.iterpage", "pyslet/odata2/csdl.py:EntityCollection.set_page", "pyslet/odata2/csdl.py:EntityCollection.next_skiptoken", "pyslet/odata2/csdl.py:EntityCollection.set_topmax"]}
{"id": "C69", "title": "Following the next links of a server reads the whole collection", "statement": "A server with a page limit answers a request with the first entities after $skip and a link; following the links gives the remaining entities in order, each once, and ends; never more than $top entities are returned in total. [Violated: links are given even on the last page and past it, so they never end (pyslet's own client stops at an empty page and is complete); $top above the limit is dropped from the links, so more is returned than asked for.]", "quantifier": "every collection, limit, $top, $skip and number of links followed", "why_tests_cant": "unbounded collections and link chains", "anchors": ["pyslet/odata2/csdl.py:EntityCollection.iterpage", "pyslet/odata2/csdl.py:EntityCollection.next_skiptoken", "pyslet/odata2/server.py:Server.return_entity_collection", "pyslet/odata2/client.py:EntityCollection.iterpage"]}
{"id": "C70", "title": "$orderby sorts as specified, and pages of a sorted collection are stable", "statement": "Ordering only rearranges the entities; they come out sorted by the first rule, ties by the second, and so on, descending rules reversed one by one; while paging, remaining ties are sorted by key so that the sequence does not depend on the order in which the store holds the entities; otherwise ties keep the store's order. [Violated: one null order value makes ordering two or more entities fail with TypeError.]", "quantifier": "every collection, list of rules and store order", "why_tests_cant": "unbounded collections and rule lists", "anchors": ["pyslet/odata2/csdl.py:EntityCollection.order_entities", "pyslet/odata2/core.py:EntityCollection.calculate_order_key"]}
{"id": "C71", "title": "Both directions of an association agree", "statement": "After any history of links added and removed and of entities deleted at either end, the links found from an entity are exactly the ones the history leaves, the links found in the other direction are the same ones, none is reported twice, and nothing is left of a deleted entity in either direction.", "quantifier": "every history", "why_tests_cant": "unbounded histories of two mirrored dictionaries", "anchors": ["pyslet/odata2/memds.py:InMemoryAssociationIndex.add_link", "pyslet/odata2/memds.py:InMemoryAssociationIndex.remove_link", "pyslet/odata2/memds.py:InMemoryAssociationIndex.delete_hook", "pyslet/odata2/memds.py:InMemoryAssociationIndex.rdelete_hook"]}
{"id": "C72", "title": "The in-memory container keeps referential integrity", "statement": "After any history of calls on an in-memory container, failed ones included, every link joins two existing entities and is seen from both of its ends, an end with multiplicity 0..1 or 1 has at most one entity, and only existing entities have streams; a call that fails changes nothing. [Violated: navigation collections of deleted entities still add links; replace links to missing entities and gives a target a second partner; an insert that fails while binding leaves the new entity behind.]", "quantifier": "every schema and history of calls", "why_tests_cant": "unbounded histories over arbitrary association graphs", "anchors": ["pyslet/odata2/memds.py:EntityCollection.insert_entity", "pyslet/odata2/memds.py:NavigationCollection.insert_entity", "pyslet/odata2/memds.py:NavigationCollection.__setitem__", "pyslet/odata2/memds.py:NavigationCollection.replace", "pyslet/odata2/memds.py:NavigationCollection.__delitem__", "pyslet/odata2/memds.py:EntityCollection.__delitem__"]}
{"id": "C73", "title": "Deleting an entity deletes exactly what depends on it", "statement": "Deleting an entity removes it with its stream and all its links, removes every entity that needs a removed one (through an end of multiplicity 1), removes no others, and changes nothing else; an entity nothing depends on can always be deleted. [Violated: a deletion that fails half way has deleted some dependents; in associations of a set with itself the wrong end can be deleted.]", "quantifier": "every schema, reachable container and entity", "why_tests_cant": "unbounded cascades over arbitrary association graphs", "anchors": ["pyslet/odata2/memds.py:EntityCollection.__delitem__", "pyslet/odata2/memds.py:EntityCollection.delete_link", "pyslet/odata2/memds.py:InMemoryEntityStore.delete_entity", "pyslet/odata2/memds.py:InMemoryEntityStore.start_deleting_entity"]}
{"id": "C74", "title": "The in-memory store reads back what was written", "statement": "After any history of inserts, merging and replacing updates and deletes (refused ones included), reading a property of an entity, simple or complex, gives the value of the last call that set it; its default when the insert or a replacing update left it out; key properties never change.", "quantifier": "every entity type, history and selection", "why_tests_cant": "unbounded histories and nesting of complex types", "anchors": ["pyslet/odata2/memds.py:InMemoryEntityStore.add_entity", "pyslet/odata2/memds.py:InMemoryEntityStore.read_entity", "pyslet/odata2/memds.py:InMemoryEntityStore.update_entity"]}
{"id": "C75", "title": "Child elements are accepted exactly when the content model allows them", "statement": "For every content model (sequences, choices, ?, *, +, nested in any way, also ambiguous ones), mixed content, EMPTY and ANY, a ContentParticleCursor accepts a sequence of children and the end tag exactly when the declaration allows it; it refuses a child as soon as no continuation could be allowed, and not before; expected() lists exactly the names that could come next, each once, and whether the end tag could; a refused name changes nothing.", "quantifier": "every content model and sequence of children", "why_tests_cant": "unbounded nesting and sequences", "anchors": ["pyslet/xml/parser.py:ContentParticleCursor.next", "pyslet/xml/parser.py:ContentParticleCursor.expected", "pyslet/xml/structures.py:ElementType.build_model", "pyslet/xml/structures.py:XMLSequenceList.build_particle_maps", "pyslet/xml/structures.py:XMLChoiceList.build_particle_maps", "pyslet/xml/structures.py:XMLNameParticle.build_particle_maps"]}
{"id": "C76", "title": "is_deterministic recognises ambiguous content models", "statement": "ElementType.is_deterministic() is true exactly when, in every allowed sequence of children, each child can be matched with its particle without looking ahead (XML 1.0, appendix E).", "quantifier": "every content model", "why_tests_cant": "quantifies over all sequences of the model's language", "anchors": ["pyslet/xml/structures.py:ElementType.is_deterministic", "pyslet/xml/structures.py:XMLContentParticle.is_deterministic"]}
{"id": "C77", "title": "Validation accepts exactly the documents with valid element content", "statement": "With checkValidity set, parsing a document gives no validity error exactly when the root has the declared name, every element is declared, and every element's children and character data are what its declaration allows. [Violated: an empty-element tag is accepted for an element whose declaration requires children; a child in an element declared EMPTY raises AttributeError instead of a validity error.]", "quantifier": "every document type and document", "why_tests_cant": "unbounded documents and nesting", "anchors": ["pyslet/xml/parser.py:XMLParser.parse_element", "pyslet/xml/parser.py:XMLParser.check_expected_particle", "pyslet/xml/parser.py:XMLParser.handle_data"]}
{"id": "C78", "title": "An XML entity delivers its text with line ends normalised, however it is read", "statement": "Whatever pieces the source returns, the characters next_char delivers are those of the text without a leading byte order mark and with CR LF and single CR replaced by LF, in order; line_num is one more than the number of line feeds delivered so far. [Violated: line_pos is one too high on lines after CR LF.]", "quantifier": "every text, division into pieces and number of characters read", "why_tests_cant": "unbounded texts and all ways pieces can split CR LF pairs", "anchors": ["pyslet/xml/structures.py:XMLEntity.next_char", "pyslet/xml/structures.py:XMLEntity.next_line", "pyslet/xml/structures.py:XMLEntity.reset"]}
{"id": "C79", "title": "XML documents are parsed as the grammar of XML 1.0 says", "statement": "A text (after its XML declaration, without document type declaration) is accepted exactly when it is a document of XML 1.0, and gives the tree the grammar assigns to it: names, attributes with normalised values, child elements and joined character data from text, references and CDATA sections; a document has one tree; parsing always ends. [Violated: ']]>' in character data loops for ever; a processing instruction whose data ends with an odd number of '?' swallows what follows; an unclosed comment or processing instruction at the end is accepted; spaces are accepted between '--' and '>' of a comment. What is accepted is characterised exactly.]", "quantifier": "every text", "why_tests_cant": "unbounded texts and nesting", "anchors": ["pyslet/xml/parser.py:XMLParser.parse_document", "pyslet/xml/parser.py:XMLParser.parse_element", "pyslet/xml/parser.py:XMLParser.parse_content", "pyslet/xml/parser.py:XMLParser.parse_att_value", "pyslet/xml/parser.py:XMLParser.parse_reference", "pyslet/xml/parser.py:XMLParser.parse_comment", "pyslet/xml/parser.py:XMLParser.parse_pi"]}
{"id": "C80", "title": "Elements survive writing and reading", "statement": "Writing an element with generate_xml (with either escape function) and parsing the text gives an element that compares equal, for every tree of elements, attributes and data, whatever characters are in them; the comparison ignores repeated white space unless xml:space is 'preserve'; escape_char_data7 writes only ASCII; escape_cdsect is read back as the text. [Violated: tabs and line feeds in attribute values come back as spaces; an element with empty data is written with a space; carriage returns come back as line feeds from CDATA sections.]", "quantifier": "every tree, text and attribute value", "why_tests_cant": "unbounded trees and texts", "anchors": ["pyslet/xml/structures.py:Element.generate_xml", "pyslet/xml/structures.py:escape_char_data", "pyslet/xml/structures.py:escape_char_data7", "pyslet/xml/structures.py:escape_cdsect", "pyslet/xml/structures.py:Element.get_canonical_children", "pyslet/xml/structures.py:Element.__eq__"]}
{"id": "C81", "title": "Credentials are offered unasked only within the folders they have been good for", "statement": "After any history of successes, BasicCredentials.test_path(path) is true exactly when the path, with '.' and '..' followed, lies in the folder of one of the documents on which the credentials were successful, or deeper; only the most general prefixes are stored. [Violated: an empty folder name in a successful path ('/a//c') matches any folder; the empty path, which names the root, is not covered by a success on the root.]", "quantifier": "every history of paths and every path", "why_tests_cant": "unbounded histories and depths, all forms of dot segments", "anchors": ["pyslet/http/auth.py:BasicCredentials.test_path", "pyslet/http/auth.py:BasicCredentials.add_success_path", "pyslet/http/auth.py:BasicCredentials.is_prefix", "pyslet/http/auth.py:BasicCredentials.test_url"]}
{"id": "C82", "title": "Credentials are sent only to their own server, and refused credentials are given up", "statement": "Whatever servers answer and wherever they redirect a request, an Authorization header with credentials is only sent to URLs in the credentials' protection space, and a header set by hand only to the server it was set for; a request that meets nothing but 401 is sent at most once for each of the client's credentials and once more; a 302 for a method other than GET and HEAD is not followed. [Violated: after a redirect to another server the text 'None' is sent as Authorization and that server's credentials are not used; refusing credentials that are not the last ones added raises IndexError; credentials with a realm raise AttributeError when challenged; circular redirects are followed for ever.]", "quantifier": "every set of credentials, request and history of responses", "why_tests_cant": "unbounded histories of adversarial responses", "anchors": ["pyslet/http/client.py:ClientRequest.finished", "pyslet/http/client.py:ClientRequest.resend", "pyslet/http/client.py:ClientRequest.send_header", "pyslet/http/client.py:Client.remove_credentials", "pyslet/http/client.py:Client.find_credentials", "pyslet/http/client.py:Client.find_credentials_by_url", "pyslet/http/auth.py:Credentials.match_challenge"]}
{"id": "C83", "title": "Credentials and challenges survive the header", "statement": "Basic credentials written in an Authorization header are read back (userid and password); a challenge written in a WWW-Authenticate header is read back with its parameters in order, whatever bytes the values contain; parameters are found by name in any case; every challenge has a realm. [Violated: passwords with a colon are refused when read; no header is read as more than one challenge; other schemes than Basic lose their scheme or raise TypeError; from_str cannot read a challenge with two parameters.]", "quantifier": "every userid, password, list of parameters and header", "why_tests_cant": "all byte strings", "anchors": ["pyslet/http/auth.py:BasicCredentials.to_bytes", "pyslet/http/auth.py:BasicCredentials.set_basic_credentials", "pyslet/http/auth.py:Credentials.from_str", "pyslet/http/auth.py:Challenge.to_bytes", "pyslet/http/auth.py:Challenge.list_from_str", "pyslet/http/auth.py:Challenge.__getitem__", "pyslet/http/auth.py:AuthorizationParser.require_challenge"]}
{"id": "C84", "title": "The SQL for an OData expression means the expression", "statement": "Whatever $filter or $orderby expression is translated, the SQL text, with the parameters put in as the driver does, has exactly one reading under the precedence rules of SQL, and this reading applies the corresponding SQL operators and functions to the corresponding operands; an expression that cannot be translated raises NotImplementedError or EvaluationError. [Violated: right operands of the same precedence lose their brackets, 'a sub (b sub c)' becomes a - b - c; 'a lt (b eq c)' and '(a eq b) lt c' are read differently by SQLite.]", "quantifier": "every expression, context and parameter style", "why_tests_cant": "unbounded nesting of operators", "anchors": ["pyslet/odata2/sqlds.py:SQLCollectionBase.sql_expression", "pyslet/odata2/sqlds.py:SQLCollectionBase.sql_bracket", "pyslet/odata2/sqlds.py:SQLCollectionBase.sql_expression_generic_binary", "pyslet/odata2/sqlds.py:SQLOperatorPrecedence"]}
{"id": "C85", "title": "Values never become part of the SQL text", "statement": "The text of a query for an expression does not depend on the values of the literals in it; there is one placeholder for each parameter, in order; with the placeholders of any parameter style bound to the parameters the text is the same.", "quantifier": "every expression and every value", "why_tests_cant": "all literal values, including hostile strings", "anchors": ["pyslet/odata2/sqlds.py:SQLParams.add_param", "pyslet/odata2/sqlds.py:QMarkParams", "pyslet/odata2/sqlds.py:NumericParams", "pyslet/odata2/sqlds.py:NamedParams", "pyslet/odata2/sqlds.py:SQLCollectionBase.sql_expression"]}
{"id": "C86", "title": "A filter selects the same entities in SQLite as in memory", "statement": "For every filter, a row is selected by the SQL condition exactly when the OData evaluation of the filter for the entity in the row is true. [Violated: 'A eq null' selects nothing in SQL, and 'A ne B' does not select rows in which one of them is null.]", "quantifier": "every filter and row", "why_tests_cant": "unbounded expressions, all values including null", "anchors": ["pyslet/odata2/sqlds.py:SQLCollectionBase.sql_expression", "pyslet/odata2/sqlds.py:SQLCollectionBase.where_clause", "pyslet/odata2/core.py:BinaryExpression.evaluate"]}
{"id": "C87", "title": "startswith, endswith, substringof and indexof mean the same in SQLite as in memory", "statement": "A row is selected by the SQL form of startswith, endswith or substringof exactly when the text begins with, ends with or contains the other; indexof gives the same position. [Violated: '%' and '_' in the pattern are wildcards; letters match in either case; POSITION counts from 1, and SQLite has no such function.]", "quantifier": "every pair of texts", "why_tests_cant": "all texts", "anchors": ["pyslet/odata2/sqlds.py:SQLCollectionBase.sql_expression_startswith", "pyslet/odata2/sqlds.py:SQLCollectionBase.sql_expression_endswith", "pyslet/odata2/sqlds.py:SQLCollectionBase.sql_expression_substringof", "pyslet/odata2/sqlds.py:SQLCollectionBase.sql_expression_indexof"]}
{"id": "C88", "title": "The condition of a skiptoken selects the rows after the token", "statement": "The WHERE clause of a page that continues after a skiptoken holds for a row exactly when the row satisfies the filter and comes after the values of the token in the order of the query (each term ascending or descending, then the keys). [Violated: rows with a null order value are lost; an order expression that is a comparison is misread.]", "quantifier": "every filter, order, token and row", "why_tests_cant": "any number of order terms", "anchors": ["pyslet/odata2/sqlds.py:SQLCollectionBase.where_skiptoken_clause", "pyslet/odata2/sqlds.py:SQLCollectionBase.where_clause", "pyslet/odata2/sqlds.py:SQLCollectionBase.set_orderby"]}
{"id": "C89", "title": "Reading a SQL collection page by page visits every entity once, in order", "statement": "For every table, order, top, skip, topmax and starting token, successive calls of iterpage(True) deliver the entities after the token, without the first skip ones, in pages of min(top, topmax), each exactly once and in order, then empty pages; a client that sends next_skiptoken() with its next request gets the following entities, and there is no token when the page was not full. [Violated: if the texts of the order values have more than 512 characters the first page raises TypeError and later pages repeat for ever; skip without top and topmax is invalid SQL in SQLite.]", "quantifier": "every table, paging parameters and number of pages", "why_tests_cant": "unbounded tables and numbers of pages", "anchors": ["pyslet/odata2/sqlds.py:SQLCollectionBase.page_generator", "pyslet/odata2/sqlds.py:SQLCollectionBase.iterpage", "pyslet/odata2/sqlds.py:SQLCollectionBase.set_page", "pyslet/odata2/sqlds.py:SQLiteEntityContainer.limit_clause"]}
{"id": "C90", "title": "A skiptoken survives being sent as text", "statement": "The text next_skiptoken() returns is read by set_page as a token with the same values, so that the requested page starts at the entity after the last one delivered.", "quantifier": "every token", "why_tests_cant": "all values, including texts with quotes and commas", "anchors": ["pyslet/odata2/sqlds.py:SQLCollectionBase.next_skiptoken", "pyslet/odata2/sqlds.py:SQLCollectionBase.set_page"]}
{"id": "C91", "title": "QTI expressions evaluate to well-typed values", "statement": "For every expression and session whose values match their types, evaluate returns a value that matches the base type and cardinality it reports: a container is not empty unless it is NULL, every element has the base type, integers fit in 32 bits; misuse is reported as ProcessingError. [Violated: integer literals are not checked against 32 bits; sums that overflow raise ValueError; references to template variables in attributes raise AttributeError; a record emptied field by field is not NULL.]", "quantifier": "every expression tree and session state", "why_tests_cant": "unbounded expression trees", "anchors": ["pyslet/qtiv2/expressions.py:Expression.evaluate", "pyslet/qtiv2/variables.py:SingleValue", "pyslet/qtiv2/variables.py:OrderedContainer", "pyslet/qtiv2/variables.py:MultipleContainer", "pyslet/qtiv2/variables.py:RecordContainer"]}
{"id": "C92", "title": "QTI logic treats NULL as an unknown truth value", "statement": "and, or, not and anyN give true (false) exactly when the condition is true (false) for every way of replacing the NULL operands by true and false, and NULL otherwise. [Violated: anyN with min greater than max can give NULL.]", "quantifier": "every list of operands", "why_tests_cant": "any number of operands", "anchors": ["pyslet/qtiv2/expressions.py:And", "pyslet/qtiv2/expressions.py:Or", "pyslet/qtiv2/expressions.py:Not", "pyslet/qtiv2/expressions.py:AnyN"]}
{"id": "C93", "title": "QTI container operators work on bags and sequences", "statement": "multiple and ordered collect the values of their operands with repetitions; containerSize counts them; match compares multiple containers as bags and ordered ones as sequences; member, delete, contains and index have their meaning on bags and sequences; random draws an element and can draw each. NULL operands give NULL. [Violated: record operands of multiple and ordered are silently dropped, not refused.]", "quantifier": "every operand value", "why_tests_cant": "containers of any size", "anchors": ["pyslet/qtiv2/expressions.py:Multiple", "pyslet/qtiv2/expressions.py:Ordered", "pyslet/qtiv2/expressions.py:ContainerSize", "pyslet/qtiv2/expressions.py:Match", "pyslet/qtiv2/expressions.py:Member", "pyslet/qtiv2/expressions.py:Delete", "pyslet/qtiv2/expressions.py:Contains", "pyslet/qtiv2/expressions.py:Index", "pyslet/qtiv2/expressions.py:Random"]}
{"id": "C94", "title": "QTI numeric operators compute with numbers, and with NULL for no number", "statement": "sum, product, subtract, divide, integerDivide, integerModulus, comparisons, truncate, round, integerToFloat, durations and equal (exact, absolute, relative) give the mathematical result of the right base type when all operands are set (float exactness is not modelled) and NULL when one is NULL or a divisor is 0; randomInteger and randomFloat draw exactly the allowed values. [Violated: equal with a relative tolerance is wrong for negative numbers.]", "quantifier": "every operand", "why_tests_cant": "all numbers, any number of operands", "anchors": ["pyslet/qtiv2/expressions.py:Sum", "pyslet/qtiv2/expressions.py:Product", "pyslet/qtiv2/expressions.py:Subtract", "pyslet/qtiv2/expressions.py:Divide", "pyslet/qtiv2/expressions.py:IntegerDivide", "pyslet/qtiv2/expressions.py:IntegerModulus", "pyslet/qtiv2/expressions.py:Round", "pyslet/qtiv2/expressions.py:Truncate", "pyslet/qtiv2/expressions.py:Equal", "pyslet/qtiv2/expressions.py:RandomInteger", "pyslet/qtiv2/expressions.py:RandomFloat"]}
{"id": "C95", "title": "QTI mappings and lookup tables give the documented number", "statement": "map_value sums the numbers mapped to the distinct elements of a value, with the default for unmapped ones, and keeps the result between the bounds; an area mapping counts each area hit once and the default for each point outside; a match table gives the target of the entry with the number, an interpolation table that of the first entry whose boundary is not above the number, else the default.", "quantifier": "every value and table", "why_tests_cant": "values and tables of any size", "anchors": ["pyslet/qtiv2/variables.py:Mapping.map_value", "pyslet/qtiv2/variables.py:AreaMapping.map_value", "pyslet/qtiv2/variables.py:MatchTable.lookup", "pyslet/qtiv2/variables.py:InterpolationTable.lookup"]}
{"id": "C96", "title": "QTI processing changes only what its rules may set", "statement": "However it ends, response processing changes outcome variables only and template processing template variables, defaults and correct responses only; no variable changes its type; exactly one branch of a condition runs, the first whose condition is true (NULL counts as false); nothing runs after an exit; after a set rule the variable holds the value of the expression. [Violated: set loses the multiplicities of a multiple container; variables named like 'R.CORRECT' share storage with the correct response of R.]", "quantifier": "every rule tree and state", "why_tests_cant": "rule trees of any size", "anchors": ["pyslet/qtiv2/processing.py:ResponseProcessing.run", "pyslet/qtiv2/processing.py:TemplateProcessing.run", "pyslet/qtiv2/processing.py:ResponseCondition.run", "pyslet/qtiv2/processing.py:SetOutcomeValue.run", "pyslet/qtiv2/variables.py:SessionState.__setitem__"]}
{"id": "C97", "title": "An item session goes through its life consistently", "statement": "After creation, begin_session, begin_attempt, save_session and submit_session in any number and order (even with refused parameters and failing rules), every variable keeps its declared type and numAttempts is the number of begin_attempts; begin_session gives outcomes their defaults (numbers 0), the first begin_attempt gives responses theirs; submit_session gives each response the last value submitted or saved for it, and for an item that is not adaptive the result does not depend on earlier outcomes. [Violated: a value submitted twice is counted once; ordered responses cannot be submitted; identifiers with a '.' cannot be submitted.]", "quantifier": "every item, history of calls and parameters", "why_tests_cant": "unbounded histories", "anchors": ["pyslet/qtiv2/variables.py:ItemSessionState.begin_session", "pyslet/qtiv2/variables.py:ItemSessionState.begin_attempt", "pyslet/qtiv2/variables.py:ItemSessionState.save_session", "pyslet/qtiv2/variables.py:ItemSessionState.submit_session", "pyslet/qtiv2/variables.py:ItemSessionState.end_attempt"]}
{"id": "C98", "title": "HTML attribute values survive being written as text", "statement": "Length, Coords, Color and MediaDesc values are read back by from_str from the text they print; a length is read as the leading digits, a percentage exactly if a percent sign follows; colours are read without regard to case; media descriptors hold only lower case names, and their union and intersection are those of sets; resolve_value rounds a percentage to the nearest whole number. [Violated: Length(-5) is accepted but its text is refused.]", "quantifier": "every value and every text", "why_tests_cant": "unbounded texts and numbers", "anchors": ["pyslet/html401.py:Length", "pyslet/html401.py:Coords", "pyslet/html401.py:Color", "pyslet/html401.py:MediaDesc"]}
{"id": "C99", "title": "A point is in an image map area exactly when the geometry says so", "statement": "test_poly follows the even-odd rule for every closed polygon: independent of direction, of the first corner and of whether the first corner is repeated; when a polygon is cut along a line between two corners every point of it is in exactly one part; rectangles and triangles agree with their usual definition; test_rect takes any two opposite corners; test_circle is the disc, a percentage radius relative to the smaller dimension.", "quantifier": "every list of coordinates and every point", "why_tests_cant": "polygons with any number of corners", "anchors": ["pyslet/html401.py:Coords.test_poly", "pyslet/html401.py:Coords.test_rect", "pyslet/html401.py:Coords.test_circle"]}
{"id": "C100", "title": "Data-changing methods of the SQL data services are atomic", "statement": "insert_entity, update_entity, delete_entity and the link methods either return, and then all their SQL statements (including those of the methods they call) are committed exactly once and in order, or raise an exception, and then the database is as before; nothing stays pending on the connection; a lost connection is reopened and the request retried only before the first statement; a method does not fail without a reason. [Violated: cascading deletes and inserts called without the transaction commit early; new_stream and update_stream never commit.]", "quantifier": "every sequence of statements and nested calls, every pattern of server failures", "why_tests_cant": "any statement can fail, at any depth of nested calls", "anchors": ["pyslet/odata2/sqlds.py:SQLTransaction", "pyslet/odata2/sqlds.py:SQLEntityCollection.insert_entity", "pyslet/odata2/sqlds.py:SQLEntityCollection.delete_entity", "pyslet/odata2/sqlds.py:SQLEntityCollection.update_entity", "pyslet/odata2/sqlds.py:SQLCollectionBase.new_stream", "pyslet/odata2/sqlds.py:SQLEntityCollection.update_stream"]}
{"id": "C101", "title": "Optimistic concurrency control loses no update", "statement": "update_entity changes exactly the row with the entity's key, and only when the concurrency tokens in the row are those of the entity; otherwise it raises (KeyError when the row is missing) and changes nothing; for any interleaving of clients an update succeeds exactly when no other update succeeded since the copy was read. [Violated: a refused update increments the token of the entity, so that repeating the call overwrites the other update; a NULL token always conflicts; an update that changes nothing does not notice that the entity is missing.]", "quantifier": "every table, entity and history of reads and updates by any number of clients", "why_tests_cant": "unbounded histories and interleavings", "anchors": ["pyslet/odata2/sqlds.py:SQLEntityCollection.update_entity", "pyslet/odata2/csdl.py:Entity.set_concurrency_tokens"]}
{"id": "C102", "title": "The pool of database connections is exclusive and bounded", "statement": "Whatever acquire_connection, release_connection and the pool cleaner do in any interleaving, no connection is held by two threads, a thread that acquires again gets its own connection, locks are counted, there are never more than max_connections connections, and a thread waits only while all of them are held by others. [Violated: when a thread dies holding a connection, the connection is closed but still counted.]", "quantifier": "every sequence of pool operations by any number of threads", "why_tests_cant": "unbounded schedules", "anchors": ["pyslet/odata2/sqlds.py:SQLEntityContainer.acquire_connection", "pyslet/odata2/sqlds.py:SQLEntityContainer.release_connection", "pyslet/odata2/sqlds.py:SQLEntityContainer.pool_cleaner"]}
{"id": "C103", "title": "SQL literals, names and parameters mean what they stand for", "statement": "The literal of a default value is read by the database as exactly that value whatever its characters, and the text after it is untouched; a quoted name is one identifier; different properties have different columns and different entity sets different tables; formatting a query with its parameters gives the text written with each value in its place. [Violated: Address_City and Address/City share a column; default literals are not escaped for % formatting.]", "quantifier": "every value, name, path and query", "why_tests_cant": "arbitrary texts, including quotes and percent signs", "anchors": ["pyslet/odata2/sqlds.py:SQLEntityContainer.prepare_sql_literal", "pyslet/odata2/sqlds.py:SQLiteEntityContainer.prepare_sql_literal", "pyslet/odata2/sqlds.py:SQLEntityContainer.quote_identifier", "pyslet/odata2/sqlds.py:SQLEntityContainer.mangle_name", "pyslet/odata2/sqlds.py:FormatParams", "pyslet/odata2/sqlds.py:PyFormatParams"]}
{"id": "C104", "title": "Virtual file paths mean the directory they lead to", "statement": "From every directory a path and its normpath lead to the same place ('.' stays, '..' goes up); normpath is idempotent, and two relative paths lead to the same place from every directory (deep enough) exactly when their normal forms are equal; an absolute path has the normal form '/a/b/c'; join leads where following its parts one after another leads; abspath and realpath are absolute and lead to the same place; head and tail of split, joined, are the path; is_root holds of the root only; splitext splits the last component at its last full stop. [Violated: '/a/..//b' normalizes to '//b'; MemFilePath('', 'b') is '/b'; the extension of 'a.d/b' is '.d/b'.]", "quantifier": "every text as a path, every directory", "why_tests_cant": "paths of any length and depth", "anchors": ["pyslet/vfs.py:VirtualFilePath.normpath", "pyslet/vfs.py:VirtualFilePath.join", "pyslet/vfs.py:VirtualFilePath.split", "pyslet/vfs.py:VirtualFilePath.splitext", "pyslet/vfs.py:VirtualFilePath.abspath", "pyslet/vfs.py:VirtualFilePath.realpath", "pyslet/vfs.py:VirtualFilePath.is_root"]}
{"id": "C105", "title": "The file system in memory behaves like a tree of files and directories", "statement": "After any history of operations: exists, isfile and isdir tell what is at the place a path leads to; mkdir makes one directory, when there is nothing there and its parent exists; makedirs makes the missing ancestors too; listdir names each thing directly inside once; remove removes a closed file; rmtree removes a directory with all that is inside, unless a file there is open; open refuses directories and open files; what is read from a file is what was written to it, in order; nothing else changes; everything is inside a directory. [Violated: rmtree leaves the directory itself; open makes a file that does not exist even for reading and even if its directory does not exist; mkdir makes directories inside files.]", "quantifier": "every history of operations and every path without '//'", "why_tests_cant": "unbounded histories, trees and file contents", "anchors": ["pyslet/vfs.py:MemFilePath.mkdir", "pyslet/vfs.py:MemFilePath.open", "pyslet/vfs.py:MemFilePath.listdir", "pyslet/vfs.py:MemFilePath.remove", "pyslet/vfs.py:MemFilePath.rmtree", "pyslet/vfs.py:VirtualFilePath.makedirs", "pyslet/vfs.py:MemFilePath.chdir"]}
{"id": "C106", "title": "A request reaches the handler registered for its path, and static pages stay inside their directory", "statement": "The handler that is called was the last one registered for a pattern that matches the path (a star matches one component, at the end any number); a pattern equal to the path has precedence; otherwise the longest matching pattern wins, and a handler is called whenever a pattern matches; a static page is always a file below the directory of static files, reached through the components of the path, which are made of letters, digits and hyphens, and every such file is served. [Violated: with /a/x/y and /*/x registered, /a/x is not found; a static path outside ASCII is an internal error.]", "quantifier": "every list of registrations and every path", "why_tests_cant": "unbounded sets of patterns and hostile paths", "anchors": ["pyslet/wsgi.py:WSGIApp.set_method", "pyslet/wsgi.py:WSGIApp.__call__", "pyslet/wsgi.py:WSGIApp.static_page"]}
{"id": "C107", "title": "Application keys can be changed without losing data, and signatures cannot be moved to other messages", "statement": "In every history of an application with several processes: what any of them encrypted is decrypted by every process whose key is the same or at most 100 changes newer, and refused by one with an older key; after change_key a process keeps encrypting with the key before until the given time and uses the new key from then on; decrypt always ends, whatever the database holds; a signature made by one process is verified by the others; ascii_sign carries its message; a signature is accepted only if it holds the hash of salt and message under the key with its number, so that a salt of four bytes binds the message unless the hash has a collision. [Violated: the length of the salt is not checked, so a signature of 'abc' gives one of 'bc'; the signature of the empty message cannot be verified; an empty message asked for is not compared; an unknown key number raises RuntimeError; AESAppCipher cannot sign; a constructor with when raises ValueError; two changes before the first takes effect; a number used again after 100 changes loses data; an empty key is replaced by the next one.]", "quantifier": "every history of starting processes, changing keys, encrypting and decrypting, all data, all times", "why_tests_cant": "unbounded histories over several processes", "anchors": ["pyslet/wsgi.py:AppCipher.change_key", "pyslet/wsgi.py:AppCipher._get_cipher", "pyslet/wsgi.py:AppCipher.encrypt", "pyslet/wsgi.py:AppCipher.decrypt", "pyslet/wsgi.py:AppCipher.sign", "pyslet/wsgi.py:AppCipher.check_signature", "pyslet/wsgi.py:AppCipher.ascii_sign", "pyslet/wsgi.py:PlainTextCipher", "pyslet/wsgi.py:AESCipher"]}
{"id": "C108", "title": "Sessions: forms are accepted from the session's own pages, sessions end in time, and redirects stay in the application", "statement": "The session of a request is new and not established, or established just now under a new identifier from one begun within two minutes, or the established session in a cookie with a valid signature seen within the time limit; a page is made for that session only, the client has the test cookie and gets the session as its cookie; a page is made for a POST only if the token in the form is the identifier in such a cookie, and no session cookie is valid that the application did not make; only new sessions that are not established appear in addresses; ctest and wlaunch redirect only to pages of the application, for a query with a valid signature of path and user agent, and ctest only if cookie and query agree; a session is read back from its text. [Violated: anybody can forge a cookie for any session by sending its text as the user agent and moving the rest of the signed message into the salt; a form sent after the time limit is processed in a new session; a wrong cookie is an internal error in ctest, as are cookies outside ASCII or with an unknown key for all pages.]", "quantifier": "every request, cookie, time, key and history of key changes", "why_tests_cant": "hostile requests, arbitrary times", "anchors": ["pyslet/wsgi.py:CookieSession", "pyslet/wsgi.py:SessionApp.session_wrapper", "pyslet/wsgi.py:SessionApp.set_session", "pyslet/wsgi.py:SessionApp.session_page", "pyslet/wsgi.py:SessionApp.ctest", "pyslet/wsgi.py:SessionApp.wlaunch", "pyslet/wsgi.py:SessionApp.check_redirect"]}
{"id": "C109", "title": "An LTI launch request is accepted once", "statement": "For every sequence of launch requests a key and nonce are accepted exactly when they were not accepted during the last 90 minutes, whatever the other requests are: two accepted requests with the same key and nonce are at least 5399 seconds apart (a second may be lost in storing), and the first use of a key and nonce is accepted; this holds also for requests handled at the same time. [Violated: key and nonce are hashed without separator, so key 'a' uses up nonces of key 'ab'; two simultaneous replays of a nonce last seen more than 90 minutes ago are both accepted.]", "quantifier": "every sequence of requests, every clock, every schedule of concurrent requests", "why_tests_cant": "unbounded histories and interleavings", "anchors": ["pyslet/imsbltiv1p0.py:ToolProvider.validate_timestamp_and_nonce", "pyslet/imsbltiv1p0.py:ToolConsumer.nonce_key"]}
{"id": "C110", "title": "The permissions of an LTI launch are those of its roles", "statement": "For every list of roles: read, write and configure exactly if one of them is an Instructor role of the context vocabulary, by handle or as URN, with or without sub-role; read only exactly if there is no such role but a Learner role; otherwise none; a role that is not known gives no permission. [Violated: a role that is not known, a URN outside LTI or an empty element makes the launch fail with ValueError.]", "quantifier": "every roles parameter", "why_tests_cant": "arbitrary texts from the consumer", "anchors": ["pyslet/imsbltiv1p0.py:ToolProviderApp.set_launch_permissions", "pyslet/imsbltiv1p0.py:ToolProviderApp.get_permissions", "pyslet/imsbltiv1p0.py:split_role", "pyslet/imsbltiv1p0.py:is_subrole", "pyslet/imsbltiv1p0.py:ROLE_HANDLES"]}
{"id": "C111", "title": "Pages of an LTI resource are shown only to sessions that launched it, as the user who launched it", "statement": "After every history of launches and established sessions, a session sees a resource exactly if it launched it and no other user of the same consumer launched anything in the session since; permissions and user are those of the last launch; establishing a session moves its access to the new identifier and leaves none with the old; all pages of a consumer in one session belong to one user; sessions, consumers and resources do not affect each other otherwise.", "quantifier": "every history of launches and sessions, any choice of keys", "why_tests_cant": "unbounded histories", "anchors": ["pyslet/imsbltiv1p0.py:ToolProviderApp.new_visit", "pyslet/imsbltiv1p0.py:ToolProviderApp.find_visit", "pyslet/imsbltiv1p0.py:ToolProviderApp.establish_session", "pyslet/imsbltiv1p0.py:ToolProviderApp.load_visit", "pyslet/imsbltiv1p0.py:ToolConsumer.get_resource", "pyslet/imsbltiv1p0.py:ToolConsumer.get_user"]}
{"id": "C112", "title": "What is known about contexts, resources and users follows the launches", "statement": "After every history of launches, a launch gets the context, resource and user of its own consumer with the identifiers that were sent, and each title or name is the last one sent that was not empty (or the first); consumers do not affect each other. [Violated: the keys of contexts are hashes of consumer key and context identifier without separator; a launch in the context 'bc' of consumer 'a' makes all launches in the context 'c' of consumer 'ab' fail.]", "quantifier": "every history of launches of any number of consumers", "why_tests_cant": "unbounded histories", "anchors": ["pyslet/imsbltiv1p0.py:ToolConsumer.get_context", "pyslet/imsbltiv1p0.py:ToolConsumer.get_resource", "pyslet/imsbltiv1p0.py:ToolConsumer.get_user"]}
{"id": "C113", "title": "Every form of a test obeys its selection and ordering rules", "statement": "For every test and all results of the random module, a TestForm that is built lists the test itself, then all test parts and their sections in order, each closed by its closing identifier inside whatever was open; every section contributes exactly the number of children its selection rule asks for (all of them without a rule), every required child among them and no child twice unless withReplacement is set; without shuffling children keep document order (and without any rules the form is the document order), with shuffling fixed children keep their order and place and the other identifiers are permuted among the remaining slots; a form is built whenever the rules can be met and a SelectionError is raised when a rule cannot be met. (Violated: a shuffled section with a sub-section that may move raises AttributeError; an empty invisible section leaves a None in the form or raises IndexError.)", "quantifier": "every test tree, every sequence of random choices", "why_tests_cant": "random choices and unbounded nesting", "anchors": ["pyslet/qtiv2/tests.py:TestForm.__init__", "pyslet/qtiv2/tests.py:TestForm.select"]}
{"id": "C114", "title": "The key of a test session is accepted once", "statement": "In every history of events an event is accepted exactly when it presents the current key of the session; other events change nothing and are answered with SessionKeyExpired exactly when the key was accepted before, otherwise with SessionKeyMismatch; accepted events form a chain, each presenting the key issued by the accepted event before it; when the clock advances between events (and the digest does not collide) no key is accepted twice. (Violated: with three events in one tick of the clock an old key becomes current again and the elapsed time is negative.)", "quantifier": "every history of events, forged and replayed ones included, every clock", "why_tests_cant": "unbounded histories", "anchors": ["pyslet/qtiv2/variables.py:TestSessionState.event_update"]}
{"id": "C115", "title": "A test session moves forward and ends", "statement": "For every test, form and state of the session, looking for the next question terminates; the next question is at a later position of the form and is an item all of whose preConditions are true, so a session presents at most as many questions as the form has items; in a linear test without preConditions and branchRules the questions come in the order of the form; a branch to an identifier goes to its next occurrence or ends the test, EXIT_TESTPART goes behind the end of the part, EXIT_SECTION behind the end of the section. (Violated: EXIT_SECTION stops behind the next sub-section; a section whose preCondition is false is entered all the same; items of non-linear parts are never presented.)", "quantifier": "every test, form, position and every sequence of session states", "why_tests_cant": "unbounded forms and histories", "anchors": ["pyslet/qtiv2/variables.py:TestSessionState._next_question", "pyslet/qtiv2/variables.py:TestSessionState._branch_target", "pyslet/qtiv2/tests.py:SectionPart.check_pre_conditions", "pyslet/qtiv2/tests.py:SectionPart.get_branch_target"]}
{"id": "C116", "title": "Time spent on an item is counted for exactly what contains it", "statement": "In every form of a test and at every item, the time of an event is added to the durations of the item, of exactly the sections and the part that contain this occurrence of the item, and of the test; all other durations stay as they are, and no time is counted when the test is over.", "quantifier": "every test, form, position, time and previous durations", "why_tests_cant": "unbounded nesting", "anchors": ["pyslet/qtiv2/variables.py:TestSessionState.add_duration"]}
{"id": "C117", "title": "Names survive being written with namespaces and read back", "statement": "For every document whose elements all have a namespace and whose attributes are in no namespace, in the XML namespace or in a namespace not used for elements, whatever prefixes were declared on the document and its elements with make_prefix or by reading, writing it and reading the result gives the same tree of expanded names and attributes; it can always be written if no element declares a default namespace itself. (Violated: an attribute in the default namespace comes back in no namespace; an element without namespace comes back in the default namespace of its parent; an element whose map declares another default namespace cannot be written; attributes named xmlns... are dropped; xmlns=\"\" does not apply to descendants; undeclared prefixes are accepted.)", "quantifier": "every tree of elements, every set of declarations on every node, every document read into", "why_tests_cant": "unbounded trees and declarations", "anchors": ["pyslet/xml/namespace.py:NSNode.get_prefix", "pyslet/xml/namespace.py:NSElement.generate_xml", "pyslet/xml/namespace.py:NSElement.write_xml_attributes", "pyslet/xml/namespace.py:XMLNSParser.expand_qname", "pyslet/xml/namespace.py:XMLNSParser.parse_nsattrs"]}
{"id": "C118", "title": "Writing a document twice gives the same text", "statement": "Writing a namespaced document adds prefix declarations to its nodes; writing it again gives the same tags and declares nothing more.", "quantifier": "every tree of elements with any declarations", "why_tests_cant": "unbounded trees", "anchors": ["pyslet/xml/namespace.py:NSElement.generate_xml", "pyslet/xml/namespace.py:NSNode.make_prefix"]}
{"id": "C119", "title": "New prefixes are found and prefixes found are in force", "statement": "new_prefix always terminates with the first of ns1, ns2, ... that means nothing at the node, hence not declared by it or its parents; a prefix returned by get_prefix for a namespace is looked up by get_ns with that namespace as the result, so that a prefix hidden by a nearer declaration is never used.", "quantifier": "every chain of nodes and every map made with make_prefix or read", "why_tests_cant": "unbounded chains", "anchors": ["pyslet/xml/namespace.py:NSNode.new_prefix", "pyslet/xml/namespace.py:NSNode.get_prefix", "pyslet/xml/namespace.py:NSNode.get_ns"]}
{"id": "C120", "title": "Expanding an archive stays inside the directory of the package and overwrites nothing", "statement": "For every archive, whatever the names, flags and contents of its entries, and whether expand_zip succeeds or fails part way, nothing outside the directory of the package changes and nothing that existed changes; what is new is a directory or a file with the contents of an entry at a place on the way of the name of an entry; on success every entry is there with its contents, and an archive in which an entry leaves the directory even for part of its way is refused. Names declared as UTF-8 are used as they are. [The last is violated when another flag bit is set; witness C120_violation_flags.]", "quantifier": "every archive, every state of the file system", "why_tests_cant": "attacker-controlled archives of any size", "anchors": ["pyslet/imscpv1p2.py:ContentPackage.expand_zip", "pyslet/imscpv1p2.py:ContentPackage.package_path"]}
{"id": "C121", "title": "A package that is exported and expanded is the same", "statement": "For every package directory, exporting it as an archive and expanding the archive into an empty directory succeeds and gives exactly the same files with the same contents and the same directories, empty ones included, leaving out exactly what ignore_file rejects and everything inside a rejected directory.", "quantifier": "every directory tree, every ignore pattern, all names, ASCII or not", "why_tests_cant": "unbounded trees", "anchors": ["pyslet/imscpv1p2.py:ContentPackage.export_to_pif", "pyslet/imscpv1p2.py:ContentPackage.add_to_zip", "pyslet/imscpv1p2.py:ContentPackage.expand_zip"]}
{"id": "C122", "title": "Paths in a package are relative to it and unique", "statement": "path_in_path gives None exactly if the child does not lead into the parent, and otherwise the names, free of navigation, that lead from the parent to the child; get_unique_path ends for every table of files and every random number, and gives the suggested path if that is not in the table, otherwise that path with a number added to its name before the extension, never a path in the table; paths outside the package and the root are refused with CPFilePathError. [Violated: the numbered candidates are looked up with the wrong hash and may be taken; the number may go into the name of a directory; the root gives AttributeError.]", "quantifier": "every pair of paths, every table, every random number, every hash function", "why_tests_cant": "all inputs and random choices", "anchors": ["pyslet/imscpv1p2.py:path_in_path", "pyslet/imscpv1p2.py:ContentPackage.get_unique_path", "pyslet/vfs.py:VirtualFilePath.__hash__"]}
{"id": "C123", "title": "The table of files lists exactly the files and references of a package", "statement": "After rebuild_file_table the keys are the paths, from the root of the package, of exactly the regular files that are not ignored nor inside an ignored directory, other than the manifest, together with the paths referred to by the manifest; the value of each lists exactly the File objects that refer to it, in document order.", "quantifier": "every directory tree, ignore pattern and list of references", "why_tests_cant": "unbounded trees", "anchors": ["pyslet/imscpv1p2.py:ContentPackage.rebuild_file_table", "pyslet/imscpv1p2.py:ContentPackage.file_scanner"]}
{"id": "C124", "title": "The media type chosen is the best one the Accept header allows", "statement": "For every list of ranges in an Accept header and every list of media types on offer, select_type gives the first of those of the highest quality, and None exactly if every one has the quality 0; the quality of a type is the q of the most specific range it is in (a type with parameters before a type, before type/*, before */*), 0 if it is in none. [Violated for ranges constructed in upper case, names that start with ~, and */x; witnesses.]", "quantifier": "every list of ranges with any parameters and quality values, every list of types", "why_tests_cant": "unbounded lists; depends on the order produced by sorting", "anchors": ["pyslet/http/messages.py:AcceptList.select_type", "pyslet/http/messages.py:MediaRange.match_media_type", "pyslet/http/messages.py:AcceptItem.sortkey"]}
{"id": "C125", "title": "The charset, encoding and language chosen are the best ones allowed", "statement": "As C124 for Accept-Charset, Accept-Encoding, tokens and Accept-Language: the first (for encodings: one) of the options of the highest quality, compared without regard to case, where * stands for what is not mentioned; iso-8859-1 that is not mentioned has the quality 1, identity that is not mentioned is acceptable only if nothing else is; the quality of a language is that of the longest range its tag starts with; None if nothing is acceptable. [Violated: select_token of languages gives the text 'None'; tokens that start with ~ sort after *.]", "quantifier": "every list of items, every list of options", "why_tests_cant": "unbounded lists; depends on the order produced by sorting", "anchors": ["pyslet/http/messages.py:AcceptTokenList.select_token", "pyslet/http/messages.py:AcceptCharsetList.select_token", "pyslet/http/messages.py:AcceptEncodingList.select_token", "pyslet/http/messages.py:AcceptLanguageList.select_language", "pyslet/http/params.py:LanguageTag.partial_match"]}
{"id": "C126", "title": "The id table of a document is right", "statement": "After every sequence of Document(), Document(root=e), add_child, remove_child, set_id, add_data, set_value and reset, get_element_by_id gives e exactly if e is in the tree of the document and has the id; parents and children agree; get_document gives the document an element can be reached from; set_id raises XMLIDClashError exactly if another element of the document has the id; no KeyError is raised and a call that fails changes nothing. [Violated after a clash: the element keeps the id and removing it unregisters the other one; Document(root=e) raises AttributeError if there are ids.]", "quantifier": "every history of calls on any number of documents and elements", "why_tests_cant": "unbounded histories and trees", "anchors": ["pyslet/xml/structures.py:Document.register_element", "pyslet/xml/structures.py:Document.unregister_element", "pyslet/xml/structures.py:Element.set_id", "pyslet/xml/structures.py:Element.detach_from_doc", "pyslet/xml/structures.py:Element.remove_child", "pyslet/xml/structures.py:Element.reset", "pyslet/xml/structures.py:Document.__init__"]}
{"id": "C127", "title": "New ids are unused names", "statement": "get_unique_id ends, and gives an id that is not in use and that set_id accepts; the suggested one if it is free. [Violated without a suggestion: ids of hexadecimal digits may start with a digit.]", "quantifier": "every table of ids, every suggestion, every random number", "why_tests_cant": "all random choices and tables", "anchors": ["pyslet/xml/structures.py:Document.get_unique_id"]}
{"id": "C128", "title": "Searching finds the elements of a class", "statement": "find_children_depth_first gives exactly the elements of the class below an element, in document order, down to max_depth, and only the outermost if sub_match is False; find_children_breadth_first gives the same ones, level by level. [Violated: max_depth and sub_match are lost in the recursive call; the order is not breadth first.]", "quantifier": "every tree, class and depth", "why_tests_cant": "unbounded trees", "anchors": ["pyslet/xml/structures.py:Element.find_children_depth_first", "pyslet/xml/structures.py:Element.find_children_breadth_first"]}
{"id": "C129", "title": "Character data is kept in order", "statement": "add_data adds to the end of the content, content_changed changes neither the characters and elements nor their order and leaves no two texts next to each other; get_value gives the characters in order, and raises XMLMixedContentError exactly if there is an element and ignore_elements is not set; a value that is set is read.", "quantifier": "every list of children", "why_tests_cant": "unbounded lists", "anchors": ["pyslet/xml/structures.py:Element.add_data", "pyslet/xml/structures.py:Element.content_changed", "pyslet/xml/structures.py:Element.get_value", "pyslet/xml/structures.py:Element.set_value"]}
{"id": "C130", "title": "The path a server is given reads as the one the client wrote", "statement": "encode_pathinfo refuses exactly the texts that cannot be encoded in UTF-8; its result, with percent escapes decoded, is the UTF-8 of the path; it never contains a question mark; and the separators between segments are exactly the slashes outside quoted literals, so that segments with paired quotes, joined with slashes and encoded, are those the URI parser sees. [Violated for an unpaired quote: the slashes after it are escaped; witness.]", "quantifier": "every text; every list of segments", "why_tests_cant": "unbounded texts, any combination of quotes, slashes and escapes", "anchors": ["pyslet/odata2/server.py:Server.encode_pathinfo"]}
{"id": "C131", "title": "$expand and $select are read as the trees they describe", "statement": "For every text, the parsers of $expand and $select succeed exactly if the text is a comma-separated list of paths of names (with * as the last step for $select) and give the tree in which each path of the list, and nothing else, can be followed.", "quantifier": "every text", "why_tests_cant": "unbounded lists and depths", "anchors": ["pyslet/odata2/core.py:Parser.parse_expand_option", "pyslet/odata2/core.py:Parser.parse_select_option"]}
{"id": "C132", "title": "Writing $expand and $select is canonical and can be read back", "statement": "A tree with at least one name is read back from the text format_expand or format_select writes for it; two trees with the same paths are written the same; the text that is written for a text that was read depends only on its paths. [Violated by the empty tree, which is written as a text that is refused.]", "quantifier": "every tree of names", "why_tests_cant": "unbounded trees; sorting", "anchors": ["pyslet/odata2/core.py:format_expand", "pyslet/odata2/core.py:format_select"]}
{"id": "C133", "title": "$orderby is read and written unambiguously", "statement": "A list of expressions each followed by asc, desc or nothing is read as those expressions with 1, -1, 1; no text can be read as two different lists; a list that orderby_to_str writes is read back. [Violated by the empty list.]", "quantifier": "every list of expressions and directions", "why_tests_cant": "unbounded lists and expressions", "anchors": ["pyslet/odata2/core.py:CommonExpression.orderby_from_str", "pyslet/odata2/core.py:CommonExpression.orderby_to_str"]}
{"id": "C134", "title": "The resource path of a data service URI", "statement": "ODataURI accepts a resource path exactly if it is a sequence of segments of names with key predicates followed by at most one path option, or a $links followed by one more segment and nothing else; the navigation path, option and links property are those written; everything else is refused. [Violated: $metadata and $batch are accepted after names and $links before any, an unknown option raises ValueError and not InvalidPathOption.]", "quantifier": "every text", "why_tests_cant": "unbounded paths", "anchors": ["pyslet/odata2/core.py:ODataURI.__init__", "pyslet/odata2/core.py:ODataURI.split_segment"]}
{"id": "C135", "title": "The query options of a data service URI", "statement": "A query is refused exactly if one of its pieces is a malformed or unknown system query option or a custom option whose name cannot be decoded; each system option has the value of its last occurrence; custom options are kept as they are in order; get_param_value gives the literal of the last occurrence of a parameter and null without one; with a path option only the options the protocol allows are accepted; $skip and $top are non-negative. [Violated: the prefix of the service is compared as text, so that /odataX is taken as part of the service at /odata.]", "quantifier": "every query text", "why_tests_cant": "unbounded queries, repeated options", "anchors": ["pyslet/odata2/core.py:ODataURI.__init__", "pyslet/odata2/core.py:ODataURI.parse_sys_query_option", "pyslet/odata2/core.py:ODataURI.validate_sys_query_options", "pyslet/odata2/core.py:ODataURI.get_param_value"]}
{"id": "C136", "title": "A request reaches the resource its path leads to", "statement": "For a path that does not start with a function import, the server finds a resource exactly if every segment of the path names a feed, an entity of it with that key, a property or a navigation property of what precedes it, and the path option and query options make sense for the last one; the resource is that one; it reports 'not found' exactly if a segment names something that is not there or the path ends at a link to nothing; finding it changes nothing.", "quantifier": "every service, path, option and state of the data", "why_tests_cant": "unbounded paths, every data layer and state", "anchors": ["pyslet/odata2/server.py:Server.get_resource_from_uri", "pyslet/odata2/server.py:Server.validate_sys_query_options"]}
{"id": "C137", "title": "Reading changes nothing", "statement": "A GET or HEAD request, and any request to a ReadOnlyServer, leaves the data as it is; a ReadOnlyServer refuses any other method with 403. [Violated by function imports, which GET executes.]", "quantifier": "every service, request and state of the data", "why_tests_cant": "every data layer, request and state", "anchors": ["pyslet/odata2/server.py:Server.handle_request", "pyslet/odata2/server.py:ReadOnlyServer.handle_request", "pyslet/odata2/server.py:Server.__call__"]}
{"id": "C138", "title": "A request that fails changes nothing", "statement": "If the operations of the data layer are atomic, a request that is answered with an error status leaves the data as it is; the statuses are 200, 201, 204, 400, 403, 404, 405, 406 and 500. [Violated when content negotiation or rendering fails after the change: POST with an Accept header that allows no type of the server adds the entity and answers 406.]", "quantifier": "every service with atomic operations, request and state", "why_tests_cant": "every failure point of every request", "anchors": ["pyslet/odata2/server.py:Server.handle_request", "pyslet/odata2/server.py:Server.odata_error"]}
{"id": "C139", "title": "What each method does", "statement": "A request is answered without error exactly in these cases, with this effect: GET of the service, metadata, $count, entities, feeds, values, streams and links; POST to a feed inserts the entity of the body and gives its location; PUT and MERGE update the entity, DELETE removes it; PUT and DELETE of values, streams and links change only those. [Violated by lenient cases: methods other than GET for $count and the service document answer 200; $value is ignored for feeds; HEAD of a feed is refused.]", "quantifier": "every service, request and state", "why_tests_cant": "all combinations of method, resource and option; every data layer", "anchors": ["pyslet/odata2/server.py:Server.handle_request", "pyslet/odata2/server.py:Server.return_entity", "pyslet/odata2/server.py:Server.return_collection"]}
{"id": "C140", "title": "Negotiation of the protocol version", "statement": "A request whose DataServiceVersion (2.0 if absent) is above 2.0 is refused with 400 before anything is read or changed; otherwise the response has version 2.0 if the MaxDataServiceVersion (that of the request if absent) has a major number of at least 2, and 1.0 otherwise; headers that do not start with two numbers separated by a dot are refused with 400. [Violated for a maximum below 1.0, answered with 1.0.]", "quantifier": "every pair of versions, user agent texts and header values", "why_tests_cant": "unbounded texts and numbers", "anchors": ["pyslet/odata2/server.py:Server.check_capability_negotiation", "pyslet/odata2/core.py:parse_dataservice_version", "pyslet/odata2/core.py:parse_max_dataservice_version"]}
{"id": "C141", "title": "The pool of connections of a client", "statement": "Whatever requests, releases, upgrades and clean-ups happen in whatever order of the threads, a client never has more than max_connections connections in use or idle; no connection is worked on by two threads or is both in use and idle; a thread has at most one connection to a server; no connection that has been closed is in use or idle; and the client never fails with KeyError. [Violated: when active_cleanup takes a connection away from a thread and the thread asks for another one to the same server, finishing with the old one makes the pool forget the new one and hand the killed one to the next thread.]", "quantifier": "every number of threads, servers and connections, and every history of events", "why_tests_cant": "all interleavings; unbounded histories", "anchors": ["pyslet/http/client.py:Client.queue_request", "pyslet/http/client.py:Client._activate_connection", "pyslet/http/client.py:Client._deactivate_connection", "pyslet/http/client.py:Client.active_cleanup"]}
{"id": "C142", "title": "Which connection is used for a request", "statement": "A request is handed to the connection its thread already has to the server; else to the idle connection to the server that was used last; else to a new connection, for which, when there are max_connections already, the idle connection unused for longest is closed; only when all connections are in use does it wait. The connection is always one to the server of the request, of the thread of the request, and not closed.", "quantifier": "every reachable pool, thread and server", "why_tests_cant": "unbounded histories and pools", "anchors": ["pyslet/http/client.py:Client.queue_request", "pyslet/http/client.py:Client._new_connection", "pyslet/http/client.py:Client._delete_idle_connection"]}
{"id": "C143", "title": "No request waits without reason", "statement": "While a request waits for a connection and has not been notified, all connections are in use or promised to requests that have been notified; a notified request gets a connection if one is free when it runs; after close() no request gets a connection; a request does not wait for its own thread. [Violated: upgrading a connection notifies nobody; a thread that holds the only connection waits for itself; a request that waits when the client is closed gets a new connection.]", "quantifier": "every history of events", "why_tests_cant": "all interleavings; lost wake-ups cannot be tested for", "anchors": ["pyslet/http/client.py:Client.queue_request", "pyslet/http/client.py:Client._deactivate_connection", "pyslet/http/client.py:Client._upgrade_connection", "pyslet/http/client.py:Client.close"]}
{"id": "C144", "title": "Retries after a lost connection", "statement": "Whatever happens on a connection, a request that is not idempotent is sent again only if no byte of it has ever been sent; a request is started at most max_retries times more than the application asked for; and every request asked for is finished exactly once, with the status of a complete response or as an error. [Violated: a 2xx response that arrives before the request has been sent raises TypeError, and the request is finished three times and executed twice; a connection closed in the middle of a response is reported as that response; a retried request can be finished with the status of its earlier attempt.]", "quantifier": "every set of requests and every history of events of a connection", "why_tests_cant": "every point at which a connection can be lost; unbounded histories", "anchors": ["pyslet/http/client.py:Connection.close", "pyslet/http/client.py:Connection.connection_task", "pyslet/http/client.py:ClientRequest.disconnect", "pyslet/http/client.py:ClientRequest.can_retry", "pyslet/http/client.py:ClientRequest.response_finished"]}
{"id": "C145", "title": "Pipelining", "statement": "The responses received on a connection belong to the requests in the order in which these were started; a request that is not idempotent is started only when all requests before it have been answered; the bytes sent are the requests, complete, one after the other; requests are started in the order in which they were asked for. [Violated: a retried request is started after those that waited for it; when an error response arrives before the body has been sent, a part of the body is left out and the connection goes on being used.]", "quantifier": "every set of requests and every history of events of a connection", "why_tests_cant": "all interleavings of sending, receiving and losing the connection", "anchors": ["pyslet/http/client.py:Connection.connection_task", "pyslet/http/client.py:Connection._start_request", "pyslet/http/client.py:Connection._send_request_data", "pyslet/http/client.py:ClientRequest.response_finished"]}
{"id": "C146", "title": "Compound names in scopes", "statement": "In every scope that can be built by declaring and undeclaring values, in it and in the scopes within it, looking up a compound name 'a.b.c' gives a value exactly if a is declared there, b in a, and c in b - also if the names themselves contain dots; no name leads to two values; iterating gives exactly the names that can be looked up, each once, and len is their number. A declaration is refused exactly if its name is already declared, or if one of the two names is the other up to a dot; otherwise the value and all that is in it can be looked up afterwards and all other names lead where they did. After undeclaring a value its name and all names in it are not found and the others still are. (Violated in part: undeclaring a value whose declaration was refused removes the value that was declared.)", "quantifier": "all scopes nested to any depth, all names, all histories of declare and undeclare", "why_tests_cant": "The number of scopes, nestings and histories is unbounded; ambiguity arises only from certain combinations of dotted names.", "anchors": ["pyslet/odata2/csdl.py:NameTableMixin"]}
{"id": "C147", "title": "Detection of encodings", "statement": "An XML entity that starts with a byte order mark in UTF-8, UTF-16 or UTF-32 is read in that encoding, starting with the first character after the mark; one in UTF-8 without a mark is read as UTF-8 from its first byte, whatever it contains; one in UTF-16 that starts with '<?' and one in UTF-32 that starts with '<' is read in its encoding. detect_encoding recognises every text in UTF-8, and every text in the other encodings that starts with two ASCII characters, and those with a mark (in UTF-16 if the next character is Latin-1). (Violated: EBCDIC is never detected, because of a slip in the table; detect_encoding does not recognise single characters in UTF-16 and takes other UTF-16 for UTF-8 or for nothing.)", "quantifier": "all texts without NUL, of any length, in each of the five Unicode encodings", "why_tests_cant": "The texts are unbounded in number, and a byte pattern of one encoding might occur in another.", "anchors": ["pyslet/xml/structures.py:XMLEntity.auto_detect_encoding", "pyslet/unicode5.py:detect_encoding"]}
{"id": "C148", "title": "Durations", "statement": "Reading an ISO 8601 duration succeeds on a whole text exactly if it is PnW, or P followed by some of nY nM nD and possibly T followed by some of nH nM nS, in that order, with at least one part, also after T, and at most one n with a decimal fraction; the result has exactly the values written, with 0 for parts missing before one that is given. What get_string writes, with or without leading zeros, is read back as the same duration, for all precisions; so are fractions if as many digits are asked for as they have, up to 12; and with the sign in XML Schema. (Violated: text after a duration is ignored; a fraction is accepted before the last value; 'P1' and 'P1.Y' raise TypeError and AttributeError; weeks cannot be written; a fraction of .9999999999999 is written as 1000 in three digits; -P1Y == P1Y in XML Schema.)", "quantifier": "all texts, all durations of any precision and all numbers of digits", "why_tests_cant": "The texts and values are unbounded; the parser has many optional parts and a flag passed along.", "anchors": ["pyslet/iso8601.py:Duration.get_string", "pyslet/iso8601.py:ISO8601Parser.parse_duration", "pyslet/xml/xsdatatypes.py:Duration"]}
{"id": "C149", "title": "Attributes and their declarations", "statement": "Of several declarations of an attribute of an element type the first counts. With declarations, the application sees the attributes written in a start tag, with the white space of all but CDATA ones normalised, and the default values of those not written, and no others. Checking validity reports no error exactly if all required attributes are there, all are declared, every value meets its type (names, name tokens, unparsed entities that are declared, one of the values listed), IDs are unique in the document, every IDREF is an ID in it (also one that comes later), fixed attributes have their values and a standalone document does not depend on external declarations. (Violated: a fixed attribute that is not written is reported and not supplied; the value of a fixed attribute is compared before it is normalised.)", "quantifier": "all declarations, in any order and with repetitions, and all documents of any size, for any set of entities", "why_tests_cant": "Documents and declarations are unbounded; IDs and references connect any two places of a document.", "anchors": ["pyslet/xml/parser.py:XMLParser.check_attributes", "pyslet/xml/parser.py:normalize_space", "pyslet/xml/structures.py:XMLDTD.declare_attribute", "pyslet/xml/structures.py:XMLDTD.get_attribute_list"]}
{"id": "C150", "title": "The JSON text of an entity is the JSON object it stands for", "statement": "generate_entity_type_in_json and generate_entity_set_in_json write text that a JSON parser reads as exactly the object the entity or page stands for: metadata, one member for each selected property with its value, and for each selected navigation property the deferred link, null, the expanded entity or the expanded page with its count and its link to the next page; no character in a value, name or URI can break out of its place.", "quantifier": "every entity and page: any strings, any number of properties and entities, complex values and expansions nested to any depth, both versions of the format", "why_tests_cant": "Strings, nesting and numbers of entities are unbounded; one unescaped character or misplaced comma breaks the document.", "anchors": ["pyslet/odata2/core.py:Entity.generate_entity_type_in_json", "pyslet/odata2/core.py:EntityCollection.generate_entity_set_in_json", "pyslet/odata2/core.py:simple_value_to_json_str", "pyslet/odata2/core.py:complex_value_to_json_str"]}
{"id": "C151", "title": "Values survive JSON", "statement": "Writing a value, a complex value or an entity as JSON and reading the text with set_from_json_object gives back the same values for the selected properties and NULL for the others.", "quantifier": "every value of every simple type except Single and Double, complex values nested to any depth, entities with any properties", "why_tests_cant": "The domains are unbounded or astronomically large: all dates, numbers, byte strings and texts.", "anchors": ["pyslet/odata2/core.py:simple_value_to_json_str", "pyslet/odata2/core.py:simple_value_from_json", "pyslet/odata2/core.py:parse_asp_dot_net_date", "pyslet/odata2/core.py:complex_value_from_json", "pyslet/odata2/core.py:Entity.set_from_json_object"]}
{"id": "C152", "title": "The bindings of a new entity survive JSON", "statement": "A new entity that is written as JSON (for an insert request) and read by the server has the same properties and is bound to the same entities, existing or new, in the same order.", "quantifier": "every new entity with any bindings, nested to any depth", "why_tests_cant": "Deep inserts nest without bound.", "anchors": ["pyslet/odata2/core.py:Entity.generate_entity_type_in_json", "pyslet/odata2/core.py:Entity.set_from_json_object"]}
{"id": "C153", "title": "Content-Range headers are read and written faithfully", "statement": "ContentRange.from_str accepts exactly the values 'bytes' (any case) first-last or '*', '/', total or '*' (with optional spaces between the parts) and returns the numbers written; str() of any range of non-negative positions is read back as the same range; is_valid() tells exactly whether the range names positions inside the instance, and len() is the number of positions, or ValueError when there is none.", "quantifier": "every byte string, every content range", "why_tests_cant": "the header values and the numbers are unbounded", "anchors": ["pyslet/http/messages.py:ContentRange", "pyslet/http/messages.py:HeaderParser.require_contentrange"]}
{"id": "C154", "title": "Allow and Accept-Ranges headers", "statement": "Allow.from_str and AcceptRanges.from_str read exactly the lists of tokens (empty items are ignored) and give the tokens in order, upper-cased for Allow; what they write is read back as an equal value; is_allowed(m) holds exactly for the listed methods whatever the case; equality ignores order (and case); 'none' stands alone for an empty list of range units.", "quantifier": "every byte string, every list of tokens", "why_tests_cant": "lists and tokens are unbounded", "anchors": ["pyslet/http/messages.py:Allow", "pyslet/http/messages.py:AcceptRanges", "pyslet/http/grammar.py:WordParser.parse_tokenlist"]}
{"id": "C155", "title": "Cache-Control directives", "statement": "A CacheControl value holds the directives it was given, names compared without regard to case; to_bytes writes each directive with its value so that it can be read again, and from_str reads what to_bytes wrote.", "quantifier": "every list of directives and values", "why_tests_cant": "lists of directives are unbounded", "anchors": ["pyslet/http/messages.py:CacheControl"]}
{"id": "C156", "title": "The text of a character class", "statement": "The text of a CharClass (str()) is a regular expression of Python that matches exactly the characters of the class, alone and inside a larger expression. (Violated for two classes: the class of all characters gives an expression that matches nothing, and the class of all but the backslash one that cannot be compiled.)", "quantifier": "every character class, built by any sequence of operations, and any text that follows it", "why_tests_cant": "There are 2^1114112 classes; hyphens, carets, brackets and backslashes may be at any place, as characters or ends of ranges.", "anchors": ["pyslet/unicode5.py:CharClass.__unicode__", "pyslet/unicode5.py:CharClass.format_re"]}
{"id": "C157", "title": "XML Schema regular expressions match what they describe", "statement": "RegularExpression(src).match(text) is true exactly if the whole text is one the expression describes. (Violated: only true is reliable; when the first way to match a beginning of the text stops before the end, as 'a|ab' does for 'ab', the answer is false.)", "quantifier": "every expression, with any nesting of groups, alternatives, repetitions and classes, and every text", "why_tests_cant": "Expressions and texts are unbounded; which of several ways to match is found depends on the whole expression.", "anchors": ["pyslet/xml/xsdatatypes.py:RegularExpression.match", "pyslet/xml/xsdatatypes.py:RegularExpressionParser"]}
{"id": "C158", "title": "The parser of XML Schema regular expressions follows the grammar", "statement": "Every regular expression of XML Schema - characters, escapes, categories, blocks, classes with ranges, negation and subtraction, groups, alternatives and quantifiers - is accepted and given the meaning the specification states; anything else is refused. (Violated: what follows an expression is ignored, so that 'a)b' and 'a**' are accepted.)", "quantifier": "every expression of the grammar, nested to any depth, with any tables of categories and blocks", "why_tests_cant": "The grammar generates infinitely many expressions, nested without bound.", "anchors": ["pyslet/xml/xsdatatypes.py:RegularExpression.__init__", "pyslet/xml/xsdatatypes.py:RegularExpressionParser"]}
{"id": "C159", "title": "Enumerations", "statement": "A class derived from Enumeration decodes a string exactly if, white space removed, it is a name or an alias, to the value of that name; every value is written as its own name (never an alias), None as the name of the default; a list written and read again is the same list; dictionaries with the same keys give the same, sorted, string; EnumerationNoCase with from_str_lower ignores case. dict_from_str gives a dictionary with every value of the string. (Violated: dict_from_str keeps only the last word, and raises UnboundLocalError for no word.)", "quantifier": "every definition of an enumeration and every string, list and dictionary of values", "why_tests_cant": "Definitions are written by the users of the package; aliases, names and defaults may be related in any way.", "anchors": ["pyslet/xml/xsdatatypes.py:Enumeration", "pyslet/xml/xsdatatypes.py:EnumerationNoCase"]}
{"id": "C160", "title": "The order of product tokens", "statement": "Product tokens are totally ordered: comparison never fails, is antisymmetric and transitive; dotted decimal versions of the same product are compared as the lists of their numbers; a version with a modifier (1.0a) precedes the version without it, modifiers are compared by their text and then their number, and a longer version follows its prefix.", "quantifier": "all product tokens and versions of any length", "why_tests_cant": "A key mixes numbers and strings, whose comparison would be a TypeError in Python 3: that this never happens depends on all pairs of versions.", "anchors": ["pyslet/http/params.py:ProductToken.explode", "pyslet/http/params.py:ProductToken.sortkey", "pyslet/py2.py:SortableMixin"]}
{"id": "C161", "title": "Rounding and the parts of dates in expressions", "statement": "round, floor and ceiling of a Decimal or integer give the nearest integer (of two the one farther from zero), the greatest integer not above and the least not below it, exactly and without overflow; year, month, day, hour, minute and second of a datetime literal are the parts of the date and time it was written from.", "quantifier": "every Decimal with any number of digits and any exponent, and every valid date and time", "why_tests_cant": "Signs, ties and numbers of fractional digits without bound.", "anchors": ["pyslet/odata2/core.py:CallExpression.evaluate_round", "pyslet/odata2/core.py:CallExpression.evaluate_floor", "pyslet/odata2/core.py:CallExpression.evaluate_ceiling", "pyslet/odata2/core.py:CallExpression.evaluate_year"]}
{"id": "C162", "title": "Identifiers for QTI", "statement": "validate_identifier returns, for every string, an XML name without colons; identifiers are returned unchanged; characters keep their places, colons becoming hyphens and other characters underscores. (Different values may give the same identifier, as 'a b' and 'a_b' do.)", "quantifier": "every string and every prefix that is an identifier", "why_tests_cant": "All strings of all characters; the first character has rules of its own.", "anchors": ["pyslet/qtiv2/core.py:validate_identifier"]}
{"id": "C163", "title": "Bounds and offsets of regions", "statement": "calculate_shape_bounds gives a box that holds every point for which test_point is true (in a field of 1024 by 768); offset_shape moves the region: a point is in the old region exactly if the moved point is in the new one. (Violated: for polygons both functions never return; the box of a rectangle given by its lower right corner first is empty; an ellipse with a radius of 0 has points outside its box.)", "quantifier": "all coordinates, in pixels or percentages, and all points", "why_tests_cant": "Unbounded coordinates; circles and ellipses need the inequality of their equations, not cases.", "anchors": ["pyslet/qtiv2/core.py:calculate_shape_bounds", "pyslet/qtiv2/core.py:offset_shape", "pyslet/qtiv2/core.py:ShapeElementMixin.test_point", "pyslet/qtiv2/core.py:ShapeElementMixin.test_ellipse"]}
{"id": "C164", "title": "Receiving requests from a socket", "statement": "However the bytes of a connection are divided into the pieces that recv returns, the server receives the requests that were sent: each request is given its own line, header lines and body, no byte is lost, repeated or moved between requests, and every request on the connection is handled in order. (Violated: a chunked request is never completed when a piece ends inside or just after the data of a chunk that began in the buffer, because the buffer becomes a str; and whatever arrives in the same piece after the end of a request is dropped, so pipelined requests are lost.)", "quantifier": "all requests, all divisions of the stream into pieces, everything that follows on the connection", "why_tests_cant": "The divisions of a stream into pieces are the schedules of the network: there are exponentially many and they cannot be listed.", "anchors": ["pyslet/http/server.py:Connection.handle_requests", "pyslet/http/server.py:split_socket", "pyslet/http/server.py:split_socket1", "pyslet/http/server.py:read_socket", "pyslet/http/messages.py:Message.recv"]}
{"id": "C165", "title": "Names in the new style", "statement": "make_attr_name turns every name into the documented form: an upper case letter becomes lower case, preceded by an underscore exactly if it follows a lower case letter, or follows an upper case letter and is followed by a lower case one; everything else stays. The result has no upper case letters, and a name without upper case letters is not changed, so applying it twice changes nothing more. getattr on a PEP8Compatibility object finds the attribute of the given name, else that of the new-style name, else raises AttributeError; it never recurses without end and never depends on earlier look-ups.", "quantifier": "every string over any alphabet with a case table, every object and every history of look-ups", "why_tests_cant": "All strings; the rule looks at both neighbours; the cache of names makes the outcome depend on history unless proved otherwise.", "anchors": ["pyslet/pep8.py:make_attr_name", "pyslet/pep8.py:PEP8Compatibility.__getattr__"]}
{"id": "C166", "title": "Renamed methods in class hierarchies", "statement": "In a hierarchy of migrated classes the old and the new name of a renamed method always run the same function: the definition nearest in the resolution order, under whichever of the two names it was written. A class that defines both, or changes the type of the method, is refused with TypeError; all others are accepted. (Violated for bases that are not derived from the class that declares the rename: a mixin's definition under the old name is not used for the new one.)", "quantifier": "every set of renames without clashes, every class body, every number of bases in every order", "why_tests_cant": "Hierarchies of any depth and shape.", "anchors": ["pyslet/pep8.py:MigratedMetaclass.__new__", "pyslet/pep8.py:old_method", "pyslet/pep8.py:DeprecatedMethod"]}
{"id": "C167", "title": "Migrated response conditions run like the originals", "statement": "Migrating the response processing of a version 1 item gives version 2 rules that do in every session what the version 1 conditions say: conditions are looked at in turn, a matching one has its actions done, and unless it says continue=\"Yes\" no later condition is looked at; the final values and the exception, if there is one, are the same. Extensions between the conditions change nothing.", "quantifier": "every list of conditions with every pattern of the continue attribute and every session state", "why_tests_cant": "The version 2 form nests else branches as deep as the pattern of continue flags demands: all patterns of all lengths.", "anchors": ["pyslet/qtiv1/item.py:ResProcessing.migrate_to_v2", "pyslet/qtiv1/item.py:RespCondition.migrate_rule_to_v2", "pyslet/qtiv2/processing.py:ResponseCondition.run"]}
{"id": "C168", "title": "Migrated tests have the same truth", "statement": "The version 2 expression that a version 1 conditionvar is migrated to is true in a session exactly when the version 1 condition holds: varequal when the value is among the answers (strings without regard to case unless case=\"Yes\"), varlt and so on by comparing numbers, not, and, or and the implicit and in the usual sense; evaluation raises no exception. (Violated: the negation of a test of an unanswered response holds in version 1 and is not true in version 2; an indexed varequal on an ordered response raises ProcessingError; containers of strings are always compared with regard to case.)", "quantifier": "all conditions of any depth, all declarations and all session states", "why_tests_cant": "Nested conditions of any depth over all values, including missing ones.", "anchors": ["pyslet/qtiv1/common.py:ConditionVar.migrate_expression_to_v2", "pyslet/qtiv1/common.py:VarEqual.migrate_expression_to_v2", "pyslet/qtiv1/common.py:VarInequality.migrate_expression_to_v2", "pyslet/qtiv1/common.py:Not.migrate_expression_to_v2", "pyslet/qtiv1/common.py:And.migrate_expression_to_v2", "pyslet/qtiv1/common.py:Or.migrate_expression_to_v2"]}
{"id": "C169", "title": "Migrated actions", "statement": "The rule that setvar is migrated to sets the outcome to the value given, or to the sum, difference, product or quotient of the outcome and the value, and changes nothing else; the rule for displayfeedback adds the identifier of the feedback with that name to FEEDBACK. (Violated: Divide on an integer outcome ends with ValueError, since the quotient is a float; a name that is not an identifier is changed for the feedback but not for the rule, so that the feedback is never shown.)", "quantifier": "all outcomes, values and session states", "why_tests_cant": "Unbounded values, and the types of every combination of operation and outcome.", "anchors": ["pyslet/qtiv1/common.py:SetVar.migrate_rule_to_v2", "pyslet/qtiv1/common.py:DisplayFeedback.migrate_rule_to_v2", "pyslet/qtiv1/item.py:ItemFeedback.migrate_to_v2"]}
{"id": "C170", "title": "Areas of version 1 migrated", "statement": "migrate_area_to_v2 takes as coordinates the numbers in the text, whatever stands between them, and gives a version 2 region that has the points of the version 1 area: a rectangle given by its corner, height and width, an ellipse by its centre and diameters; it never has points that the area has not. What is missing is filled in as the log says. The yes/no attributes are written as they are read. (Violated: anything before the first number, such as a space, splits that number in two; the last column and row of a rectangle are lost and a rectangle without size gets a pixel; an ellipse with a diameter of 1 becomes a whole line; no is written as Nes.)", "quantifier": "every text, every separator, all coordinates and all points", "why_tests_cant": "Unbounded coordinates and arbitrary separators; ellipses need the inequality of their equations.", "anchors": ["pyslet/qtiv1/core.py:migrate_area_to_v2", "pyslet/qtiv1/core.py:yn_from_str", "pyslet/qtiv1/core.py:yn_to_str", "pyslet/qtiv2/core.py:ShapeElementMixin.test_point"]}
{"id": "C171", "title": "Language, white space and base are inherited", "statement": "resolve_lang gives the xml:lang of the nearest element, itself included, that has one, else that of the document; resolve_space the same for xml:space, None if there is none; resolve_base the base of XML Base, every xml:base being resolved against the base in force for the parent; resolve_uri resolves a reference against that base. Setting the language changes it for the element and what is in it, down to elements with their own. (Violated: xml:lang=\"\" does not end the inherited language; resolve_space raises NotImplementedError in a document without xml:space; two relative bases are put together bottom-up, which is wrong if the outer one ends in \"..\".)", "quantifier": "elements at any depth, with any attributes on any of their ancestors, in and out of documents", "why_tests_cant": "Chains of ancestors of any length, and resolution of references is associative only under conditions.", "anchors": ["pyslet/xml/structures.py:Element.resolve_base", "pyslet/xml/structures.py:Element.resolve_uri", "pyslet/xml/structures.py:Element.resolve_lang", "pyslet/xml/structures.py:Element.resolve_space", "pyslet/xml/structures.py:Element.set_lang", "pyslet/xml/structures.py:Document.get_space"]}
{"id": "C172", "title": "Comparison of content", "statement": "Two elements compare as equal in their content exactly if they have the same characters and equal elements in the same order, but for the amount of white space between them and white space at the start and the end; get_canonical_children gives that content with single spaces, and applied to its own result changes nothing. With xml:space=\"preserve\" the children are compared as they are. (Violated: an element with text and nothing else keeps the space at the end, so <p>a </p> and <p>a</p> differ, and so do <p> </p> and <p/>; an empty text between elements counts as a space.)", "quantifier": "all lists of children, of any length, with any white space", "why_tests_cant": "Unbounded content; exactly-if over all pairs of contents.", "anchors": ["pyslet/xml/structures.py:Element.get_canonical_children", "pyslet/xml/structures.py:collapse_space", "pyslet/xml/structures.py:Element.__eq__"]}
{"id": "C173", "title": "What a page is told about its request", "statement": "The URL of a request that WSGIContext gives is the canonical root, then a path that stands, escapes decoded, for the bytes of SCRIPT_NAME and PATH_INFO and holds no ? or #, then the query as sent. The root of the application ends in a slash and every URL of a request below it begins with it. The canonical root names the port exactly if it is not the default of the scheme. get_content gives the first Content-Length bytes of the input however the input cuts them into pieces, gives the same again when asked again, and never reads more than MAX_CONTENT; a longer body is refused as a bad request. (Violated: on Python 3 a byte outside ASCII in the path is encoded twice, /%E9 becomes /%C3%A9; a Content-Length such as a superscript two ends in ValueError.)", "quantifier": "all environs, all input streams and all ways in which they return their data in pieces", "why_tests_cant": "Unbounded paths and bodies; every way to cut a stream into pieces.", "anchors": ["pyslet/wsgi.py:WSGIContext.get_url", "pyslet/wsgi.py:WSGIContext.get_app_root", "pyslet/wsgi.py:WSGIContext._get_canonical_root", "pyslet/wsgi.py:WSGIContext.get_content"]}
{"id": "C174", "title": "Where a request goes and when it is tried again", "statement": "A ClientRequest for an http or https URL with a host goes to the host and port that the URL means; its only Host header names that host and port and no other, its request line has the path (/ if there is none) and the query, and other headers are kept. Any other URL is refused with HTTPException (NotImplementedError for user information) and leaves the request as it was. The time waited before the i-th new attempt is between 3/4 and 5/4 of the i-th Fibonacci number times min_retry_time, and grows with every two attempts. (Violated: schemes without a server part raise AttributeError; after a refusal the request has the refused URL, or its path, with the old Host header.)", "quantifier": "all URLs, all earlier states of the request, all numbers of attempts and all random numbers", "why_tests_cant": "All URLs and headers; histories of disconnects of any length, with random numbers.", "anchors": ["pyslet/http/client.py:ClientRequest.set_url", "pyslet/http/client.py:ClientRequest.disconnect", "pyslet/http/messages.py:Message.set_header"]}
