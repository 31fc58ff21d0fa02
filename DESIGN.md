# Formal model of pyslet in Lean 4

## Trusted base

* Lean 4.33.0's kernel. Theorems depend at most on the axioms `propext`,
  `Classical.choice`, `Quot.sound` (no project axioms, no compiled-code
  decision procedures). `Verif/Audit.lean` prints the axioms of every property theorem.
* The faithfulness of the model to `/repo` as read by eye: every definition
  cites the file and lines it models. The code was never run.
* Python semantics assumed: Python 3 (`bytes` are sequences of ints 0..255,
  `//` and `%` are floor division and modulus on unbounded ints, strings are
  sequences of code points, dict/list semantics). Exceptions are values
  (`Option`/`Except`). Floats, OS calls, clock, hashing and threads are
  parameters or abstracted as stated per module.

## Layout

`lean/Verif/<Area>/Model.lean` — executable model of the code, function by function.
`lean/Verif/<Area>/Spec.lean` — small independent specification (where needed).
`lean/Verif/<Area>/Lemmas*.lean` — proofs about the model.
`lean/Verif/<Area>/Props.lean` — the property theorems plus non-vacuity examples.

## Plan per property

| Prop | Modelled | Proof method |
|---|---|---|
| C01-C03 | `unicode5.CharClass` ranges list, bisection search, add/subtract/merge, block cache | canonical-form invariant (sorted, separated), membership lemma per operation, induction over operation history |
| C04 | the same operations on a heap of mutable range cells | concrete counterexample (the code violates it) + frame theorem for histories without in-place edits |
| C05-C06 | `unicode5.BasicParser` over a source list and position | case analysis, induction on digit runs |
| C07-C12 | `iso8601.Date` integer arithmetic | linear integer arithmetic over year decomposition (`omega`), finite month tables |
| C13-C16 | `iso8601.Time`, `TimePoint` (integer seconds) | `omega` over floor div/mod |
| C17 | formatters + `ISO8601Parser.parse_date_format` | digit round-trip lemma, symbolic execution of the state machine |
| C18-C24 | `rfc2396`, `urn` string functions | induction over strings; finite byte facts by `decide` over 0..255 lifted by lemma |
| C25-C27 | `http.grammar`, `http.params` tokenizer, formatter, parser | induction over byte strings; tokenizer invariants |
| C28-C30 | `streams.Pipe`, `BufferedStreamWrapper` atomic (lock-protected) steps | invariant by induction over operation sequences |
| C31-C32 | `blockstore.BlockStream`, `StreamStore`, block store as map | refinement to a byte list; invariants; crash points as intermediate states |
| C33 | `blockstore.LockStore` as transition system with clock | invariant over all interleavings |
| C34, C49 | `xsdatatypes` white space and lexical functions | induction |
| C35, C40-C44 | parser errors, ISO checks, URI parts, URNs | as C05, C07-C24 |
| C36-C38 | ISO truncated forms, week and ordinal dates, time zones | as C07-C17 |
| C39 | `rfc2396.parse_uric` longest match | induction over items |
| C45 | every parser of `http.params`: which exceptions can escape | case analysis of the parser results |
| C46, C47 | `streams.Pipe.readmatch`, modes | invariant over schedules |
| C48 | `BlockStream` digests | refinement to the content |
| C50-C54 | `http.client.Connection._recv_task`, `http.messages.Message` receiving and sending, header fields, byteranges | invariant of the receive buffer over every segmentation and blocking schedule; end-to-end composition of sender and receiver |
| C55, C56 | `ChunkedReader`, `WSGIInputWrapper` | refinement to a cursor in the body |
| C57-C60 | `http.cookie`: store as a tree of domains, public suffix rules, dates, Set-Cookie syntax | refinement of the tree to a list of accepted cookies, induction over histories; independent RFC 6265 algorithms |
| C61 | OData URI literals: formatting and parsing | parse-of-print lemma per type with arbitrary continuation |
| C62 | OData expression parser (operator stack) and formatter | grammar `Reads` as inductive relation with its own precedence levels; simulation of the stack machine |
| C64-C67 | OData evaluation: promotion, arithmetic (with IEEE rounding for div and mod), comparison, logic, string methods | case analysis; rounding of integers below 2^53 is exact |
| C68 | key predicates in URIs | quote scanner lemma, C61, C18 |
| C63, C69 | `csdl.EntityCollection.iterpage`, skip tokens (`%X`/`int(.,16)`), the server's use for one request, the client's loop over links | closed form of a page, induction over pages |
| C70 | `order_entities`: repeated stable sorts | lexicographic order from stability of `List.mergeSort` |
| C71 | `memds.InMemoryAssociationIndex` | invariant (mirrored dictionaries) over histories, meaning of a history defined by its last call |
| C72, C73 | `memds` collections and navigation collections over any association graph, with the recursive cascade of `__delitem__` | integrity invariant preserved by every call, successful or not; induction over recursion depth for the cascade |
| C74 | rows of `memds.InMemoryEntityStore` | refinement of rows to one property at a time |
| C75, C76 | content particles, `build_particle_maps`, `ContentParticleCursor` (xml) | position automaton: the maps are exactly the follow relation of the marked model; languages defined separately |
| C77 | `parse_element`, `handle_data`: validity of element content | mutual induction over documents, with C75 |
| C78 | `XMLEntity.next_char`, `reset`, over any division of the source into pieces | invariant relating state and remaining text |
| C79 | the document parser without DTD (text, tags, attributes, references, CDATA, comments, PIs) and the grammar of XML 1.0 | soundness and completeness by mutual induction; termination by a bound on the number of turns |
| C80 | `escape_char_data`, `escape_char_data7`, `escape_cdsect`, canonical children, `generate_xml`, `__eq__` | the written text is in the grammar, then C79; idempotence of canonical children |
| C81 | `BasicCredentials.test_path`, `add_success_path`, `is_prefix` | the prefix relation is transitive, so the stored prefixes cover the union of the successes; C20 for dot segments |
| C82 | `ClientRequest.send_header`, `finished`, `resend`, `find_credentials`, `remove_credentials` as a state machine driven by responses | invariant (header fits the URL), measure (credentials left) |
| C83 | base64, `BasicCredentials` and `Challenge` texts, `AuthorizationParser` on the word parser of C25 | induction on the bytes and parameters |
| C84, C85 | `sql_expression` and the methods it calls, `sql_bracket`, `SQLParams`, as a function to SQL tokens | grammar of SQL expressions as an inductive relation, proved unambiguous by a shunting-yard parser; relational induction on the expression |
| C86, C87 | the SQL of C84 under SQLite's three-valued logic and LIKE, against `Verif.OData.Eval` | agreement of values by induction on the expression |
| C88 | `where_skiptoken_clause`, `where_clause` | the clause is an expression of C84; induction on the terms of the order |
| C89 | `page_generator`, `set_page`, `limit_clause` of SQLite | invariant: token and skip select the rows from position p on |
| C90 | `next_skiptoken`, the parser of `set_page` | C61 and induction on the values |
| C91 | values, expressions (QTI) | structural induction over expression trees: every operator keeps well-formedness |
| C92 | `and`, `or`, `not`, `anyN` | against the set of all ways to fill in NULLs |
| C93 | container operators | bags as lists up to permutation |
| C94 | numeric operators | rational arithmetic, induction on operands |
| C95 | mappings and tables | induction on entries and elements |
| C96 | response and template rules | mutual induction over rule trees (frame and type invariants) |
| C97 | item sessions | session invariant, induction over histories; congruence of processing |
| C98 | text form of HTML lengths, coordinates, colours, media descriptors | characterisation of the reading loop; inverse functions |
| C99 | image map areas: rect, circle, poly | crossings counted against a geometric specification over the rationals; induction over corners |
| C100 | SQL transactions: begin/execute/commit/rollback/close with retries, nested methods | invariant of a method's run over every schedule of failures; programs as trees |
| C101 | update_entity with concurrency tokens | effect on the table; invariant of the histories of many clients |
| C102 | the connection pool | invariant of every sequence of acquire, release and cleaning steps |
| C103 | default literals, quoted and mangled names, query parameters | reading SQL literals and identifiers, Python's % formatting as specification; induction on text |
| C104 | `VirtualFilePath` path algebra without drives and UNC | places as lists of names (small specification `resolve`); invariants of the normalization loop |
| C105 | `MemFilePath` on its dictionary, with open streams | what is at a place; every operation described by its effect on all places; invariants over histories |
| C106 | the tree of dispatch nodes, the loop of `__call__` with its stack, `static_page` with the file system as a parameter | handlers at a node are the last registrations; invariant of the loop and its stack |
| C107 | `AppCipher`: keys, the database of keys, the loop of `_get_cipher`, texts and signatures; cipher and hash are parameters | invariant of database and processes over histories; the chain of keys is followed by induction on the distance |
| C108 | `CookieSession`, `set_session`, `session_wrapper`, `ctest`, `wlaunch`, `check_redirect` with the times of C16, C17 and the signatures of C107 | case analysis of every request; the forgery is derived from C107 for every cipher, key and history |
| C109 | `validate_timestamp_and_nonce` as a step on the Nonces entity set, digest and rounding of the store as parameters; the two accesses of a request as separate steps | invariant: the entry of a key is the time of the last accepted request; invariant over schedules |
| C110 | roles text: splitting, stripping, URI and URN parsing (C21, C44), handles table, `split_role`, `is_subrole`, `get_permissions` | characterisation of URN roles by C21/C44, table checked entry by entry, induction over the list |
| C111 | Resources, Users, Visits as tables; launch and `establish_session` as steps; `load_visit` | refinement of a map session × consumer × link → user, permissions |
| C112 | `get_context`, `get_resource`, `get_user` as steps on one kind of table with a key function | invariant over histories |
| C113 | `TestForm` with its five steps over an arbitrary stream of random numbers | structural induction over the tree; permutation and slot lemmas; separate specification `legal` |
| C114 | `event_update` as a state machine over histories with an arbitrary clock and digest | invariant over histories |
| C115 | `_branch_target`, `_next_question`, pre-conditions and branch rules over arbitrary conditions | the position increases; induction on the form |
| C116 | `add_duration` on the forms of C113 | going back over nested blocks leaves the counter; blocks enclosing a position |
| C117 | Prefix maps of nodes, get_prefix, get_ns, new_prefix, make_prefix, get_prefix_map, writing of qualified names and declarations, expansion of names, parse_nsattrs, set_attribute('.ns') (Ns/Model) | invariant of maps (Fit), "what is in force for the writer is in force for the reader", mutual induction over trees; witnesses for the violations |
| C118 | the same | prefixes found are stable under the declarations that writing adds; induction over trees |
| C119 | the same | pigeonhole over the declarations of a chain |
| C120 | `expand_zip`, `package_path` over the file system in memory (`Vfs`), archive as list of entries | `Pkg/Expand.lean`: invariant over segments and entries (places only grow, inside the root); `Pkg/C120.lean` |
| C121 | `export_to_pif`, `add_to_zip` | `Pkg/Export.lean`: induction over depth and the list of children, with what is expanded so far as invariant; `Pkg/C121.lean` |
| C122 | `path_in_path`, `get_unique_path`, hashes of paths and texts | loop of `package_path` on normalised paths; candidates are different (injectivity of hexadecimal numbers) and the table is finite; `Pkg/C122.lean` |
| C123 | `rebuild_file_table`, `file_scanner` | induction over depth; dictionary of references by induction over the list; `Pkg/C122.lean` |
| C124 | `MediaRange.match_media_type`, the sort keys, `AcceptList.select_type` | the first match in sorted order is a most specific one (keys in `Prod.Lex`), loop invariant; `Neg/Accept.lean` |
| C125 | `select_token` of tokens, charsets, encodings; `select_language` | as C124; `Neg/C125.lean` |
| C126 | heap of elements and documents: parents, children, ids, tables; all calls of the default content model | invariant over histories (links and tables), subtrees as preorder lists; `Dom/C126.lean`, `Dom/Steps.lean`, `Dom/Claims.lean` |
| C127 | `get_unique_id` | pigeonhole over the numbered candidates; `Dom/Claims.lean` |
| C128 | `find_children_depth_first`, `find_children_breadth_first` | mutual induction over trees; `Dom/Find.lean` |
| C129 | `add_data`, `content_changed`, `get_value`, `set_value` | induction over the children; `Dom/Find.lean` |
| C130 | `encode_pathinfo` as a function from text to ASCII text or failure | induction over the text with the quote state; decoding is that of the Uri area; `OUri/PathInfo.lean` |
| C131 | the parsers of `$expand` and `$select` as loops over text and tree | grammar of lists of paths; iff with the loops by induction; `OUri/C131.lean` |
| C132 | `format_expand`, `format_select` with sorting | paths of a tree as the invariant; uniqueness of sorted lists; `OUri/C131.lean` |
| C133 | `orderby_from_str`, `orderby_to_str` | on top of the expression parser of C63-C66; `OUri/C133.lean` |
| C134 | the loop over segments of `ODataURI.__init__`, exceptions as values | exact characterisation by induction over segments; `OUri/C134.lean` |
| C135 | the loop over query options, `validate_sys_query_options`, `get_param_value` | invariant of the loop in terms of the pieces read; `OUri/C135.lean` |
| C136 | `get_resource_from_uri` over an abstract data service (a record of partial functions and atomic-or-not state actions); the path as read by C134 | specification `Leads`: a relation defined segment by segment; induction over the path; `Srv/Model.lean`, `Srv/Path.lean` |
| C137 | the whole of `handle_request` and `__call__` as state actions over the data | every action on the GET/HEAD branches leaves the state; `Srv/Effects.lean` |
| C138 | the same; exceptions mapped to statuses | case analysis of every branch: after the one state-changing action nothing can fail (hypothesis `AfterOk`); `Srv/C138.lean`, with a demonstration service |
| C139 | the same | `Served`: an inductive list of the cases in terms of `Leads`; both directions; `Srv/C139.lean` |
| C140 | the header texts as bytes, read with the HTTP word parser of C25 | the token read is a prefix after white space; table of `negotiate`; `Srv/Version.lean` |
| C141 | the tables of `Client` (active by thread and target, active by thread, idle, idle by target), one step per locked section; events of threads, clean-up and close | invariant over legal histories; witness by a history of five events; `Cli/Pool.lean`, `Cli/PoolInv.lean`, `Cli/PoolStep.lean`, `Cli/C141.lean` |
| C142 | the loop of `queue_request` with its sorts by `last_active` | `seek_cases`: the five results of the loop; the pool of connections handed out |
| C143 | `managerLock.wait` and `notify` as the lists of waiting and woken requests | invariant: waiting and not empty implies in use plus woken is at least the maximum; witnesses |
| C144 | `Connection` as a state machine over requests and bytes: queue, current request, send buffer, pipeline of responses, retry counters; events of sending, receiving, loss | invariant of all legal histories (`Cli/ConnInv.lean`), a second one for histories without early responses; witnesses; `Cli/Conn.lean`, `Cli/C144.lean` |
| C145 | the same, with the bytes sent since the last close | invariant: sent, buffered and remaining bytes are the messages started; started are answered and expected |
| C146 | `NameTableMixin` as trees of values with the order of declaration | lookup agrees with an inductive relation of paths, by an invariant (names pairwise apart) of all histories of declarations; `Csdl/Names.lean`, `Csdl/C146.lean` |
| C147 | `auto_detect_encoding` and `detect_encoding` on files of bytes, with both tables | all encodings of all texts, by the shape of the first four bytes; `Text/Detect.lean`, `Text/C147.lean` |
| C148 | `parse_duration`, `get_string` and the XML Schema class over texts and exact decimal values | grammar as an inductive relation; soundness and completeness by induction on the designators, round trip through the grammar; `Iso/Duration.lean`, `Iso/C148.lean` |
| C149 | `normalize_space`, `declare_attribute`, `check_attributes` and the check of references at the end, over the start tags of a document in order | separate specification of normalisation (words) and validity; invariants of the two loops (`Step`), induction over the document; `Xml/Attrs.lean`, `Xml/C149.lean` |
| C150 | `json.dumps` of strings and `json.loads` (as text), `simple_value_to_json_str`, `complex_value_to_json_str`, `generate_entity_type_in_json`, `generate_entity_set_in_json` | separate relations (Denotes, EntDen …) say which object an entity stands for; induction over nested entities with a lemma that a text is read the same wherever it stands (Reads) |
| C151 | `simple_value_from_json`, `parse_asp_dot_net_date`, `complex_value_from_json`, first loop of `set_from_json_object` | round trip by cases on the type, with C07/C13/C14 for dates; violations as general theorems |
| C152 | the rest of `set_from_json_object` for new entities, over any schema of entity sets | mutual induction over new entities and bindings; the single-valued case as a violation |
| C153 | ContentRange, require_contentrange | words of the value; round trip through decimal digits |
| C154 | Allow, AcceptRanges, parse_tokenlist | relation TokensOf between words and tokens, sound and complete |
| C155 | CacheControl | construction, lookup, writing; violations by witnesses |
| C156 | CharClass.__unicode__, Python set syntax | text of each canonical class read by a model of re's set parser; induction over the items |
| C157 | Re, ends (order of backtracking), match | soundness and completeness of ends by induction on the expression; violations by witnesses |
| C158 | all of RegularExpressionParser | grammar as an indexed type with text and language; induction over expressions |
| C159 | Enumeration, EnumerationNoCase | dictionaries as association lists; white space and lower() are parameters |
| C160 | ProductToken.explode, sortkey and comparison | keys alternate numbers and strings, so comparison is lawful; grammar of versions |
| C161 | evaluate_round, floor, ceiling, year..second (and replace, trim, tolower, toupper for C67) | Decimals as coefficient and exponent, values in Rat |
| C162 | validate_identifier | induction over the characters |
| C163 | calculate_shape_bounds, offset_shape, test_point, test_ellipse (with test_circle, test_rect of C99) | nonlinear arithmetic; the endless loops by induction over the number of iterations |
| C164 | handle_requests, split_socket, split_socket1, read_socket, Message.recv_mode and recv as a machine over an arbitrary interpretation of lines | induction over reads with the stream as invariant; frame lemmas for what follows in the socket; violations for all messages and as witnesses |
| C165 | make_attr_name, PEP8Compatibility.__getattr__ over any table of cases | induction with the neighbours; look-up by cases on the cache invariant |
| C166 | MigratedMetaclass.__new__, old_method, attribute look-up along a resolution order | for each rename separately: its two names form a small machine that other members do not touch |
| C167 | migrate_rule_to_v2 as a path into the growing tree; version 1 reading as a recursive function | simulation: running the unfinished tree with the version 1 reading of the remaining conditions at its open end is invariant |
| C168 | migration of condition elements to expressions, over the expression model of C91 | three-valued semantics of conditions, then two against three values: no not, or all answered; witnesses for the rest |
| C169 | migration of setvar and displayfeedback, over the rules of C96 | evaluation of the migrated rule by cases on action and base type; witnesses |
| C170 | migrate_area_to_v2 with its loop over the characters, yn_from_str, yn_to_str | the loop against a grammar of numbers and separators; the regions against the inequalities of the shapes through the model of test_point |
| C171 | resolve_lang, resolve_space, resolve_base, resolve_uri over the chain of parents, on the URI model of C21/C42 | inductive specification of XML Base from the top down; the bottom-up loop against it by associativity of dot-free paths |
| C172 | get_canonical_children and collapse_space | content as a list of characters, spaces and elements; the generator yields the squeezed content (induction), and children with single spaces are determined by their content, which gives the equivalence |
| C173 | wsgi.py:233-373: get_url, get_app_root, _get_canonical_root, get_content over an environ and an input stream that may return any number of bytes from 1 on | the relation of a path with escapes to the bytes it stands for, by induction on the path; the reading loop by induction on what is left of the stream |
| C174 | client.py:1734-1778 set_url with set_header (messages.py:1126-1154); the waiting times of disconnect, client.py:1839-1844 | cases of the URL; decimal digits by strong induction; waiting times by induction on the list of disconnects, with the Fibonacci numbers as specification |

## What is not modelled, and assumptions

* General: hash collisions (C32 assumes that different blocks have different
  hashes), locks and conditions of `threading` (operations that hold a lock
  are atomic steps), the clock (a parameter of each operation), logging,
  floating point outside `Verif.OData.Float`.
* C31: negative seeks. C33: an unlock whose delete follows its check within
  the lock timeout.
* C50-C54: blocking is finite (a stream that blocks for ever delivers
  nothing); gzip and other content codings; the TLS layer.
* C55: reads of the source are short only at its end.
* C57, C58: punycode is an arbitrary function; the access time of cookies; IP
  addresses as hosts (a violation is shown); wildcards inside suffix rules;
  strict RFC 2109 cookies (`Section4Cookie`).
* C59, C60: `cstr` of non-ASCII text is arbitrary.
* OData: the Unicode classes of identifiers are arbitrary beyond ASCII; Single
  and Double values are their literal text; fractions of a second are digit
  strings; data of floating point, decimal and date types is opaque in
  evaluation (`Ext`); navigation, `cast` and `isof` are parsed and formatted but
  not evaluated.
* C63, C69: the entities do not change between pages. C70: `list.sort` is a
  stable sort (modelled by `List.mergeSort`); values of one property are
  totally ordered. C72, C73: reads, filters, and associations that are
  dropped because an entity set has two principals; Python's recursion
  limit is a parameter. C74: simple values are opaque. C75–C77:
  names are any type with equality, particles have identities; attributes,
  entities, SGML options and class lookup are not modelled. C78–C80: decoding,
  the XML declaration, document type declarations and entities, namespaces,
  validation (see C75–C77), non-default parser options and subclasses of
  `Element`; attributes are a list in place of a dictionary. C81–C83: one
  request at a time, canonical roots are opaque, `binascii` is modelled from its
  documentation. C84–C90: the spelling of SQL operators and names, joins for
  navigation properties, floating point, decimal and date values in SQLite;
  the operators of SQLite are a specification of the environment. C91–C97:
  floats are rationals, texts of literals are already converted, random draws
  are parameters, files, pairs of points in records, `customOperator`,
  rendering and `responseProcessing` templates are not modelled; Python
  values shared between variables are copied. C98, C99: ASCII digits and
  letters only; the floating point arithmetic of `test_poly` is exact.
  C100–C103: databases without transactions, the per-module lock of
  `threadsafety` 0, closing the container, MySQL's row counts, the overflow of
  integer tokens, and Decimal and floating point default values.
  C104, C105: drives, UNC paths and `OSFilePath`; text streams, buffering and
  seeking; the ZIP hooks; `open` with other modes.
  C106: symbolic links, media types, error pages.
  C107: sha256 and AES, the expiry times in the database, entities that cannot be read.
  C108: parsing of cookies, forms and queries, canonical roots (a parameter), subclasses that store sessions.
* C109-C112: oauthlib (signatures of requests), the parsing of the form, `merge_session`, launches in progress at the same time (except C109), roles outside ASCII.
* C113-C116: loading of tests, HTML of the session, item sessions started by `_next_question` (see C97), `get_namespace`; random.shuffle is modelled by repeatedly taking out an element.
* C117-C119: text content, escaping and normalization of values, pretty printing (C75-C80 are about those); classes other than NSElement with their XMLATTR_ mappings; the choice of document and element classes; end tags (compared as strings by the parser); sgml modes.
* C120-C123: symbolic links (so `been_there`), case-insensitive file systems (`normcase`), the zip container format and the
  codecs (a recoding function that keeps ASCII and makes no separators is a parameter), the manifest itself.
* C124, C125: reading of the Accept headers (items with quality values in thousandths are the input).
* C126-C129: custom content models (attributes named after child classes), elements with `XMLCONTENT` other than mixed, `attach_to_parent` and `detach_from_parent` (the caller has to maintain the children), `deepcopy`, recursion limits of Python.
* C130-C135: the parsing of the URI into path and query (C20-C24), the value of `$format` (a parameter of the model), URIs without an absolute path, lower-casing outside ASCII (path options and inlinecount), `validate_sys_query_options` as called by the server for other resources.
* C136-C140: the contents of bodies and of headers other than the status and Location, `$batch`, links inside the bodies of entities, failures after `start_response` has been called, function imports beyond the fact that they are executed, `If-Match`; in `return_stream` the stream is opened before the type is negotiated (the order of the two failures).
* C141-C143: what connections do with their sockets and queues of requests, the order in which `active_cleanup` visits its nested dictionaries beyond that of the list of pairs, schemes other than http and https, the dns cache; `Condition.notify` wakes in the order of waiting.
* C144-C145: retry times, the parsing of responses (C19-C24), redirects and 401 responses as further requests of the application (which come after the response has been taken off the pipeline), upgrades, `kill` from another thread, sends of 0 bytes.
* C146: `tables_changed` callbacks and `name` changes after declaration.
* C147: reading the declaration in the detected encoding and changing to the declared one.
* C148: the rounding of floats (values are exact decimals), the returned format string.
* C149: stopping at the first error (raiseValidityErrors), the checks of the declarations themselves, the parsing of attribute values (C-properties on the parser cover literals).
* C150-C152: Single and Double values, fractions of a second in dates, precision facets, the for_update form, resolution of relative URIs, objects that repeat a name, JSON numbers with fractions.
* C153-C155: not modelled: the conversion of header values between str and bytes in get_header/set_header for these headers.
* C156-C158: not modelled: re.compile itself (its reading of classes is specified by pyAtom, its reading of the operators is represented by the structure Re), IGNORECASE and other flags, sharing of ranges between classes (C04).
* C159, C160: not modelled: make_enum, make_lower_aliases, from_str_upper, from_str_title and the class attributes of an enumeration; versions with empty components only in C160_total_order.
* C161: not modelled: Single and Double arguments of the rounding methods, seconds with fractions.
* C162, C163: floats as coordinates are not modelled.
* C164: timeouts, 100-continue, a pipe to the application that blocks, and bodies that end with the connection are not modelled.
* C165: warnings are not modelled.
* C166: warnings, and functions shared between classes, are not modelled.
* C167-C169: not modelled: varinside, humanrater content, texts that a base type refuses, the interaction fix-ups' sort.
* C170: Python's int(float(s)) is a parameter; the text of log lines is a constructor.
* C171: HTML's own get_base and get_lang are not modelled; the current directory is not used.
* C172: comparison of names and attributes in __eq__ is not modelled.
* C173: get_query, get_form and the cookies; URI.from_octets of the text; the context's set_status and headers. `str.isdigit` and `int` are parameters; a read gives at least one byte before the end.
* C174: parsing of the URL (C23, C43); stripping of the Host value; floating point and the clock (times are rationals); the choice between retry and no retry is C144.
* Python 2 behaviour, GUI, documentation and unit tests of the package.

Properties that the code violates are kept at full strength in
`properties.jsonl`, the negation is proved with a witness, and the largest
correct part is proved under a `_partial` name.
