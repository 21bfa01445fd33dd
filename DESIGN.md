# Design of the formal model of wujiu2020/strip

The Go code in /repo is read as text and modelled function by function in Lean 4 (`lean/Verif`).

* `Verif/Go/*`     – the functions of Go's standard library the code relies on (assumed behaviour, part of the trusted base)
* `Verif/Model/*`  – the model of /repo; every definition cites the file and lines it models and says where it simplifies
* `Verif/Proofs/*` – helper lemmas
* `Verif/Props/*`  – the property theorems, each with a small specification that does not use the model's helpers, and
  `example`s showing that concrete cases meet the hypotheses

Names: `Cnn_*` are the theorems of property Cnn; the suffix `_partial` marks a theorem that proves part of the property (the
full statement stays in properties.jsonl, what is missing is in the note in MANIFEST.json); the suffix `_violated` marks a
theorem that refutes the full property (or a natural extension of it) on a concrete run of the model: these are bugs of
the code, found while proving.

## Conventions of the model

* A Go string or `[]byte` is a `List UInt8` (`Str`). Sizes are unbounded unless Go's `int` range matters, in which case
  integers are reduced modulo 2^64 (2^32, 2^16, 2^8) explicitly.
* A panic is `none`/`Except.error` at registration time and an explicit outcome constructor at request time. Where the
  panic value matters (recovery, `panic(nil)` under go 1.13 semantics) it is part of the outcome.
* Go maps are association lists or functions; where iteration order is observable, the order is an oracle over which the
  theorem quantifies.
* Slices are lists; where aliasing is the point (filters, method builders: C11, C12) they are (array, offset, length,
  capacity) over an explicit heap, and the growth policy of `append` is a parameter.
* Goroutines and channels are labelled transition systems over explicit atomic steps (worker: C61–C65, concurrent requests:
  C87); theorems quantify over every interleaving and every client program.
* Handlers, filters and before-callbacks are arbitrary programs (interaction trees) over the response writer and the
  context API, so that theorems hold for all user code.
* Recursion of the Go code that need not terminate is fuel-indexed, and theorems say "for every fuel" or "for some fuel".
* The clock, the entropy source, the MAC, the BSON converter, float and time parsers, the file system and the external
  stores are parameters; hypotheses on them (`Lawful`) are stated in the theorem and instances are constructed.

## Plan per property

For each property: what is modelled, how it is proved, and where. The statement is in properties.jsonl, the theorem names are in MANIFEST.json.

| id | title | model (Verif/Model) | proof | theorems in | status |
|----|-------|-----|-----|-----|-----|
| C01 | Route match soundness | Router | induction on the path over every tree built by registration (tree invariant `WF`), against `Matches` on patterns | Props/Router | proved |
| C02 | Route match completeness | Router | refuted by a dead-end path; completeness by induction under "no unregistered literal prefix"; exact statement: C89 | Props/Router | partial |
| C03 | Route precedence | Router | as C02 | Props/Router | partial |
| C04 | Root and path normalisation | Router, Go/Path | laws of `path.Clean` on components | Props/Router | proved |
| C05 | Method dispatch | Router | case analysis against an outright statement; table as a fold over the declarations | Props/Router, Props/RouterTable | proved |
| C06 | HEAD follows GET | Router | refuted for a second GET registration; partial for one; exact statement in C89 (`exactFor`) | Props/Router, Props/RouterTable | partial |
| C07 | RouteInfo.Path is the registered pattern | Router | chain invariant of the tree, injectivity of rendering | Props/Router | proved |
| C08 | Registration conflicts are rejected | Router | tree invariant by induction over declarations; exact statement: C90 | Props/Router | partial |
| C09 | Registration is cumulative and order independent in its pattern set | Router | refinement of the tree to the flat list of registrations | Props/Router | partial |
| C10 | Filter inheritance | Router | fold characterisation of filters.append/remove against `InForce` | Props/FilterOrigin, Props/Router | proved |
| C11 | Sibling routes do not share filter storage | RouterHeap | heap invariant: a configured slice is never written again | Props/RouterHeap | proved |
| C12 | Derived method declarations are independent | RouterHeap | refuted by a base used twice; linear use by a heap invariant | Props/RouterHeap | partial |
| C13 | Handlers run at most once and in order | Context | trace induction over the interpreter of handler chains | Props/Context | partial |
| C14 | A written response stops the chain | Context | trace induction | Props/Context | proved |
| C15 | Onion ordering of Next | Context | trace induction, bracket structure of traces | Props/Context | proved |
| C16 | Recovery contains panics | Context | case analysis over outcomes of the protected chain | Props/Context | partial |
| C17 | Response header is committed exactly once, before the body | Response | invariant of the response writer over call sequences | Props/Response | proved |
| C18 | Wire status | Response | as C17; refuted for Flush first; exact statement: C88 | Props/Response | partial |
| C19 | Status and Size report what was sent | Response | as C17; exact statement: C88 | Props/Response | partial |
| C20 | Every request gets exactly one committed header | Context, Response | composition of chain and writer | Props/Context | proved |
| C21 | Gzip responses are complete | Gzip | state machine over a codec parameter | Props/Gzip | partial |
| C22 | Nearest provider wins | Inject | lookup through the injector chain as a relation; induction on the chain | Props/Inject, Props/InjectOnce | partial |
| C23 | Provider functions run at most once per injector | Inject | log of provider calls, invariant over sequences of operations | Props/InjectOnce | partial |
| C24 | Dependency cycles are reported, lookups terminate | Inject | rank of the provider graph; termination measure; refuted by an infinite run | Props/InjectTerm | partial |
| C25 | Missing dependencies are reported | Inject | induction on the chain | Props/InjectTerm | proved |
| C26 | Injection keys identify types | InjectKey | structural analysis of the type key | Props/InjectKey | partial |
| C27 | Invoke always calls its function | Inject | case analysis of Invoke | Props/InjectTerm | partial |
| C28 | Apply fills exactly the tagged fields | InjectApply | induction over fields | Props/InjectApply | partial |
| C29 | Secure cookie round trip | Cookie, Go/Enc | byte-level round trip of the codec, MAC abstract | Props/Cookie | proved |
| C30 | Secure cookie authenticity | Cookie | decoder inversion; refuted by moving the boundary | Props/Cookie | partial |
| C31 | Secure cookie expiry | Cookie | arithmetic on durations with overflow | Props/Cookie | partial |
| C32 | Remember-me round trip | Cookie | round trip | Props/Cookie | partial |
| C33 | Session store behaves as a map | Session | refinement to a map over a lawful cache | Props/Session | proved |
| C34 | Destroyed sessions are not resurrected | Session | as C33, over any later history; refuted for a second handle | Props/Session | partial |
| C35 | Regenerate preserves contents under a new id | Session | as C33, with failure points | Props/Session | partial |
| C36 | Failed flush can be retried | Session | refuted; partial | Props/Session | partial |
| C37 | Session ids | Rand | arithmetic of the clock bytes | Props/Rand | partial |
| C38 | Number encoding is a bijection | Rand | positional number system | Props/Rand | proved |
| C39 | Random strings stay in the alphabet | Rand | rejection sampling over a byte stream | Props/Rand | partial |
| C40 | Cache timeouts | Cache | duration arithmetic | Props/Cache | partial |
| C41 | Cache backends behave as a TTL map | Cache | refinement of each backend to a TTL map | Props/Cache | partial |
| C42 | Touch never resurrects or destroys | Cache | case analysis on server state | Props/Cache | partial |
| C43 | Cache garbage collection is transparent | Cache | simulation between runs with and without GC | Props/Cache | partial |
| C44 | Key prefixes isolate caches | Cache | prefix freeness | Props/Cache | partial |
| C45 | Incr and Decr | Cache | 64-bit arithmetic of INCRBY/$inc/incr | Props/Cache | partial |
| C46 | Configuration lookup precedence | Config | unfolding of the lookup chain | Props/Config | partial |
| C47 | INI parser totality | Config | totality: index conditions proved at every access | Props/Config | proved |
| C48 | INI round trip | Config | grammar of lines, parser inversion | Props/Config | proved |
| C49 | Later configuration files override earlier ones | Config | fold over files | Props/ConfigFiles | partial |
| C50 | Binding missing configuration leaves fields unchanged | ConfigBind | induction over struct fields | Props/ConfigBind | partial |
| C51 | Number parsing round trip | Conv, Go/Strconv | ParseInt/FormatInt round trip | Props/Conv | partial |
| C52 | Out-of-range numbers are rejected | Conv | acceptance iff | Props/Conv | partial |
| C53 | Parameter merge | Params | multi-map algebra | Props/BindValues, Props/Params | partial |
| C54 | Slice binding is order independent | Binder | permutation invariance under the iteration oracle | Props/Binder | partial |
| C55 | Integer binding preserves the value | Binder | two's complement arithmetic | Props/Binder | partial |
| C56 | Client address, host and scheme precedence | Params, ReqLogger | case analysis | Props/Params, Props/ReqLogger | partial |
| C57 | Request ids round trip | ReqLogger, Go/Enc | base64 and little endian round trip | Props/ReqLogger | proved |
| C58 | Inbound request ids are kept iff acceptable | ReqLogger | case analysis over the header | Props/ReqLogger | proved |
| C59 | Log level gating | Log | case analysis over methods and levels | Props/Log | proved |
| C60 | Flat log output is one line | Log | newline counting | Props/Log | proved |
| C61 | Worker concurrency bound | Worker | inductive invariant over all interleavings | Props/Worker | proved |
| C62 | Worker never panics by closing | Worker | inductive invariant | Props/Worker | proved |
| C63 | Wait waits for all tasks | Worker | history invariant | Props/Worker | proved |
| C64 | Wait reports task errors | Worker | invariant; refuted by explicit schedules | Props/Worker | partial |
| C65 | Worker progress | Worker | well-founded measure; refuted by explicit schedules | Props/Worker | partial |
| C66 | Request-scoped values | CtxValue | induction over attached values | Props/CtxValue | proved |
| C67 | API results honour their status | ApiRes | case analysis to the wire | Props/ApiRes | partial |
| C68 | Error values are immutable | ApiRes | heap of error values | Props/ApiRes | partial |
| C69 | Static prefix boundary | Static | prefix specification | Props/Static | proved |
| C70 | Static handler closes files | Static | open/close log | Props/Static | partial |
| C71 | Struct binding reaches exactly the named fields | BindStruct | induction over struct shapes | Props/BindStruct | partial |
| C72 | Map binding | Binder | permutation invariance | Props/BindStruct | partial |
| C73 | Request loggers always print the request id | Log | exact line | Props/Log | proved |
| C74 | Static files stay in the directory | Static, Go/Path | cleaned components never climb | Props/Static | proved |
| C75 | Static handler's answers | Static | case analysis | Props/Static | proved |
| C76 | Returned values become the response | ApiRes | case analysis over returned values | Props/ApiRes | partial |
| C77 | Boolean parameters | Binder | characterisation of accepted texts | Props/BindValues | proved |
| C78 | Struct parameters | BindStruct | induction | Props/BindValues | proved |
| C79 | Scalar and pointer parameters | Binder | case analysis | Props/BindValues | proved |
| C80 | A log line is exactly tag, prefix, position, message and trace | Log | exact text | Props/Log | proved |
| C81 | Unmatched requests get the default 404 | App | composition over sequences of configuration calls | Props/App | proved |
| C82 | Filters that leave the response alone are transparent | App | simulation: filters that do nothing | Props/App | proved |
| C83 | A panicking action is answered with 500 | App | composition of C16 with the router | Props/App | proved |
| C84 | Action arguments are the path parameters | Action | argument list from path parameters | Props/Action | proved |
| C85 | Every request acts on its own controller | Action | receivers are copies in a heap | Props/Action | proved |
| C86 | The request log tells what was answered | ReqFilter | trace of the request logger | Props/ReqFilter | proved |
| C87 | Concurrent requests do not disturb each other's injection | InjectConc | interleaving semantics; per-request projection | Props/InjectConc | proved |
| C88 | The exact status line, body and Status() of every response history | Response | exact characterisation over call histories | Props/ResponseExact | proved |
| C89 | Exactly which handler answers a request | Router | `Rep`: the tree represents the registration list; search by induction on the path | Props/RouterExact | proved |
| C90 | Exactly which declarations are accepted | Router | acceptance computed along the same induction as `Rep` | Props/RouterExact | proved |
| C91 | The development error page shows the panic and cannot be hijacked by it | DevPage | decomposition into markup and text; escaping inverted by induction | Props/DevPage | partial |
| C92 | Stack traces | DevPage | induction over frames with the loaded file as invariant | Props/DevPage | proved |
| C93 | What a classic application answers | Classic, Context, ApiRes | shift simulation of chains (Proofs/Chain); one lemma per filter | Props/Classic | proved |
| C94 | LoadClassicFilters | Classic | induction over options | Props/Classic | proved |
| C95 | Where an application's settings come from | Setup, ConfigBind | induction over imports | Props/Setup | proved |
| C96 | List values of the command line | Setup | induction over the list | Props/Setup | partial |
| C97 | Session collection goes on | Setup | induction over the number of collections | Props/Setup | proved |
| C98 | The dummy session store and the map it was made with | Setup | refinement to two maps and a sharing flag, by induction over the program | Props/Setup | proved |
| C99 | What the recovery filter does, exactly | Context | simulation of the chain behind the filter (Proofs/Chain) | Props/ContextExact | proved |
| C100 | Which handler is started when | Context | an automaton over the events, by induction over runs | Props/ContextExact | proved |
| C101 | Keys of a cache are independent | Cache | a locality lemma per backend, then induction over the history | Props/CacheKeys | proved |
| C102 | Caches invent nothing | Cache | invariant: every held value has an origin in the past | Props/CacheKeys | proved |
| C103 | Which signed cookies are accepted, exactly | Cookie | inversion of the decoder; case analysis of the digit loop for the accepted time texts | Props/CookieExact | proved |
| C104 | Cookies signed for one purpose do not serve another | Cookie | accepted time texts (C103) against the possible tails of remember-me values: a base64 group starts with a letter | Props/CookieExact | partial |
| C105 | Sessions of many requests behave as a table of sessions | Session, Cache | refinement: relation between cache views and the abstract table, one lemma per call, induction over the history | Props/SessionWorld | proved |
| C106 | Where an injected value comes from | Model/Inject.lean; the relation `Made` is defined on the history and the recorded calls, not on the cache | by induction on the history the cache holds exactly what was made and not discarded (`cached_made`, `made_cached`), then C22_find_is_nearest | Props/InjectOrigin | proved |
| C107 | What Invoke does exactly | Model/Inject.lean | case analysis on the cache through C106; the arguments by `idep_val` | Props/InjectOrigin | proved |
| C108 | Exactly which types share an injection slot | Model/InjectKey.lean | the key splits uniquely at its first two colons | Props/InjectKey | proved |
| C109 | What the gzip filter does exactly | Model/Gzip.lean | simulation between the writer with and without compression up to body bytes; induction over the operations | Props/Gzip, Props/GzipExact | proved |
| C110 | Uploaded files reach the action | Model/Upload.lean: ParamsParser with a temporary directory, mime/multipart ReadForm with its two budgets | invariant: the directory is the old one plus the new temporary files of the form; induction over the parts | Props/Upload | partial |
| C111 | Requests leave no temporary files | Model/Upload.lean | the invariant of C110 at each failure point; induction over the history | Props/Upload | proved |
| C112 | One upload limit for the whole application | Model/Upload.lean with Model/ConfigBind.lean | exact number acceptance (C52), then induction: a limit other than 0 is never changed | Props/Upload | proved |
| C113 | A JSON body is bound once | Model/Upload.lean bindJsonBody over the state of the body | induction over the calls | Props/Upload | proved |
| C114 | The logger of a context | Model/CtxValue.lean getLogger, withLogger | instance of C66 with induction from the last attachment | Props/CtxValue, Props/CtxValueExact | proved |
| C115 | Exempt removes the filters it names | Model/FilterKind.lean: values, boxing, makeFilter, append, remove | induction over the declaration: functions are compared faithfully, boxed values are pairwise different | Props/FilterKind | partial |
| C116 | Applications and requests keep their filters | Model/AppFilters.lean: applications and requests over the slice heap of Go/Slice | invariant: an application that may append has the longest slice of its array and is the only such one | Props/AppFilters | partial |
| C117 | What Apply does exactly | Model/InjectApply.lean | induction over the fields and levels; completeness at a depth at which every type that can be made is made, and monotonicity in the depth | Props/InjectApplyExact | proved |
| C118 | Coherent applications: injected values fit | Model/InjectTyped.lean: types of values and parameters, assignValue, arguments that do not fit, functions that panic | an invariant on what the caches hold, and a simulation of the untyped model | Props/InjectPanic, Props/InjectTyped | proved |
| C119 | A panicking provider does not damage the injector | Model/InjectTyped.lean | the invariant of C118; simulation by the untyped model for the lookup after the history | Props/InjectPanic | partial |
| C120 | Status codes outside 100-999 | Model/WireCode.lean: the response writer and request processing over a server that refuses codes | exact specification by induction over the calls; simulation by the permissive model for valid codes | Props/WireCode | proved |
| C121 | Cookies are kept from scripts, plain http and other hosts | Model/Jar.lean: cookies with their attributes, the browser's cookie store, the requests of one browser | an invariant relating the store to the sessions given out | Props/Jar | proved |
| C122 | The sessions of a browser | Model/Jar.lean | simulation of the specification by the cookie store, using the round trip of C29 | Props/Jar | proved |
| C123 | Logging out | Model/Jar.lean | the invariant of C122 | Props/Jar, Props/SiteOutage | partial |
| C124 | Converting dynamic values, exactly | Model/ValueConv.lean over Model/Conv.lean | induction on the text for the digit loop; the results of all texts are characterised and shown unique | Props/ValueConv | proved |
| C125 | Map parameters, exactly | Model/BindMap.lean over Model/Binder.lean; JSON decoding and visiting orders are parameters | induction over the loop: the last visited entry of a key stays; binding one text never panics, by induction on types | Props/BindMap | proved |
| C126 | From files and environment to the settings | Model/ClassicEnv.lean: composition of the parser, the file list, ImportConfig and Decode | from the round trip of the parser (C48), the precedence theorems (C46, C49) and the effect of Decode (C50) | Props/ClassicEnv | proved |
| C127 | The parameters of a request, exactly, from its bytes | Model/Query.lean: net/url parseQuery, ParseForm and ParseParams from bytes | loop invariant over the pieces of the text; relation with an independent decoding relation; composition with C53 | Props/Query | proved |
| C128 | What an action's returned values do, exactly | Model/ApiRes.lean: genericOut | case analysis over the last two values, with the response theorem for the calls made | Props/Returns | proved |
| C129 | Values attached to a context, exactly | Model/CtxValue.lean, with MustCtxFindValue | induction over the attachments; injectivity of the key | Props/CtxValueExact | proved |
| C130 | Counters in the caches, exactly | Model/Cache.lean: the three backends | case analysis over what the key holds, with the exact number parsing of Proofs/Num | Props/Counters | proved |
| C131 | RealURL, exactly | Go/Url.lean (net/url), Model/RealUrl.lean | the parser is proved equivalent to the five forms; percent decoding by functional induction | Props/RealUrl | proved |
| C132 | RealURL is the URL the client asked for | as C131, with URL.String | printing and parsing a URL are inverse: escape/unescape round trip, no control characters in printed targets | Props/RealUrl | partial |
| C133 | Cookies survive the wire | Model/Wire.lean: Set-Cookie text, the browser's reader, Cookie header, r.Cookies, r.AddCookie | round trip of each attribute, then a refinement between the history over the wire and the history of Model/Jar with the invariant that stored names are tokens and values cookie octets | Props/Wire | proved |
| C134 | A browser's sessions do not depend on the other browsers | Model/Site.lean: browsers with their cookies, responses under way and open sessions; events; the wire formats of Model/Wire | every cache operation is confined to the ids of the browser (frame and sameness, closed under sequencing), invariant: the jar, the responses under way and the open sessions of a browser name only ids drawn for it; induction over the history with a two-run relation | Props/Site | proved |
| C135 | What a request saves, the browser's next request finds | Model/Site.lean | C134 reduces to the browser alone; collections are transparent (frame of the cache); then step by step through the wire and the cache laws | Props/SiteTrip | proved |
| C136 | Counters add up, whoever counts and in whatever order | Model/Cache.lean | induction over the history with the invariant that the entry of the key holds the sum | Props/CounterSum | proved |
| C137 | Binding parameters to a struct, exactly | Model/BindStruct.lean | recursion over the path of the field, mutual recursion over the tree for the panics | Props/StructExact | proved |
| C138 | Slice parameters, exactly, and when binding panics | Model/Binder.lean | mutual recursion over types; the element list of a slice characterised key by key | Props/SliceExact | proved |
| C139 | Tasks run once, and a worker fails once | Model/Worker.lean | counting invariants: sums over the goroutines of what each has still to submit; an invariant on the errors in sight | Props/WorkerOnce | proved |
| C140 | What is put into a session is what the next request reads | Model/Bson.lean: bson.Marshal/Unmarshal of map[string]interface{} to and from bytes, after mgo's encoder and decoder | mutual structural induction over nested values: decoding the encoder's bytes with enough fuel | Props/Bson | partial |
| C141 | The JSON of an answer says what the program gave | Model/Json.lean: json.Marshal, json.Indent (the byte scanner), the error object; Go/Utf8.lean: UTF-8 | strings piece by piece; the encoder's text as a list of tokens on which the indenting scanner and the lexer are shown to agree; the parser by mutual induction over nested values | Props/Json | proved |
| C142 | Sessions do not share their values with one another or with the program's maps | Model/SessionHeap.lean: maps as objects on a heap, variables and stores hold references to them. | A simulation between the heap and a world in which every store and variable has its own values: no reference has two usable owners; fresh references are new, a write changes only its owner's map, `Create` moves a map. | Props/SessionHeap | partial |
| C143 | Compression and returned results | Model/GzipOut.lean: gzip writers as a stack, the chain of filters with the gzip filter and GenericOutFilter at any place. | Induction over the chain with an invariant that relates what was given to each writer of the stack; simulation with the chain without gzip for the status. | Props/GzipOut | partial |
| C144 | How likely a random string or a session id is, exactly | Model/Rand.lean as for C37 and C39. | Counting residues below 256 by induction, the number of strings as a product, the shape of session ids of C37. | Props/RandCount | proved |
| C145 | Connections taken over by a handler | Model/Response.lean, Model/Context.lean, Model/App.lean as they are. | Invariant of the writer's calls once the flag is set; the chain lemmas of C93/C99 for the handlers behind. | Props/Hijack | proved |
| C146 | Which server stands behind a cache does not show | Model/Cache.lean as it is. | C41's refinements for redis and memcached; for MongoDB the simulation of C41 step by step, with deletion of what has expired as an extra case. | Props/CachePortable | proved |
| C147 | Log lines and traces point at the program's code | Model/CallSite.lean: positions and traces computed from explicit call stacks, feeding Model/Log.lean and Model/DevPage.lean. | C80's line with the stack's frames dropped by the framework's own ones; arithmetic of the depths. | Props/CallSite | partial |
| C148 | Time parameters bind to the moment their text means | Model/TimeParam.lean: nextStdChunk, skip, getnum and the loop of time.parse for the chunks that occur, the list of formats, ParseInt. | Equivalence of each chunk with its grammar, of each format with its grammar, and exclusion by length, the eleventh byte, the number of colons and the fifth byte. | Props/TimeParam | partial |
| C149 | The request log has one readable line per event, whatever the client sends | Model/ReqLine.lean: the texts, the rounding of %0.3f, the settings and the calls of Info on the logger of Model/Log.lean. | The run of the logger over the events; splitting at separators that do not occur in the fields; arithmetic of the rounding. | Props/ReqLine | proved |
| C150 | Routing work is bounded by the declarations | Model/RouteCost.lean: match and its loop with a step counter | erasure of the counter; induction over the path with the number of nodes of the subtree as bound; induction over the declarations for the number of nodes | Props/RouteCost | proved |
| C151 | The redirect to a directory stays on the site and leads to the directory | Model/StaticRedirect.lean: dest.String, url.Parse as far as http.Redirect uses it, path.Clean and the Location header | escaping commutes with splitting and cleaning a path; case analysis on the leading slashes; the round trip of escaping through ParseRequestURI | Props/StaticRedirect | partial |
| C152 | Skipped prefixes are left alone | Model/Static.lean, Model/Router.lean (path splitting) | the names a request can open; the path on the disk of a tidy file is the directory's path followed by the file | Props/StaticSkip | partial |
| C153 | Only clients that can take gzip get it, and caches are told | Model/Gzip.lean; the header's syntax and meaning (RFC 7231 5.3.4) are a specification in Props/GzipAccept.lean | occurrences of gzip in a list of entries are those in the names, since no separator, blank or weight has a byte of it; then C109 | Props/GzipAccept | partial |
| C154 | Clients run only the actions named after HTTP methods | Model/Router.lean (methodAction, chooseAction) | C89 for the answer; the encoding of raised ASCII bytes is a prefix code | Props/MethodName | partial |
| C155 | A link to a route brings its values back | Model/Router.lean (handle), Go/Path.lean, Go/Url.lean | C155_exact by the length of the cleaned path; matching by C01, uniqueness of parameters, C02 | Props/Links | partial |
| C156 | What a guard refuses, nothing behind it sees | Model/Context (run, interp, recovery), Model/App (serve, routeHandle), Model/Router | lockstep induction on the loop of the two chains (with and without what is behind the guard), with the invariant that a run short of the guard ends closed or in front of the guard; lifted to requests through the nested context and to declarations through the exact routing answer | Props/Guard | proved |
| C157 | A session holds what was put there, and nothing else | Model/Bson (Marshal and Unmarshal of globalsign/mgo), Model/Session | the bytes of the forged element are the bytes of three elements, for every position in the document; then the round trip of C140 | Props/BsonKeys | partial |
| C158 | Downloads can be resumed | Model/Download: http.ServeContent (conditions, ranges, headers, pieces) on the response writer, below Model/Static and Model/Gzip; the client is specified. | Shape of every answer (headers, status, pieces), parse of the client's Range text, invariant over the attempts: what the client has is a first part of the version with its date. | Props/Download | partial |
| C159 | Copies that are revalidated are current | Model/Download: If-Modified-Since, Last-Modified, 304. | C159_exact for one visit, then induction over the visits with the invariant that the copy is of an earlier visit's file. | Props/Download | partial |
| C160 | HEAD for static files agrees with GET | Model/Download. | Both requests make the same calls up to the pieces of the body; the gzip writer changes no header of such an answer. | Props/Download | proved |
| C161 | Sessions while the cache calls of requests interleave | Model/SessionFine: requests as processes whose steps are single calls of the cache provider, with faults and times, over any of the caches | (a) invariant: everything stored, or carried by a Regenerate under way, has a saved origin; (b) cache keys are independent (C101), simulation with the filtered history; (c) frame of the other calls | Props/SessionFine | proved |
| C162 | Regenerating a session while other requests use it | Model/SessionFine | invariant along the stages of Regenerate; concrete schedules for the refutations | Props/SessionFine | partial |
| C163 | The answer to a request for a part of a static file | Model/Download: ServeFilter followed by http.ServeContent's treatment of Range and If-Range | parseRange of each of the three written forms by the decimal round trip, then arithmetic | Props/Ranges | partial |
| C164 | A damaged session record is refused | Model/Bson (the record and its reader), Model/Session | the first four bytes of the record are its length, which no cut or continued one has; composed with Read and Start | Props/BsonDamage | proved |
| C165 | An API error is a value | Model/ApiError: the heap of errors with their Body pointers, every call of error.go and the answer of an action, the JSON text of Model/Json | refinement of the heap to a list of values: every object's Body is its own address, data pointers go to older objects; then C141 and C76 | Props/ApiError | partial |
| C166 | What the visitor of a static site gets, for every path | Model/Static, Model/Download, Model/Gzip | case analysis of the disk at the paths tried, C69 and C75, then the shape of the answer through the response writer and the gzip writer | Props/StaticSite | proved |
| C167 | A cache that cannot be reached is not an empty cache | Model/CacheDriver: provider, driver and server apart, a Trouble per call, the pool's history; linked to Model/Cache and the faults of Model/Session by equalities | case analysis of the command, the reply and the trouble; induction over histories for the pool | Props/CacheDriver | proved |
| C168 | The times in the log and in X-Response-Time are the measured ones | Model/ReqTime: float64 conversion, division and %0.3f as integer arithmetic | bounds and monotonicity of rounding to nearest even for arbitrary denominators; the scaling exponent is the least one | Props/ReqTime | proved |
| C169 | An outage of the session cache costs nobody the session | Model/Site with Model/Session's faults | induction over the history: the cache is frozen, the browser's jar is unchanged, responses under way carry no cookies | Props/SiteOutage | proved |
| C170 | A decimal number in a parameter or a setting becomes the nearest float | Model/Float: binary formats, rounding of a ratio to the nearest even, the grammar of ParseFloat, FloatBinder, StrTo | bit patterns are an increasing enumeration of the values; rounding is nearest among the multiples of the last place, and lower binades are further away; overflow exactly at the midpoint; the scanner inverts the grammar | Props/Float | proved |
| C171 | A float32 parameter gets the float32 nearest to the number sent | Model/Float: narrowing of a float64 to float32 | every float32 is a float64; rounding is monotone and fixes representable numbers; counterexamples evaluated in the kernel and compared with the unique nearest float | Props/FloatNarrow | partial |
| C172 | A float parameter is a finite number | Model/Float: the special words of ParseFloat | case analysis of the parser; the words are recognised whatever their case | Props/FloatNarrow | partial |
| C173 | A float survives its text | Model/FloatText: shortest decimal text, fixed precision, Value conversions | the grid of the largest exponent with a hit; every float is exact on the finest grid; monotone rounding excludes hits elsewhere | Props/FloatText | proved |
| C174 | Numbers converted with ValueTo keep their value | Model/FloatText: Num.toFloat, floatToInt | neighbours below 2^53 are whole numbers, so the shortest text of a whole float is its decimal form; a fraction is never hit on a whole grid | Props/FloatText | partial |
| C175 | What every configuration file means | Model/Config.lean (the parser) and Model/ConfigLoad.lean (NewConfiger, loadFile, the error texts); the grammar is an inductive relation (Ini.Means, Ini.Key, Ini.Value), written without the parser's index arithmetic. | Searching lemmas (first and last occurrence) turn the parser's positions into splittings; each line is shown to do what its meaning says, meanings exist and are unique, and induction over the lines gives the file. | Props/ConfigExact | proved |
| C176 | How long each cache keeps a value | Model/Cache.lean (no new definitions). | Frame lemmas: a call that leaves the key alone does not change its entry (in MongoDB it may collect it once expired); then the deadline written by Set is computed. | Props/CacheLife | proved |
| C177 | Typed values through a cache | Model/CacheTyped.lean: Go values as cache values; Model/Cache.lean, Model/Conv.lean, Model/Float.lean, Model/FloatText.lean. | The life time theorem (C176) gives the text; the round trips of integers, booleans and floats give the value. | Props/CacheTyped | proved |
| C178 | Every filter and action sees exactly the values attached to its context before it, and the request logger's logger is found everywhere | Model/ReqContext.lean: Go contexts as chains that may end in a strip context, which embeds a context that can be replaced; lookups with fuel, so that loops are visible | Props/ReqContext.lean: an invariant that ties the chains to lists of attached values; fuel monotonicity gives uniqueness | Props/ReqContext | proved |
| C179 | The global logger's lines: one line per message in production, after the application that adopted it last | Model/GlobalLog.lean: the initial settings of the global logger and those of UseGlobalLogger, as events of the logger model | Props/GlobalLog.lean: the settings after any history, then C80 | Props/GlobalLog | proved |
| C180 | Floats in the JSON of answers come back exactly | Model/JsonFloat.lean: floatEncoder on bit patterns, over the shortest digits of Model/FloatText.lean | Props/JsonFloat.lean: the text is a number by the RFC 8259 reader whose value the shortest digits denote; nearest_unique | Props/JsonFloat | proved |
| C181 | Byte slices in the JSON of answers come back exactly | Model/Json.lean: stdB64, bytesGJ (encodeByteSlice of encoding/json) | Props/JsonBytes.lean: the text denotes the bytes in the sense of RFC 4648, uniquely; none of its characters is escaped; C141 gives the rest | Props/JsonBytes | proved |
| C182 | A time in a session comes back cut to the millisecond, and never changes again | Model/Bson.lean: times as seconds and nanoseconds, element type 9 with milliseconds, the truncating division and normalisation of time.Unix, the case of the zero time | Props/Bson.lean: readTime_ms in the round trip of all values; Props/BsonTime.lean: statement in nanoseconds | Props/BsonTime | proved |
| C183 | Without a positive SessionExpire no session survives the request that made it | as for C31, C33 (Model/Cookie.lean, Model/Session.lean): secsDuration wraps as time.Duration does | Props/SessionOff.lean: round trip of the cookie, then the expiry test; induction over the visits; C176 for what redis keeps | Props/SessionOff | proved |
| C184 | Conditional requests for files: If-Match, If-None-Match and If-Unmodified-Since are honoured although files have no entity tags | Model/CondFile.lean: checkPreconditions in front of Model/Download.lean's serveContent, the scan of entity tags byte by byte | Props/CondFile.lean: an answer is one of three by cases; no round of the scan finds a * in a list of tags, by induction over the rounds; C159 for the contents | Props/CondFile | proved |
| C185 | Logging in with a remember-me cookie: only for whom and for as long as it was written | as for C32, C103 (Model/Cookie.lean) | Props/RememberLogin.lean: C103's exact description of accepted cookies, the time's text is what was signed because the user key is known from the salt; C32 for the round trip | Props/RememberLogin | proved |
| C186 | Assertions in tests fail exactly when they should, end the test, and name the caller's line | Model/Assert.lean: values by kind and whether they are zero, assertions as steps of a test, the position from the call stack | Props/Assert.lean: cases over kinds, induction over the test, C92 for the source line | Props/Assert | proved |
| C187 | Times in answers, sent back as parameters | Model/TimeJson.lean: Time.MarshalJSON on calendar date, clock and offset, digit by digit | Props/TimeJson.lean: the text has the form C148's specification asks for, so C148_exact gives the binding; injectivity from the round trip; the unescaped text has none of the forms | Props/TimeJson | proved |
| C188 | What parameters may be bound into | Model/Dest.lean: the kinds of destinations; the walk over a struct that can not be set | Props/Dest.lean: the walk over an unsettable struct equals the walk over a settable one when nothing inside is written, by mutual induction over the struct tree | Props/Dest | proved |
| C189 | The unified values and their sources | Model/ParamsHeap.lean: calcValues on Go maps whose entries are slices of a shared heap (Go/Slice) | Props/ParamsHeap.lean: each statement refines the statement on values and keeps the arrays apart; induction over statements and loops | Props/ParamsHeap | proved |
| C190 | Binding to structs that point to each other | Model/BindCycle.lean: the recursion with pointerMap over a memory of structs, with the depth as fuel | Props/BindCycle.lean: what is seen is closed under pointers; more depth changes nothing; induction on the unseen structs and, below nil pointers, on accessibility | Props/BindCycle | proved |
| C191 | Binding to types that contain themselves | Model/BindCalls.lean: the calls of Bind made by one call of Bind, for types given by a table | Props/BindCalls.lean: with one value only pointers and slices go on; otherwise the name grows within the length of the longest key | Props/BindCalls | proved |

No property in the list had to be given up as inexpressible. Those that also depend on the Go runtime (real scheduler,
sockets, third-party stores) are proved for the logic of /repo under the stated assumptions.

## Trusted base

1. **Lean 4.33.0's kernel.** No `native_decide`, no `bv_decide`, no compiled evaluation; closed computations are checked by
   the kernel (`decide +kernel`, `rfl`).
2. **Axioms.** No axioms are declared. Every theorem depends on at most `propext`, `Quot.sound` and `Classical.choice` (Lean's
   standard three; `Classical.choice` enters through case distinctions on undecidable propositions and through Lean's own
   library). Mathlib is not imported: the development uses only Lean's core library.
3. **The model's faithfulness to /repo.** The Go code was not compiled or run; definitions were written from the text, each with
   a citation. What is modelled and what is not is listed below.
4. **Assumed behaviour of Go and its library**, written down as definitions in `Verif/Go` and as parameters:
   * `Go/Bytes`: `strings` functions on byte strings (Split, TrimSpace, ToUpper/ToLower, HasPrefix, Index, …). White space is
     exactly the runes of `unicode.IsSpace`; case mapping is modelled for ASCII only (cited where it matters).
   * `Go/Path`: `path.Clean`/`path.Join`. `Go/Strconv`: ParseInt/ParseUint/FormatInt/ParseBool/Atoi for all bit sizes.
     `Go/Enc`: base64 URL encoding, hex, little endian. `Go/Slice`: slices over a heap with an arbitrary growth policy.
   * Time parsing, `fmt` formatting of arbitrary values, `runtime.Caller`, `debug.Stack` and the decoding of JSON request bodies are
     parameters (functions or oracles) of the theorems. ParseFloat and shortest float texts (`Model/Float`, `Model/FloatText`), JSON
     encoding (`Model/Json`) and BSON (`Model/Bson`) are modelled from their documentation and source.
   * HMAC is an arbitrary function of key and message; unforgeability is never assumed: theorems say that an accepted cookie
     carries the MAC of its own content, not that nobody else can compute it.
   * net/http: the underlying ResponseWriter records the first WriteHeader and all Writes; `ParseForm`'s result is described in
     `Model/Params`; `http.Dir` and `ServeContent`, `http.Redirect` are described in `Model/Static` and `Model/StaticRedirect`; one goroutine per request.
   * go 1.13 semantics (go.mod): `recover()` returns nil for `panic(nil)`.
   * sync.RWMutex, WaitGroup, channels and atomic counters behave as sequentially consistent atomic steps.
   * Servers behind the caches: redis GET/SET/EXPIRE/DEL/EXISTS/INCRBY/FLUSHDB, memcached get/set/touch/delete/incr/decr/flush_all with
     its 30-day rule, MongoDB upsert/$inc/remove and the TTL index are modelled as commands on a store with a clock.
   * reflection: `Type.AssignableTo`, method sets and struct fields are data given to the model.

## What is modelled, file by file

| file | modelled | not modelled |
|------|----------|--------------|
| app.go, app_util.go | New, Filter, Routers, NotFound, ServeHTTP, configuration calls in sequence; converters of app_util.go (StrTo, ToStr for integers, bools, strings) | listening itself (Run's address is modelled); Logger/SetLogger/Injector/Provide accessors are one-line wrappers |
| router.go, router_method.go, router_filter.go, router_util.go | everything on the way from declarations to the tree and from a request to the action; filters.append/remove on lists and on a slice heap; method builders on a slice heap | reflection that turns an arbitrary value into a filter (makeFilter: kinds) is an identity in the model |
| router_action.go, router_action_out.go | argument preparation, receiver copy, invocation, ensureHasAction, results | `Out` values other than those of apires are arbitrary programs |
| context.go, response.go, recovery.go, default.go, gzip/ | interpreter of handler chains with nested contexts, response writer, recovery in both modes, output filter, styleStack, Stack and FileSource | the style sheet of the development page |
| config.go, config/ | INI parser, find/name/section/environment precedence, files in order, binding of structs | loading of files from disk (their contents are inputs); error texts |
| inject/ | Provide/ProvideAs/Find/Exists/Invoke/Apply, providers with counters, parents, keys, concurrent requests; assignValue, types and panics of providers | error texts; declared pointer types |
| params/ | merge of sources, binder for scalars, pointers, slices, maps, structs, bools, times, real IP/host/proto/URI ; ParamsParser with uploads, temporary files and its limit, BindJsonBody | encoding/json for request bodies (a parameter) |
| sessions/ | stores, dummy store, GC schedule, providers over an abstract lawful cache, manager cycle, cookies, secure values, remember-me, session ids | the drivers' own GC |
| caches/ | redis, memcached and MongoDB providers as programs over modelled servers; values with lifetimes and types | connection errors (an error leaves the store alone and is reported) |
| log.go, request-logger/ | level gating, flat format, exact lines, request ids, request log filter | colours of the terminal, content filters of LoggerOption |
| static-serve/ | the whole handler over an abstract file system | symbolic links, content types, several ranges in one answer |
| utils/, utils/helpers/ | LoadConfigFiles, LoadClassic and its options, SliceValue; number encoding, random strings, converters, apires, ctx values, worker, floats to and from text and in JSON, byte slices in JSON | Md5, hexadecimal and underscore float texts, MarshalJSON in JSON |

## Bugs of the code found while proving

Every `_violated` theorem in MANIFEST.json is a machine-checked counterexample on the model. The more serious ones: a worker's
`Wait` can miss, lose or drop task errors (C64); a remember-me cookie for a chosen user key can be cut into a session cookie for a chosen session id (C104); the boundary between value and time of a secure cookie is not signed (C30), so a
holder can make it never expire (C31); a signed value without a bar is accepted as a remember-me cookie (C32); a destroyed
session is recreated by another open handle (C34) and a failed flush cannot be retried (C36); a chained base declaration is
overwritten by its sibling (C12); HEAD keeps an older GET handler (C06); an unregistered literal prefix hides parameter routes
(C02); gzip responses without body or with error pages are malformed (C21); memcached timeouts above 30 days are taken as absolute times
(C41); narrow integer parameters wrap (C55); the static fallback file is never closed (C70); a provider function that panics once turns a dependency cycle reported as an error
into unbounded recursion (C119); uploaded files above the memory limit are deleted before the
action can open them (C110).

## Testing the theorems

`seeded/LOG.jsonl` records the wrong programs tried: each line names the definition edited in a scratch copy, the edit, the
claim it breaks, the theorems that failed and, where an edit survived at first, the theorems that were tightened.
