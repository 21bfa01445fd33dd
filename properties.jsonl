{"id": "C01", "title": "Route match soundness", "statement": "If a request is dispatched to a route, the route's full pattern really matches the request path segment by segment: a literal segment equals the path segment, a `:name` segment binds exactly that segment, a `:name:verb` segment binds the segment with the suffix `:verb` removed, a final `*:name` binds the remaining segments joined by '/'; and the parameters handed to the handler are exactly those bindings in pattern order.", "quantifier": "every route tree produced by any sequence of successful registrations, every request path", "why_tests_cant": "the tree and the path are unbounded; the recursive backtracking matcher mixes params of abandoned branches with the final ones", "anchors": ["router.go:(*route).match", "router.go:(*pathParam).matchParamRoute", "router.go:(*routeRoot).handle"]}
{"id": "C02", "title": "Route match completeness", "statement": "If some registered pattern matches the request path, the request is dispatched to some registered route (never to the not-found handlers because of another, unrelated pattern).", "quantifier": "every route tree reachable by registration, every request path", "why_tests_cant": "depends on all combinations of overlapping literal, param and wildcard siblings at every depth", "anchors": ["router.go:(*route).match"]}
{"id": "C03", "title": "Route precedence", "statement": "Among the registered patterns matching a path, at the first segment where they differ a literal beats a parameter, a parameter with custom verb beats a plain parameter, and any of them beats a wildcard, whenever the preferred branch leads to a registered route.", "quantifier": "every reachable route tree, every request path", "why_tests_cant": "needs all overlapping pattern sets and backtracking at every depth", "anchors": ["router.go:(*route).match", "router.go:(*route).configRoutes"]}
{"id": "C04", "title": "Root and path normalisation", "statement": "A request path is matched modulo normalisation: leading/trailing/duplicate slashes, '.' and '..' segments are resolved against '/' before matching, '..' can never climb above the root, no matched segment is empty, '.' or '..' and none contains a '/', and '/' (or anything normalising to it) is served by the root route. Registration paths are normalised by the same function.", "quantifier": "every request path / registration path string", "why_tests_cant": "all strings, including adversarial dot-dot and slash runs", "anchors": ["router_util.go:splitRoutePath", "router.go:(*routeRoot).handle"]}
{"id": "C05", "title": "Method dispatch", "statement": "On the matched route the handler is the one registered for the exact (upper-cased) method; otherwise the All handler if it is a function, or has an action method named after the request method, or has a default action; otherwise the Any handler; otherwise the not-found handlers. Method case never matters.", "quantifier": "every registered method table of a route, every request method string", "why_tests_cant": "combinations of exact/All/Any registrations with controllers of all shapes and any method token", "anchors": ["router.go:(*routeRoot).handle", "router_method.go:method.action"]}
{"id": "C06", "title": "HEAD follows GET", "statement": "A route that has a GET handler and no explicit HEAD registration answers HEAD with the current GET handler.", "quantifier": "every sequence of registrations of a route, every method order", "why_tests_cant": "depends on the registration history, not on one registration", "anchors": ["router.go:(*route).configRoutes"]}
{"id": "C07", "title": "RouteInfo.Path is the registered pattern", "statement": "The RouteInfo.Path given to handlers of a matched request equals '/' joined with the normalised segments of the pattern under which the route was registered ('/' for root), independent of the concrete path.", "quantifier": "every reachable tree, every matched request", "why_tests_cant": "needs the parent chain to be consistent for every tree shape", "anchors": ["router.go:(*route).calcPath", "router.go:(*route).configRoutes"]}
{"id": "C08", "title": "Registration conflicts are rejected", "statement": "Registering a parameter whose name differs from the existing parameters at the same position panics, as does a wildcard that is not last; therefore in every accepted router all parameters at one position of one parent share a single name and no wildcard has descendants.", "quantifier": "every sequence of nested Router declarations", "why_tests_cant": "invariant over all registration histories", "anchors": ["router.go:(*route).configRoutes", "router.go:(*pathParam).set"]}
{"id": "C09", "title": "Registration is cumulative and order independent in its pattern set", "statement": "After registering nested routers the set of served patterns is exactly the previously served set plus the concatenated patterns of the declarations; nothing registered earlier is lost and nothing undeclared is served.", "quantifier": "every registration history", "why_tests_cant": "induction over nested declarations of unbounded depth", "anchors": ["router.go:(*route).configRoutes"]}
{"id": "C10", "title": "Filter inheritance", "statement": "The filters run for a route action are: the filters of the enclosing routers outermost first, then its own, each at most once (by identity, first position kept), minus every filter exempted at the level of the action or of an enclosing router.", "quantifier": "every nesting depth, every list of filters/exempts", "why_tests_cant": "unbounded nesting and multiset of filters", "anchors": ["router_filter.go:filters.append", "router_filter.go:filters.remove", "router.go:(*route).configRoutes"]}
{"id": "C11", "title": "Sibling routes do not share filter storage", "statement": "Declaring filters on one route or method never changes the filter list of another route or method already (or later) configured under the same parent.", "quantifier": "every registration history, every Go slice capacity growth policy", "why_tests_cant": "aliasing of append only shows for particular capacities; needs all capacities", "anchors": ["router_filter.go:filters.append", "router_filter.go:filters.remove"]}
{"id": "C12", "title": "Derived method declarations are independent", "statement": "Chaining Filter/Exempt/Action on a MethodHandler value yields a new declaration and never alters declarations derived earlier from the same base value.", "quantifier": "every chain of builder calls, every slice capacity", "why_tests_cant": "aliasing of append depends on capacity history", "anchors": ["router_method.go:methodParams.Filter", "router_method.go:methodParams.Action"]}
{"id": "C13", "title": "Handlers run at most once and in order", "statement": "In one request context every handler of the chain is started at most once, in chain order, and the final action is started only after all filters have been started.", "quantifier": "every chain, every behaviour of the handlers (calls to Next any number of times, writes, panics)", "why_tests_cant": "handlers are arbitrary programs; re-entrant Next calls", "anchors": ["context.go:(*httpContext).run", "context.go:(*httpContext).Next"]}
{"id": "C14", "title": "A written response stops the chain", "statement": "Once a response has been written by handler i (and it did not itself call Next), no later handler is started by the context; if no handler writes and none panics every handler is started.", "quantifier": "every chain and handler behaviour", "why_tests_cant": "quantifies over all handler programs", "anchors": ["context.go:(*httpContext).run"]}
{"id": "C15", "title": "Onion ordering of Next", "statement": "When handler i calls Next, the part of the chain it starts runs to completion before Next returns, and effects after Next in handler i come after all effects of those handlers.", "quantifier": "every chain and handler behaviour", "why_tests_cant": "nesting depth unbounded", "anchors": ["context.go:(*httpContext).Next"]}
{"id": "C16", "title": "Recovery contains panics", "statement": "With Recovery as first handler no non-nil panic of any later handler escapes the context; the response of such a request is a 500 when nothing had been written before, and what was already written is left untouched otherwise.", "quantifier": "every chain behaviour, every panic point", "why_tests_cant": "every crash point of every handler", "anchors": ["recovery.go:Recovery"]}
{"id": "C17", "title": "Response header is committed exactly once, before the body", "statement": "For any sequence of calls on the response writer, the underlying writer sees WriteHeader at most once, and before the first body byte; the Before callbacks run exactly once, in reverse registration order, immediately before it.", "quantifier": "every sequence of WriteHeader/Write/Flush/Before calls", "why_tests_cant": "all call histories", "anchors": ["response.go:(*responseWriter).Write", "response.go:(*responseWriter).callBefore"]}
{"id": "C18", "title": "Wire status", "statement": "The status code sent is the last code passed to WriteHeader before the first body write, and 200 if there was none.", "quantifier": "every sequence of response writer calls", "why_tests_cant": "all call histories, including Flush before Write", "anchors": ["response.go:(*responseWriter).WriteHeader", "response.go:(*responseWriter).Flush"]}
{"id": "C19", "title": "Status and Size report what was sent", "statement": "Size() equals the number of body bytes accepted by the underlying writer, and once the header has been committed Status() equals the code that was sent.", "quantifier": "every sequence of response writer calls, every short write", "why_tests_cant": "all call histories", "anchors": ["response.go:(*responseWriter).Status", "response.go:(*responseWriter).Size"]}
{"id": "C20", "title": "Every request gets exactly one committed header", "statement": "When ServeHTTP returns normally for a non-hijacked request whose before-callbacks neither panic nor set status 0, exactly one header has been sent to the server. When a panic escapes, ServeHTTP sends nothing beyond what the handlers sent.", "quantifier": "every handler chain", "why_tests_cant": "quantifies over all handler programs", "anchors": ["app.go:(*Strip).ServeHTTP", "context.go:(*httpContext).run"]}
{"id": "C21", "title": "Gzip responses are complete", "statement": "When the gzip filter compresses a response the client receives a single complete gzip stream whose content is the concatenation of all writes, with Content-Encoding: gzip and no Content-Length; requests not accepting gzip are untouched.", "quantifier": "every sequence of writes by later handlers, every Accept-Encoding", "why_tests_cant": "all write sequences and panics", "anchors": ["gzip/gzip.go:All"]}
{"id": "C22", "title": "Nearest provider wins", "statement": "Find/Invoke/Apply resolve a type to the value provided for it in the nearest enclosing injector (self, then parent, ...), and within one injector to the most recently provided one; providing a value replaces the earlier one for all later lookups in that injector.", "quantifier": "every chain of nested injectors, every history of Provide calls", "why_tests_cant": "histories and chain depth unbounded", "anchors": ["inject/inject.go:(*injector).Find", "inject/inject.go:(*injector).Provide"]}
{"id": "C23", "title": "Provider functions run at most once per injector", "statement": "Within one injector a provider function for a type is run at most once between two Provide calls for that type; later lookups return the same value.", "quantifier": "every history of Find/Invoke calls", "why_tests_cant": "all lookup histories with shared dependencies", "anchors": ["inject/inject_provider.go", "inject/inject.go:(*injector).Find"]}
{"id": "C24", "title": "Dependency cycles are reported, lookups terminate", "statement": "Looking up a type whose provider dependency graph is cyclic fails with an error instead of not terminating.", "quantifier": "every provider graph, every lookup history", "why_tests_cant": "termination over all graphs and histories", "anchors": ["inject/inject_provider.go"]}
{"id": "C25", "title": "Missing dependencies are reported", "statement": "A lookup succeeds if and only if every transitively needed type has a provider (and no cycle is involved); otherwise it returns an error and produces no value.", "quantifier": "every provider graph", "why_tests_cant": "all graphs", "anchors": ["inject/inject.go:(*injector).Find", "inject/inject_provider.go"]}
{"id": "C26", "title": "Injection keys identify types", "statement": "Two distinct Go types never share an injection slot.", "quantifier": "all Go types", "why_tests_cant": "the type universe is infinite", "anchors": ["inject/inject.go"]}
{"id": "C27", "title": "Invoke always calls its function", "statement": "Invoke(f) calls f exactly once when all its arguments can be resolved.", "quantifier": "every function type and injector state", "why_tests_cant": "all states and histories", "anchors": ["inject/inject.go:(*injector).Invoke"]}
{"id": "C28", "title": "Apply fills exactly the tagged fields", "statement": "Apply assigns every settable field tagged inject (recursively into embedded/struct fields up to the documented depth) with the value Find would give and leaves every other field unchanged; on error it reports the failing type.", "quantifier": "every struct shape", "why_tests_cant": "unbounded struct trees", "anchors": ["inject/inject.go:(*injector).Apply"]}
{"id": "C29", "title": "Secure cookie round trip", "statement": "decoding an encoded secure value with the same key before it expires returns the original value.", "quantifier": "every value, key and time", "why_tests_cant": "all byte strings", "anchors": ["sessions/utils.go:EncodeSecureValue", "sessions/utils.go:DecodeSecureValue"]}
{"id": "C30", "title": "Secure cookie authenticity", "statement": "A cookie accepted by the decoder carries a value and creation time that were signed together with the key by the encoder (assuming the MAC is unforgeable).", "quantifier": "every byte string presented as cookie", "why_tests_cant": "adversarial inputs", "anchors": ["sessions/utils.go:DecodeSecureValue"]}
{"id": "C31", "title": "Secure cookie expiry", "statement": "A signed value is accepted exactly while now <= created + expiry, and rejected afterwards.", "quantifier": "every creation time, expiry and current time", "why_tests_cant": "all integers, overflow included", "anchors": ["sessions/utils.go:DecodeSecureValue"]}
{"id": "C32", "title": "Remember-me round trip", "statement": "A remember cookie set for (sid/user, psk) is recognised and verified with the same psk and refused with any other, given an injective/unforgeable MAC.", "quantifier": "every id, secret, and cookie string", "why_tests_cant": "adversarial cookies", "anchors": ["sessions/remember.go"]}
{"id": "C33", "title": "Session store behaves as a map", "statement": "Get after a history of Set/Delete/Flush returns the last value set for the key since the last delete; a flushed session read back from the provider has the same contents.", "quantifier": "every history of operations", "why_tests_cant": "all histories", "anchors": ["sessions/provider.go"]}
{"id": "C34", "title": "Destroyed sessions are not resurrected", "statement": "After Destroy, flushing the store does not recreate it in the backend.", "quantifier": "every history after Destroy", "why_tests_cant": "all histories", "anchors": ["sessions/provider.go", "sessions/manager.go"]}
{"id": "C35", "title": "Regenerate preserves contents under a new id", "statement": "Regenerating moves all session values to the new id, and the old id no longer resolves.", "quantifier": "every session content and id", "why_tests_cant": "all contents and histories", "anchors": ["sessions/provider.go", "sessions/manager.go"]}
{"id": "C36", "title": "Failed flush can be retried", "statement": "If saving the session fails, a later flush saves the pending changes.", "quantifier": "every failure point", "why_tests_cant": "crash points", "anchors": ["sessions/provider.go"]}
{"id": "C37", "title": "Session ids", "statement": "A generated session id always has the fixed length and alphabet, and ids generated at different times are different whatever the random source returns.", "quantifier": "every time and random outcome", "why_tests_cant": "all clock values and random bytes", "anchors": ["sessions/utils.go:CreateSid", "utils/rand.go"]}
{"id": "C38", "title": "Number encoding is a bijection", "statement": "NumberDecode(NumberEncode(n, a), a) = n for every n and every duplicate-free alphabet of at least two characters; encodings are distinct for distinct numbers.", "quantifier": "every number and alphabet", "why_tests_cant": "all uint64", "anchors": ["utils/rand.go:NumberEncode", "utils/rand.go:NumberDecode"]}
{"id": "C39", "title": "Random strings stay in the alphabet", "statement": "RandomCreateBytes(n, alphabet) returns n bytes each drawn from the alphabet.", "quantifier": "every n, alphabet and entropy", "why_tests_cant": "all entropy outcomes", "anchors": ["utils/rand.go:RandomCreateBytes"]}
{"id": "C40", "title": "Cache timeouts", "statement": "A Set without timeout or with timeout 0 expires after the default, with positive timeout after that many seconds, with negative timeout never.", "quantifier": "every timeout argument", "why_tests_cant": "all ints", "anchors": ["caches/caches.go:getTimeoutDur"]}
{"id": "C41", "title": "Cache backends behave as a TTL map", "statement": "For each backend Get/Has return the latest unexpired, undeleted Set value of the key and a missed-key error otherwise.", "quantifier": "every history of operations and clock advance", "why_tests_cant": "all histories and times", "anchors": ["caches/provider_redis.go", "caches/provider_mgo.go", "caches/provider_memcache.go"]}
{"id": "C42", "title": "Touch never resurrects or destroys", "statement": "Touch on a live key only changes its deadline; on a missing or expired key it reports a miss and creates nothing.", "quantifier": "every history", "why_tests_cant": "all histories and times", "anchors": ["caches/provider_mgo.go", "caches/provider_redis.go", "caches/provider_memcache.go"]}
{"id": "C43", "title": "Cache garbage collection is transparent", "statement": "Running the collector at any time never changes the result of any later operation.", "quantifier": "every history with GC at arbitrary points", "why_tests_cant": "all interleavings", "anchors": ["caches/provider_mgo.go"]}
{"id": "C44", "title": "Key prefixes isolate caches", "statement": "Operations of a cache with one prefix never affect keys of a cache with another prefix when neither prefix is a prefix of the other, including Clean.", "quantifier": "every history on two caches", "why_tests_cant": "all histories and prefixes", "anchors": ["caches/provider_redis.go", "caches/provider_memcache.go", "caches/provider_mgo.go"]}
{"id": "C45", "title": "Incr and Decr", "statement": "Incr(k,n) then reading returns old value + n, on a missing key a miss is reported, Decr undoes Incr, identically for every backend.", "quantifier": "every history and delta", "why_tests_cant": "all histories and integers", "anchors": ["caches/provider_redis.go", "caches/provider_memcache.go", "caches/provider_mgo.go"]}
{"id": "C46", "title": "Configuration lookup precedence", "statement": "A configuration value comes from the environment if set and non-empty, else from the section itself, else from the nearest parent that has a non-empty value; otherwise it is missing.", "quantifier": "every configuration contents and key", "why_tests_cant": "all nestings", "anchors": ["config/config.go"]}
{"id": "C47", "title": "INI parser totality", "statement": "Parsing any byte sequence returns a configuration or an error, and never panics.", "quantifier": "every byte string", "why_tests_cant": "all inputs", "anchors": ["config/config.go", "config/config_parse.go"]}
{"id": "C48", "title": "INI round trip", "statement": "A configuration written as section headers and key = value lines (values quoted with back quotes when needed) parses back to the same sections, keys and values, the last assignment of a key winning.", "quantifier": "every well-formed configuration", "why_tests_cant": "all configurations", "anchors": ["config/config.go"]}
{"id": "C49", "title": "Later configuration files override earlier ones", "statement": "When several configuration files are loaded each key has the value of the last file defining it.", "quantifier": "every list of files", "why_tests_cant": "all file lists", "anchors": ["config/config_parse.go", "utils/helpers/config.go"]}
{"id": "C50", "title": "Binding missing configuration leaves fields unchanged", "statement": "Binding a struct to a section changes exactly the fields whose key is present.", "quantifier": "every struct and section", "why_tests_cant": "all shapes", "anchors": ["config.go", "utils/helpers/config.go"]}
{"id": "C51", "title": "Number parsing round trip", "statement": "Parsing the decimal form of a number with the converter of its type yields the same number.", "quantifier": "every integer of the type", "why_tests_cant": "2^64 values", "anchors": ["utils/converter.go", "app_util.go"]}
{"id": "C52", "title": "Out-of-range numbers are rejected", "statement": "A numeric string outside the range of the target type is reported as an error, never silently wrapped.", "quantifier": "every numeric string", "why_tests_cant": "all strings", "anchors": ["utils/converter.go", "app_util.go", "params/binder.go"]}
{"id": "C53", "title": "Parameter merge", "statement": "The merged parameters of a request contain, for each key, exactly the query values, the route values and the form values, in that order.", "quantifier": "every request", "why_tests_cant": "all multi-maps", "anchors": ["params/params.go"]}
{"id": "C54", "title": "Slice binding is order independent", "statement": "Binding indexed keys (name[0], name[1], ...) to a slice puts each value at its index, whatever map iteration order Go chooses.", "quantifier": "every key set, every iteration order", "why_tests_cant": "map iteration order is random", "anchors": ["params/binder.go"]}
{"id": "C55", "title": "Integer binding preserves the value", "statement": "Binding a decimal string to an integer field of any width stores that number or fails.", "quantifier": "every string and integer kind", "why_tests_cant": "all values and widths", "anchors": ["params/binder.go"]}
{"id": "C56", "title": "Client address, host and scheme precedence", "statement": "RealIp/RealHost/RealProto return the trusted forwarding header in the documented precedence and otherwise the connection's own value, without port.", "quantifier": "every header set and remote address", "why_tests_cant": "all header combinations, IPv6", "anchors": ["params/real.go"]}
{"id": "C57", "title": "Request ids round trip", "statement": "Decoding a generated request id gives back the time and process id it was generated from; ids generated at different nanosecond instants differ.", "quantifier": "every time and pid", "why_tests_cant": "all 64-bit values", "anchors": ["request-logger/reqid.go"]}
{"id": "C58", "title": "Inbound request ids are kept iff acceptable", "statement": "An inbound request id header is kept iff its length is within the documented bounds; otherwise a fresh acceptable id is generated.", "quantifier": "every header", "why_tests_cant": "all strings", "anchors": ["request-logger/logger.go"]}
{"id": "C59", "title": "Log level gating", "statement": "A message of level L is written iff L is at least as severe as the configured level, for every level setting history.", "quantifier": "every level and history", "why_tests_cant": "all histories", "anchors": ["log.go"]}
{"id": "C60", "title": "Flat log output is one line", "statement": "In flat mode each log call emits exactly one newline, at its end, whatever the message contains.", "quantifier": "every message", "why_tests_cant": "all byte strings", "anchors": ["log.go"]}
{"id": "C61", "title": "Worker concurrency bound", "statement": "At most nums tasks run at the same time.", "quantifier": "every interleaving of RunTask calls, task completions and errors", "why_tests_cant": "all schedules", "anchors": ["utils/worker.go"]}
{"id": "C62", "title": "Worker never panics by closing", "statement": "No schedule of RunTask, Close, and task completion sends on or closes a closed channel.", "quantifier": "every interleaving", "why_tests_cant": "all schedules", "anchors": ["utils/worker.go"]}
{"id": "C63", "title": "Wait waits for all tasks", "statement": "Wait returns only after every task started before it has finished.", "quantifier": "every interleaving", "why_tests_cant": "all schedules", "anchors": ["utils/worker.go"]}
{"id": "C64", "title": "Wait reports task errors", "statement": "If any task returned an error, Wait returns an error.", "quantifier": "every interleaving", "why_tests_cant": "all schedules", "anchors": ["utils/worker.go"]}
{"id": "C65", "title": "Worker progress", "statement": "If tasks terminate, every RunTask and Wait call eventually returns.", "quantifier": "every interleaving, every pool size", "why_tests_cant": "all schedules", "anchors": ["utils/worker.go"]}
{"id": "C66", "title": "Request-scoped values", "statement": "CtxFindValue after a sequence of CtxWithValue returns the most recently attached value of the asked type.", "quantifier": "every sequence of attached values", "why_tests_cant": "all histories", "anchors": ["utils/context.go"]}
{"id": "C67", "title": "API results honour their status", "statement": "The status given to an API result is the status sent; 200 by default; a 204 has no body.", "quantifier": "every result value", "why_tests_cant": "all combinations", "anchors": ["utils/apires/res.go", "utils/apires/raw.go", "utils/apires/error.go"]}
{"id": "C68", "title": "Error values are immutable", "statement": "WithData/WithMsg never change the error they are called on, and keep its identity for EqualAny.", "quantifier": "every chain of derivations", "why_tests_cant": "all chains", "anchors": ["utils/apires/error.go"]}
{"id": "C69", "title": "Static prefix boundary", "statement": "A static handler only ever serves GET/HEAD requests whose path is the prefix itself or continues with '/', and passes every other request on untouched.", "quantifier": "every path, method and prefix", "why_tests_cant": "all strings", "anchors": ["static-serve/static.go"]}
{"id": "C70", "title": "Static handler closes files", "statement": "Every file opened while serving a request is closed when the request ends.", "quantifier": "every request and file system state", "why_tests_cant": "all decision paths", "anchors": ["static-serve/static.go"]}
{"id": "C71", "title": "Struct binding reaches exactly the named fields", "statement": "BindValuesToStruct sets each exported field (including promoted fields of embedded structs and pointers) from the request parameter named by its param tag (or its field name), and changes no other field; an embedded nil pointer is allocated exactly when one of its fields has a parameter.", "quantifier": "every struct shape, tag assignment, initial value and parameter map", "why_tests_cant": "all struct shapes and parameter maps", "anchors": ["params/binder.go:BindValuesToStruct", "params/binder.go:bindStruct", "params/params.go:BindValuesToStruct"]}
{"id": "C72", "title": "Map binding", "statement": "A map parameter `name` receives exactly one entry for each parameter `name[key]`, holding that parameter's first value, in whatever order the parameter map is iterated.", "quantifier": "every parameter map and iteration order", "why_tests_cant": "Go map iteration order is random; all key strings", "anchors": ["params/binder.go:bindMap"]}
{"id": "C73", "title": "Request loggers always print the request id", "statement": "Every line printed by a request logger starts with the tag of the method's severity followed by the bracketed request id, whatever prefix, prefix parser, colour or flat settings were made before.", "quantifier": "every history of settings and calls, every message", "why_tests_cant": "all histories", "anchors": ["log.go:reqLogger", "log.go:print"]}
{"id": "C74", "title": "Static files stay in the directory", "statement": "Whatever the request's path, with any number of '..', '.' or empty segments, every file name a static handler opens lies lexically inside the directory it serves.", "quantifier": "every request path, prefix, directory and option set", "why_tests_cant": "all strings", "anchors": ["static-serve/static.go:ServeFilter", "net/http Dir.Open"]}
{"id": "C75", "title": "Static handler's answers", "statement": "A request under the prefix is answered with the regular file it names; a directory without a trailing slash (and nothing else) is redirected to the path with one; a directory with one is answered with its index.html, or 404; a missing file with the TryFilesThen file, or 404.", "quantifier": "every request, prefix, option set and file system state", "why_tests_cant": "all combinations of paths and file system states", "anchors": ["static-serve/static.go:ServeFilter"]}
{"id": "C76", "title": "Returned values become the response", "statement": "With GenericOutFilter, an action that returns a body (reader, bytes or string), optionally followed by an int, is answered with those bytes and that status (200 without one); an int alone is the status; nothing returned leaves the response alone.", "quantifier": "every list of returned values", "why_tests_cant": "all combinations of result types", "anchors": ["router_action_out.go:GenericOutFilter"]}
{"id": "C77", "title": "Boolean parameters", "statement": "A parameter bound to a bool is true exactly when its first value, without the white space around it and ignoring letter case, is true, on or 1; otherwise, and when absent, it is false; no value makes the binding fail.", "quantifier": "every parameter value and every set of parameters", "why_tests_cant": "all byte strings, including Unicode white space and mixed case", "anchors": ["params/binder.go:BoolBinder"]}
{"id": "C78", "title": "Struct parameters", "statement": "A parameter name bound to a struct gives every exported field that some parameter key name.Field (alone or followed by . or [) is about the value bound under name.Field, and leaves every other field zero, whatever other parameters the request has.", "quantifier": "every struct type, every set of parameters, every iteration order of the maps", "why_tests_cant": "arbitrary field types, nesting, key sets and map iteration orders", "anchors": ["params/binder.go:bindStruct", "params/binder.go:nextKey"]}
{"id": "C79", "title": "Scalar and pointer parameters", "statement": "A string parameter is its first value unchanged; a float or time parameter is what the standard parser gives for the first value and zero when absent (for floats also when empty); a pointer parameter is nil exactly when the parameter is absent and otherwise points to the value bound for its element type.", "quantifier": "every parameter value and set of parameters, every element type", "why_tests_cant": "all values and all types", "anchors": ["params/binder.go:ValueBinder", "params/binder.go:FloatBinder", "params/binder.go:bindPointer"]}
{"id": "C80", "title": "A log line is exactly tag, prefix, position, message and trace", "statement": "After any sequence of settings on a logger (NewLogger or NewReqLogger), an enabled call prints exactly: the severity's tag, the bracketed request id, the prefix last set, the prefix parser's result if a parser is set, and - if SetLine is on and the call's LineOpt does not hide it - the caller position at the logger's depth plus the LineOpt's depth, all in the severity's colour if colours are on; then a blank, the message, and the stack trace if the severity is enabled for traces or the LineOpt asks for it, unless the message is already a PANIC or STACK report.", "quantifier": "all histories of settings and calls, all messages, LineOpts, caller positions and traces, both kinds of logger", "why_tests_cant": "the combinations of ten settings, eight severities and call options over histories cannot be enumerated", "anchors": ["log.go:baseLogger", "log.go:print", "log.go:parseValues", "log.go:NewReqLogger"]}
{"id": "C81", "title": "Unmatched requests get the default 404", "statement": "An application built with New and any interleaving of Filter, Routers and NotFound calls has the not-found handlers of the last NotFound call, the default one if there was none; its global filters are those passed to Filter, each once, in the order of first registration, and its routes are those of the Routers calls in order. A request no route answers, with filters that leave the response alone, is answered as by the not-found handlers alone: by default with exactly one header (404) and the body '404 Not Found', and nothing panics.", "quantifier": "all sequences of set-up calls, all methods and paths that no route answers, all pass-through filters", "why_tests_cant": "the set-up sequences, the request paths and the filter programs are unbounded", "anchors": ["app.go:New", "app.go:Filter", "app.go:Routers", "app.go:ServeHTTP", "router.go:routeRoot.handle", "default.go:defaultNotFound", "router_util.go:handleStatus"]}
{"id": "C82", "title": "Filters that leave the response alone are transparent", "statement": "Filters (global or of the route) that do not touch the response and do not panic, whatever else they do and whether they call Next never, once or several times, do not change the answer to any request: the client gets what the selected action (or the not-found chain) answers on its own.", "quantifier": "all chains of pass-through filters, all actions, all applications and requests", "why_tests_cant": "filters and actions are arbitrary programs and chains have any length", "anchors": ["context.go:run", "context.go:Next", "context.go:newNestContext", "router.go:routeRoot.handle", "app.go:ServeHTTP"]}
{"id": "C83", "title": "A panicking action is answered with 500", "statement": "In an application whose first filter is RecoveryFilter (as installed by LoadClassicFilters) and whose other filters leave the response alone, an action that panics with a value before anything was written, having registered no callbacks, is answered in production mode with one header (500) and an empty body, and the panic does not reach the server; an action that does not panic is answered as without the filter.", "quantifier": "all applications, requests, pass-through filters and actions", "why_tests_cant": "the action is an arbitrary program that may panic at any point", "anchors": ["recovery.go:RecoveryFilter", "utils/helpers/filters.go:LoadClassicFilters", "context.go:run", "app.go:ServeHTTP", "router.go:routeRoot.handle"]}
{"id": "C84", "title": "Action arguments are the path parameters", "statement": "A request answered by a struct controller's method that was declared for the request's HTTP method or with Any calls that method with exactly one argument per method parameter: the i-th is the i-th parameter of the matched pattern converted to the parameter's type (integers: the number when it is decimal notation of a number of that type, 0 otherwise; bool, string, []byte, []string likewise) and the zero value when the path has fewer parameters; extra path parameters are ignored. A method is never called with the wrong number of arguments.", "quantifier": "all applications, requests, method signatures and path parameter texts", "why_tests_cant": "signatures and parameter texts are unbounded", "anchors": ["router_action.go:callStructFunc", "router_action.go:ensureHasAction", "router_action.go:cacheStructAction", "app_util.go:convertStringAsType", "router.go:routeRoot.handle"]}
{"id": "C85", "title": "Every request acts on its own controller", "statement": "However many requests for the same struct controller are served concurrently, each action's receiver is a variable of its own that starts as a copy of the registered controller with the injected fields set; what one action assigns to its fields is never seen by another request, and the registered controller is never changed.", "quantifier": "all controllers registered by value, pointer or nil pointer, all action programs, all interleavings of any number of requests", "why_tests_cant": "schedules and numbers of requests are unbounded", "anchors": ["router_action.go:callStructFunc", "router_action.go:makeRouterController"]}
{"id": "C86", "title": "The request log tells what was answered", "statement": "Wherever the request logger stands in the filter chain and whatever the other handlers do, a request logs at most one REQ_BEG and, after it, at most one REQ_END. If the logger is the first filter (or the first behind the recovery filter), REQ_BEG is always logged, and REQ_END exactly if no panic comes out of the handlers behind it; its status and size are those of the response when the request ends, which are the status and number of body bytes the client got as long as callbacks set no status, nothing is flushed before the first write and WriteHeader is not called after it.", "quantifier": "all chains of handler programs, all positions of the logger, all call sequences on the response", "why_tests_cant": "handlers are arbitrary programs and chains are unbounded", "anchors": ["request-logger/logger.go:ReqLoggerFilter", "context.go:run", "response.go:Write"]}
{"id": "C87", "title": "Concurrent requests do not disturb each other's injection", "statement": "While an application serves any number of requests concurrently, each making any sequence of Provide, Find and Invoke calls on its own injector, and the provider functions have no cyclic dependencies, every request gets from each call exactly the result it would get alone, with the same provider functions called on the same arguments, and a request that keeps being scheduled finishes.", "quantifier": "all applications, all numbers of requests and call sequences, all interleavings of the accesses to the shared provider counters", "why_tests_cant": "schedules, numbers of requests and dependency graphs are unbounded", "anchors": ["inject/inject_provider.go:invoke", "inject/inject.go:Find", "inject/inject.go:Invoke", "app.go:ServeHTTP"]}
{"id": "C88", "title": "The exact status line, body and Status() of every response history", "statement": "For every sequence of calls on a response (WriteHeader, Write, Flush, Before with callbacks that may set the status or panic, Hijack) the status line on the wire, the bytes of the body and the value of Status() are those computed by a small specification: 200 if a Flush comes first; otherwise, at the first Write, the status last set by WriteHeader or by a callback (run last-registered first, stopping at a panic), 200 if none; a callback panic consumes the first Write; later WriteHeader calls change Status() only; the body is every byte the underlying writer accepted.", "quantifier": "all finite sequences of calls, all callbacks, all short writes of the underlying writer", "why_tests_cant": "the number and order of calls and callbacks is unbounded", "anchors": ["response.go: responseWriter.WriteHeader, Write, Before, callBefore, Flush, Hijack, Status"]}
{"id": "C89", "title": "Exactly which handler answers a request", "statement": "For every sequence of Routers calls that does not panic, every request method and every URL path: the request is answered by exactly the handler, action, filters, path parameters and route path that the following search over the declarations (in the order they were made) yields, and by the not-found handler exactly if it yields none. Search: the next path segment is compared with the literal segments first; if one is equal the search continues below it and parameters are tried only if nothing at all was found there; parameters are tried verbs first (most recently declared first), then plain ones in order of declaration; if no pattern was found the wildcard of the place takes the rest. Among the declarations of the pattern found: the last declaration of the method (HEAD without its own: the GET of the first registration declaring GET), then the last All if it can run the action named after the method or has a default action, then the last Any.", "quantifier": "all sequences of Routers calls (any nesting, any path spelling, including wildcards with verbs), all methods, all URL paths", "why_tests_cant": "the answer depends on the whole set of declarations and their order; the space of route trees and paths is unbounded", "anchors": ["router.go: handle, match, matchParamRoute, route, configRoutes", "router_method.go"]}
{"id": "C90", "title": "Exactly which declarations are accepted", "statement": "A sequence of Routers calls panics exactly if, taking the declarations in order, some router path has a wildcard that is not its last segment, or a parameter (wildcard) whose name differs from a parameter (wildcard) already declared at the same place, or a method declaration names an action its controller does not have (including the implied action named after the method, and Any for the last Any declaration of a place); in every other case it is accepted.", "quantifier": "all sequences of Routers calls", "why_tests_cant": "both directions quantify over all declaration trees; a false rejection or a missed conflict shows only for particular combinations of earlier declarations", "anchors": ["router.go: configRoutes", "router_action.go: ensureHasAction", "app.go: Routers"]}
{"id": "C91", "title": "The development error page shows the panic and cannot be hijacked by it", "statement": "Whatever the stack trace contains (file names, function names, source lines), the trace shown on the development error page consists of the page's own tags and of text without angle brackets or quotes; read by a browser the text is the trace. The same holds of the whole page for every panic value.", "quantifier": "all panic values and all stack traces", "why_tests_cant": "source lines and panic messages are arbitrary text; a test sees a few", "anchors": ["recovery.go: RecoveryFilter, styleStack, panicHtml"]}
{"id": "C92", "title": "Stack traces", "statement": "Stack(skip) lists the frames above skip in order, each with file, line and program counter and, exactly if the file can be read, the function's name without package path (centered dots as periods) and the source line with that number, without surrounding blanks; a line of another frame's file is never shown. FileSource gives the line with the number asked for, ??? outside the file, an error if the file cannot be read.", "quantifier": "all call stacks (with non-empty file names), all file contents, all line numbers", "why_tests_cant": "the file of the previous frame is reused; whether that is right depends on the sequence of frames and on which files are readable", "anchors": ["app_util.go: Stack, FileSource, source, function"]}
{"id": "C93", "title": "What a classic application answers", "statement": "In an application set up with LoadClassicFilters (recovery, filters of hooks that leave the response alone and call Next at most once, request logger, result filter), for every action: the action runs with the request logger's callback registered; if it returns normally without setting a status, the calls GenericOutFilter makes for its results are made; if it or the result filter panics with a value, a logger is available and no status is set, the status becomes 500, with the error page as body in development mode; then the request ends with Write(nil). In particular: an action that answers itself is answered with its calls, (bytes or reader, code) with that code and body, an API result with its status and JSON, no result with 200 and no body, a panic with 500 and no body (production).", "quantifier": "all actions (arbitrary programs over the response, with panics), all returned values, all modes, all such filters", "why_tests_cant": "the three filters and the action interact through the response state and panics; all programs are quantified over", "anchors": ["utils/helpers/filters.go: LoadClassicFilters", "recovery.go: RecoveryFilter", "request-logger/logger.go: ReqLoggerFilter", "router_action_out.go: GenericOutFilter", "app.go: ServeHTTP"]}
{"id": "C94", "title": "LoadClassicFilters", "statement": "LoadClassicFilters installs the recovery filter, then calls every hook exactly once, in the order given, with the flag for before all, then installs the request logger and the result filter (each unless it is already installed); the logger's option is the last one given or, without one, the default of the run mode. Hooks are never called with the flag for after all. An option of another type makes it panic before anything has changed.", "quantifier": "all option lists, all hooks (any sequences of Filter, Routers and NotFound calls), all applications", "why_tests_cant": "options can come in any order and number, hooks can do anything", "anchors": ["utils/helpers/filters.go: LoadClassicFilters", "app.go: Filter"]}
{"id": "C95", "title": "Where an application's settings come from", "statement": "For every environment and every sequence of ImportConfig calls (nil configuration systems included) none panics, and each of run path, run mode, HTTP address and HTTP port is what the last imported system that says something non-empty about it says, otherwise the environment variable RUN_PATH, RUN_MODE, HTTP_ADDR or HTTP_PORT if it is not empty, otherwise the default (working directory, prod, 127.0.0.1, 3000). Run listens on address:port.", "quantifier": "all environments, all sequences of ImportConfig calls with arbitrary configuration systems", "why_tests_cant": "a test fixes one environment and one configuration; the precedence must hold for every combination of silent and speaking sources", "anchors": ["config.go: newConfig, Bind, Find", "app.go: ImportConfig, Run", "app_util.go: getEnv, convertStringAsType"]}
{"id": "C96", "title": "List values of the command line", "statement": "Setting a SliceValue to a comma separated text appends its trimmed non-blank parts, so that String and Set are inverse on lists of comma-free non-blank values; Unique keeps each value exactly once at the place of its first occurrence.", "quantifier": "all texts and all lists", "why_tests_cant": "a test sees a few lists; order and uniqueness must hold for all", "anchors": ["utils/helpers/config.go: SliceValue.Set, String, Unique"]}
{"id": "C97", "title": "Session collection goes on", "statement": "GC(d) collects at once and then again and again for ever: consecutive collections are apart exactly d (an hour if d is less than a minute) plus the time the collection took and the delay of the timer, whether or not a collection fails; GC() without argument collects a second time at once and from then on every hour. A session manager is made exactly if the secret key is not empty.", "quantifier": "all intervals, all durations of collections and timer delays, all numbers of collections", "why_tests_cant": "the claim is about an unbounded sequence of timer events", "anchors": ["sessions/manager.go: NewSessionManager, GC"]}
{"id": "C98", "title": "The dummy session store and the map it was made with", "statement": "A dummy store made with a map is that map until the first Clean or Destroy: changes on either side are seen on the other; afterwards the two are independent. A store made with nil starts empty. Get and Has read what was set last and not deleted or cleaned since (also after Destroy), Values answers a copy, Flush and Touch change nothing that can be read, and no other map of the program changes.", "quantifier": "all programs of store calls and changes of the caller's map, all initial maps", "why_tests_cant": "sharing shows only in particular interleavings of calls on both sides", "anchors": ["sessions/store_dummy.go: NewDummySessionStore, dummyStore"]}
{"id": "C99", "title": "What the recovery filter does, exactly", "statement": "With the recovery filter in front of any chain, the response and the escaping panic are determined by what the chain does alone: without a panic it is as without the filter; a panic after something was written leaves the response as it is and is swallowed; a nil panic, or any panic when no Logger can be found, is swallowed and the handlers not started yet run without protection; any other panic is answered with status 500 and, in development mode, the error page, whose write escapes only by a panic of a registered callback.", "quantifier": "all chains of handlers (nested contexts, repeated Next, own recoveries included), all panic values, with and without logger, both modes, all response states and callbacks", "why_tests_cant": "all chains and all points of panic", "anchors": ["recovery.go: RecoveryFilter", "context.go: Next, run", "response.go"]}
{"id": "C100", "title": "Which handler is started when", "statement": "A context moves on whenever Next is called and whenever a handler returns. After each move the handler whose number is the number of moves so far is started at once, unless there is none left or the move was a return with the response written; no handler is ever started otherwise. In particular a handler of the chain is started if and only if the move with its number was made by the start of the request, a call of Next, or a return with nothing written.", "quantifier": "all chains of handlers and all their behaviours, panics included", "why_tests_cant": "the position of a context depends on the whole history of Next calls, returns and recovered panics", "anchors": ["context.go: Next, run, handler"]}
{"id": "C101", "title": "Keys of a cache are independent", "statement": "On each backend and from any state, the results of the calls naming one key are the same as if the calls naming other keys had not been made.", "quantifier": "all histories of cache calls at all times, all backends, all key prefixes, all initial states", "why_tests_cant": "all histories and interleavings of keys", "anchors": ["caches/provider_redis.go", "caches/provider_memcache.go", "caches/provider_mgo.go"]}
{"id": "C102", "title": "Caches invent nothing", "statement": "A value that Get reports for a key was stored by a successful Set of that very value under that key, or is the result of a successful Incr or Decr of that key; since then the cache was not cleaned, and the key was neither deleted nor set again (except by calls that reported an error).", "quantifier": "all histories of cache calls from an empty store with times that do not go back, all backends", "why_tests_cant": "all histories", "anchors": ["caches/provider_redis.go", "caches/provider_memcache.go", "caches/provider_mgo.go"]}
{"id": "C103", "title": "Which signed cookies are accepted, exactly", "statement": "A signed cookie value is accepted exactly when its base64 content is three comma separated fields carrying an escaped non-empty value, a positive time and the MAC of value and time under the key; the session id and the remembered user of a request are what the last cookie of that name so carries, as long as the time plus the configured expiry (in 64-bit nanoseconds) has not passed; a user key is valid exactly when its hash carries it under the salted key.", "quantifier": "all cookie values, cookies of a request, keys, MAC functions, configurations and clock readings", "why_tests_cant": "the set of accepted byte strings is infinite and the interesting members (odd spellings of numbers, junk, clamped times) are not the ones a test writes down", "anchors": ["sessions/utils.go: DecodeSecureValue, isExpired, getCookie", "sessions/manager.go: ReadSidFromRequest", "sessions/remember.go: HasRemember, ValidRemember"]}
{"id": "C104", "title": "Cookies signed for one purpose do not serve another", "statement": "If the MAC cannot be forged, every session id (of the manager's length) accepted from a cookie was issued by the server in a session cookie, at that time; in particular remember-me cookies, which are signed with the same key, cannot be turned into session cookies.", "quantifier": "all presented cookie values and all histories of issued session and remember-me cookies", "why_tests_cant": "it is a statement about every value an attacker may construct from everything the server ever signed", "anchors": ["sessions/utils.go: EncodeSecureValue, DecodeSecureValue", "sessions/remember.go: createRememberCookieValue, WriteRemember", "sessions/manager.go: WriteSessionCookie, ReadSidFromRequest"]}
{"id": "C105", "title": "Sessions of many requests behave as a table of sessions", "statement": "For any number of open session stores of the same or different sessions, everything the callers see (the session read by id, the values in a store, the results of flush) is what a simple table says in which each session id has values with a deadline: opening copies the values, a flush of a changed, undestroyed store replaces all of them (so that of concurrent requests the last flush wins as a whole), destroy removes them, touch renews the deadline, regenerate moves them; a flush that fails is not repeated by the next flush; calls that fail on the way change nothing, calls whose answer is lost have their effect.", "quantifier": "all histories of calls on all numbers of stores, all failures of cache calls, all times (not going back), every session cache", "why_tests_cant": "all interleavings of requests and all failure points", "anchors": ["sessions/provider.go: sessData, sessProvider", "caches/provider_redis.go", "caches/provider_memcache.go", "caches/provider_mgo.go"]}
{"id": "C106", "title": "Where an injected value comes from", "statement": "For every history of Provide, SetParent, Find and Invoke calls: if some earlier lookup in an injector made a value for a type and nothing discarded it since (a new provider for the type given to this injector, or a successful Invoke there of a function with that result type), then Find gives exactly this value and calls nothing, even if a nearer or newer provider exists in a parent by now; otherwise Find gives the value of the nearest provider, or the result of its function, called now as the last call. Arguments of provider functions are obtained in the same way. Find succeeds exactly when the type can be made this way.", "quantifier": "all histories of injector calls over any number of injectors and types, all nesting depths", "why_tests_cant": "the answer depends on the whole history of lookups and overrides across injectors", "anchors": ["inject/inject.go", "inject/inject_provider.go"]}
{"id": "C107", "title": "What Invoke does exactly", "statement": "Invoke of a function whose result type was made earlier in the injector (and not discarded) does not call the function: it returns the old value and discards it. Otherwise, if Invoke succeeds its function was called exactly once, after all providers it needed, with the values its argument types have in this injector, its result is returned and nothing is kept for its type; if Invoke fails the function was not called.", "quantifier": "all histories, injectors, functions, nesting depths and results", "why_tests_cant": "which case applies depends on the history", "anchors": ["inject/inject.go", "inject/inject_provider.go"]}
{"id": "C108", "title": "Exactly which types share an injection slot", "statement": "Two requests (or providers) address the same slot exactly when their slot names agree and their types, after removing pointers, are declared with the same name in the same package, or are both unnamed.", "quantifier": "all pairs of Go types with any number of pointers, all slot names", "why_tests_cant": "infinitely many types; the key is a concatenation of strings and could be ambiguous", "anchors": ["inject/inject_provider.go"]}
{"id": "C109", "title": "What the gzip filter does exactly", "statement": "The gzip filter never changes the status line nor Status(), for every sequence of operations of later handlers and anything done afterwards. If 'gzip' occurs anywhere in Accept-Encoding: the headers sent are those in force at the first write or flush, starting with Content-Encoding: gzip and Vary: Accept-Encoding, for a write without Content-Length and with a detected Content-Type unless one is set; the body is what was sent before plus one complete stream of all data written, or nothing if no handler writes. Otherwise body and headers are untouched.", "quantifier": "all sequences of writes, statuses, flushes and header changes; all Accept-Encoding values; any lawful codec", "why_tests_cant": "depends on the interleaving of operations; a lawful codec is an infinite-state object", "anchors": ["gzip/gzip.go", "response.go"]}
{"id": "C110", "title": "Uploaded files reach the action", "statement": "Every file of a multipart request that ParamsParser accepted is listed in Params.Files, in order, and the action can open it and read exactly the uploaded bytes.", "quantifier": "all multipart bodies, memory limits, temporary-directory behaviours and earlier contents", "why_tests_cant": "The provider removes temporary files in a deferred call that runs before the action; whether a file survives depends on its size, on the sizes of all files before it and on the configured limit. Tests upload a few small files.", "anchors": ["params/params.go"]}
{"id": "C111", "title": "Requests leave no temporary files", "statement": "When ParamsParser returns, the temporary directory is exactly as before the request, whatever was uploaded and wherever parsing failed, for every history of requests.", "quantifier": "all histories of requests, all failure points (malformed body, value limit, failing disk)", "why_tests_cant": "Leaks happen at failure points in the middle of a body with several large files; tests see one request.", "anchors": ["params/params.go"]}
{"id": "C112", "title": "One upload limit for the whole application", "statement": "The memory limit for uploads is the positive 64-bit decimal number configured as max_memory, 32 MB if there is none; the configuration seen by the first request decides, and all later requests use the same limit.", "quantifier": "all configurations of all requests and all histories", "why_tests_cant": "The limit is cached in a closure with 0 as the not-yet-read mark; tests do not vary configurations over a history, nor malformed, zero, negative or too large numbers.", "anchors": ["params/params.go", "config.go", "app_util.go"]}
{"id": "C113", "title": "A JSON body is bound once", "statement": "Of the BindJsonBody calls during a request the first gets the first JSON value of the body and reports the error of the decoder with at most 512 bytes of the body; every other call, and the first for an empty body, leaves its variable alone and reports success.", "quantifier": "all bodies, decoders, sequences of calls", "why_tests_cant": "Only sequences of calls show that later calls silently do nothing.", "anchors": ["params/params.go"]}
{"id": "C114", "title": "The logger of a context", "statement": "helpers.GetLogger(ctx) returns the logger attached last, by helpers.WithLogger or by the request log filter, whatever else is attached to the context and in whatever order, and the global logger when none was attached.", "quantifier": "all sequences of attached values of any named types, under any names", "why_tests_cant": "Keys are built by gluing package path, type name and extra name; only a statement over all sequences of attachments excludes that another value hides or replaces the logger.", "anchors": ["utils/helpers/log.go", "utils/context.go", "request-logger/logger.go"]}
{"id": "C115", "title": "Exempt removes the filters it names", "statement": "Filter(x) adds the filter x at most once, Exempt(x) removes it wherever in the declaration it was added, and every other filter stays, in order; a declaration panics exactly if something that is neither a function nor an inject.Provide is given.", "quantifier": "all declarations with any number of Filter and Exempt, all kinds of filter values", "why_tests_cant": "Filters are compared as reflect.Values; what == means there depends on how each kind of value is boxed. Tests use top-level functions only.", "anchors": ["router_filter.go", "router_util.go", "router.go"]}
{"id": "C116", "title": "Applications and requests keep their filters", "statement": "Every application has exactly the filters added to it (or copied to it by ReplaceFilters and added since), and a request runs with the filters its application had when it arrived, whatever filters are added later to this or another application.", "quantifier": "all histories of Filter, ReplaceFilters and requests on any number of applications, all growth policies of append", "why_tests_cant": "Filter lists are slices whose backing arrays may be shared; damage depends on spare capacity and on the order of later calls.", "anchors": ["app.go", "app_util.go", "router_filter.go", "context.go"]}
{"id": "C117", "title": "What Apply does exactly", "statement": "Apply succeeds exactly when the types of all settable inject-tagged fields (down to two struct levels below the top) can be made from the providers in reach and what was made before. Then each such field has the value made before for its type, or else what the nearest provider gives (unless it cannot be assigned, when it keeps its value), and everything else is as before. Otherwise it stops at the first tagged field whose type cannot be made: fields before it are filled, that one and everything after is unchanged.", "quantifier": "all histories of Provide/Find/Invoke/SetParent, all struct shapes and nestings", "why_tests_cant": "structs, provider graphs and histories are unbounded; a failing Apply in the middle of nested structs is not tested", "anchors": ["inject/inject.go", "inject/inject_provider.go"]}
{"id": "C118", "title": "Coherent applications: injected values fit", "statement": "If whatever is offered for a slot (type and name) can be assigned to everything that asks for that slot, the values provided are pointers and no provider function panics, then no call of the injector panics and every successful Find sets its variable. Whatever the history, functions are only called with arguments that can be assigned to their parameters. Exists never calls anything: it fails exactly when no provider is in reach. A history without panics gives the results of the model without types.", "quantifier": "all histories of Provide/ProvideAs/Find/Invoke/SetParent/Exists, all types and every assignability relation", "why_tests_cant": "the slot is found by type name and the value assigned by reflection: whether they agree is checked only at run time, for every graph of providers", "anchors": ["inject/inject.go", "inject/inject_provider.go"]}
{"id": "C119", "title": "A panicking provider does not damage the injector", "statement": "After provider functions panicked (and the panics were recovered) the injector works as before: nobody gets the value of a call that panicked, what can be made is found (unless a function panics again), what cannot be made is reported as an error.", "quantifier": "all histories, all graphs of providers, every pattern of panicking calls", "why_tests_cant": "which call panics and what is looked up afterwards is unbounded; no test has a panicking provider", "anchors": ["inject/inject.go", "inject/inject_provider.go"]}
{"id": "C120", "title": "Status codes outside 100-999", "statement": "With a server that, like net/http, refuses status codes that do not have three digits by a panic, for every sequence of calls on a response the status line, the body and Status() are those of a small specification: the client never sees an invalid code; the first Write panics exactly if a callback panics or the code is refused (not after a Flush, not on a hijacked connection), sends nothing then, and the next output is sent with 200. A request whose handlers mention only valid codes is answered as by a server that accepts everything. A request that ends with an invalid code and nothing written is not answered: the panic of the final write escapes, behind the recovery filter; if the action writes after setting an invalid code, the recovery filter swallows the panic and the client gets an empty 200.", "quantifier": "all finite sequences of calls, all callbacks, all handler programs and chains, all codes", "why_tests_cant": "codes come from handlers and action results; the panic arises in a deferred commit at any later call", "anchors": ["response.go: responseWriter.Write", "app.go: ServeHTTP", "recovery.go: RecoveryFilter"]}
{"id": "C121", "title": "Cookies are kept from scripts, plain http and other hosts", "statement": "Whatever requests a browser makes to the hosts of an application (Start, Destroy, Regenerate, WriteRemember, DestroyRemember), the cookies it holds are HttpOnly, for all paths, and Secure exactly if configured (then nothing is sent over plain http); session cookies belong to CookieDomain, or to the one host if none is configured; remember cookies always belong to one host; no request carries two session or two remember cookies.", "quantifier": "all sequences of requests at all hosts, times and paths, all cache faults, all configurations", "why_tests_cant": "which cookies a browser holds depends on the whole history of responses", "anchors": ["sessions/manager.go", "sessions/remember.go", "sessions/config.go"]}
{"id": "C122", "title": "The sessions of a browser", "statement": "The session id a request of a browser gets is that of a small specification: each group of hosts (one host, or the hosts within CookieDomain) has at most one session; Start gives it while it lives, that is for SessionExpire seconds from its creation (inclusive), and for less than CookieExpire seconds if that is positive - use does not prolong it - and makes a new one otherwise; Regenerate makes a new one (or panics, if the cache fails, and changes nothing); Destroy ends it; a secure session is not seen over plain http.", "quantifier": "all sequences of requests of one browser, at all hosts and times, with all cache faults", "why_tests_cant": "the id depends on all earlier responses, the clock and the host", "anchors": ["sessions/manager.go: Start, Destroy, Regenerate, WriteSessionCookie, ReadSidFromRequest"]}
{"id": "C123", "title": "Logging out", "statement": "After Destroy in a request that belongs to a session the browser sends no session cookie to any host that shared it, and after DestroyRemember no remember cookie: no host of the application takes the user for logged in.", "quantifier": "all histories of requests, all hosts, all configurations", "why_tests_cant": "depends on which cookies earlier responses left in the browser", "anchors": ["sessions/manager.go: Destroy", "sessions/remember.go: DestroyRemember, WriteRemember"]}
{"id": "C124", "title": "Converting dynamic values, exactly", "statement": "Every method of utils.StrTo and of utils.ValueTo that converts to an integer returns, for every value, what the specification says: text that is a numeral of a number of the type gives the number; numerals outside give the nearest number of the type and a range error; text that begins with too large a number followed by junk gives a bound and a range error; anything else zero and a syntax error. Integers of other types convert if they fit. Bool takes booleans, the integers 0 and 1 and twelve texts (and \"on\"). String is the text, the numeral, \"true\"/\"false\" or empty for nil. The Must methods drop the error, MustBytes and MustSliceString do not convert, and the argument lists return the i-th argument, else the default, else the zero value.", "quantifier": "all values and texts of any length, all ten integer types, all indices and defaults", "why_tests_cant": "the domain is infinite and the interesting points are the bounds of ten types", "anchors": ["utils/converter.go", "utils/converter_value_to.go"]}
{"id": "C125", "title": "Map parameters, exactly", "statement": "Binding a parameter to a map (bool, string or integer keys; any values, also maps) takes the entries of the JSON object in the parameter's first value, or, if that is empty or absent, of the parameters name[key], first value each. The map has a key exactly if some entry's key text converts to it; its value is the bound text of such an entry - of the only one, for string keys and wherever only one text converts to the key. Binding panics exactly if some name[key] has an empty list of values and the parameter itself no text. In JSON, a whole number bound to an integer is kept below a million; from a million on it is bound as zero, because it is printed as 1e+06.", "quantifier": "all parameters, all orders in which Go visits the maps, all texts, all nestings of maps", "why_tests_cant": "all parameter maps and all iteration orders", "anchors": ["params/binder.go:bindMap"]}
{"id": "C126", "title": "From files and environment to the settings", "statement": "After LoadConfigFiles (LoadClassicEnv) each field of the caller's struct that has a configuration name holds what its type reads from the setting of that name, and any other field is unchanged. The setting is the environment variable if not empty, else the last non-empty value among the files: default, application, override, in each directory without and with the run mode, then the additional files; missing and malformed files are skipped. Run path, run mode, address and port of a new application come from the environment, else the files, else the defaults. The run mode in the file names is the environment's: one set in a file selects no files.", "quantifier": "all files (any number of lines, quotings, comments), environments, directories, struct shapes and earlier values", "why_tests_cant": "composition of parser, file order, environment and reflection over all files", "anchors": ["utils/helpers/config.go:LoadConfigFiles", "config/config.go", "config/config_parse.go", "app.go:ImportConfig"]}
{"id": "C127", "title": "The parameters of a request, exactly, from its bytes", "statement": "For every query string and body: pieces are cut at & (and ; for Go before 1.17), empty ones are ignored, each is cut at its first =, + is a blank and %XX a byte. A request that is not a form has, for each key, the well-formed query values in order and then the route's; malformed pieces are dropped. A url-encoded form has the query's, the route's, the body's (POST, PUT, PATCH only) and the query's again; a multipart form the query's, the route's and the form's; if the query or body is malformed, unreadable or (url-encoded) above 10 MB a form request has no parameters at all, not even the route's. Any pairs escaped by a client are read back unchanged. A scalar parameter is the query's value if there is one, else the route's, else the body's: a query parameter hides a route parameter of the same name.", "quantifier": "all bytes of query and body, methods, content types, route parameters and keys", "why_tests_cant": "all texts, all escapings, all combinations of sources", "anchors": ["params/params.go:ParseParams", "params/binder.go"]}
{"id": "C128", "title": "What an action's returned values do, exactly", "statement": "With GenericOutFilter, for every list of returned values: none leaves the response alone; an int alone is the status with an empty body; the last value, or the one before a last int, is the body: readers, byte slices and strings held in interfaces are copied with that status (200 without), nil and values of other types give an empty body, results and http.Handlers make their calls after the status was set; a string, number or struct there panics with nothing sent, as does a last int 0. All other values are ignored. In particular the documented func() string always panics.", "quantifier": "all lists of returned values of all kinds, all callbacks registered before", "why_tests_cant": "all combinations of result types", "anchors": ["router_action_out.go:GenericOutFilter", "response.go"]}
{"id": "C129", "title": "Values attached to a context, exactly", "statement": "For every sequence of CtxWithValue calls and every argument of CtxFindValue and MustCtxFindValue: attaching panics exactly for values that are not pointers, are pointers to pointers to pointers or point to basic types; looking by such a value or by a nil pointer panics; otherwise the last value attached under the same package path, type name and extra name decides: none - CtxValueNotFound (a panic of MustCtxFindValue); a nil pointer - nothing changes and no error; the same type - the value is copied or the pointer set; a nil pointer inside, asked for as a value, or another type with the same names - a panic. Unnamed types all have the same names.", "quantifier": "all sequences of attached values, types, extra names, arguments", "why_tests_cant": "all histories and all pointer shapes", "anchors": ["utils/context.go"]}
{"id": "C130", "title": "Counters in the caches, exactly", "statement": "For every contents of the server, key and parameter list, Incr and Decr of the redis, memcached and MongoDB caches change at most the one key under the prefix. redis: a missing key becomes the amount (minus it for Decr) without an expiry, the canonical decimal text of a 64-bit number becomes that of the sum, and any other text or a sum outside 64 bits is an error that changes nothing. memcached: a missing key is an error; digits of a number below 2^64 followed by blanks become the digits of the sum modulo 2^64 (for Decr the difference, but not below 0), padded with blanks to the old length; anything else is an error. MongoDB: a missing document is an error, an integer becomes the sum if 64 bits hold it, anything else is an error, expired or not. The deadline of the entry is never changed. The amount is the first parameter, 1 without.", "quantifier": "all contents, times, keys, prefixes, parameter lists", "why_tests_cant": "all amounts, all stored texts and all 64-bit boundaries", "anchors": ["caches/provider_redis.go", "caches/provider_memcache.go", "caches/provider_mgo.go"]}
{"id": "C131", "title": "RealURL, exactly", "statement": "For every request, RealURL gives a URL exactly when its target - the X-Original-URI header, else the URL's RequestURI - has no control characters and is *, /path?query, scheme:/path?query, scheme://authority/path?query with an acceptable authority, or scheme:opaque?query, with a path whose % signs begin two hexadecimal digits. The opaque part, decoded path and query of the result are those of the target, its host is RealHost, its scheme RealProto; the user information, encoded path (RawPath) and ForceQuery remain those of the request's own URL. The reading is unique.", "quantifier": "all requests: all header values, hosts and URLs", "why_tests_cant": "all byte strings as targets and all forms of URIs", "anchors": ["params/real.go:RealURL", "params/params.go:RealURL"]}
{"id": "C132", "title": "RealURL is the URL the client asked for", "statement": "RealURL of every request the server accepted is the URL the client asked for: scheme, host and the target as sent.", "quantifier": "all request targets the server accepts, all headers", "why_tests_cant": "all byte strings as targets", "anchors": ["params/real.go:RealURL"]}
{"id": "C133", "title": "Cookies survive the wire", "statement": "With cookie names that are tokens and a cookie domain that is empty or a domain name in lower case (perhaps with a leading dot), what the session manager sets is what the browser stores and sends back: for every sequence of requests, every cache and every fault, the history through Set-Cookie texts, a browser's RFC 6265 parser, Cookie headers and r.Cookies() is the history with the cookies passed directly, so the browser and the application agree about the session (C122). Signed values need no quoting; a cookie added to the request is read after it and hides none. Whatever the headers are, only token names and printable values are seen. With a CookieName that is no token every Start makes a new session and no cookie is sent; with a CookieDomain holding other characters the cookie is for the one host.", "quantifier": "all histories of requests of a browser, all caches, faults and configurations; all cookies; all header lines", "why_tests_cant": "all histories and all byte strings in headers", "anchors": ["sessions/manager.go:WriteSessionCookie,Destroy,ReadSidFromRequest", "sessions/remember.go:WriteRemember,DestroyRemember", "sessions/config.go:CookieConfig"]}
{"id": "C134", "title": "A browser's sessions do not depend on the other browsers", "statement": "Any number of browsers use one site with one session cache; their requests, the responses on their way to them, the uses of the sessions opened for them and the collections are interleaved in any order, with any faults. If no id drawn for a browser is also drawn for another one, then everything the requests of the browser see - the ids they get, errors and panics, the values of the sessions, the results of Flush, Touch and Destroy - and the cookies it holds are what they would be if the other browsers did not exist. This holds for redis, memcached and MongoDB. When an id is drawn twice, a browser can see the values of another.", "quantifier": "all histories of any number of browsers, interleaved in any way, all faults, configurations, converters, all caches with independent keys", "why_tests_cant": "all interleavings of any number of browsers", "anchors": ["sessions/manager.go:Start,Destroy,Regenerate,ReadSidFromRequest,WriteSessionCookie", "sessions/provider.go:sessData,provider", "sessions/remember.go:WriteRemember,DestroyRemember"]}
{"id": "C135", "title": "What a request saves, the browser's next request finds", "statement": "The first request of a browser starts a session, modifies it any number of times (Set, Delete, Clean) and flushes it; the response arrives; the second request of the browser, to a host of the same group, over https if cookies are secure, within CookieExpire and SessionExpire, starts a session. Then the flush reports no error, the second request gets the same id, and Get gives for every key exactly the last thing said about it - with redis, memcached or MongoDB, over the Set-Cookie and Cookie headers, whatever any number of other browsers do in between and whenever sessions are collected.", "quantifier": "all lists of modifications, keys, times and hosts in range, all interleavings with other browsers and collections, all faithful converters", "why_tests_cant": "all histories and interleavings end to end", "anchors": ["sessions/manager.go:Start,WriteSessionCookie,ReadSidFromRequest", "sessions/provider.go:sessData,Read,save"]}
{"id": "C136", "title": "Counters add up, whoever counts and in whatever order", "statement": "With redis or MongoDB, when a key holds a number and until it expires, after any history of calls by any number of clients - Incr and Decr of the key with any amounts, reads of it, anything at all on other keys, collections - that never empties the cache, every Incr and Decr of a non-zero amount reported success and Get gives the number it held plus everything added minus everything taken away, as long as the numbers stay in the 64-bit range; so any other order of the same calls gives the same number. With memcached the order matters, because Decr stops at 0.", "quantifier": "all histories of cache calls and all their permutations, all start values and amounts", "why_tests_cant": "all interleavings of all clients", "anchors": ["caches/provider_redis.go:Incr,Decr,Get", "caches/provider_mgo.go:Incr,Decr,Get", "caches/provider_memcache.go:Incr,Decr"]}
{"id": "C137", "title": "Binding parameters to a struct, exactly", "statement": "BindValuesToStruct panics exactly when the binder of a field that takes part panics, or when an unexported embedded pointer that takes part has a parameter for a plain field of its struct. Otherwise every plain field that is exported, not tagged \"-\", not below something tagged \"-\" and not below a nil pointer that stays nil gets exactly what the binder of its type makes of the parameter it is called after (present or not); every other plain field stays; an embedded nil pointer is allocated exactly when it takes part, is reached and a plain field of its struct has a parameter, and no pointer becomes nil; nothing else changes, and these facts fix the whole result.", "quantifier": "all struct types of any nesting of embedded structs and pointers, all current values, all requests, all orders in which maps are visited", "why_tests_cant": "all struct shapes and requests", "anchors": ["params/params.go:BindValuesToStruct,bindValuesToStruct"]}
{"id": "C138", "title": "Slice parameters, exactly, and when binding panics", "statement": "Binding a parameter to a value of any type (scalars, times, pointers, slices and structs, nested in any way) panics exactly when some slice that is reached has a key name[index] whose index is at least the largest length a slice can have - in whatever order the maps are visited, and for no other reason. A slice that is bound has first a part just long enough for the indexes of the keys, holding at each position what the element's binder makes of one of the keys with this index, or the zero value if no key has it; and then the values and files whose keys have no index, each bound on its own, key by key in some order.", "quantifier": "all types, requests, names and iteration orders of maps", "why_tests_cant": "all requests and all iteration orders", "anchors": ["params/binder.go:bindSlice,Bind,bindStruct,BindValue"]}
{"id": "C139", "title": "Tasks run once, and a worker fails once", "statement": "On one worker, whatever goroutines do with it and however they are interleaved: no task is started more often than it was submitted; if the worker was never closed (by Close or by a task's error) and every goroutine is over, every submitted task was started exactly once, including tasks submitted by tasks. All errors that calls of Wait ever return are one and the same error, and none is returned while the worker is open. A call of Close, and the goroutine of a failing task, leave the worker closed; a closed worker stays closed and starts no task except for the calls of RunTask that had already found it open.", "quantifier": "all pool sizes, programs (also tasks using the worker) and interleavings", "why_tests_cant": "all interleavings of any number of goroutines", "anchors": ["utils/worker.go:RunTask,Wait,Close,run,close"]}
{"id": "C140", "title": "What is put into a session is what the next request reads", "statement": "With the BSON converter the code uses: a session whose Flush returned no error is read back on the next request (within its time) with exactly the same keys, in whatever order the map was visited, and every value is the one put in, up to the types of numbers (an int of 32 bits, else an int64), []string (a list of strings) and times (cut to the millisecond); Value's String, Bool, IsNil, MustBytes and integer methods return on it what they returned on the value put in. Values that were loaded once never change again. Flush fails on marshalling iff a value is one that cannot be stored (functions, channels, unsigned numbers from 2^63, lists and maps with such). It fails of: MustSliceString, which returns nil for a []string on the next request; Uint of a uint of 2^32 or more.", "quantifier": "all sessions (finite maps of nested values), key orders, histories of the store, caches obeying the cache laws, times", "why_tests_cant": "all values, nestings and histories", "anchors": ["sessions/provider_mgo.go:Marshal,Unmarshal", "sessions/provider.go:Flush,Read,save,Get", "utils/converter_value_to.go:MustSliceString,Uint"]}
{"id": "C141", "title": "The JSON of an answer says what the program gave", "statement": "The body of an answer made with With or with a ResError, in development mode (indented) and otherwise (compact), is a JSON text (by a reader written after RFC 8259) that says exactly the value given: the same nesting, numbers, list elements in order, struct fields in order, a map's entries all of them; strings that are UTF-8 come back byte for byte, in others each byte that begins no character comes back as U+FFFD. For a ResError it is an object with its code unless 0, its message unless empty, its data unless nil, and nothing else, and Error() is a text that says the same. The text is UTF-8, contains no <, > or &, none of the characters U+2028 and U+2029 that end a line in JavaScript, and does not depend on the order in which maps are visited. A float is a number to which it is the nearest float. The text exists unless the value contains a function, channel, infinity or NaN; then the answer has the same status and is an object with code 500 and the encoder's message.", "quantifier": "all nested values of nil, booleans, integers, floats of both sizes, strings, lists, structs and string-keyed maps, all byte strings, statuses, run modes, before-functions that do not panic or set a status", "why_tests_cant": "all values, nestings and byte strings", "anchors": ["utils/apires/res.go:Write,With,writeJsonBody", "utils/apires/error.go:ResError,NewResError,Error"]}
{"id": "C142", "title": "Sessions do not share their values with one another or with the program's maps", "statement": "Whatever a program does with sessions (`Create`, `Set`, `Get`, `Delete`, `Clean`, `Destroy`, `Values`, `Flush`) and with its own maps, every call shows what it would show if every session had values of its own: nothing done to one session is seen in another, and changing the map that `Values` returned changes no session.", "quantifier": "Every program (any list of calls on any number of sessions and maps), every key and value.", "why_tests_cant": "Whether two sessions come to refer to one map depends on the whole history of the program; tests look at one session at a time.", "anchors": ["sessions/provider.go:newSessStore,newSessData,Values,Clean,Create,Set"]}
{"id": "C143", "title": "Compression and returned results", "statement": "A client that accepts gzip gets, from an application with the gzip filter, an answer that is marked as gzip and decompresses to what the action wrote or returned; for API results, to a JSON text that says the value given, with the status given. A client that does not accept gzip gets the same status and the answer as it is.", "quantifier": "Every order of the filters of a request (application and route), every calls the action makes or its result makes, every Accept-Encoding, every value given to With.", "why_tests_cant": "Depends on the order in which filters were registered together with whether the action writes or returns its answer; tests of the filter call it alone.", "anchors": ["gzip/gzip.go:All,Write,close", "router_action_out.go:GenericOutFilter", "context.go:newNestContext", "utils/helpers/filters.go:LoadClassicFilters"]}
{"id": "C144", "title": "How likely a random string or a session id is, exactly", "statement": "Of the equally likely answers of the random source, the number that lead to a given string by RandomCreateBytes is the product of the weights of its characters, a character's weight being 256/L, one more for the first 256 mod L of the L characters; so all strings are equally likely if L divides 256. Whoever knows the clock reading at which a session id was made (1974 to 2120) guesses it with probability at most 2^-40, and there is a guess that succeeds with exactly that probability.", "quantifier": "All alphabets of 1 to 255 different characters, all lengths and strings, all clock readings in the range, all guesses.", "why_tests_cant": "Probabilities are counts over all 256^n answers of the source; sampling does not establish them.", "anchors": ["utils/rand.go:RandomCreateBytes", "sessions/utils.go:CreateSid"]}
{"id": "C145", "title": "Connections taken over by a handler", "statement": "Once a handler has taken the connection over with Hijack the framework sends no status line, whatever handlers run after it. Taking the connection over does not by itself end the request: the handlers behind run on, unless a status was set too; then nothing runs any more and ServeHTTP ends with a single empty Write.", "quantifier": "All chains of handlers, all actions and filters of the stated kinds, all later behaviour.", "why_tests_cant": "What later handlers of arbitrary chains do after the hijack cannot be enumerated.", "anchors": ["response.go:Hijack,Write", "context.go:run", "app.go:ServeHTTP"]}
{"id": "C146", "title": "Which server stands behind a cache does not show", "statement": "A program that reads, stores, deletes and cleans, with keys memcached accepts and timeouts of up to 30 days or for ever, gets the same answers whether the cache is kept in redis, in memcached or in MongoDB, whatever key prefixes are configured and however MongoDB is collected; only the answer of Delete may differ, between MongoDB and the others.", "quantifier": "All histories of such calls over less than 9999 days, all prefixes, all collection schedules of the TTL monitor and GC.", "why_tests_cant": "Agreement must hold for every history, every expiry instant and every moment the collectors run.", "anchors": ["caches/provider_redis.go:Get,Set,Delete,Has,Clean", "caches/provider_memcache.go:Get,Set,Delete,Has", "caches/provider_mgo.go:Get,Set,Delete,Has,GC", "caches/caches.go:getTimeoutDur,getTimeoutDurEx"]}
{"id": "C147", "title": "Log lines and traces point at the program's code", "statement": "The position on the line of a logging call is that of the code that made the call, or, with SetFuncDepth(4+a) and LineOpt{Depth: b}, of its caller a+b levels up, and the trace begins there; with short names the file is shown from behind its first /src/. What Recover logs and what RecoveryFilter logs and shows begins with the function that panicked.", "quantifier": "all call stacks, all histories of settings, all levels, messages and LineOpts, both kinds of logger, all numbers of frames the runtime puts between a panic and the deferred function", "why_tests_cant": "The depth is the sum of constants in four functions, the setting of the logger and the option of the call; whether it fits depends on the call path.", "anchors": ["log.go:funcCallMsg,parseValues,print,Recover", "recovery.go:RecoveryFilter", "app_util.go:Stack"]}
{"id": "C148", "title": "Time parameters bind to the moment their text means", "statement": "A time.Time parameter accepts exactly: a day of the calendar YYYY-MM-DD (its first moment, local zone), a day with hours and minutes, a day with hours, minutes, seconds and perhaps a fraction (local zone), an RFC 3339 time (its own offset), and a decimal number of seconds since 1970; any other text, or no value, gives the zero time. No text has two meanings, and formats an application adds never change the meaning of a date.", "quantifier": "all texts, all requests, all lists of added formats", "why_tests_cant": "The accepted language is infinite and the formats are tried one after another; that they exclude each other, that leap days are right and which texts fall through to the next format is a statement about all strings.", "anchors": ["params/binder.go:TimeBinder,TimeFormats,DEFAULT_DATETIME_FORMAT,ValueBinder"]}
{"id": "C149", "title": "The request log has one readable line per event, whatever the client sends", "statement": "Besides the lines of the handlers, the log gets for a request one line for its beginning, before them, and one for its end, after them: tag, request id and prefix, then [REQ_BEG] method, host with URL, address, or [REQ_END] status (200 for none), size in units of 1024 bytes with three decimals, duration. Nothing in a request can add lines. Method, URL and address, and status, size and duration can be read back from the lines; the size shown is off by at most half of its last decimal. A content filter replaces the text of its line, and leaves the line out when it returns an empty one.", "quantifier": "all requests (without line breaks in header values, method, host and URL, which the server refuses), all options, statuses, sizes, durations and logging calls of the handlers", "why_tests_cant": "The content of a line comes from the client; that no content forges a line or makes two requests look alike is a statement about all contents, and the rounding about all sizes.", "anchors": ["request-logger/logger.go:ReqLoggerFilter,LoggerOption,realIp", "log.go:NewReqLogger,print,write"]}
{"id": "C150", "title": "Routing work is bounded by the declarations", "statement": "For every application and every request path, finding the route takes at most two steps (a visit of a node of the routing tree, a comparison with a parameter segment) per path segment the declarations spell out, plus one. No request path, however long or misleading, and no set of declarations makes the search backtrack over the same part of the table twice.", "quantifier": "every list of Routers calls that registers without a panic; every request path", "why_tests_cant": "An adversary chooses the path and the developer the table; a test times a handful of pairs, and an exponential search looks linear on small tables.", "anchors": ["router.go:match,matchParamRoute,configRoutes"]}
{"id": "C151", "title": "The redirect to a directory stays on the site and leads to the directory", "statement": "A client that asks the static filter for a directory without a trailing slash is redirected to the same directory, with the slash and the same query, on the same site, and that request is then served, not redirected again.", "quantifier": "every file system, mount prefix, option, request path beginning with '/' and query; every way net/url reads an authority", "why_tests_cant": "Which paths a browser reads as naming another host depends on escaping, cleaning and URL parsing of arbitrary bytes; tests try friendly paths.", "anchors": ["static-serve/static.go:ServeFilter"]}
{"id": "C152", "title": "Skipped prefixes are left alone", "statement": "A static filter that is told to skip a prefix touches no file of its directory whose path begins with that prefix, and leaves every request for such a path to the routes.", "quantifier": "every file system, mount prefix, option, method and request path", "why_tests_cant": "The prefix is compared with the text of the request, the file is found by the cleaned path; only all paths together show where the two disagree.", "anchors": ["static-serve/static.go:ServeFilter"]}
{"id": "C153", "title": "Only clients that can take gzip get it, and caches are told", "statement": "The gzip filter compresses an answer exactly when the request's Accept-Encoding header, a list of codings with weights, says that the client can take gzip; every answer whose form depends on that header says so in Vary, and what earlier filters said in Vary is kept.", "quantifier": "every list of codings with weights and blanks, every response state, every sequence of handler operations, every lawful gzip codec", "why_tests_cant": "The header is a small language with weights, blanks and names in any case; tests try two or three headers.", "anchors": ["gzip/gzip.go:All"]}
{"id": "C154", "title": "Clients run only the actions named after HTTP methods", "statement": "A controller declared with All answers a request by the action named like the request's method in camel case (GET by Get) or by its declared action; no client can run another exported method of the controller, and two methods never run the same action by name.", "quantifier": "every accepted set of declarations, request method that net/http lets through, path, controller and method name", "why_tests_cant": "The name is computed from the bytes of the client's method; only all methods together show which names can be asked for.", "anchors": ["router_method.go:action", "router.go:handle", "router_action.go:actionFuncExists"]}
{"id": "C155", "title": "A link to a route brings its values back", "statement": "A page that builds a link from a declared pattern and one value per parameter, every value escaped with url.PathEscape, gets the request answered by that route, with the same values as parameters.", "quantifier": "every accepted set of declarations, declared pattern, values, method", "why_tests_cant": "Values are arbitrary texts and the applications are arbitrary; tests use identifiers.", "anchors": ["router.go:handle,match,matchParamRoute,splitRoutePath"]}
{"id": "C156", "title": "What a guard refuses, nothing behind it sees", "statement": "If a filter (a guard) does not call Next and leaves the response written (any status or body) or panics with a non-nil value, and every filter in front of it calls Next at most once and answers the request (or panics) if it recovers a panic, then nothing behind the guard is started and the request is answered as if the chain ended at the guard: for guards of the whole application, of a router and of a single action. In terms of the declarations: if the guard is in force (own or inherited, not exempted) wherever a protected controller is declared, the answer to every request the guard refuses is the same whatever the protected controllers do. The recovery filter of an application with a logger is such a careful filter. Without these conditions it is false: a panic(nil), a recovery filter without a logger, a guard that only hijacks the connection, a guard that only returns an error, and a filter that calls Next twice all let handlers behind the guard run.", "quantifier": "every chain of handler programs, every application and set of declarations (any nesting, wildcards with verbs included), every request, every behaviour of the protected controllers", "why_tests_cant": "non-interference quantifies over all programs behind the guard and all routes by which they can be reached", "anchors": ["context.go:run,Next", "recovery.go:RecoveryFilter", "app.go:ServeHTTP", "router.go:handle", "router_filter.go:append,remove"]}
{"id": "C157", "title": "A session holds what was put there, and nothing else", "statement": "The keys a request finds in a session are exactly the keys set before (and not deleted): storing a value under one key never creates, changes or loses another, whatever the key is.", "quantifier": "every session content, keys and values (texts a client may choose included), order in which the map is visited, history of the store, provider", "why_tests_cant": "Keys are arbitrary texts, and the encoding is only wrong for texts with zero bytes; tests use identifiers.", "anchors": ["sessions/provider.go:Set,save,Read", "sessions/provider_mgo.go:Marshal,Unmarshal"]}
{"id": "C158", "title": "Downloads can be resumed", "statement": "A client that downloads a file from the static filter, loses the connection any number of times after any number of bytes and each time asks for the rest of the file if it has not changed (Range with If-Range), ends up, when it takes its download for complete, with exactly the contents of the file it was last served, and an attempt that is not interrupted completes the download; this holds with and without the gzip filter, and when the file is replaced between the attempts.", "quantifier": "every file, every replacement of the file between attempts, every number of attempts, every point at which each of them is cut off, every way the file is read in pieces, sites with and without the gzip filter, every Accept-Encoding", "why_tests_cant": "histories of interrupted transfers: every cut point and every sequence of versions", "anchors": ["static-serve/static.go:ServeFilter", "gzip/gzip.go:All,Write"]}
{"id": "C159", "title": "Copies that are revalidated are current", "statement": "A client that keeps its copy of a static file and asks for it again with the copy's date (If-Modified-Since) is shown, at every visit, the contents the file has at that time, or an error if there is no such file, compressed or not.", "quantifier": "every history of changes, deletions and restorations of the file between visits, every sequence of visits, sites with and without gzip and fallback file", "why_tests_cant": "histories of changes and visits, every combination of times", "anchors": ["static-serve/static.go:ServeFilter", "gzip/gzip.go:All"]}
{"id": "C160", "title": "HEAD for static files agrees with GET", "statement": "A HEAD request for a static file (or for one that does not exist) is answered with the same status and exactly the same headers as a GET request with the same conditions and the same single range, with and without compression, and, unless it is an error, without a body.", "quantifier": "every file, conditional and range header, Accept-Encoding, site with and without gzip", "why_tests_cant": "every combination of file, conditions, ranges and compression", "anchors": ["static-serve/static.go:ServeFilter", "gzip/gzip.go:All,Write"]}
{"id": "C161", "title": "Sessions while the cache calls of requests interleave", "statement": "Any number of requests read, save, destroy, touch and regenerate sessions at the same time, and their calls of the cache interleave in any way, down to the single call, with calls failing anywhere. Then (a) the values with which a session is opened are, all together, what some request saved under this id or under an id this one was regenerated from - never a mixture and never another session's; (b) requests get exactly what they would get without the requests of other sessions; (c) a save that reported success is what a later request reads, as long as nobody makes a call that changes this session and it has not expired.", "quantifier": "all histories of beginnings of operations, single cache calls and collections, all faults, all times, redis, memcached and MongoDB", "why_tests_cant": "the schedules of a few requests already outnumber what tests can force, and the claim is about all of them", "anchors": ["sessions/provider.go:Read,Regenerate,Destroy,save,Flush,Touch"]}
{"id": "C162", "title": "Regenerating a session while other requests use it", "statement": "However the cache calls of other requests interleave with those of a Regenerate that reports success, everything saved and acknowledged before it ends is found under the new id, and the old id is not found any more.", "quantifier": "all interleavings at the granularity of single cache calls, all times, all caches", "why_tests_cant": "the wrong schedules need a call between two particular calls of another request", "anchors": ["sessions/provider.go:Regenerate,Flush,save"]}
{"id": "C163", "title": "The answer to a request for a part of a static file", "statement": "For a static file served by the filter and every request for one byte range (first to last, from some byte on, the last n): if the file has bytes of the range the client gets 206, a Content-Range which names the first and the last of them and the size of the file, and exactly these bytes; otherwise 416 with the size of the file. With an If-Range that is not the file's date the client gets the whole file.", "quantifier": "all files, all ranges of 63-bit numbers, all sites and directories", "why_tests_cant": "the boundaries (last byte beyond the end, first byte at the end, suffixes longer than the file) multiply over all sizes and ranges", "anchors": ["static-serve/static.go:ServeFilter"]}
{"id": "C164", "title": "A damaged session record is refused", "statement": "If the cache holds, for the session of a request, a record that is the beginning of a saved one (its end is missing) or a saved one with something behind it, Start reports an error; no session with part of the values is opened, no cookie is set and the cache is left as it is.", "quantifier": "all sessions, all ways to cut off or continue their record, all caches, all times", "why_tests_cant": "the record can be cut at any byte, inside any nested value", "anchors": ["sessions/provider.go:Read", "sessions/provider_mgo.go:Unmarshal"]}
{"id": "C165", "title": "An API error is a value", "statement": "Whatever a program does with its API errors - deriving errors from them with WithData and WithMsg, wrapping errors in errors, answering requests with them, in any order - an error that is returned from an action is answered with the status it was made with and with JSON that says exactly the code, message and data it was made with; Error() says the same, GetHttpCode reports the status, IsResError recognises it and EqualAny compares status and code as they were made.", "quantifier": "all programs (sequences of calls), all errors, all statuses, codes, messages and data, dev and other run modes", "why_tests_cant": "errors are shared pointers which refer to themselves; a derived error that still points at its origin shows only for particular sequences of calls", "anchors": ["utils/apires/error.go:NewResError,Error,HttpCode,WithData,WithMsg,EqualAny,IsResError,GetHttpCode", "utils/apires/res.go:Write", "router_action_out.go:GenericOutFilter"]}
{"id": "C166", "title": "What the visitor of a static site gets, for every path", "statement": "For every request and every content of the disk: the path of a file gets the bytes of that file; the path of a directory with a slash gets its index.html, without one a redirection to the path with a slash; a missing file, or a directory without index, gets 404, or the fallback file if one is configured; and a request whose method or path the filter does not serve, or which is skipped, is answered by the rest of the application exactly as if the filter were not there. With the gzip filter the client can unpack the same bytes.", "quantifier": "all sites, all directories, all requests", "why_tests_cant": "paths, prefixes, methods, directories and fallbacks combine without bound", "anchors": ["static-serve/static.go:ServeFilter", "gzip/gzip.go:All"]}
{"id": "C167", "title": "A cache that cannot be reached is not an empty cache", "statement": "With the redis, memcached and MongoDB caches, whenever a call cannot get a connection, does not reach the server, or loses the answer, it returns an error that is not ErrMissedKey - never a value, a success, or 'no such key'. ErrMissedKey is returned only after the server answered that it has no such key that has not expired (or none at all). With redis, after every history of calls, whatever went wrong, every connection taken from the pool has been put back exactly once.", "quantifier": "all calls, all states of the servers, all histories, all failures at any call", "why_tests_cant": "failures can hit any call of any history before or after its effect", "anchors": ["caches/provider_redis.go:Get,Set,Touch,Delete,Incr,Decr,Has,Clean,handleError", "caches/provider_mgo.go:handleError,getValue,fetchValues", "caches/provider_memcache.go:handleError,Has"]}
{"id": "C168", "title": "The times in the log and in X-Response-Time are the measured ones", "statement": "The request log and the header X-Response-Time show a measured duration in milliseconds with three decimals. Below 2^53 ns (104 days) the number shown is nearest to the duration (at most half a microsecond off; whole microseconds exactly); any duration the program can measure is shown with an error of at most 2.036 microseconds; a longer duration is never shown as a shorter one. The time in the header, taken when the answer begins, is therefore never larger than the time in the line REQ_END, and replaces whatever the handlers put there. The size in REQ_END, computed in floating point, is the one of C149 for every size below 2^53 bytes.", "quantifier": "all durations and sizes", "why_tests_cant": "the numbers go through two roundings in binary floating point and one to decimal; which durations come out wrong cannot be sampled", "anchors": ["request-logger/logger.go:ReqLoggerFilter"]}
{"id": "C169", "title": "An outage of the session cache costs nobody the session", "statement": "While the cache cannot be reached, a request with a valid session cookie is refused with an error: no empty session is made in its place, no cookie is set or taken back, nothing is changed in the cache. However many browsers do whatever for however long during the outage, afterwards a browser that only made such requests gets exactly what it would have got had the outage not been: the same session, the same values. A visitor without a session cookie is served during the outage as at any other time.", "quantifier": "all histories of all browsers during the outage, all states of the site before it, all requests after it", "why_tests_cant": "outages hit arbitrary histories of interleaved requests of many browsers", "anchors": ["sessions/manager.go:Start,Regenerate,Destroy", "sessions/provider.go:Read,Regenerate,save"]}
{"id": "C170", "title": "A decimal number in a parameter or a setting becomes the nearest float", "statement": "A parameter bound to a float64, a setting bound to a float64 or float32 variable and the converters utils.StrTo(s).Float64/Float32 turn a text written as a decimal number (sign, digits with at most one point, exponent, in any combination) into the float nearest to that number, of two equally near ones the even one. Numbers that are floats, such as whole numbers up to 2^53, are kept exactly; the larger of two numbers never becomes the smaller float. A number half a last place or more above the largest float becomes 0 in a parameter and a setting, infinity with an error in the converters. A text that is neither a number nor a word for infinity or NaN is 0, or an error in the converters.", "quantifier": "all texts without x, X and _ (exponents of at most five digits), parameters and settings", "why_tests_cant": "every number of digits, position of the point and exponent is its own rounding problem; which texts come out one bit off cannot be sampled", "anchors": ["params/binder.go:FloatBinder", "app_util.go:Float32,Float64,convertStringAsType", "utils/converter.go:Float32,Float64"]}
{"id": "C171", "title": "A float32 parameter gets the float32 nearest to the number sent", "statement": "A parameter bound to a float32 gets the float32 nearest to the decimal number sent, the same value as a float32 setting with this text. (False: the number is first rounded to a float64; 1.00000005960464477540 becomes 1 although the next float32 is nearer, and a number too large for float32, such as 1e39, becomes infinity without a trace, where the setting is 0.) True: no float32 lies strictly between the number and the value bound; a number that is a float64, such as a whole number up to 2^53, gets its nearest float32.", "quantifier": "all decimal texts a float64 can approximate, all float32 values", "why_tests_cant": "double rounding shows only for numbers within 2^-53 of a midpoint; random tests never meet one", "anchors": ["params/binder.go:FloatBinder", "app_util.go:Float32,convertStringAsType"]}
{"id": "C172", "title": "A float parameter is a finite number", "statement": "The value bound to a float parameter is a finite number, whatever the client sends. (False: inf, infinity with or without sign and nan in any case are accepted, for float64 and float32, so that comparisons such as x < 0 || x > max do not reject NaN.) True for float64: every other text gives a finite number.", "quantifier": "all texts (without x, X and _ for the positive part), present or absent parameters", "why_tests_cant": "the dangerous texts are words nobody thinks of as numbers; the positive part is about all texts", "anchors": ["params/binder.go:FloatBinder"]}
{"id": "C173", "title": "A float survives its text", "statement": "utils.ToStr of a float64 or float32 gives a text that utils.StrTo reads back as the same float, bit for bit, with the sign of zero, infinities and NaN; a float64 parameter with this text gets the same float. No text with fewer decimals would be read as this float. With a precision, ToStr shows the float rounded to that many decimals: at most half a last decimal off, exact halves to the even digit.", "quantifier": "all floats of both widths, all precisions from 0", "why_tests_cant": "2^64 floats, each with its own rounding interval; shortest printing is the classical place for one-bit errors", "anchors": ["utils/converter.go:ToStr,Float32,Float64", "params/binder.go:FloatBinder"]}
{"id": "C174", "title": "Numbers converted with ValueTo keep their value", "statement": "utils.ValueTo(v) converts numbers: an integer to the nearest float64; a float64 that is a whole number to that integer; a float that is no whole number to an error; a float32 to the float64 of the same value. (False for whole numbers from 2^53 on: 2^60 becomes 1152921504606847000, without an error, because the conversion goes through the shortest text; and false for float32: float32(0.1) becomes 0.1, another number than the float32.)", "quantifier": "all integers of the integer types, all floats", "why_tests_cant": "which floats have a shortest text that differs from their value depends on the rounding interval of each", "anchors": ["utils/converter_value_to.go:Float32,Float64,Int64,String", "utils/converter.go:ToStr"]}
{"id": "C175", "title": "What every configuration file means", "statement": "Every text given to LoadIniFromReader / LoadIniFile / NewConfiger has exactly one reading, line by line: a line (without surrounding white space) is blank or a comment, a section header, a key with a value (with the quoting rules of keys and values, text after a closing quote being ignored), a header without a name, or not readable. The text is refused exactly when some line is of the last two kinds, with the message about the first such line ('empty section name not allowed', or 'could not parse line: ' and the line); otherwise the configuration has exactly the sections mentioned and each key has the last value assigned to it. A reader given together with a file overrides the file, a wrong file is reported first, an unnamed file and a missing reader give an empty configuration.", "quantifier": "all byte sequences (well-formed or not), all files and readers", "why_tests_cant": "tests try a few files; the claim is about every byte sequence, including unbalanced quotes, missing separators and stray brackets", "anchors": ["config/config.go:NewConfiger,LoadIniFile,LoadIniFromReader,loadFile,loadFromReader,setValue,readError"]}
{"id": "C176", "title": "How long each cache keeps a value", "statement": "For every timeout of less than 2^31 seconds: a value stored at some time is found by Get at a later time exactly while its time lasts, whatever was in the cache before and whatever calls that do not write the key (reads, the collector, writes of other keys) are made in between; afterwards the key is reported missed. The time is the number of seconds asked for, a minute without timeout or with 0, and for a negative timeout for ever (9999 days in MongoDB); memcached takes more than thirty days as a date in seconds since 1970.", "quantifier": "all keys, values, prefixes, timeouts below 2^31 seconds, times, previous contents and intermediate histories; redis, memcached, MongoDB with and without its own expiry", "why_tests_cant": "tests wait a second or two; the claim is about all timeouts and all histories in between", "anchors": ["caches/caches.go:getTimeoutDur,getTimeoutDurEx", "caches/provider_redis.go:Set,Get", "caches/provider_memcache.go:Set,Get", "caches/provider_mgo.go:Set,Get,GC"]}
{"id": "C177", "title": "Typed values through a cache", "statement": "A string, byte slice, boolean, integer of any kind or float of 32 or 64 bits stored in redis or memcached is found by Get while its time lasts, and the conversion method named after its type (String, Bytes, Bool, Int8, ..., Uint64, Float32, Float64, and the Must variants for integers) gives back exactly that value, without an error; in MongoDB the same holds for all of these but 32-bit floats and unsigned integers of more than 63 bits.", "quantifier": "all values of these types, all keys, prefixes, timeouts below 2^31 seconds, times within the life time, previous contents, and histories that leave the key alone", "why_tests_cant": "values are stored as texts and read back through two layers; extreme integers and floats are where conversions go wrong", "anchors": ["caches/provider_redis.go:Set,Get", "caches/provider_memcache.go:Set,Get", "caches/provider_mgo.go:Set,Get", "utils/converter.go:ToStr,Bool,Float32,Float64,Int,Uint64,MustInt"]}
{"id": "C178", "title": "Every filter and action sees exactly the values attached to its context before it, and the request logger's logger is found everywhere", "statement": "For every request and every sequence of attachments by the filters of the application and then of the route - with ctx.ReplaceContext(CtxWithValue(ctx.GetContext(), v)), with req.WithContext + Provide, or in the request logger's way (to the request, whose context the strip context then takes) - the request fails exactly when CtxWithValue refuses a value; otherwise ctx.Value of the application's context, of the route's context and of the request comes back for every key with the newest value attached there: ReplaceContext alone is not seen in the request, a re-provided request not in the context, and what the route attaches not in the application's context. A value attached in the request logger's way stays visible through all three whatever is attached later under other keys (so helpers.GetLogger gives the request's logger everywhere), and when all filters use that way the two never differ; but it drops from the context what was attached with ReplaceContext alone. After ctx.ReplaceContext(CtxWithValue(ctx, v)) the lookup of any other key never returns.", "quantifier": "every context of the server, every finite sequence of attachments of any values and names at both levels, every key", "why_tests_cant": "the contexts form chains of unbounded length through objects that are changed while they are part of a chain; tests try one or two attachments", "anchors": ["context.go:GetContext,ReplaceContext,newNestContext", "app.go:ServeHTTP", "request-logger/logger.go:setLoggerInContext", "utils/context.go:CtxWithValue", "utils/helpers/log.go:GetLogger"]}
{"id": "C179", "title": "The global logger's lines: one line per message in production, after the application that adopted it last", "statement": "On every host, after every interleaving of log calls and of UseGlobalLogger calls by applications of any run modes, each call of a logging method of the global logger (helpers.X, and what helpers.GetLogger gives outside requests) prints exactly: severity tag, [host name], the caller's position (unless the call hides it), a blank, the message, and a stack trace for emergency, alert and critical messages and on request (unless the message is a report itself); coloured exactly in development, with short file names and flattened exactly in production and before any adoption. In production the printed text never contains a newline, whatever message, file name or trace. The settings are those of the application that adopted the logger last, for all applications.", "quantifier": "every host name, every history of adoptions and calls, every message, position and stack trace", "why_tests_cant": "histories and messages are unbounded; a test looks at single lines in one mode", "anchors": ["utils/helpers/log.go:init,GetLogger", "utils/helpers/config.go:UseGlobalLogger", "config.go:IsDev,IsProd", "log.go:print,NewReqLogger"]}
{"id": "C180", "title": "Floats in the JSON of answers come back exactly", "statement": "Every finite float32 or float64 in the body of an answer is written as a JSON number, compact and indented alike, and a client that reads the number into the same format (the nearest float) gets exactly that float back, whatever its size, in decimal or in scientific notation; what the client gets is unique up to the sign of zero, so different floats (other than the two zeros) have different texts. An answer whose struct contains a finite float is the object with a number that reads back to it; with an infinity or NaN it is the error object with code 500 under the chosen status.", "quantifier": "all 2^32 float32 and 2^64 float64 values, run modes, statuses, member names in UTF-8", "why_tests_cant": "2^64 values; the change of notation at 1e-6 and 1e21 and the trimming of exponents concern few of them", "anchors": ["utils/apires/res.go:Write,writeJsonBody"]}
{"id": "C181", "title": "Byte slices in the JSON of answers come back exactly", "statement": "A []byte in the body of an answer is written as its base64 (RFC 4648 section 4, padded) between quotes, whatever the bytes are and in whatever run mode; the text a client reads from the answer is the base64 of exactly these bytes and of no others. A nil slice is null, an empty one the empty string.", "quantifier": "all byte sequences, run modes, statuses, member names in UTF-8", "why_tests_cant": "all byte sequences and lengths", "anchors": ["utils/apires/res.go:Write,writeJsonBody"]}
{"id": "C182", "title": "A time in a session comes back cut to the millisecond, and never changes again", "statement": "A time.Time put into a session that is flushed without an error is, for whoever reads the session within its time, the instant cut to whole milliseconds - the largest number of milliseconds not behind it, before 1970 as well -, whatever else the session contains and in whatever order its keys are visited. So earlier times do not become later ones, a time of whole milliseconds comes back equal and a loaded time never changes again, every other time comes back earlier; the zero time, and only a time within a millisecond of it, comes back as the zero time. A time does not come back equal in general (the time.Now() of a login does not).", "quantifier": "all sessions and histories of C140, all instants less than 292 million years from 1970", "why_tests_cant": "all instants; the rounding of those before 1970 and the zero time are special in the code", "anchors": ["sessions/provider_mgo.go:Marshal,Unmarshal", "sessions/provider.go:Flush,Read,Get"]}
{"id": "C183", "title": "Without a positive SessionExpire no session survives the request that made it", "statement": "If SessionExpire is 0, negative (down to -292 years) or between 292 and 584 years, a client that always sends back every cookie it was given gets from Start a new, empty session on every visit, whatever the program stored in between and whatever the state of the cache; the cache is not even asked. Destroy then does nothing and sets no cookie, so what was stored stays stored, and Regenerate moves nothing: its session has only the values given to it. With a negative lifetime - for the caches it means for ever - the flush reports no error and what it stored in redis stays there at any later time unless that very key is written or deleted through the cache. (So SessionExpire = -1 does not make sessions last for ever, it loses all of them and keeps their data.)", "quantifier": "all keys, ids, times, numbers of visits, states of the cache, faults, converters, values", "why_tests_cant": "all numbers of visits and all lifetimes, including the overflow of durations", "anchors": ["sessions/manager.go:Start,Destroy,Regenerate,ReadSidFromRequest", "sessions/utils.go:isExpired,int2SecsDuration", "sessions/provider.go:Flush,save"]}
{"id": "C184", "title": "Conditional requests for files: If-Match, If-None-Match and If-Unmodified-Since are honoured although files have no entity tags", "statement": "A request for a file of the static filter that carries If-Match, If-None-Match or If-Unmodified-Since is answered with 412 and no contents, or 304 and no contents, or exactly as without these headers, whatever text is in them. If-Match with a list of entity tags always gives 412 (files have none), If-Match: * has If-Unmodified-Since ignored; If-Unmodified-Since alone gives 412 exactly if the file has a time and its second is after the date; If-None-Match: * gives 304; If-None-Match with a list of entity tags has If-Modified-Since ignored, so a client that asks with tags is always given the contents of the file as they are.", "quantifier": "all files, directories, paths, dates, lists of entity tags and other texts in the headers, with and without the gzip filter and every codec that keeps its contract", "why_tests_cant": "all texts of the headers and all files", "anchors": ["static-serve/static.go:ServeFilter"]}
{"id": "C185", "title": "Logging in with a remember-me cookie: only for whom and for as long as it was written", "statement": "A program that, for a visitor without a session, asks HasRemember for the user key, looks up the user's salt and asks ValidRemember, logs in - whatever cookies the request carries - only users for whom WriteRemember wrote a cookie with the salt they have now, no longer ago than RememberExpire; so changing a user's salt logs the user out everywhere. Whoever comes back with the cookie that was written is logged in until exactly the moment it expires. Even if users share salts, nobody is logged in for whom no cookie was ever written. With a RememberExpire that is zero, negative, or between 292 and 584 years nobody is ever logged in by a cookie.", "quantifier": "all requests, user keys, salts, times, expiries, sets of users and of cookies written before; MACs that are not forged; salts that users do not share", "why_tests_cant": "all cookies an attacker may send, all histories of written cookies and all salts", "anchors": ["sessions/remember.go:HasRemember,ValidRemember,WriteRemember,createRememberCookieValue", "sessions/utils.go:isExpired,int2SecsDuration,DecodeSecureValue"]}
{"id": "C186", "title": "Assertions in tests fail exactly when they should, end the test, and name the caller's line", "statement": "NoError, Nil, NotNil, True and False of Assert fail exactly if what they say is not so; nil are a nil interface and nil channels, functions, maps, pointers and slices, also inside an interface (a nil unsafe.Pointer is not), and of Nil and NotNil exactly one fails for any value. A test whose assertions all hold does everything and reports nothing; otherwise it ends at the first that does not hold, nothing behind it is done, and there is one message, which says what was expected and names file, line and source text of the call of the assertion.", "quantifier": "all values of all kinds, all tests, all call stacks and source files", "why_tests_cant": "all values and all sequences of assertions and other effects", "anchors": ["assert.go:Assert,NoError,Nil,NotNil,True,False,callerInfo", "app_util.go:FileSource"]}
{"id": "C187", "title": "Times in answers, sent back as parameters", "statement": "A time.Time in the value of an answer is written as a JSON string in RFC 3339 form, and this text sent back as a time parameter is bound to the same date and clock, down to the nanosecond, with its offset from UTC in whole minutes; for such offsets two different times never have the same text. Years of five digits are an error. If the text of a time with an offset of a minute or more east of Greenwich is put into a query unescaped, its plus sign is read as a blank and nothing is bound: the parameter is the zero time.", "quantifier": "all dates of the calendar from the year 0 to 9999, times of day, nanoseconds, offsets of less than a day; all versions of Go that read two digits and at most nine digits of a fraction as usual", "why_tests_cant": "all moments and offsets, including leap days and fractions of every length", "anchors": ["utils/apires/res.go:writeJsonBody", "params/binder.go:TimeBinder"]}
{"id": "C188", "title": "What parameters may be bound into", "statement": "Params.Bind writes to exactly the variables given by a non-nil pointer: nil, a value that is not a pointer and a nil pointer are refused by a panic whose text names the parameter, and a pointer to a variable ends in a panic only for a slice index out of all proportion. BindValuesToStruct given a pointer to a struct binds its fields; given the struct by value it never loses anything silently: it returns exactly if nothing in the struct itself would be written (only structs behind embedded pointers can be), with the result a pointer would have given, and panics otherwise; anything else panics. The text \"need ptr of struct\" is given only for what is neither a pointer nor a struct: a struct by value, a nil pointer and a pointer to another type panic inside reflect.", "quantifier": "all destinations, parameters, parameter names, struct trees and orders of map iteration", "why_tests_cant": "all types and values of destinations, and all nestings of embedded structs and pointers", "anchors": ["params/params.go:Bind,BindValuesToStruct"]}
{"id": "C189", "title": "The unified values and their sources", "statement": "When more than one of query, route and form has keys, params.Values is a map of its own with, under each key, the values of the query, the route and the form in this order, and the three maps are left as they were; from then on whatever is appended to, assigned in, set in or deleted from one of the four maps is seen in that map only, although they are slices with spare capacity in one memory. Without any parameter it is an empty map of its own. When only one of the three has keys, params.Values is that very map: params.Values.Set also rewrites params.Query.", "quantifier": "all contents of the maps in memory where no two entries share an array, all capacities chosen by append, all orders of the loops, all sequences of later statements on the four maps", "why_tests_cant": "all memories, capacities and interleavings of statements on four maps", "anchors": ["params/params.go:calcValues,ParseParams"]}
{"id": "C190", "title": "Binding to structs that point to each other", "statement": "BindValuesToStruct on a struct whose embedded pointers lead to other structs, shared or in cycles, visits every struct that can be reached over non-nil embedded pointers, none of them twice (the given struct itself may be visited a second time when a cycle leads back to it) and no other struct in memory. It ends exactly if no nil pointer on the way has a type from which the embedding of pointers goes on for ever: binding to a new value of a type that embeds a pointer to itself (type T struct { *T; ... }) never returns.", "quantifier": "all memories of finitely many structs, all struct types, all sharings and cycles; no bound on the depth", "why_tests_cant": "all graphs of structs; the end of a recursion cannot be settled by running it", "anchors": ["params/params.go:BindValuesToStruct,bindValuesToStruct"]}
{"id": "C191", "title": "Binding to types that contain themselves", "statement": "Binding a parameter to a type that contains itself by way of a struct (a tree with a list of children, a linked list) ends for all parameters of a request, whatever their keys: no infinite chain of binder calls exists. A type that goes on for ever in pointers and slices alone is bound without end: type P *P as soon as the parameter is there, type S []S as soon as there is a value under its name.", "quantifier": "all tables of types (maps left out), all parameters and files, all keys and names; no bound on depth", "why_tests_cant": "all recursive types and all keys a client may send; the end of a recursion cannot be settled by running it", "anchors": ["params/binder.go:Bind,bindSlice,bindStruct,PointerBinder,BindValue"]}
