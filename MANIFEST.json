{
 "claims": [
  {
   "property": "C01",
   "status": "proved",
   "theorems": [
    "Verif.Router.C01_route_match_sound",
    "Verif.Router.C01_keys",
    "Verif.Router.C01_params_unique",
    "Verif.Router.C01_values"
   ],
   "note": "soundness of matching against the tree-free specification"
  },
  {
   "property": "C02",
   "status": "partial",
   "theorems": [
    "Verif.Router.C02_route_completeness_partial",
    "Verif.Router.C02_route_completeness_violated"
   ],
   "note": "full statement refuted on dead-end paths (unregistered literal prefix); proved otherwise"
  },
  {
   "property": "C03",
   "status": "partial",
   "theorems": [
    "Verif.Router.C03_route_precedence_partial",
    "Verif.Router.C03_route_precedence_violated"
   ],
   "note": "precedence holds except on dead-end paths, where it is refuted"
  },
  {
   "property": "C04",
   "status": "proved",
   "theorems": [
    "Verif.Router.C04_segments_clean",
    "Verif.Router.C04_depends_on_segments",
    "Verif.Router.C04_root",
    "Verif.Router.C04_normal_form_laws"
   ],
   "note": ""
  },
  {
   "property": "C05",
   "status": "proved",
   "theorems": [
    "Verif.Router.C05_method_dispatch",
    "Verif.Router.C05_method_case",
    "Verif.Router.C05_unmatched",
    "Verif.Router.C05_last_declaration_wins",
    "Verif.Router.C05_exact_is_last_declaration",
    "Verif.Router.C05_all_any_are_last_declarations"
   ],
   "note": "dispatch order, and the table in terms of the declarations"
  },
  {
   "property": "C06",
   "status": "partial",
   "theorems": [
    "Verif.Router.C06_head_follows_get_partial",
    "Verif.Router.C06_head_request_partial",
    "Verif.Router.C06_head_follows_get_violated"
   ],
   "note": "refuted when GET is registered again for the same pattern"
  },
  {
   "property": "C07",
   "status": "proved",
   "theorems": [
    "Verif.Router.C07_route_info_path"
   ],
   "note": ""
  },
  {
   "property": "C08",
   "status": "partial",
   "theorems": [
    "Verif.Router.C08_param_names_agree",
    "Verif.Router.C08_wild_names_agree",
    "Verif.Router.C08_wild_must_be_last",
    "Verif.Router.C08_below_wild_unreachable",
    "Verif.Router.C08_router_path_checked"
   ],
   "note": "a nested Router below a wildcard is accepted although unreachable; conflicting verb wildcards excluded (PlainWilds)"
  },
  {
   "property": "C09",
   "status": "partial",
   "theorems": [
    "Verif.Router.C09_registration_cumulative_partial",
    "Verif.Router.C09_table_local",
    "Verif.Router.C09_cumulative_violated",
    "Verif.Router.C09_rootlike_router_dropped_violated"
   ],
   "note": "refuted for wildcards with a verb; proved otherwise"
  },
  {
   "property": "C10",
   "status": "proved",
   "theorems": [
    "Verif.Router.C10_filter_inheritance",
    "Verif.Router.C10_filter_inheritance_always"
   ],
   "note": "C10_filter_inheritance_always: for every accepted application"
  },
  {
   "property": "C100",
   "status": "proved",
   "theorems": [
    "Verif.Ctx.C100_chain_position",
    "Verif.Ctx.C100_started_number",
    "Verif.Ctx.C100_started_iff"
   ],
   "note": "full characterisation, including the cases where C13 fails"
  },
  {
   "property": "C101",
   "status": "proved",
   "theorems": [
    "Verif.Cache.C101_keys_independent"
   ],
   "note": "MongoDB without the server's own TTL monitor; no conditions on the histories"
  },
  {
   "property": "C102",
   "status": "proved",
   "theorems": [
    "Verif.Cache.C102_nothing_invented"
   ],
   "note": "unlike C41 without conditions on the calls; MongoDB without the server's own TTL monitor"
  },
  {
   "property": "C103",
   "status": "proved",
   "theorems": [
    "Verif.Sess.C103_decode_iff",
    "Verif.Sess.C103_decode_none_iff",
    "Verif.Sess.C103_session_id_iff",
    "Verif.Sess.C103_has_remember_iff",
    "Verif.Sess.C103_valid_remember_iff"
   ],
   "note": "unconditional iff, including wrapping expiries and clamped times; MAC is a parameter"
  },
  {
   "property": "C104",
   "status": "partial",
   "theorems": [
    "Verif.Sess.C104_session_was_issued_partial",
    "Verif.Sess.C104_session_was_issued_violated",
    "Verif.Sess.C104_signed_is_signed"
   ],
   "note": "proved for user keys shorter than 40 escaped bytes; refuted for longer ones: a user key of a session id followed by twenty nines makes a remember-me cookie that can be cut into a session cookie for that id without the key"
  },
  {
   "property": "C105",
   "status": "proved",
   "theorems": [
    "Verif.Sess.C105_sessions_refine",
    "Verif.Sess.C105_sessions_redis",
    "Verif.Sess.C105_sessions_memcache",
    "Verif.Sess.C105_sessions_mgo"
   ],
   "note": "interleaving at the granularity of calls; touch only on caches where touching a missing key creates nothing (redis, memcached); the converter is a parameter that reads back what it wrote; results of touch and destroy are not compared"
  },
  {
   "property": "C106",
   "status": "proved",
   "theorems": [
    "Verif.Inj.C106_made_is_found",
    "Verif.Inj.C106_not_made_is_nearest",
    "Verif.Inj.C106_made_can_be_found",
    "Verif.Inj.C106_made_unique",
    "Verif.Inj.C106_arguments",
    "Verif.Inj.C106_find_succeeds_iff"
   ],
   "note": "exact, unconditional companion of C22, C23 and C25; a diverging lookup (C24) leaves the state it reached"
  },
  {
   "property": "C107",
   "status": "proved",
   "theorems": [
    "Verif.Inj.C107_invoke_made",
    "Verif.Inj.C107_invoke_not_made"
   ],
   "note": "exact companion of C27"
  },
  {
   "property": "C108",
   "status": "proved",
   "theorems": [
    "Verif.Inj.C108_same_slot_iff"
   ],
   "note": "exact companion of C26; a declared type whose underlying type is a pointer counts as a pointer (as in the code)"
  },
  {
   "property": "C109",
   "status": "proved",
   "theorems": [
    "Verif.Gz.C109_status",
    "Verif.Gz.C109_headers",
    "Verif.Gz.C109_body",
    "Verif.Gz.C21_identity"
   ],
   "note": "exact companion of C21; codec contract is a parameter (Codec.Lawful); callbacks registered before the filter that neither panic nor set status 0; the connection is not hijacked"
  },
  {
   "property": "C11",
   "status": "proved",
   "theorems": [
    "Verif.Router.C11_filter_storage",
    "Verif.Router.C11_later_calls_preserve"
   ],
   "note": "slice-heap model, every growth policy"
  },
  {
   "property": "C110",
   "status": "partial",
   "theorems": [
    "Verif.Upload.C110_files_exact",
    "Verif.Upload.C110_files_open_partial",
    "Verif.Upload.C110_accepted",
    "Verif.Upload.C110_large_file_violated"
   ],
   "note": "False of the code for files that do not fit into the limit: they are listed but cannot be opened, their temporary file is removed before the action runs. Exact account of every file proved; proved as claimed for files that fit together. mime/multipart is modelled by readForm (go 1.13)."
  },
  {
   "property": "C111",
   "status": "proved",
   "theorems": [
    "Verif.Upload.C111_no_temp_left",
    "Verif.Upload.C111_history"
   ],
   "note": "os.Remove of an existing file is assumed to succeed; new temporary files have new names (Spec.Fresh)."
  },
  {
   "property": "C112",
   "status": "proved",
   "theorems": [
    "Verif.Upload.C112_limit",
    "Verif.Upload.C112_limit_unique",
    "Verif.Upload.C112_limit_concurrent"
   ],
   "note": "requests one after the other with any configurations; interleaved requests with one configuration, where reads and writes of the unsynchronised closure variable are atomic"
  },
  {
   "property": "C113",
   "status": "proved",
   "theorems": [
    "Verif.Upload.C113_json_body"
   ],
   "note": "encoding/json is a parameter; bodies whose reading fails are outside the statement"
  },
  {
   "property": "C114",
   "status": "proved",
   "theorems": [
    "Verif.Ctx.C114_get_logger",
    "Verif.Ctx.C114_with_logger",
    "Verif.Ctx.C114_exact"
   ],
   "note": "a logger attached by hand is attached as pointer to a Logger variable; unnamed types excluded as in C66"
  },
  {
   "property": "C115",
   "status": "partial",
   "theorems": [
    "Verif.FilterKind.C115_chain_exact",
    "Verif.FilterKind.C115_exempt_partial",
    "Verif.FilterKind.C115_provide_violated"
   ],
   "note": "False of the code for inject.Provide lists: each mention is boxed anew, so they are never deduplicated nor exempted. The exact chain is proved for all declarations; as claimed for functions. Interface variables that already hold a list are not modelled."
  },
  {
   "property": "C116",
   "status": "partial",
   "theorems": [
    "Verif.AppFilters.C116_filters_partial",
    "Verif.AppFilters.C116_no_replace",
    "Verif.AppFilters.C116_replace_violated"
   ],
   "note": "False of the code when two applications that share filters by ReplaceFilters both get more: one append overwrites the other, even for a request under way. Proved if filters are handed over (the giver gets none afterwards), and without ReplaceFilters. Steps are atomic."
  },
  {
   "property": "C117",
   "status": "proved",
   "theorems": [
    "Verif.Inj.C117_apply_ok",
    "Verif.Inj.C117_apply_succeeds_iff",
    "Verif.Inj.C117_apply_fails"
   ],
   "note": "exact companion of C28; which values can be assigned is a parameter (see asg); pointers to the same struct from two fields are not modelled"
  },
  {
   "property": "C118",
   "status": "proved",
   "theorems": [
    "Verif.InjT.C118_coherent_never_panics",
    "Verif.InjT.C118_coherent_find_sets",
    "Verif.InjT.C118_calls_are_typed",
    "Verif.InjT.C118_same_as_untyped",
    "Verif.InjT.C118_exists",
    "Verif.InjT.C118_provide_then_find",
    "Verif.InjT.C118_provide_panics_iff",
    "Verif.InjT.C118_find_assigns"
   ],
   "note": "AssignableTo is a parameter; declared types whose underlying type is a pointer are not modelled as pointers"
  },
  {
   "property": "C119",
   "status": "partial",
   "theorems": [
    "Verif.InjT.C119_no_value_of_panicked_call",
    "Verif.InjT.C119_found_iff_can",
    "Verif.InjT.C119_lookups_end_partial",
    "Verif.InjT.C119_cycle_after_panic_violated"
   ],
   "note": "The full claim is false: a panic marks the providers being made as done, and a cycle reported as an error before then recurses without end (C119_cycle_after_panic_violated). Proved without cycles; the first two theorems hold for all graphs."
  },
  {
   "property": "C12",
   "status": "partial",
   "theorems": [
    "Verif.Router.C12_builders_independent_violated",
    "Verif.Router.C12_builders_independent_exact_partial",
    "Verif.Router.C12_builders_independent_linear_partial"
   ],
   "note": "refuted for a base declaration chained twice; proved when no base is used twice, or without spare capacity"
  },
  {
   "property": "C120",
   "status": "proved",
   "theorems": [
    "Verif.Resp.C120_wire_status",
    "Verif.Resp.C120_body",
    "Verif.Resp.C120_reported_status",
    "Verif.Resp.C120_client_sees_valid",
    "Verif.Ctx.C120_valid_codes_same",
    "Verif.Ctx.C120_request_valid",
    "Verif.Ctx.C120_unanswered",
    "Verif.Ctx.C120_behind_recovery"
   ],
   "note": "The underlying writer is that of net/http (panic outside 100-999 unless the header was sent). Negative codes are not modelled; 1xx codes are final as in Go 1.13."
  },
  {
   "property": "C121",
   "status": "proved",
   "theorems": [
    "Verif.Sess.C121_attributes",
    "Verif.Sess.C121_one_of_each",
    "Verif.Sess.C121_secure"
   ],
   "note": "the browser is modelled after RFC 6265; SessionExpire within 292 years, ids and the secret key not empty"
  },
  {
   "property": "C122",
   "status": "proved",
   "theorems": [
    "Verif.Sess.C122_browser_sessions",
    "Verif.Sess.C122_id_of_next_request",
    "Verif.Sess.C122_start_twice",
    "Verif.Sess.C122_domain"
   ],
   "note": "as C121; the contents of the session are the subject of C105"
  },
  {
   "property": "C123",
   "status": "partial",
   "theorems": [
    "Verif.Sess.C123_destroy_forgets",
    "Verif.Sess.C123_forget_forgets",
    "Verif.Sess.C123_invalid_cookie_stays",
    "Verif.Sess.C123_remember_elsewhere_violated",
    "Verif.Sess.C123_logout_in_outage_violated"
   ],
   "note": "The session part is proved. False for the remember cookie of other hosts when CookieDomain is configured: it has no Domain, so DestroyRemember on one host leaves the one of another (C123_remember_elsewhere_violated). Destroy with an expired or invalid cookie does not remove it from the browser (C123_invalid_cookie_stays)."
  },
  {
   "property": "C124",
   "status": "proved",
   "theorems": [
    "Verif.Conv.C124_text_numbers",
    "Verif.Conv.C124_int_of_text",
    "Verif.Conv.C124_int_of_int",
    "Verif.Conv.C124_int_of_other",
    "Verif.Conv.C124_bool",
    "Verif.Conv.C124_string",
    "Verif.Conv.C124_must",
    "Verif.Conv.C124_arguments"
   ],
   "note": "Uint of a dynamic value allows 32 bits of text only; floats are not modelled"
  },
  {
   "property": "C125",
   "status": "proved",
   "theorems": [
    "Verif.Params.C125_panics",
    "Verif.Params.C125_contents",
    "Verif.Params.C125_string_keys",
    "Verif.Params.C125_unambiguous_keys",
    "Verif.Params.C125_json_numbers",
    "Verif.Params.C125_million_lost",
    "Verif.Params.C125_json_texts",
    "Verif.Params.C125_keys"
   ],
   "note": "json.Unmarshal is a parameter (its whole numbers of at most 2^53 are printed as fmt prints float64); maps inside slices, pointers and structs are not modelled"
  },
  {
   "property": "C126",
   "status": "proved",
   "theorems": [
    "Verif.Setup.C126_struct",
    "Verif.Setup.C126_names",
    "Verif.Setup.C126_application",
    "Verif.Setup.C126_mode_in_file"
   ],
   "note": "files are given by their lines, in the format of C48; what a type reads from a text is that of C50; config.Global is taken to be empty; structs with fields that make Decode panic are excluded"
  },
  {
   "property": "C127",
   "status": "proved",
   "theorems": [
    "Verif.Params.C127_query",
    "Verif.Params.C127_roundtrip",
    "Verif.Params.C127_body_total",
    "Verif.Params.C127_plain",
    "Verif.Params.C127_form",
    "Verif.Params.C127_multipart",
    "Verif.Params.C127_first"
   ],
   "note": "net/url parseQuery and the order of checks in net/http ParseForm are modelled after the standard library; whether mime.ParseMediaType accepts the parameters of a content type and what a multipart reader yields are free; the request has not been parsed by an earlier filter; multipart with rejected media parameters is not covered"
  },
  {
   "property": "C128",
   "status": "proved",
   "theorems": [
    "Verif.Api.C128_returns",
    "Verif.Api.C128_total",
    "Verif.Api.C128_strings_panic"
   ],
   "note": "exact companion of C76; statuses other than 0 are taken as accepted by the server (see C120 for the others); readers deliver their chunks without error"
  },
  {
   "property": "C129",
   "status": "proved",
   "theorems": [
    "Verif.Ctx.C129_attach",
    "Verif.Ctx.C129_find_panics",
    "Verif.Ctx.C129_find",
    "Verif.Ctx.C129_unique"
   ],
   "note": "package paths and type names hold no colon, as in Go; exact companion of C66 without its hypotheses on types"
  },
  {
   "property": "C13",
   "status": "partial",
   "theorems": [
    "Verif.Ctx.C13_started_in_order_at_most_once",
    "Verif.Ctx.C13_no_gaps_partial",
    "Verif.Ctx.C13_action_after_filters_partial",
    "Verif.Ctx.C13_action_after_filters_violated"
   ],
   "note": "order and at-most-once proved for every chain; gap freedom refuted for a repeated Next after a write, proved otherwise"
  },
  {
   "property": "C130",
   "status": "proved",
   "theorems": [
    "Verif.Cache.C130_redis",
    "Verif.Cache.C130_memcache",
    "Verif.Cache.C130_mgo"
   ],
   "note": "exact companion of C45; the servers are modelled by their documented commands"
  },
  {
   "property": "C131",
   "status": "proved",
   "theorems": [
    "Verif.Params.C131_exact",
    "Verif.Params.C131_unique"
   ],
   "note": "net/url is modelled for Go 1.13; the parser of the authority is a parameter"
  },
  {
   "property": "C132",
   "status": "partial",
   "theorems": [
    "Verif.Params.C132_own_url_partial",
    "Verif.Params.C132_text_partial",
    "Verif.Params.C132_client_url_violated"
   ],
   "note": "proved without X-Original-URI and with a host name without a port: the request's own URL with scheme and host filled in, and, for paths of URI characters, the text scheme://host followed by the target byte for byte; false with a port (dropped), for opaque targets (an error) and for X-Original-URI with an escaped slash (unescaped): C132_client_url_violated"
  },
  {
   "property": "C133",
   "status": "proved",
   "theorems": [
    "Verif.Sess.C133_wire_refines",
    "Verif.Sess.C133_sessions_over_the_wire",
    "Verif.Sess.C133_session_cookie",
    "Verif.Sess.C133_signed_values",
    "Verif.Sess.C133_request_cookies",
    "Verif.Sess.C133_add_cookie",
    "Verif.Sess.C133_read_sound",
    "Verif.Sess.C133_bad_name_no_session",
    "Verif.Sess.C133_bad_domain_host_only",
    "Verif.Sess.C133_domain_address",
    "Verif.Sess.C133_domain_colon"
   ],
   "note": "net/http's cookie writer and reader (Go 1.13) and RFC 6265 section 5.2 are modelled; net.ParseIP and the date text are parameters"
  },
  {
   "property": "C134",
   "status": "proved",
   "theorems": [
    "Verif.Sess.C134_noninterference",
    "Verif.Sess.C134_backends",
    "Verif.Sess.C134_fresh_needed"
   ],
   "note": "calls of the manager and of a store are one step each; the freshness of ids is the hypothesis (C37: 256 random bits); names and domain of the cookies as in C133"
  },
  {
   "property": "C135",
   "status": "proved",
   "theorems": [
    "Verif.Sess.C135_saved_values_come_back"
   ],
   "note": "end to end over Model/Site; hypotheses: fresh ids (C37), faithful converter, the values can be marshalled"
  },
  {
   "property": "C136",
   "status": "proved",
   "theorems": [
    "Verif.Cache.C136_redis",
    "Verif.Cache.C136_mgo",
    "Verif.Cache.C136_any_order",
    "Verif.Cache.C136_memcache_order_matters"
   ],
   "note": "each provider method is one atomic server command, so an interleaving of clients is a list of calls"
  },
  {
   "property": "C137",
   "status": "proved",
   "theorems": [
    "Verif.Params.C137_panics",
    "Verif.Params.C137_fields",
    "Verif.Params.C137_pointers",
    "Verif.Params.C137_type_kept",
    "Verif.Params.C137_complete"
   ],
   "note": "exact companion of the partial C71; struct values are trees (embedded pointers distinct)"
  },
  {
   "property": "C138",
   "status": "proved",
   "theorems": [
    "Verif.Params.C138_panics",
    "Verif.Params.C138_panicsF",
    "Verif.Params.C138_slice"
   ],
   "note": "exact companion of the partial C54; C54 gives uniqueness where no two keys clash"
  },
  {
   "property": "C139",
   "status": "proved",
   "theorems": [
    "Verif.Worker.C139_at_most_once",
    "Verif.Worker.C139_all_run",
    "Verif.Worker.C139_one_error",
    "Verif.Worker.C139_closed_final",
    "Verif.Worker.C139_close_closes"
   ],
   "note": "unconditional companion of the partial C64 and C65; a goroutine is over when it returned (tasks of another type leave their pool slot occupied, C65)"
  },
  {
   "property": "C14",
   "status": "proved",
   "theorems": [
    "Verif.Ctx.C14_written_stops_chain",
    "Verif.Ctx.C14_unwritten_runs_all"
   ],
   "note": ""
  },
  {
   "property": "C140",
   "status": "partial",
   "theorems": [
    "Verif.Bson.C140_round_trip",
    "Verif.Bson.C140_marshal_fails_iff",
    "Verif.Bson.C140_next_request",
    "Verif.Bson.C140_reads_same",
    "Verif.Bson.C140_stable",
    "Verif.Bson.C140_faithful",
    "Verif.Bson.C140_strings_violated",
    "Verif.Bson.C140_uint_violated",
    "Verif.Bson.C140_reads_fresh"
   ],
   "note": "partial because []string and uint from 2^32 do read differently on the next request (refuted in _violated theorems); everything else is proved; times, structs and keys with zero bytes are not modelled, documents are below 2 GB; C140_faithful discharges on native values the converter hypothesis of C33-C36, C105, C122, C134, C135"
  },
  {
   "property": "C141",
   "status": "proved",
   "theorems": [
    "Verif.Json.C141_says",
    "Verif.Json.C141_fails_iff",
    "Verif.Json.C141_text",
    "Verif.Json.C141_text_unique",
    "Verif.Json.C141_order",
    "Verif.Json.C141_answer",
    "Verif.Json.C141_error"
   ],
   "note": "encoding/json is modelled down to bytes (Go 1.13 and, by a flag, the escapes of Go 1.22); floats, []byte, own MarshalJSON methods and cyclic values are not modelled; statuses 204 have no body (C67)"
  },
  {
   "property": "C142",
   "status": "partial",
   "theorems": [
    "Verif.SessHeap.C142_isolated",
    "Verif.SessHeap.C142_others_unchanged",
    "Verif.SessHeap.C142_shared_violated",
    "Verif.SessHeap.C142_later_write_violated",
    "Verif.SessHeap.C142_nil_variable"
   ],
   "note": "Proved for every program that does not use a map again after giving it to `Create`. Without that the claim is false of the code, and both ways are theorems: `Create` keeps the map it is given, so one map given twice makes two sessions share their values, and a later write to the map changes the session without its being saved."
  },
  {
   "property": "C143",
   "status": "partial",
   "theorems": [
    "Verif.Gz.C143_written",
    "Verif.Gz.C143_returned",
    "Verif.Gz.C143_gzip_first",
    "Verif.Gz.C143_gzip_later_violated",
    "Verif.Gz.C143_twice_violated",
    "Verif.Gz.C143_marked",
    "Verif.Gz.C143_status",
    "Verif.Gz.C143_plain",
    "Verif.Gz.C143_api"
   ],
   "note": "Proved for one gzip filter that comes before GenericOutFilter, and for actions that write. False of the code otherwise: GenericOutFilter looks the writer up after the later handlers have returned, so with a gzip filter registered after LoadClassicFilters (or on a route) it finds the gzip writer that was already closed, and every returned result becomes a gzip stream without an end (C143_gzip_later_violated, for all results); two gzip filters compress twice. C143_written and C143_returned say exactly what happens for every order. compress/gzip is a contract (an example codec is proved to meet it); panics are C21 and C99."
  },
  {
   "property": "C144",
   "status": "proved",
   "theorems": [
    "Verif.Rand.C144_strings",
    "Verif.Rand.C144_uniform",
    "Verif.Rand.C144_sid",
    "Verif.Rand.C144_guess"
   ],
   "note": "The source's answers are taken to be uniformly distributed; the specification's list of all byte strings is proved complete and without repetition (Rand.strings_mem, Rand.strings_nodup, Rand.strings_length)."
  },
  {
   "property": "C145",
   "status": "proved",
   "theorems": [
    "Verif.App.C145_no_status_line",
    "Verif.App.C145_chain_goes_on",
    "Verif.App.C145_ends_request_violated",
    "Verif.App.C145_with_status",
    "Verif.App.C145_action"
   ],
   "note": "C145_ends_request_violated records that a handler that only takes the connection over is not the last one to run. What net/http's writer answers on a hijacked connection is not modelled (the number of bytes accepted is an input)."
  },
  {
   "property": "C146",
   "status": "proved",
   "theorems": [
    "Verif.Cache.C146_backends_agree",
    "Verif.Cache.C146_delete_differs_violated"
   ],
   "note": "Touch, Incr and Decr are excluded here: C42 and C45 refute that the backends agree on them (C130 says exactly what each does). The commands of the servers are modelled from their documentation (see C41)."
  },
  {
   "property": "C147",
   "status": "partial",
   "theorems": [
    "Verif.Where.C147_call",
    "Verif.Where.C147_recover",
    "Verif.Where.C147_filter",
    "Verif.Where.C147_filter_skips_violated",
    "Verif.Where.C147_recover_hides_panic_violated",
    "Verif.Where.C147_filter_hides_panic_violated",
    "Verif.Where.C147_example"
   ],
   "note": "Proved for logging calls. False of the code for panics: Recover passes absolute depths that parseValues adds to the logger's own 4, so four more frames are skipped, and RecoveryFilter skips five, which fits only panics with three runtime frames; for a call of panic (one or two, depending on the version of Go) the function that panicked is missing. C147_recover and C147_filter say exactly what is shown, for every stack. Stacks are as runtime.Caller counts them (wrappers of promoted methods are not counted); total depths below 4 show the framework's own frames and are not covered."
  },
  {
   "property": "C148",
   "status": "partial",
   "theorems": [
    "Verif.Params.C148_exact",
    "Verif.Params.C148_unambiguous",
    "Verif.Params.C148_minutes_violated",
    "Verif.Params.C148_added_formats",
    "Verif.Params.C148_bound",
    "Verif.Params.C148_zone"
   ],
   "note": "Params.C148_format_example"
  },
  {
   "property": "C149",
   "status": "proved",
   "theorems": [
    "Verif.ReqLog.C149_lines",
    "Verif.ReqLog.C149_one_line",
    "Verif.ReqLog.C149_no_forged_lines",
    "Verif.ReqLog.C149_begin_readable",
    "Verif.ReqLog.C149_size",
    "Verif.ReqLog.C149_end_readable",
    "Verif.ReqLog.C149_filters"
   ],
   "note": "For LogStackLevel below INFO (with it, every line carries a trace), the initial GlobalLevel, and handlers that do not change the settings of the request's logger. The duration's text is an input; sizes below 2^53. That both events are logged is C86. The address is whatever X-Real-Ip or X-Forwarded-For say, so it may contain blanks; it is the last field."
  },
  {
   "property": "C15",
   "status": "proved",
   "theorems": [
    "Verif.Ctx.C15_next_is_nested",
    "Verif.Ctx.C15_onion"
   ],
   "note": ""
  },
  {
   "property": "C150",
   "status": "proved",
   "theorems": [
    "Verif.Router.C150_counts",
    "Verif.Router.C150_bound"
   ],
   "note": "The steps are counted by an instrumented copy of the search whose result is proved equal to the search (C150_counts); a step is a call of match or a look at one parameter child. Costs of string operations and of map lookups inside a step are not counted."
  },
  {
   "property": "C151",
   "status": "partial",
   "theorems": [
    "Verif.Static.C151_location",
    "Verif.Static.C151_offsite_iff",
    "Verif.Static.C151_prefix_partial",
    "Verif.Static.C151_open_redirect_violated",
    "Verif.Static.C151_follow_partial",
    "Verif.Static.C151_prefix_left_violated",
    "Verif.Static.C151_skipped_violated",
    "Verif.Static.C151_ascii"
   ],
   "note": "False as stated: a filter mounted at the root answers GET //host/.. with a redirect to //host/../, another host (C151_open_redirect_violated, for every host and every directory). C151_location gives the exact address in all cases and C151_offsite_iff exactly when it is off the site; under a prefix it never is (C151_prefix_partial); for canonical paths the redirect leads to the same directory (C151_follow_partial)."
  },
  {
   "property": "C152",
   "status": "partial",
   "theorems": [
    "Verif.Static.C152_tidy_partial",
    "Verif.Static.C152_second_slash_violated",
    "Verif.Static.C152_routes_cut_off_violated",
    "Verif.Static.C152_index_violated"
   ],
   "note": "False as stated: with one more slash in front every file under a skipped prefix is served (C152_second_slash_violated), and a request that the routes would serve is answered 404 (C152_routes_cut_off_violated); a skipped index file is served for its directory (C152_index_violated). It holds for tidy paths, the index file and the TryFilesThen file apart (C152_tidy_partial)."
  },
  {
   "property": "C153",
   "status": "partial",
   "theorems": [
    "Verif.Gz.C153_exact",
    "Verif.Gz.C153_accepted_partial",
    "Verif.Gz.C153_listed",
    "Verif.Gz.C153_refused_violated",
    "Verif.Gz.C153_other_coding_violated",
    "Verif.Gz.C153_missed_violated",
    "Verif.Gz.C153_vary",
    "Verif.Gz.C153_vary_lost_violated",
    "Verif.Gz.C153_vary_plain_violated"
   ],
   "note": "C153_exact says who gets a compressed answer: the clients that list a coding whose name contains gzip, whatever its weight. So the claim is false: a client that refuses gzip with q=0 gets it (C153_refused_violated), one that knows another coding with gzip in its name too (C153_other_coding_violated), and one that writes GZIP or * does not (C153_missed_violated). An earlier Vary: Cookie is lost (C153_vary_lost_violated), plain answers have no Vary (C153_vary_plain_violated). Without such names and zero weights only clients that can take gzip get it (C153_accepted_partial)."
  },
  {
   "property": "C154",
   "status": "partial",
   "theorems": [
    "Verif.Router.C154_name",
    "Verif.Router.C154_standard",
    "Verif.Router.C154_injective",
    "Verif.Router.C154_reach",
    "Verif.Router.C154_hidden_action_violated",
    "Verif.Router.C154_named_partial",
    "Verif.Router.C154_example",
    "Verif.Router.C154_hidden_call_violated"
   ],
   "note": "False as stated: every byte after the first is raised by 32, so 5 becomes U, and a request with the method RESET5SERS runs the exported method ResetUsers of a controller declared with All (C154_hidden_action_violated, for every such application and name). C154_reach says exactly which names can be asked for. Claims about names hold: C154_name, C154_injective; if all exported methods are one capital followed by small letters, only named ones run (C154_named_partial). That the call itself succeeds depends on the parameters of the method (C84, C85)."
  },
  {
   "property": "C155",
   "status": "partial",
   "theorems": [
    "Verif.Router.C155_read",
    "Verif.Router.C155_exact",
    "Verif.Router.C155_values",
    "Verif.Router.C155_link_partial",
    "Verif.Router.C155_dotdot_violated",
    "Verif.Router.C155_empty_violated",
    "Verif.Router.C155_slash_violated",
    "Verif.Router.C155_blank_violated"
   ],
   "note": "False as stated, for every application: a value .. takes away the segment before it, so /users/:id/posts with the value .. runs the route /posts (C155_dotdot_violated); an empty value or . disappears (C155_empty_violated); an escaped slash still splits the segment (C155_slash_violated); white space at the end of the address is lost, so two values become one (C155_blank_violated). C155_exact says exactly which addresses keep their segments. C155_values: whenever the route answers such a link, the parameters are the values. C155_link_partial adds that it does answer when no other pattern matches and there is no dead end (C02, C03)."
  },
  {
   "property": "C156",
   "status": "proved",
   "theorems": [
    "Verif.App.C156_chain",
    "Verif.App.C156_global",
    "Verif.App.C156_route",
    "Verif.App.C156_declared",
    "Verif.App.C156_recovery_careful",
    "Verif.App.C156_status_refuses",
    "Verif.App.C156_panic_refuses",
    "Verif.App.C156_panic_nil_violated",
    "Verif.App.C156_no_logger_violated",
    "Verif.App.C156_hijack_violated",
    "Verif.App.C156_next_twice_violated",
    "Verif.App.C156_returned_error_violated"
   ],
   "note": "proved with the conditions of the statement; the _violated theorems show that each of them is needed. C156_declared has no hypothesis on the shape of the declarations (it rests on C10_filter_inheritance_always)."
  },
  {
   "property": "C157",
   "status": "partial",
   "theorems": [
    "Verif.Bson.C157_keys_partial",
    "Verif.Bson.C157_injection_violated",
    "Verif.Bson.C157_next_request_violated",
    "Verif.Bson.C157_unreadable_violated"
   ],
   "note": "Proved for keys without zero bytes. False otherwise: keys are written as they are, ended by a zero byte, so whoever chooses a key under which the program stores a value he knows (a product id, say) sets every key of his session to every value: `C157_injection_violated` constructs the key for every pair of key and value (role = admin), and `C157_next_request_violated` follows it through the store to the next request; a zero byte can also make the session unreadable. That globalsign/mgo's bson does not check names is part of the model of that library (it is not in the sandbox)."
  },
  {
   "property": "C158",
   "status": "partial",
   "theorems": [
    "Verif.Down.C158_resume_partial",
    "Verif.Down.C158_gzip_exact",
    "Verif.Down.C158_gzip_stuck_violated",
    "Verif.Down.C158_gzip_violated",
    "Verif.Down.C158_same_second_violated",
    "Verif.Down.C158_example",
    "Verif.Down.C158_hypotheses"
   ],
   "note": "Proved for answers that are not compressed and versions that differ in their second. Behind the gzip filter it is false: the filter compresses the part that net/http cut out of the file, so a client that counts the bytes it received (as RFC 7233 says) gets a stream of something else, is told its truncated stream is complete, or never gets any further; exactly what it gets is C158_gzip_exact. Two versions of the same second are mixed."
  },
  {
   "property": "C159",
   "status": "partial",
   "theorems": [
    "Verif.Down.C159_exact",
    "Verif.Down.C159_current_partial",
    "Verif.Down.C159_stale_violated",
    "Verif.Down.C159_example"
   ],
   "note": "Proved for histories in which changed contents come with a later second. False otherwise: a file changed again in the same second, restored with an older time, or deleted so that the (older) fallback file is served, is answered 304 and the old contents are shown for good. What is shown exactly: C159_exact."
  },
  {
   "property": "C16",
   "status": "partial",
   "theorems": [
    "Verif.Ctx.C16_recovery_partial",
    "Verif.Ctx.C16_recovery_dev_partial",
    "Verif.Ctx.C16_recovery_violated"
   ],
   "note": "refuted for panic(nil) followed by a panic; proved when the recovered panic is not nil, for both modes; needs a Logger"
  },
  {
   "property": "C160",
   "status": "proved",
   "theorems": [
    "Verif.Down.C160_head"
   ],
   "note": "Requests with several ranges are not covered (their answer is not modelled). An error page written for a HEAD request is dropped by net/http."
  },
  {
   "property": "C161",
   "status": "proved",
   "theorems": [
    "Verif.Sess.C161_alone",
    "Verif.Sess.C161_separate",
    "Verif.Sess.C161_separate_backends",
    "Verif.Sess.C161_whole",
    "Verif.Sess.C161_whole_redis",
    "Verif.Sess.C161_whole_memcache",
    "Verif.Sess.C161_whole_mgo",
    "Verif.Sess.C161_last_save"
   ],
   "note": "C161_alone: the operations cut into single cache calls are, run in one piece, the operations of Model/Session. (a) for MongoDB without touch (C42: touching brings expired sessions back there); the converter reads back what it wrote (C140)"
  },
  {
   "property": "C162",
   "status": "partial",
   "theorems": [
    "Verif.Sess.C162_moves_partial",
    "Verif.Sess.C162_update_lost_violated",
    "Verif.Sess.C162_old_id_back_violated"
   ],
   "note": "Proved when nobody else makes a call that changes the old or the new session between the calls of Regenerate (readers and requests of other sessions may). False otherwise: a save between the first call and the delete is acknowledged and lost; a save after the delete brings the old id back."
  },
  {
   "property": "C163",
   "status": "partial",
   "theorems": [
    "Verif.Down.C163_parts_partial",
    "Verif.Down.C163_last_zero_violated",
    "Verif.Down.C163_reversed",
    "Verif.Down.C163_if_range",
    "Verif.Down.C163_example"
   ],
   "note": "Proved for answers that are not compressed and files that are not empty (an empty file is sent as a whole by net/http, whatever the range). False for the last 0 bytes (206 with a last byte before the first) and with gzip (C158). net/http's ServeContent is part of the environment and modelled from its documented source; several ranges at once are not claimed."
  },
  {
   "property": "C164",
   "status": "proved",
   "theorems": [
    "Verif.Bson.C164_damaged",
    "Verif.Bson.C164_start",
    "Verif.Bson.C164_example"
   ],
   "note": "records of less than 2 GB (BSON's length is 32 bits); bson.Unmarshal is part of the environment and modelled (Model/Bson)"
  },
  {
   "property": "C165",
   "status": "partial",
   "theorems": [
    "Verif.ApiErr.C165_answer",
    "Verif.ApiErr.C165_no_content",
    "Verif.ApiErr.C165_text",
    "Verif.ApiErr.C165_code_partial",
    "Verif.ApiErr.C165_other",
    "Verif.ApiErr.C165_equal_partial",
    "Verif.ApiErr.C165_literal_violated",
    "Verif.ApiErr.C165_copy_violated",
    "Verif.ApiErr.C165_zero_violated",
    "Verif.ApiErr.C165_nil_violated",
    "Verif.ApiErr.C165_example"
   ],
   "note": "Proved for all programs which make their errors with NewResError, WithData and WithMsg (the answer and the text without restriction on the status; codes and comparison for statuses other than 0). False for errors written as a struct literal (answered with {}), for errors copied by value and changed (answered with the original), for status 0 (reported as 0 before the first answer and as 200 after it), and for a nil *ResError in an error (panics). Data that has no JSON: C141."
  },
  {
   "property": "C166",
   "status": "proved",
   "theorems": [
    "Verif.Down.C166_answers",
    "Verif.Down.C166_total",
    "Verif.Down.C166_example"
   ],
   "note": "the six cases of the statement are exhaustive (C166_total); two of them may surprise: an index.html that is a directory is passed on to the application, a fallback that is a directory is a 500. Plain GET requests; ranges C163, conditions C159, HEAD C160; empty compressed files C21"
  },
  {
   "property": "C167",
   "status": "proved",
   "theorems": [
    "Verif.Driver.C167_redis",
    "Verif.Driver.C167_memcache",
    "Verif.Driver.C167_mgo",
    "Verif.Driver.C167_outage",
    "Verif.Driver.C167_missed",
    "Verif.Driver.C167_pool",
    "Verif.Driver.C167_pool_count",
    "Verif.Driver.C167_example"
   ],
   "note": "the drivers (radix.v2, mgo.v2, gomemcache) and the servers are trusted base: which replies and errors they give is modelled; GC sends no command to redis, to memcached, or to a MongoDB that expires documents itself, and so cannot fail there; concurrency inside one call is not modelled (the pool of one provider is seen between calls)"
  },
  {
   "property": "C168",
   "status": "proved",
   "theorems": [
    "Verif.ReqLog.C168_nearest",
    "Verif.ReqLog.C168_any",
    "Verif.ReqLog.C168_monotone",
    "Verif.ReqLog.C168_header_and_log",
    "Verif.ReqLog.C168_one_line",
    "Verif.ReqLog.C168_size",
    "Verif.ReqLog.C168_example"
   ],
   "note": "trusted: IEEE-754 conversion and division to nearest even, and fmt's exact decimal rounding, which are modelled; the clock is monotonic. Ties (whole microseconds and a half) go to either side (C168_example)"
  },
  {
   "property": "C169",
   "status": "proved",
   "theorems": [
    "Verif.Sess.C169_start",
    "Verif.Sess.C169_newcomer",
    "Verif.Sess.C169_frozen",
    "Verif.Sess.C169_outage",
    "Verif.Sess.C169_backends",
    "Verif.Sess.C169_example",
    "Verif.Sess.C169_example_meets"
   ],
   "note": "a request that regenerates the session panics during the outage (C35_manager_panics_violated) and leaves everything as it is; sessions already open in a running request lose changes whose flush fails (C36); logging out during an outage does not end the session (C123_logout_in_outage_violated). That the drivers' failures are of this kind is C167; expiry goes on during the outage"
  },
  {
   "property": "C17",
   "status": "proved",
   "theorems": [
    "Verif.Resp.C17_header_once",
    "Verif.Resp.C17_at_most_one_header"
   ],
   "note": "callbacks that neither panic nor set status 0 for the full form"
  },
  {
   "property": "C170",
   "status": "proved",
   "theorems": [
    "Verif.Flt.C170_parameter",
    "Verif.Flt.C170_setting",
    "Verif.Flt.C170_strTo",
    "Verif.Flt.C170_exact",
    "Verif.Flt.C170_integers",
    "Verif.Flt.C170_order",
    "Verif.Flt.C170_bits_order",
    "Verif.Flt.C170_malformed"
   ],
   "note": "trusted: strconv.ParseFloat rounds correctly, as it documents; its grammar is modelled. The specification gives floats by their IEEE fields and says nearest by comparing with every other float"
  },
  {
   "property": "C171",
   "status": "partial",
   "theorems": [
    "Verif.Flt.C171_neighbour_partial",
    "Verif.Flt.C171_nearest_partial",
    "Verif.Flt.C171_violated",
    "Verif.Flt.C171_overflow_violated"
   ],
   "note": "the full claim is false of the code (FloatBinder parses with 64 bits and lets SetFloat narrow)"
  },
  {
   "property": "C172",
   "status": "partial",
   "theorems": [
    "Verif.Flt.C172_finite_partial",
    "Verif.Flt.C172_words_violated"
   ],
   "note": "the full claim is false of the code (ParseFloat accepts the words and FloatBinder checks only the error)"
  },
  {
   "property": "C173",
   "status": "proved",
   "theorems": [
    "Verif.Flt.C173_roundtrip",
    "Verif.Flt.C173_parameter",
    "Verif.Flt.C173_shortest",
    "Verif.Flt.C173_precision"
   ],
   "note": "trusted: strconv.FormatFloat computes the shortest or the correctly rounded text, as it documents; modelled as a search over the decimal grids and proved to have these properties"
  },
  {
   "property": "C174",
   "status": "partial",
   "theorems": [
    "Verif.Flt.C174_int_to_float",
    "Verif.Flt.C174_whole_partial",
    "Verif.Flt.C174_fraction_partial",
    "Verif.Flt.C174_same_type",
    "Verif.Flt.C174_large_violated",
    "Verif.Flt.C174_widen_violated"
   ],
   "note": "the full claim is false of the code; proved: integers to floats, whole floats below 2^53, fractions, values of the type asked for"
  },
  {
   "property": "C175",
   "status": "proved",
   "theorems": [
    "Verif.Conf.C175_one_reading",
    "Verif.Conf.C175_exact",
    "Verif.Conf.C175_file_then_reader",
    "Verif.Conf.C175_nothing"
   ],
   "note": "Exact for every text (C48 is the round trip for well-formed ones). The texts of operating-system errors are not modelled."
  },
  {
   "property": "C176",
   "status": "proved",
   "theorems": [
    "Verif.Cache.C176_redis",
    "Verif.Cache.C176_memcache",
    "Verif.Cache.C176_mgo"
   ],
   "note": "Longer timeouts: C40 (overflow). For ints outside int32 the conversion in the memcached provider depends on the platform."
  },
  {
   "property": "C177",
   "status": "proved",
   "theorems": [
    "Verif.Cache.C177_servers",
    "Verif.Cache.C177_mgo"
   ],
   "note": "Composition of C176 with the conversions (C51, C173)."
  },
  {
   "property": "C178",
   "status": "proved",
   "theorems": [
    "Verif.RCtx.C178_exact",
    "Verif.RCtx.C178_one_answer",
    "Verif.RCtx.C178_attached_for_all",
    "Verif.RCtx.C178_logger_everywhere",
    "Verif.RCtx.C178_agree",
    "Verif.RCtx.C178_lost",
    "Verif.RCtx.C178_self"
   ],
   "note": "Specification: RCtx.View.after (lists of attached values). Only Value is modelled (no deadlines); concrete request: RCtx.ex_seen."
  },
  {
   "property": "C179",
   "status": "proved",
   "theorems": [
    "Verif.Log.C179_line",
    "Verif.Log.C179_production",
    "Verif.Log.C179_last_application_wins"
   ],
   "note": "Specification: Log.GSpec.*. Formatting of the arguments, caller positions and traces are inputs, as in C80."
  },
  {
   "property": "C18",
   "status": "partial",
   "theorems": [
    "Verif.Resp.C18_wire_status_partial",
    "Verif.Resp.C18_sent_code_plain",
    "Verif.Resp.C18_wire_status_violated"
   ],
   "note": "refuted for Flush before the first Write; proved otherwise"
  },
  {
   "property": "C180",
   "status": "proved",
   "theorems": [
    "Verif.Json.C180_back",
    "Verif.Json.C180_only",
    "Verif.Json.C180_distinct",
    "Verif.Json.C180_answer"
   ],
   "note": "Specification: Flt.Spec.Nearest, Json.Spec.IsReal, Json.Spec.parse. encoding/json's floatEncoder is modelled after its documentation and source (strconv shortest digits, 'e' below 1e-6 and from 1e21, e-09 to e-9). Concrete floats: Json.ex_floats."
  },
  {
   "property": "C181",
   "status": "proved",
   "theorems": [
    "Verif.Json.C181_written",
    "Verif.Json.C181_only",
    "Verif.Json.C181_text",
    "Verif.Json.C181_back",
    "Verif.Json.C181_answer"
   ],
   "note": "Specification: Json.Spec.Base64 (relation between texts and bytes, RFC 4648). Concrete texts: Json.ex_bytes (RFC 4648 section 10)."
  },
  {
   "property": "C182",
   "status": "proved",
   "theorems": [
    "Verif.Bson.C182_next_request",
    "Verif.Bson.C182_stored",
    "Verif.Bson.C182_cut",
    "Verif.Bson.C182_equal_violated"
   ],
   "note": "Specification: Bson.Spec.At, Spec.Cut (nanoseconds). The zone is not stored and not modelled. Refuted: that a time comes back equal (C182_equal_violated). Concrete times: Bson.ex_times."
  },
  {
   "property": "C183",
   "status": "proved",
   "theorems": [
    "Verif.Sess.C183_refused",
    "Verif.Sess.C183_request",
    "Verif.Sess.C183_every_visit",
    "Verif.Sess.C183_kept"
   ],
   "note": "Specification: Sess.Spec.Off, Spec.Earlier, Spec.offVisits. The clock must have advanced between two visits. Concrete: Sess.ex_off."
  },
  {
   "property": "C184",
   "status": "proved",
   "theorems": [
    "Verif.Down.C184_kinds",
    "Verif.Down.C184_if_match",
    "Verif.Down.C184_if_none_match",
    "Verif.Down.C184_if_unmodified",
    "Verif.Down.C184_fresh"
   ],
   "note": "net/http ServeContent (checkPreconditions, scanETag) is modelled as in Go 1.14 to 1.22: trusted base. Concrete: Down.C184_example."
  },
  {
   "property": "C185",
   "status": "proved",
   "theorems": [
    "Verif.Sess.C185_login_sound",
    "Verif.Sess.C185_salt_changed",
    "Verif.Sess.C185_login_roundtrip",
    "Verif.Sess.C185_login_known",
    "Verif.Sess.C185_off"
   ],
   "note": "Specification: Sess.Spec.autoLogin (the program), Spec.salted, Spec.OwnSalts, Spec.HashNotForged. Unforgeability is an assumption on the hash in the request; that users do not share salts is one on the program. Concrete: Sess.LoginEx.met."
  },
  {
   "property": "C186",
   "status": "proved",
   "theorems": [
    "Verif.Assert.C186_fails",
    "Verif.Assert.C186_opposites",
    "Verif.Assert.C186_passes",
    "Verif.Assert.C186_first_failure"
   ],
   "note": "testing (Errorf, FailNow), reflect and runtime.Caller are trusted. Concrete: Assert.C186_example."
  },
  {
   "property": "C187",
   "status": "proved",
   "theorems": [
    "Verif.Params.C187_roundtrip",
    "Verif.Params.C187_same",
    "Verif.Params.C187_injective",
    "Verif.Params.C187_years",
    "Verif.Params.C187_plus_lost"
   ],
   "note": "Specification: Params.Spec.Moment, Spec.wholeMinutes, Spec.Honest (what depends on the version of Go). time.MarshalJSON is modelled (trusted base). Concrete: Params.C187_example."
  },
  {
   "property": "C188",
   "status": "proved",
   "theorems": [
    "Verif.Params.C188_bind",
    "Verif.Params.C188_bind_panics",
    "Verif.Params.C188_bind_absent",
    "Verif.Params.C188_pointer",
    "Verif.Params.C188_by_value",
    "Verif.Params.C188_others_panic",
    "Verif.Params.C188_text",
    "Verif.Params.C188_text_missing"
   ],
   "note": "Specification: Params.Spec.inside, Spec.writesInside, with Spec.nameAt, Spec.pointerAt of C137 and Spec.Panics of C138. Concrete: Params.C188_example."
  },
  {
   "property": "C189",
   "status": "proved",
   "theorems": [
    "Verif.ParamsHeap.C189_step",
    "Verif.ParamsHeap.C189_separate",
    "Verif.ParamsHeap.C189_merged",
    "Verif.ParamsHeap.C189_single",
    "Verif.ParamsHeap.C189_query_rewritten",
    "Verif.ParamsHeap.C189_none"
   ],
   "note": "Specification: ParamsHeap.Spec.view, Spec.effect (statements on maps of lists as values), Spec.Apart, Spec.together. That net/http and the router leave the maps apart (Spec.Apart) is a hypothesis. Concrete: ParamsHeap.exW_apart, C189_example."
  },
  {
   "property": "C19",
   "status": "partial",
   "theorems": [
    "Verif.Resp.C19_size",
    "Verif.Resp.C19_status_partial",
    "Verif.Resp.C19_status_violated"
   ],
   "note": "Size proved; Status refuted after a late WriteHeader, proved otherwise"
  },
  {
   "property": "C190",
   "status": "proved",
   "theorems": [
    "Verif.BindCycle.C190_ends_iff",
    "Verif.BindCycle.C190_each_once",
    "Verif.BindCycle.C190_only_reached",
    "Verif.BindCycle.C190_self_embedding_violated"
   ],
   "note": "Specification: BindCycle.Spec.Reach, Spec.Finite (accessibility), Spec.Endless. What is written in each struct is C71, C137 and C188. Concrete: BindCycle.C190_example (a cycle of two)."
  },
  {
   "property": "C191",
   "status": "proved",
   "theorems": [
    "Verif.BindCalls.C191_ends",
    "Verif.BindCalls.C191_iff",
    "Verif.BindCalls.C191_one_value_iff",
    "Verif.BindCalls.C191_pointer_violated",
    "Verif.BindCalls.C191_slice_violated"
   ],
   "note": "Specification: BindCalls.Spec.Ends (accessibility of the calls), Spec.Thin, Spec.Tame. Maps are left out. Concrete: BindCalls.exNode_tame, C191_example."
  },
  {
   "property": "C20",
   "status": "proved",
   "theorems": [
    "Verif.Ctx.C20_exactly_one_header",
    "Verif.Ctx.C20_panic_sends_nothing",
    "Verif.Ctx.C20_callback_panic_violated"
   ],
   "note": "callbacks that neither panic nor set status 0"
  },
  {
   "property": "C21",
   "status": "partial",
   "theorems": [
    "Verif.Gz.C21_gzip_complete_partial",
    "Verif.Gz.C21_gzip_headers_partial",
    "Verif.Gz.C21_identity",
    "Verif.Gz.C21_no_body_violated",
    "Verif.Gz.C21_error_page_violated"
   ],
   "note": "codec contract is a parameter (Codec.Lawful); refuted for responses without body and for error pages; proved otherwise"
  },
  {
   "property": "C22",
   "status": "partial",
   "theorems": [
    "Verif.Inj.C22_find_is_nearest",
    "Verif.Inj.C22_arguments",
    "Verif.Inj.C22_provided_value_wins",
    "Verif.Inj.C22_provide_replaces",
    "Verif.Inj.C22_nearest_partial",
    "Verif.Inj.C22_nearest_violated"
   ],
   "note": "refuted when a parent is given a new provider after a child made its value; proved otherwise"
  },
  {
   "property": "C23",
   "status": "partial",
   "theorems": [
    "Verif.Inj.C23_once_per_lookup",
    "Verif.Inj.C23_at_most_once_partial",
    "Verif.Inj.C23_same_value",
    "Verif.Inj.C23_at_most_once_violated"
   ],
   "note": "refuted by Invoke of a function with that result type, which discards the value; proved otherwise"
  },
  {
   "property": "C24",
   "status": "partial",
   "theorems": [
    "Verif.Inj.C24_first_lookup_terminates",
    "Verif.Inj.C24_terminates_partial",
    "Verif.Inj.C24_cycle_is_error_partial",
    "Verif.Inj.C24_terminates_violated"
   ],
   "note": "refuted for overridden providers across requests; proved when each function is the only provider of its type, and for the first lookup"
  },
  {
   "property": "C25",
   "status": "proved",
   "theorems": [
    "Verif.Inj.C25_find_iff",
    "Verif.Inj.C25_find_stable",
    "Verif.Inj.C25_no_value"
   ],
   "note": "assignability of the found value (assignValue) is in Model/InjectTyped (C118)"
  },
  {
   "property": "C26",
   "status": "partial",
   "theorems": [
    "Verif.Inj.C26_slots_distinct_partial",
    "Verif.Inj.C26_named_vs_unnamed_partial",
    "Verif.Inj.C26_unnamed_violated",
    "Verif.Inj.C26_local_violated",
    "Verif.Inj.C26_pointer_same"
   ],
   "note": "refuted for unnamed and function-local types; proved for package-level types up to pointers"
  },
  {
   "property": "C27",
   "status": "partial",
   "theorems": [
    "Verif.Inj.C27_invoke_calls_partial",
    "Verif.Inj.C27_invoke_calls_violated",
    "Verif.Inj.C27_own_result_violated"
   ],
   "note": "refuted when the function's result type is cached or needed; proved for functions without results or with a result type without provider"
  },
  {
   "property": "C28",
   "status": "partial",
   "theorems": [
    "Verif.Inj.C28_apply_fills_partial",
    "Verif.Inj.C28_apply_iff",
    "Verif.Inj.C28_error_keeps_others",
    "Verif.Inj.C28_apply_fills_violated"
   ],
   "note": "refuted when the value cannot be assigned (the error is ignored); proved otherwise; error texts not modelled"
  },
  {
   "property": "C29",
   "status": "proved",
   "theorems": [
    "Verif.Sess.C29_secure_roundtrip",
    "Verif.Sess.C29_encode_refuses",
    "Verif.Sess.C29_encode_injective",
    "Verif.Sess.C29_nonpositive_time_lost",
    "Verif.Sess.C29_getRaw_encode"
   ],
   "note": "non-empty values and keys, times after 1970 (others are refused or lost, as proved); HMAC is a parameter"
  },
  {
   "property": "C30",
   "status": "partial",
   "theorems": [
    "Verif.Sess.C30_accepted_was_signed",
    "Verif.Sess.C30_authentic_fixed_length_partial",
    "Verif.Sess.C30_wrong_key_rejected",
    "Verif.Sess.C30_boundary_not_signed_violated",
    "Verif.Sess.C30_accepted_nonempty"
   ],
   "note": "refuted: the boundary between value and time is not signed; proved as a statement about the concatenation, and for values of one fixed length"
  },
  {
   "property": "C31",
   "status": "partial",
   "theorems": [
    "Verif.Sess.C31_session_cookie_roundtrip",
    "Verif.Sess.C31_accepted_not_expired",
    "Verif.Sess.C31_last_cookie_wins",
    "Verif.Sess.C31_expiry_overflow_violated",
    "Verif.Sess.C31_forged_never_expires_violated"
   ],
   "note": "exact expiry proved for 0 to 292 years; refuted beyond (overflow) and for cookies altered without the key"
  },
  {
   "property": "C32",
   "status": "partial",
   "theorems": [
    "Verif.Sess.C32_remember_roundtrip",
    "Verif.Sess.C32_remember_wrong_salt",
    "Verif.Sess.C32_session_cookie_accepted_violated",
    "Verif.Sess.C32_remember_refuses"
   ],
   "note": "round trip, wrong key and wrong salt proved; recognition refuted: any signed value without a bar is recognised, with empty user"
  },
  {
   "property": "C33",
   "status": "proved",
   "theorems": [
    "Verif.Sess.C33_get_last_set",
    "Verif.Sess.C33_has_iff_get",
    "Verif.Sess.C33_sid_constant",
    "Verif.Sess.C33_flush_read_back",
    "Verif.Sess.C33_touch_extends",
    "Verif.Sess.C33_request_cycle",
    "Verif.Sess.C33_untouched_session_not_stored",
    "Verif.Sess.C33_start_id_is_cookie_id"
   ],
   "note": "For any cache satisfying Lawful (redis, memcached, MongoDB instances are constructed in Props/SessionCache.lean) and any converter that reads back what it wrote (BSON is a parameter)."
  },
  {
   "property": "C34",
   "status": "partial",
   "theorems": [
    "Verif.Sess.C34_destroyed_stays_destroyed_partial",
    "Verif.Sess.C34_destroy_reports",
    "Verif.Sess.C34_destroyed_store_empty",
    "Verif.Sess.C34_manager_destroy",
    "Verif.Sess.C34_other_handle_resurrects_violated"
   ],
   "note": "Proved for the destroyed store itself, any later history and faults. False for a second open store of the same session: its flush recreates the session (counterexample theorem)."
  },
  {
   "property": "C35",
   "status": "partial",
   "theorems": [
    "Verif.Sess.C35_regenerate_moves",
    "Verif.Sess.C35_regenerate_missing",
    "Verif.Sess.C35_regenerate_never_loses",
    "Verif.Sess.C35_manager_cycle",
    "Verif.Sess.C35_manager_params_when_missing",
    "Verif.Sess.C35_old_id_survives_violated",
    "Verif.Sess.C35_manager_panics_violated"
   ],
   "note": "Proved without failures, and that contents are never lost at any failure point. With a failing delete the old id survives although success is reported; the manager panics on other provider errors."
  },
  {
   "property": "C36",
   "status": "partial",
   "theorems": [
    "Verif.Sess.C36_retry_after_change_partial",
    "Verif.Sess.C36_retry_is_lost_violated"
   ],
   "note": "False as stated: a failed flush clears the changed flag, so a retry does nothing and reports success. A flush after a further modification saves everything."
  },
  {
   "property": "C37",
   "status": "partial",
   "theorems": [
    "Verif.Rand.C37_sid_shape",
    "Verif.Rand.C37_sid_always_made",
    "Verif.Rand.C37_sid_unique_partial",
    "Verif.Rand.C37_sid_unique_violated"
   ],
   "note": "shape proved for all; uniqueness for clock readings from 1974 to 2120, refuted in general"
  },
  {
   "property": "C38",
   "status": "proved",
   "theorems": [
    "Verif.Rand.C38_number_roundtrip",
    "Verif.Rand.C38_encode_injective",
    "Verif.Rand.C38_encode_alphabet",
    "Verif.Rand.C38_encode_invalid",
    "Verif.Rand.C38_small_alphabet",
    "Verif.Rand.C38_decode_foreign_violated"
   ],
   "note": ""
  },
  {
   "property": "C39",
   "status": "partial",
   "theorems": [
    "Verif.Rand.C39_random_in_alphabet",
    "Verif.Rand.C39_random_succeeds",
    "Verif.Rand.C39_random_every_char",
    "Verif.Rand.C39_random_256_violated"
   ],
   "note": "proved for every alphabet; refuted that the call succeeds: an alphabet of 256 bytes panics"
  },
  {
   "property": "C40",
   "status": "partial",
   "theorems": [
    "Verif.Cache.C40_timeout_meaning",
    "Verif.Cache.C40_timeoutEx_meaning",
    "Verif.Cache.C40_timeout_overflow_violated"
   ],
   "note": "proved up to 292 years (wraps beyond); how each backend applies it is part of C41"
  },
  {
   "property": "C41",
   "status": "partial",
   "theorems": [
    "Verif.Cache.C41_redis_ttl_map_partial",
    "Verif.Cache.C41_memcache_ttl_map_partial",
    "Verif.Cache.C41_mgo_ttl_map_partial",
    "Verif.Cache.C41_memcache_long_timeout_violated",
    "Verif.Cache.C41_other_values_lost_violated",
    "Verif.Cache.C41_memcache_bad_key"
   ],
   "note": "server commands are modelled; each backend refines the TTL map on the histories allowed by redisOk, mcOk, mgoOk; refuted outside (memcached above 30 days, values of other types)"
  },
  {
   "property": "C42",
   "status": "partial",
   "theorems": [
    "Verif.Cache.C42_touch_missing",
    "Verif.Cache.C42_redis_touch_live",
    "Verif.Cache.C42_memcache_touch_live",
    "Verif.Cache.C42_mgo_touch_partial",
    "Verif.Cache.C42_mgo_touch_resurrects_violated",
    "Verif.Cache.C42_redis_touch_negative_violated"
   ],
   "note": "refuted for MongoDB (expired documents come back) and for redis with negative timeouts"
  },
  {
   "property": "C43",
   "status": "partial",
   "theorems": [
    "Verif.Cache.C43_gc_transparent_servers",
    "Verif.Cache.C43_gc_transparent_mgo_partial",
    "Verif.Cache.C43_gc_observable_mgo_violated"
   ],
   "note": "proved for redis and memcached; for MongoDB when only live keys are touched, deleted or incremented; refuted otherwise"
  },
  {
   "property": "C44",
   "status": "partial",
   "theorems": [
    "Verif.Cache.C44_prefix_isolation_partial",
    "Verif.Cache.C44_clean_not_isolated_violated",
    "Verif.Cache.C44_nested_prefix_violated"
   ],
   "note": "proved without Clean; Clean refuted"
  },
  {
   "property": "C45",
   "status": "partial",
   "theorems": [
    "Verif.Cache.C45_redis_incr_partial",
    "Verif.Cache.C45_mgo_incr_partial",
    "Verif.Cache.C45_incr_missing",
    "Verif.Cache.C45_backends_differ_violated",
    "Verif.Cache.C45_default_step"
   ],
   "note": "refuted that backends agree; add/undo proved for redis and MongoDB in 64-bit range"
  },
  {
   "property": "C46",
   "status": "partial",
   "theorems": [
    "Verif.Conf.C46_find_precedence",
    "Verif.Conf.C46_find_no_key",
    "Verif.Conf.C46_name_with_section",
    "Verif.Conf.C46_name_without_section",
    "Verif.Conf.C46_default",
    "Verif.Conf.C46_env_names_collide_violated",
    "Verif.Conf.C46_default_ignored_violated",
    "Verif.Conf.C46_env_name"
   ],
   "note": "precedence proved for every environment, chain and name; refuted: distinct names share environment variables, and the default is ignored when no configuration was imported"
  },
  {
   "property": "C47",
   "status": "proved",
   "theorems": [
    "Verif.Conf.C47_parser_total",
    "Verif.Conf.C47_read_error"
   ],
   "note": "no index/slice panics for any byte sequence"
  },
  {
   "property": "C48",
   "status": "proved",
   "theorems": [
    "Verif.Conf.C48_round_trip",
    "Verif.Conf.C48_find"
   ],
   "note": "for every file written in the documented syntax (grammar Spec.Line)"
  },
  {
   "property": "C49",
   "status": "partial",
   "theorems": [
    "Verif.Conf.C49_last_file_wins",
    "Verif.Conf.C49_documented_order",
    "Verif.Conf.C49_added_file_wins",
    "Verif.Conf.C49_repeated_directory_violated",
    "Verif.Conf.C49_empty_value_violated"
   ],
   "note": "full characterisation; refuted for repeated directories (de-duplication keeps the early position) and for empty values"
  },
  {
   "property": "C50",
   "status": "partial",
   "theorems": [
    "Verif.Conf.C50_decode_exactly_present",
    "Verif.Conf.C50_missing_unchanged",
    "Verif.Conf.C50_no_config",
    "Verif.Conf.C50_decode_succeeds",
    "Verif.Conf.C50_list_values",
    "Verif.Conf.C50_malformed_zeroes_violated",
    "Verif.Conf.C50_panics_violated"
   ],
   "note": "field-by-field effect proved for every struct; refuted: malformed values zero the field, []int and **T panic. Float parsing is a parameter."
  },
  {
   "property": "C51",
   "status": "partial",
   "theorems": [
    "Verif.Conv.C51_utils_round_trip",
    "Verif.Conv.C51_root_round_trip_partial",
    "Verif.Conv.C51_uint_violated",
    "Verif.Conv.C51_value_conversion_partial",
    "Verif.Conv.C51_value_conversion_error",
    "Verif.Conv.C51_toStr_other_violated",
    "Verif.Conv.C51_bool_round_trip",
    "Verif.Conv.C51_text",
    "Verif.Conv.C51_strings",
    "Verif.Conv.C51_bool_exact"
   ],
   "note": "all integer kinds; refuted for uint >= 2^32 in the root converter and utils.Value, and for ToStr of other values; floats not modelled"
  },
  {
   "property": "C52",
   "status": "partial",
   "theorems": [
    "Verif.Conv.C52_utils_accepts_iff",
    "Verif.Conv.C52_root_accepts_iff",
    "Verif.Conv.C52_out_of_range_rejected",
    "Verif.Conv.C52_toInt64",
    "Verif.Conv.C52_must_clamps_violated",
    "Verif.Conv.C52_toInt64_wraps_violated"
   ],
   "note": "acceptance characterised exactly; Must* methods clamp and ToInt64 wraps (refuted); params binder see C55"
  },
  {
   "property": "C53",
   "status": "partial",
   "theorems": [
    "Verif.Params.C53_merge",
    "Verif.Params.C53_request_partial",
    "Verif.Params.C53_query_twice_violated",
    "Verif.Params.C53_parse_error_loses_all_violated",
    "Verif.Params.C53_media_type",
    "Verif.Params.C53_form_recognised",
    "Verif.Params.C53_form_letters"
   ],
   "note": "merge characterised for all sources; refuted: query values occur twice for form requests, a parse error loses everything. net/http's form parsing is axiomatised by the model's description of its result."
  },
  {
   "property": "C54",
   "status": "partial",
   "theorems": [
    "Verif.Params.C54_order_independent_partial",
    "Verif.Params.C54_slice_content_partial",
    "Verif.Params.C54_no_panic",
    "Verif.Params.C54_indexed_list_partial",
    "Verif.Params.C54_strings",
    "Verif.Params.C54_ints",
    "Verif.Params.C54_clash_violated",
    "Verif.Params.C54_unindexed_violated",
    "Verif.Params.C54_huge_index_panics_violated"
   ],
   "note": "iteration order is an oracle quantified over; refuted for clashing spellings of an index and huge indices"
  },
  {
   "property": "C55",
   "status": "partial",
   "theorems": [
    "Verif.Params.C55_bind_int",
    "Verif.Params.C55_in_range_preserved",
    "Verif.Params.C55_wide_kinds_partial",
    "Verif.Params.C55_bind_int_param",
    "Verif.Params.C55_absent_is_zero",
    "Verif.Params.C55_narrow_wraps_violated"
   ],
   "note": "full characterisation; refuted: narrow kinds wrap"
  },
  {
   "property": "C56",
   "status": "partial",
   "theorems": [
    "Verif.Params.C56_realIp",
    "Verif.Params.C56_realIp_ipv4_partial",
    "Verif.Params.C56_realIp_forwarded_partial",
    "Verif.Params.C56_ipv6_violated",
    "Verif.Params.C56_realHost",
    "Verif.Params.C56_realHost_no_port_partial",
    "Verif.Params.C56_realProto",
    "Verif.Params.C56_realURI",
    "Verif.ReqLog.C56_logged_ip",
    "Verif.ReqLog.C56_two_copies_differ_violated",
    "Verif.ReqLog.C56_logged_ip_headers"
   ],
   "note": "full characterisation; refuted for IPv6 remote addresses"
  },
  {
   "property": "C57",
   "status": "proved",
   "theorems": [
    "Verif.ReqLog.C57_round_trip",
    "Verif.ReqLog.C57_distinct",
    "Verif.ReqLog.C57_shape",
    "Verif.ReqLog.C57_malformed"
   ],
   "note": ""
  },
  {
   "property": "C58",
   "status": "proved",
   "theorems": [
    "Verif.ReqLog.C58_handler_sees_id",
    "Verif.ReqLog.C58_response_carries_id",
    "Verif.ReqLog.C58_chain_keeps_id",
    "Verif.ReqLog.C58_bounds",
    "Verif.ReqLog.C58_response_time"
   ],
   "note": "before-callbacks registered ahead of the filter must leave the header alone"
  },
  {
   "property": "C59",
   "status": "proved",
   "theorems": [
    "Verif.Log.C59_written_iff",
    "Verif.Log.C59_calls_have_no_effect",
    "Verif.Log.C59_recover",
    "Verif.Log.C59_recover_level_zero_violated"
   ],
   "note": "for the sixteen methods and Recover; a Recover level outside 1..8 panics (extra theorem)"
  },
  {
   "property": "C60",
   "status": "proved",
   "theorems": [
    "Verif.Log.C60_one_line",
    "Verif.Log.C60_content",
    "Verif.Log.C60_escaping_ambiguous"
   ],
   "note": ""
  },
  {
   "property": "C61",
   "status": "proved",
   "theorems": [
    "Verif.Worker.C61_concurrency_bound",
    "Verif.Worker.C61_bound_reached"
   ],
   "note": "every pool size, every client programs, every interleaving; tight"
  },
  {
   "property": "C62",
   "status": "proved",
   "theorems": [
    "Verif.Worker.C62_never_panics_by_closing",
    "Verif.Worker.C62_example"
   ],
   "note": "channel and counter misuse unreachable in every interleaving"
  },
  {
   "property": "C63",
   "status": "proved",
   "theorems": [
    "Verif.Worker.C63_wait_waits_for_all",
    "Verif.Worker.C63_example",
    "Verif.Worker.C63_wait_beside_runtask_violated"
   ],
   "note": "stated over histories: state at the call, any schedule, state when Wait is over. The extra theorem shows that Wait beside RunTask of another goroutine may panic"
  },
  {
   "property": "C64",
   "status": "partial",
   "theorems": [
    "Verif.Worker.C64_only_task_errors",
    "Verif.Worker.C64_error_reported_partial",
    "Verif.Worker.C64_example",
    "Verif.Worker.C64_error_missed_violated",
    "Verif.Worker.C64_error_lost_violated",
    "Verif.Worker.C64_error_after_close_violated",
    "Verif.Worker.C64_dropped_after_error_violated"
   ],
   "note": "the full claim is false of the code: wg.Done precedes the store of err, Wait reads and clears err in two unsynchronised statements, Close drops errors"
  },
  {
   "property": "C65",
   "status": "partial",
   "theorems": [
    "Verif.Worker.C65_executions_bounded",
    "Verif.Worker.C65_progress_partial",
    "Verif.Worker.C65_one_client_progress",
    "Verif.Worker.C65_example",
    "Verif.Worker.C65_zero_pool_violated",
    "Verif.Worker.C65_nested_deadlock_violated",
    "Verif.Worker.C65_other_type_leaks_violated"
   ],
   "note": "the full claim is false of the code for pool size 0, for tasks that use the worker, for tasks of another type"
  },
  {
   "property": "C66",
   "status": "proved",
   "theorems": [
    "Verif.Ctx.C66_last_attached_found",
    "Verif.Ctx.C66_attach_total",
    "Verif.Ctx.C66_example",
    "Verif.Ctx.C66_unnamed_types_collide_violated",
    "Verif.Ctx.C66_nil_inner_pointer_violated"
   ],
   "note": "for values of named types; the two extra theorems show what happens outside: unnamed types share one key, a nil inner pointer panics"
  },
  {
   "property": "C67",
   "status": "partial",
   "theorems": [
    "Verif.Api.C67_res_status",
    "Verif.Api.C67_constructors",
    "Verif.Api.C67_raw_json_status_partial",
    "Verif.Api.C67_raw_status_violated",
    "Verif.Api.C67_example"
   ],
   "note": "full for ResBody and errors, down to the status on the wire; false of the code for raw bodies that are strings, bytes, readers or empty: their status is ignored"
  },
  {
   "property": "C68",
   "status": "partial",
   "theorems": [
    "Verif.Api.C68_immutable",
    "Verif.Api.C68_derived_withData",
    "Verif.Api.C68_derived_withMsg",
    "Verif.Api.C68_own_body",
    "Verif.Api.C68_write_partial",
    "Verif.Api.C68_write_changes_violated",
    "Verif.Api.C68_example",
    "Verif.Api.C68_equal_any",
    "Verif.Api.C68_new",
    "Verif.Api.C68_write_exact"
   ],
   "note": "deriving never changes an error; but sending an error of status 0 does (ResBody.Write stores 200 in it)"
  },
  {
   "property": "C69",
   "status": "proved",
   "theorems": [
    "Verif.Static.C69_others_untouched",
    "Verif.Static.C69_mine_opened",
    "Verif.Static.C69_examples"
   ],
   "note": "both directions, against an independent description of the prefix"
  },
  {
   "property": "C70",
   "status": "partial",
   "theorems": [
    "Verif.Static.C70_files_closed_partial",
    "Verif.Static.C70_fallback_leaks_violated",
    "Verif.Static.C70_fellback_example"
   ],
   "note": "all files closed except, always, the TryFilesThen file, which the code never closes"
  },
  {
   "property": "C71",
   "status": "partial",
   "theorems": [
    "Verif.Params.C71_fields_bound",
    "Verif.Params.C71_pointer_allocated_iff",
    "Verif.Params.C71_absent_resets_violated",
    "Verif.Params.C71_option_tag_violated",
    "Verif.Params.C71_unexported_pointer_panics_violated",
    "Verif.Params.C71_deep_embedding_lost_violated"
   ],
   "note": "field by field effect for every struct shape; refuted for absent parameters, option-only tags, unexported and deep embedding"
  },
  {
   "property": "C72",
   "status": "partial",
   "theorems": [
    "Verif.Params.C72_map_binding_partial",
    "Verif.Params.C72_clash_violated"
   ],
   "note": "exact contents when no two key texts convert to the same key"
  },
  {
   "property": "C73",
   "status": "proved",
   "theorems": [
    "Verif.Log.C73_line_has_reqid"
   ],
   "note": "request id without newline"
  },
  {
   "property": "C74",
   "status": "proved",
   "theorems": [
    "Verif.Static.C74_directory_not_left",
    "Verif.Static.C74_example"
   ],
   "note": "symbolic links are not modelled"
  },
  {
   "property": "C75",
   "status": "proved",
   "theorems": [
    "Verif.Static.C75_file_served",
    "Verif.Static.C75_redirect_iff",
    "Verif.Static.C75_index",
    "Verif.Static.C75_missing",
    "Verif.Static.C75_index_directory_passed_on"
   ],
   "note": "the last theorem: an index.html that is a directory makes the filter pass the request on"
  },
  {
   "property": "C76",
   "status": "partial",
   "theorems": [
    "Verif.Api.C76_returned_value_partial",
    "Verif.Api.C76_code_alone",
    "Verif.Api.C76_nothing",
    "Verif.Api.C76_string_violated",
    "Verif.Api.C76_example",
    "Verif.Api.C76_result_calls",
    "Verif.Api.C76_result_written"
   ],
   "note": "the documented string results panic in IsNil"
  },
  {
   "property": "C77",
   "status": "proved",
   "theorems": [
    "Verif.Params.C77_bool_binding",
    "Verif.Params.C77_bool_letters"
   ],
   "note": "white space is characterised in Proofs/Trim.lean by the list of runes of unicode.IsSpace; strings.ToLower is modelled for ASCII letters"
  },
  {
   "property": "C78",
   "status": "proved",
   "theorems": [
    "Verif.Params.C78_struct_binding",
    "Verif.Params.C78_zero_values",
    "Verif.Params.C78_no_values"
   ],
   "note": "promoted fields of embedded structs (FieldByName) are not modelled"
  },
  {
   "property": "C79",
   "status": "proved",
   "theorems": [
    "Verif.Params.C79_scalar_binding",
    "Verif.Params.C79_pointer_binding"
   ],
   "note": "float and time parsers are parameters"
  },
  {
   "property": "C80",
   "status": "proved",
   "theorems": [
    "Verif.Log.C80_line"
   ],
   "note": "exact text of every printed line after any history of settings; fmt, runtime.Caller and Stack are inputs"
  },
  {
   "property": "C81",
   "status": "proved",
   "theorems": [
    "Verif.App.C81_default_not_found",
    "Verif.App.C81_custom_not_found",
    "Verif.App.C81_build"
   ],
   "note": ""
  },
  {
   "property": "C82",
   "status": "proved",
   "theorems": [
    "Verif.App.C82_pass_through",
    "Verif.App.C82_request",
    "Verif.App.C82_action"
   ],
   "note": "Handlers are arbitrary programs over the response writer, Next, Written, panics and nested contexts."
  },
  {
   "property": "C83",
   "status": "proved",
   "theorems": [
    "Verif.App.C83_panic",
    "Verif.App.C83_no_panic",
    "Verif.App.C83_request_panic",
    "Verif.App.C83_request_no_panic"
   ],
   "note": "panic(nil) and a panicking before-callback are excluded by the hypotheses: see C16_recovery_violated and C20_callback_panic_violated."
  },
  {
   "property": "C84",
   "status": "proved",
   "theorems": [
    "Verif.Action.C84_arguments",
    "Verif.Action.C84_arg_unique",
    "Verif.Action.C84_arity",
    "Verif.Action.C84_declared_action",
    "Verif.Action.C84_request",
    "Verif.Action.C84_all_wrong_arguments_violated",
    "Verif.Action.C84_pointer_violated"
   ],
   "note": "ParseFloat is a parameter. Outside the claim, shown as counterexamples: All routes prepare the arguments of the method All for whatever method is called; pointer parameters panic. C84_request assumes wildcards without a verb."
  },
  {
   "property": "C85",
   "status": "proved",
   "theorems": [
    "Verif.Action.C85_own_receiver"
   ],
   "note": "Values that fields refer to (maps, slices, pointers) are shared, as the copy is shallow."
  },
  {
   "property": "C86",
   "status": "proved",
   "theorems": [
    "Verif.Ctx.C86_at_most_one_pair",
    "Verif.Ctx.C86_log_lines",
    "Verif.Ctx.C86_log_lines_recovered",
    "Verif.Ctx.C86_reported_is_sent",
    "Verif.Ctx.C86_request_log",
    "Verif.Ctx.C86_panic_unlogged_violated",
    "Verif.Ctx.C86_late_status_violated"
   ],
   "note": "Without the content filters of LoggerOption. Outside the claim, shown as counterexamples: a request that panics has no REQ_END although the recovery filter answers it; a late WriteHeader is logged although another status was sent."
  },
  {
   "property": "C87",
   "status": "proved",
   "theorems": [
    "Verif.Inj.C87_requests_independent",
    "Verif.Inj.C87_finishes",
    "Verif.Inj.C87_own_result_races_violated",
    "Verif.Inj.C87_own_providers_private"
   ],
   "note": "Requests are interleaved at every atomic access of a provider's counter; everything else a lookup writes is the request's own. Outside the claim, shown as a counterexample: Invoke of a function that needs a value of its own result type fails or succeeds depending on the schedule."
  },
  {
   "property": "C88",
   "status": "proved",
   "theorems": [
    "Verif.Resp.C88_wire_status",
    "Verif.Resp.C88_body",
    "Verif.Resp.C88_reported_status",
    "Verif.Resp.C88_plain"
   ],
   "note": "exact behaviour, including the cases where C18 and C19 fail; net/http's own handling of a write after hijacking is summarised as the body event"
  },
  {
   "property": "C89",
   "status": "proved",
   "theorems": [
    "Verif.Router.C89_exact_answer"
   ],
   "note": "Full characterisation, no hypothesis on the shape of the declarations; the specification (RouterFindSpec, RouterExact) works on the flat list of registrations and never mentions the tree."
  },
  {
   "property": "C90",
   "status": "proved",
   "theorems": [
    "Verif.Router.C90_accepted_iff"
   ],
   "note": "Both directions."
  },
  {
   "property": "C91",
   "status": "partial",
   "theorems": [
    "Verif.Page.C91_trace",
    "Verif.Page.C91_trace_complete",
    "Verif.Page.C91_page_partial",
    "Verif.Page.C91_error_unescaped_violated",
    "Verif.Page.C91_trace_loses_text_violated"
   ],
   "note": "The trace is always inert, and complete if no line has two ' ('; refuted for the rest of the page: the panic value is printed unescaped (script injection in development mode), and for lines with two ' (', which lose text."
  },
  {
   "property": "C92",
   "status": "proved",
   "theorems": [
    "Verif.Page.C92_stack",
    "Verif.Page.C92_source",
    "Verif.Page.C92_name",
    "Verif.Page.C92_name_plain"
   ],
   "note": "runtime.Caller and runtime.FuncForPC are inputs; files do not change while the trace is made"
  },
  {
   "property": "C93",
   "status": "proved",
   "theorems": [
    "Verif.App.C93_classic_answer",
    "Verif.App.C93_action_answers",
    "Verif.App.C93_results_answer",
    "Verif.App.C93_value_and_code",
    "Verif.App.C93_api_result",
    "Verif.App.C93_nothing",
    "Verif.App.C93_panic_500",
    "Verif.App.C93_string_violated"
   ],
   "note": "exact answer as a function of what the action does; the last theorem shows that the documented string results are answered with 500 or an empty body"
  },
  {
   "property": "C94",
   "status": "proved",
   "theorems": [
    "Verif.App.C94_load_classic",
    "Verif.App.C94_bad_option",
    "Verif.App.C94_after_all_violated",
    "Verif.App.C94_default_option",
    "Verif.App.C94_new_chain"
   ],
   "note": "the statement includes that HookFlagAfterAll is never used"
  },
  {
   "property": "C95",
   "status": "proved",
   "theorems": [
    "Verif.Setup.C95_app_config"
   ],
   "note": "os.Getenv, the working directory and the imported systems are inputs; listening itself is not modelled"
  },
  {
   "property": "C96",
   "status": "partial",
   "theorems": [
    "Verif.Setup.C96_unique",
    "Verif.Setup.C96_set_exact",
    "Verif.Setup.C96_set_single_partial",
    "Verif.Setup.C96_set_violated",
    "Verif.Setup.C96_string"
   ],
   "note": "refuted for texts with commas: Set appends the whole text once per non-blank part instead of the parts; C96_set_exact is the exact behaviour, Unique is as claimed"
  },
  {
   "property": "C97",
   "status": "proved",
   "theorems": [
    "Verif.Setup.C97_gc_interval",
    "Verif.Setup.C97_gc_default",
    "Verif.Setup.C97_secret"
   ],
   "note": "time.AfterFunc fires once, not early; the delay is an arbitrary input"
  },
  {
   "property": "C98",
   "status": "proved",
   "theorems": [
    "Verif.Setup.C98_dummy_store",
    "Verif.Setup.C98_dummy_nil"
   ],
   "note": "one goroutine"
  },
  {
   "property": "C99",
   "status": "proved",
   "theorems": [
    "Verif.App.C99_recovery_exact"
   ],
   "note": "full characterisation, including the cases where C16 fails"
  }
 ]
}