{
 "claims": [
  {
   "property": "C01",
   "status": "proved",
   "theorems": [
    "Verif.Dedupe.C01_single_flight",
    "Verif.Dedupe.C01_others_wait"
   ],
   "note": "Transition system over all interleavings."
  },
  {
   "property": "C02",
   "status": "proved",
   "theorems": [
    "Verif.Dedupe.C02_genuine_result"
   ],
   "note": "Stated on the history of actions only."
  },
  {
   "property": "C03",
   "status": "proved",
   "theorems": [
    "Verif.Dedupe.C03_no_lost_wakeup",
    "Verif.Dedupe.C03_can_always_finish"
   ],
   "note": ""
  },
  {
   "property": "C04",
   "status": "proved",
   "theorems": [
    "Verif.Dedupe.C04_persist_same_value",
    "Verif.Dedupe.C04_persist_computes_once",
    "Verif.Dedupe.C04_persist_immediate"
   ],
   "note": ""
  },
  {
   "property": "C05",
   "status": "proved",
   "theorems": [
    "Verif.Dedupe.C05_fresh_when_idle",
    "Verif.Dedupe.C05_no_stale_result"
   ],
   "note": ""
  },
  {
   "property": "C06",
   "status": "proved",
   "theorems": [
    "Verif.DataLoader.C06_answer_exact",
    "Verif.DataLoader.C06_error_exact"
   ],
   "note": ""
  },
  {
   "property": "C07",
   "status": "proved",
   "theorems": [
    "Verif.DataLoader.C07_never_stranded",
    "Verif.DataLoader.C07_batch_answers_all",
    "Verif.DataLoader.C07_can_always_finish"
   ],
   "note": ""
  },
  {
   "property": "C08",
   "status": "partial",
   "theorems": [
    "Verif.DataLoader.C08_batch_size_load_one_partial",
    "Verif.DataLoader.C08_batch_size_load_many_partial",
    "Verif.DataLoader.C08_queue_below_max",
    "Verif.DataLoader.C08_violated_by_load_many"
   ],
   "note": "Holds for load_one (the only entry point used by the HTTP, gRPC and GraphQL resolvers); load_many can exceed the maximum, shown by C08_violated_by_load_many."
  },
  {
   "property": "C09",
   "status": "proved",
   "theorems": [
    "Verif.DataLoader.C09_batch_keys",
    "Verif.DataLoader.C09_one_batch_per_caller",
    "Verif.DataLoader.C09_answer_final"
   ],
   "note": ""
  },
  {
   "property": "C10",
   "status": "proved",
   "theorems": [
    "Verif.DataLoader.C10_answer_cached",
    "Verif.DataLoader.C10_hit_is_immediate",
    "Verif.DataLoader.C10_miss_waits",
    "Verif.DataLoader.C10_stays_cached",
    "Verif.DataLoader.C10_cached_is_genuine"
   ],
   "note": "Unbounded cache; the LRU storage is not modelled."
  },
  {
   "property": "C100",
   "status": "partial",
   "theorems": [
    "Verif.Refine.C100_ends",
    "Verif.Refine.C100_merged",
    "Verif.Refine.C100_closed",
    "Verif.Refine.C100_idempotent",
    "Verif.Refine.C100_uses",
    "Verif.Refine.C100_complete",
    "Verif.Refine.C100_query_violated_by_merging",
    "Verif.Refine.C100_kept_violated_by_name"
   ],
   "note": "If the names that merging makes are not used already and no union is a member of a union. C100_complete for every threshold that lets equal types pass. Negations proved: a query and a mutation type that are alike are merged and both are gone; a type that has the name of a merged type is lost."
  },
  {
   "property": "C101",
   "status": "partial",
   "theorems": [
    "Verif.Refine.C101_paths_partial",
    "Verif.Refine.C101_lists_partial",
    "Verif.Refine.C101_strict_partial",
    "Verif.Refine.C101_paths_violated_by_second_meeting",
    "Verif.Refine.C101_lists_violated_by_other_type",
    "Verif.Refine.C101_null_violated_by_other_field",
    "Verif.Refine.C101_lists_violated_by_depth",
    "Verif.Refine.C101_resolver_violated_by_other_field",
    "Verif.Refine.C101_paths_violated_by_threshold"
   ],
   "note": "Proved if fields of one name have one type where they are not scalars. Negations proved: a pair of types met for the second time makes the types around similar though nothing agrees; lists of different types are not compared; null, the depth of lists, arguments and resolvers are those of the last type; below the threshold one a field may become a scalar."
  },
  {
   "property": "C102",
   "status": "proved",
   "theorems": [
    "Verif.Refine.C102_path"
   ],
   "note": "The path that is found; what the added field then resolves to is not part of this property."
  },
  {
   "property": "C103",
   "status": "partial",
   "theorems": [
    "Verif.Refine.C103_best",
    "Verif.Refine.C103_kept",
    "Verif.Refine.C103_distinct",
    "Verif.Refine.C103_content_partial",
    "Verif.Refine.C103_scalars_partial",
    "Verif.Refine.C103_violated_by_enum",
    "Verif.Refine.C103_violated_by_scalar"
   ],
   "note": "The choice of names is proved for all configurations. That the content is kept is proved if no new name is that of an enum, a union or a scalar. Negations proved: such names are not looked at."
  },
  {
   "property": "C104",
   "status": "partial",
   "theorems": [
    "Verif.Added.C104_nullable",
    "Verif.Added.C104_accepted_partial",
    "Verif.Added.C104_type_partial",
    "Verif.Added.C104_refused_partial",
    "Verif.Added.C104_violated_by_skipped_name",
    "Verif.Added.C104_violated_by_scalar",
    "Verif.Added.C104_violated_by_index",
    "Verif.Added.C104_violated_by_name_outside",
    "Verif.Added.C104_violated_by_list_of_objects",
    "Verif.Added.C104_violated_by_list_after_index",
    "Verif.Added.C104_violated_by_enum",
    "Verif.Added.C104_violated_by_same_name",
    "Verif.Added.C104_violated_by_empty_path"
   ],
   "note": "Proved for paths that exist and enter lists by indices; the type unless it is a list of objects or a list after an index. Negations proved: names that do not exist in the middle of a path, names after scalars and indices where there is no list are accepted; a name may be found in the wrong type; lists of objects become lists of lists, lists after an index no lists; enums at the end are refused; two fields of one name are accepted; the empty path is a panic."
  },
  {
   "property": "C105",
   "status": "partial",
   "theorems": [
    "Verif.Added.C105_within_partial",
    "Verif.Added.C105_resolved_partial",
    "Verif.Added.C105_safe_partial",
    "Verif.Added.C105_source",
    "Verif.Added.C105_violated_by_list",
    "Verif.Added.C105_violated_by_modify",
    "Verif.Added.C105_violated_by_protected"
   ],
   "note": "Proved for paths that enter lists by indices, from plain fields of the data and from fields with resolvers; C105_safe_partial for every accepted path if the data have no more than the types say. Negations proved: a list entered by a name gives null; a renamed first field gives its name to the added field; a protected first field of the data gives null to requests with permission."
  },
  {
   "property": "C106",
   "status": "partial",
   "theorems": [
    "Verif.Added.C106_query",
    "Verif.Added.C106_mutation",
    "Verif.Added.C106_empty_object",
    "Verif.Added.C106_violated_by_scalar",
    "Verif.Added.C106_violated_by_scalar_query",
    "Verif.Added.C106_violated_by_list"
   ],
   "note": "The check and the place of empty objects are proved for all configurations. Negations proved: a field of a scalar of the configuration needs no resolver and is an empty object whatever the data have; a list of objects with resolvers only is an empty object."
  },
  {
   "property": "C107",
   "status": "partial",
   "theorems": [
    "Verif.Added.C107_first_partial",
    "Verif.Added.C107_anonymous_partial",
    "Verif.Added.C107_violated_by_field_below"
   ],
   "note": "Proved for the protection of the first field, its type and the type that has it. Negation proved: protection further down the path is not looked at, so an added field gives protected data to everyone."
  },
  {
   "property": "C108",
   "status": "partial",
   "theorems": [
    "Verif.Proto.C108_reference",
    "Verif.Proto.C108_distinct",
    "Verif.Proto.C108_defined_partial",
    "Verif.Proto.C108_enum_partial",
    "Verif.Proto.C108_violated_by_underscores",
    "Verif.Proto.C108_violated_by_scalar",
    "Verif.Proto.C108_violated_by_reserved",
    "Verif.Proto.C108_violated_by_comment"
   ],
   "note": "Proved for names without two underscores in a row or one at the end, and other than Interface and Var with a number; enums keep their values if these have no comments. Negations proved: names with two underscores meet; a nested message named as a member of a union is overwritten; a message named as a scalar in a file without a package has the name of the scalar; comments on values of enums become a part of the names of the variants."
  },
  {
   "property": "C109",
   "status": "partial",
   "theorems": [
    "Verif.Proto.C109_fields_partial",
    "Verif.Proto.C109_closed_partial",
    "Verif.Proto.C109_scalar_partial",
    "Verif.Proto.C109_violated_by_fixed32",
    "Verif.Proto.C109_violated_by_fixed64",
    "Verif.Proto.C109_total"
   ],
   "note": "Proved for files with such names and field names that stay different. The generation does not fail if references are full (C109_total). Negations proved: fixed32 and fixed64 are given scalars that do not have all their values."
  },
  {
   "property": "C11",
   "status": "proved",
   "theorems": [
    "Verif.Mustache.C11_reparse_stable",
    "Verif.Mustache.C11_parse_print",
    "Verif.Mustache.C11_print_injective",
    "Verif.Mustache.C11_lone_quote_counterexample"
   ],
   "note": "C11_reparse_stable holds for every text. The round trip of hand-built templates needs the well-formedness spelled out in WellFormed; lone quote literals are dropped by the parser."
  },
  {
   "property": "C110",
   "status": "partial",
   "theorems": [
    "Verif.Proto.C110_union_partial",
    "Verif.Proto.C110_plain_partial"
   ],
   "note": "Proved for files with such names and field names that stay different, in both directions between members and choices; messages whose oneofs have one field at most are plain types."
  },
  {
   "property": "C111",
   "status": "partial",
   "theorems": [
    "Verif.Proto.C111_method_partial",
    "Verif.Proto.C111_empty_partial",
    "Verif.Proto.C111_called_partial",
    "Verif.Proto.C111_violated_by_no_package",
    "Verif.Proto.C111_body",
    "Verif.Proto.C111_connect"
   ],
   "note": "Proved for files with such names; that the call is found again needs a package. Negation proved: no method of a file without a package can be called. C111_connect is about all methods, also without a package."
  },
  {
   "property": "C112",
   "status": "partial",
   "theorems": [
    "Verif.Proto.C112_message_partial",
    "Verif.Proto.C112_others_partial",
    "Verif.Proto.C112_violated_by_missing_info"
   ],
   "note": "Proved for files with such names that have source information, for messages without oneofs, their fields, enums and methods. Negation proved: a file without source information is given the comments of the file before it."
  },
  {
   "property": "C113",
   "status": "partial",
   "theorems": [
    "Verif.Hook.C113_identity_partial",
    "Verif.Hook.C113_value_partial",
    "Verif.Hook.C113_violated_by_repeated_parameter",
    "Verif.Hook.C113_violated_by_order",
    "Verif.Hook.C113_violated_by_encoded",
    "Verif.Hook.C113_violated_by_repeated_header",
    "Verif.Hook.C113_violated_by_credentials",
    "Verif.Hook.C113_violated_by_binary",
    "Verif.Hook.C113_violated_by_batching"
   ],
   "note": "Proved for URLs without credentials and fragment whose query has distinct names in order and no characters with a meaning after decoding, distinct visible headers, and bodies that are text. Negations proved for repeated parameters, their order, encoded characters, repeated headers, credentials, bodies that are no text, and batching by a value in the body."
  },
  {
   "property": "C114",
   "status": "partial",
   "theorems": [
    "Verif.Hook.C114_request_partial",
    "Verif.Hook.C114_response",
    "Verif.Hook.C114_refused",
    "Verif.Hook.C114_no_hook",
    "Verif.Hook.C114_redirect_partial",
    "Verif.Hook.C114_violated_by_exception",
    "Verif.Hook.C114_violated_by_no_script",
    "Verif.Hook.C114_violated_by_other_host",
    "Verif.Hook.C114_violated_by_endless_redirect",
    "Verif.Hook.C114_violated_by_empty_response",
    "Verif.Hook.C114_violated_by_header_of_redirect"
   ],
   "note": "Requests: proved for answers that are plain requests, as in C113. Redirects: proved without a response hook; only the path is replaced. Negations proved: an exception lets the request pass; hooks without a script are ignored; a redirect stays on its host; endless redirects give no answer; a response without a body is an error; a location with letters outside of ASCII is a panic."
  },
  {
   "property": "C115",
   "status": "partial",
   "theorems": [
    "Verif.Hook.C115_once_partial",
    "Verif.Hook.C115_upstream",
    "Verif.Hook.C115_violated_by_redirect"
   ],
   "note": "Proved for request hooks that do not redirect. Negation proved: after a redirect the hook is run on its own result."
  },
  {
   "property": "C116",
   "status": "proved",
   "theorems": [
    "Verif.Hook.C116_once",
    "Verif.Hook.C116_separate",
    "Verif.Hook.C116_js",
    "Verif.Hook.C116_state"
   ],
   "note": "For all scripts and hooks; a script whose evaluation fails is evaluated again at the next call (C114_refused)."
  },
  {
   "property": "C117",
   "status": "partial",
   "theorems": [
    "Verif.Hook.C117_own_partial",
    "Verif.Hook.C117_shared",
    "Verif.Hook.C117_violated_by_same_template"
   ],
   "note": "Proved for fields whose key is not in use yet, and for fields without deduplication. Negation proved: fields with the same template and different hooks share a key, so the second is given what the hooks of the first have made."
  },
  {
   "property": "C118",
   "status": "partial",
   "theorems": [
    "Verif.Sample.C118_roundtrip_partial",
    "Verif.Sample.C118_violated_by_escapes",
    "Verif.Sample.C118_violated_by_question_marks",
    "Verif.Sample.C118_violated_by_bytes",
    "Verif.Sample.C118_violated_by_zeros",
    "Verif.Sample.C118_violated_by_commas"
   ],
   "note": "Proved for paths of names, numbers and UUIDs without escapes, and parameters with values of one type and names that give distinct arguments. Negations proved: escapes in a path are decoded (a slash or question mark among them changes the path, bytes that are no UTF-8 are a panic), numbers with zeros before them, values with commas."
  },
  {
   "property": "C119",
   "status": "partial",
   "theorems": [
    "Verif.Sample.C119_arguments_partial",
    "Verif.Sample.C119_int_detected",
    "Verif.Sample.C119_int_sound",
    "Verif.Sample.C119_boolean_detected",
    "Verif.Sample.C119_violated_by_large_numbers",
    "Verif.Sample.C119_violated_by_mixed_values",
    "Verif.Sample.C119_violated_by_names",
    "Verif.Sample.C119_violated_by_brackets",
    "Verif.Sample.C119_violated_by_uuids",
    "Verif.Sample.C119_violated_by_words"
   ],
   "note": "Arguments: proved for the samples of C118. Types of values: proved for every text. Negations proved: numbers in paths that are too large, values of several types, names that become the same, names with brackets, UUIDs that start with digits, words like nan."
  },
  {
   "property": "C12",
   "status": "partial",
   "theorems": [
    "Verif.Mustache.C12_plain_text_verbatim_partial",
    "Verif.Mustache.C12_isConst_iff",
    "Verif.Mustache.C12_violated_by_quote"
   ],
   "note": "False for exactly one text, the lone double quote, which renders as nothing."
  },
  {
   "property": "C120",
   "status": "partial",
   "theorems": [
    "Verif.Load.C120_imports",
    "Verif.Load.C120_closed",
    "Verif.Load.C120_ends",
    "Verif.Load.C120_succeeds_iff",
    "Verif.Load.C120_reflection_partial",
    "Verif.Load.C120_violated_by_cycles",
    "Verif.Load.C120_violated_by_reflection_names",
    "Verif.Load.C120_violated_by_reflection_v1"
   ],
   "note": "Files: proved for all of them, where the file that was asked for comes last and is there again if it is imported by others. Reflection: proved for servers that answer by the names they are asked for. Negations proved: cycles through the file itself, servers with other names, the newer version of reflection."
  },
  {
   "property": "C121",
   "status": "partial",
   "theorems": [
    "Verif.Load.C121_search_partial",
    "Verif.Load.C121_beside",
    "Verif.Load.C121_well_known",
    "Verif.Load.C121_url",
    "Verif.Load.C121_absolute",
    "Verif.Load.C121_violated_by_http_names",
    "Verif.Load.C121_violated_by_copies",
    "Verif.Load.C121_violated_by_urls"
   ],
   "note": "Proved for names that do not start with http, and directories on the disk. Negations proved: names that start with http, copies of well-known files, proto paths that are URLs."
  },
  {
   "property": "C122",
   "status": "partial",
   "theorems": [
    "Verif.Load.C122_collected",
    "Verif.Load.C122_latest",
    "Verif.Load.C122_valid_iff",
    "Verif.Load.C122_script_and_key",
    "Verif.Load.C122_configs",
    "Verif.Load.C122_protos",
    "Verif.Load.C122_missing",
    "Verif.Load.C122_violated_by_operations",
    "Verif.Load.C122_violated_by_nested_links",
    "Verif.Load.C122_violated_by_spellings",
    "Verif.Load.C122_violated_by_names"
   ],
   "note": "Proved for all links, with the last one for operations and with proto files by their names. Negations proved: several links to operations, links of linked configurations, a proto file that is linked and imported, imports of one name from two directories."
  },
  {
   "property": "C123",
   "status": "partial",
   "theorems": [
    "Verif.Load.C123_one",
    "Verif.Load.C123_single",
    "Verif.Load.C123_files_partial",
    "Verif.Load.C123_environment_partial",
    "Verif.Load.C123_violated_by_settings",
    "Verif.Load.C123_violated_by_scripts",
    "Verif.Load.C123_violated_by_spaces",
    "Verif.Load.C123_violated_by_quotes",
    "Verif.Load.C123_violated_by_paths",
    "Verif.Load.C123_violated_by_env"
   ],
   "note": "Proved for types and resources of all files, and for expressions without spaces. Negations proved: settings of all files but the first, scripts of all but the last, spaces before the dot, a quote at the end, longer paths, and a panic for `env` alone."
  },
  {
   "property": "C124",
   "status": "partial",
   "theorems": [
    "Verif.Grpc.C124_sent_partial",
    "Verif.Grpc.C124_answer",
    "Verif.Grpc.C124_call_partial",
    "Verif.Grpc.C124_violated_by_length",
    "Verif.Grpc.C124_violated_by_compression",
    "Verif.Grpc.C124_violated_by_pieces",
    "Verif.Grpc.C124_violated_by_streams"
   ],
   "note": "Proved for messages of less than 4 GiB and answers of one frame. Negations proved: longer messages, answers that are compressed, that are cut off, and of several messages."
  },
  {
   "property": "C125",
   "status": "partial",
   "theorems": [
    "Verif.Grpc.C125_success_partial",
    "Verif.Grpc.C125_errors_partial",
    "Verif.Grpc.C125_transport",
    "Verif.Grpc.C125_violated_by_trailers",
    "Verif.Grpc.C125_violated_by_trailers_alone",
    "Verif.Grpc.C125_violated_by_bytes",
    "Verif.Grpc.C125_violated_by_codes",
    "Verif.Grpc.C125_violated_by_details"
   ],
   "note": "Proved for a status in the headers with a code that is defined, and details of known types. Negations proved: a status in the trailers, which is never read; a status that is not ASCII; codes that are not defined; details of other types."
  },
  {
   "property": "C126",
   "status": "partial",
   "theorems": [
    "Verif.Grpc.C126_sent_partial",
    "Verif.Grpc.C126_entries_partial",
    "Verif.Grpc.C126_number",
    "Verif.Grpc.C126_each",
    "Verif.Grpc.C126_violated_by_enums",
    "Verif.Grpc.C126_violated_by_booleans",
    "Verif.Grpc.C126_violated_by_names",
    "Verif.Grpc.C126_violated_by_lists"
   ],
   "note": "Proved for keys that are texts or integers of one size, whose names and JSON names agree. Negations proved: enums, booleans, names with an underscore, and inputs with another list first."
  },
  {
   "property": "C127",
   "status": "partial",
   "theorems": [
    "Verif.Grpc.C127_read",
    "Verif.Grpc.C127_text",
    "Verif.Grpc.C127_called",
    "Verif.Grpc.C127_found",
    "Verif.Grpc.C127_violated_by_packages"
   ],
   "note": "Proved for all services in packages. Negation proved: a service without a package cannot be named."
  },
  {
   "property": "C128",
   "status": "partial",
   "theorems": [
    "Verif.Grpc.C128_lists_partial",
    "Verif.Grpc.C128_violated_by_nullable",
    "Verif.Grpc.C128_violated_by_single",
    "Verif.Grpc.C128_violated_by_direction",
    "Verif.Grpc.C128_violated_by_keys",
    "Verif.Grpc.C128_violated_by_depth"
   ],
   "note": "Proved: a key of two parts is accepted only if the first is a list (or a map). Negations proved: fields that can be null, keys of one part, types that the elements do not fit, keys that are not there, and longer paths."
  },
  {
   "property": "C129",
   "status": "partial",
   "theorems": [
    "Verif.Introspect.C129_true",
    "Verif.Introspect.C129_told_partial",
    "Verif.Introspect.C129_others",
    "Verif.Introspect.C129_violated_by_loss"
   ],
   "note": "Proved: nothing false is told, and all but what is listed. Negation proved for all schemas: descriptions of arguments, values, interfaces and unions, and arguments, descriptions of fields and interfaces of interfaces are never told."
  },
  {
   "property": "C13",
   "status": "proved",
   "theorems": [
    "Verif.Mustache.C13_render",
    "Verif.Mustache.C13_render_partial_mode",
    "Verif.Mustache.C13_modes_agree"
   ],
   "note": ""
  },
  {
   "property": "C130",
   "status": "partial",
   "theorems": [
    "Verif.Introspect.C130_accepted_partial",
    "Verif.Introspect.C130_refused_partial",
    "Verif.Introspect.C130_violated_by_arguments",
    "Verif.Introspect.C130_violated_by_interfaces"
   ],
   "note": "Proved if scalars of tailcall in arguments are also types of fields, and for names outside of interfaces. Negations proved: a scalar that only arguments have, and names in arguments and interfaces of interfaces. The other checks of async-graphql are not modelled."
  },
  {
   "property": "C131",
   "status": "partial",
   "theorems": [
    "Verif.Introspect.C131_disabled",
    "Verif.Introspect.C131_merged_partial",
    "Verif.Introspect.C131_others",
    "Verif.Introspect.C131_violated_by_fragments",
    "Verif.Introspect.C131_violated_by_null",
    "Verif.Introspect.C131_violated_by_order"
   ],
   "note": "Proved for questions that are fields of the operation, up to the order of keys, when the answer is not null. Negations proved: questions in fragments, answers that are null, and the order."
  },
  {
   "property": "C132",
   "status": "partial",
   "theorems": [
    "Verif.Doc.C132_text_partial",
    "Verif.Doc.C132_text_violated_by_default",
    "Verif.Doc.C132_text_violated_by_scalar_directive",
    "Verif.Doc.C132_text_violated_by_interface_description",
    "Verif.Doc.C132_text_violated_by_interface_directive",
    "Verif.Doc.C132_text_violated_by_union_description",
    "Verif.Doc.C132_text_violated_by_argument_description",
    "Verif.Doc.C132_text_violated_by_argument_directive",
    "Verif.Doc.C132_text_violated_by_no_roots",
    "Verif.Doc.C132_text_violated_by_null",
    "Verif.Doc.C132_text_violated_by_no_fields",
    "Verif.Doc.C132_text_violated_by_extension",
    "Verif.Doc.C132_text_violated_by_quotes",
    "Verif.Doc.C132_text_violated_by_lines",
    "Verif.Doc.C132_text_violated_by_input_lines"
   ],
   "note": "Proved for all documents whose definitions are printed in full (GoodDef). Negations proved for the other ones: parts that are not printed, and parts that are printed in a way that cannot be read. The lexer and the reader are a specification of the GraphQL grammar; definitions of directives are not modelled."
  },
  {
   "property": "C133",
   "status": "partial",
   "theorems": [
    "Verif.Doc.C133_words_partial",
    "Verif.Doc.C133_words_raw",
    "Verif.Doc.C133_lines",
    "Verif.Doc.C133_width",
    "Verif.Doc.C133_words_violated_by_lines"
   ],
   "note": "Proved for descriptions without three quotes in a row, and for those that are broken into lines also without line ends. Negation proved: words on different lines become one word."
  },
  {
   "property": "C134",
   "status": "partial",
   "theorems": [
    "Verif.Doc.C134_file_partial",
    "Verif.Doc.C134_file_violated_by_argument_description",
    "Verif.Doc.C134_file_violated_by_null",
    "Verif.Doc.C134_file_violated_by_no_query",
    "Verif.Doc.C134_file_violated_by_default"
   ],
   "note": "Proved if all parts of the configuration are written into the document (see C89), all parts of the document but null arguments are printed (see C132), and null arguments are only where they mean the same as missing ones; up to the default of verifySSL. Negations proved for descriptions of arguments, @expr of null, settings without a query, and renamed input fields with a default value."
  },
  {
   "property": "C135",
   "status": "partial",
   "theorems": [
    "Verif.Scalar.C135_numbers",
    "Verif.Scalar.C135_texts_partial",
    "Verif.Scalar.C135_denotes",
    "Verif.Scalar.C135_violated_by_number",
    "Verif.Scalar.C135_violated_by_minus_zero"
   ],
   "note": "Proved in full for up to 32 bits; beyond, proved for all texts but a minus before zero for types without a sign (negation proved). Numbers of more than 32 bits that are given as numbers are refused, whatever they are (negation proved)."
  },
  {
   "property": "C136",
   "status": "partial",
   "theorems": [
    "Verif.Scalar.C136_found",
    "Verif.Scalar.C136_found_only",
    "Verif.Scalar.C136_values_partial",
    "Verif.Scalar.C136_others",
    "Verif.Scalar.C136_violated_by_builtin",
    "Verif.Scalar.C136_violated_by_date",
    "Verif.Scalar.C136_violated_by_empty",
    "Verif.Scalar.C136_violated_by_list"
   ],
   "note": "Proved for all known scalars but Empty and Date, with the formats of external crates as parameters. Negations proved: the built-in scalars accept every value, Date refuses every date, Empty accepts every value, and lists of scalars are refused."
  },
  {
   "property": "C137",
   "status": "partial",
   "theorems": [
    "Verif.Loaders.C137_own_partial",
    "Verif.Loaders.C137_loader_partial",
    "Verif.Loaders.C137_same",
    "Verif.Loaders.C138_violated_by_interface"
   ],
   "note": "Proved for the fields of objects; fields of interfaces get no loaders (negation proved)."
  },
  {
   "property": "C138",
   "status": "partial",
   "theorems": [
    "Verif.Loaders.C138_off",
    "Verif.Loaders.C138_on_partial",
    "Verif.Loaders.C138_zero_partial",
    "Verif.Loaders.C138_mutation_partial",
    "Verif.Loaders.C138_safe_partial",
    "Verif.Loaders.C138_keys",
    "Verif.Loaders.C138_settings",
    "Verif.Loaders.C138_violated_by_zero_delay",
    "Verif.Loaders.C138_violated_by_mutation",
    "Verif.Loaders.C138_violated_by_interface",
    "Verif.Loaders.C138_violated_by_grpc_key"
   ],
   "note": "Proved for objects: with batching on, calls of queries go through their own loaders; with a delay of zero for HTTP; for mutations with GraphQL and gRPC. Negations proved: with a delay of zero GraphQL calls go through loaders, HTTP calls of mutations do too, calls of interfaces panic, and batch keys of gRPC calls are accepted and ignored without settings."
  },
  {
   "property": "C139",
   "status": "partial",
   "theorems": [
    "Verif.Service.C139_service_partial",
    "Verif.Service.C139_violated_by_descriptions",
    "Verif.Service.C139_violated_by_interface",
    "Verif.Service.C139_violated_by_input",
    "Verif.Service.C139_violated_by_enum_default"
   ],
   "note": "Proved, by reading the published text back, for blueprints with proper names and no empty types: all but descriptions and null arguments of directives. Negations proved: descriptions, directives of interfaces and of input fields are not published, and defaults of enum types are published as strings."
  },
  {
   "property": "C14",
   "status": "partial",
   "theorems": [
    "Verif.HttpUrl.C14_pairs_exact_partial",
    "Verif.HttpUrl.C14_rest_unchanged",
    "Verif.HttpUrl.C14_violated_by_ampersand_in_value",
    "Verif.HttpUrl.C14_violated_by_question_mark_in_path",
    "Verif.HttpUrl.C14_violated_by_plus",
    "Verif.HttpUrl.C14_violated_by_mixed_template",
    "Verif.HttpUrl.C14_violated_by_empty_base_value",
    "Verif.HttpUrl.C14_violated_by_encoded_base_value"
   ],
   "note": "The code violates the full statement: values are inserted without escaping (a client value can add parameters), base parameters are decoded and not encoded again, base parameters with empty value are dropped, only the first segment of a query template is sent. Proved exactly for names and values without the characters & % + and tab/newline, one-segment templates, non-empty base values."
  },
  {
   "property": "C140",
   "status": "partial",
   "theorems": [
    "Verif.Service.C140_entities",
    "Verif.Service.C140_kept",
    "Verif.Service.C140_off",
    "Verif.Service.C140_accepts_partial",
    "Verif.Service.C140_reported",
    "Verif.Service.C140_refuses",
    "Verif.Service.C140_violated_by_rename",
    "Verif.Service.C140_violated_by_added"
   ],
   "note": "What is kept, what entities get and what is reported is proved in full. Acceptance is characterised exactly; it fails for query fields that are renamed by @modify or added by @addField, which federation refuses (negations proved)."
  },
  {
   "property": "C141",
   "status": "partial",
   "theorems": [
    "Verif.Edge.C141_lambda_partial",
    "Verif.Edge.C141_lambda_no_query",
    "Verif.Edge.C141_worker_partial",
    "Verif.Edge.C141_worker_refuses",
    "Verif.Edge.C141_response",
    "Verif.Edge.C141_violated_by_query",
    "Verif.Edge.C141_violated_by_port",
    "Verif.Edge.C141_violated_by_method",
    "Verif.Edge.C141_violated_by_route",
    "Verif.Edge.C141_violated_by_header"
   ],
   "note": "Proved for requests of the methods of HTTP without query and port if the parameter proxy holds the path (Lambda), and for bodies and headers that are texts (Cloudflare). Negations proved: on Lambda the query (always), the port and a path outside proxy are lost and other methods panic; on Cloudflare a response header that is not UTF-8 makes the request fail."
  },
  {
   "property": "C142",
   "status": "partial",
   "theorems": [
    "Verif.Edge.C142_named",
    "Verif.Edge.C142_fresh_partial",
    "Verif.Edge.C142_none",
    "Verif.Edge.C142_read",
    "Verif.Edge.C142_no_endpoints",
    "Verif.Edge.C142_violated_by_change",
    "Verif.Edge.C142_violated_by_rest",
    "Verif.Edge.C142_answered"
   ],
   "note": "That only contexts of the named configuration are used is proved in full, for all interleavings. Negations proved: a configuration that has changed is not read again while it is the one used last, and REST endpoints are not served."
  },
  {
   "property": "C143",
   "status": "partial",
   "theorems": [
    "Verif.Edge.C143_showcase_partial",
    "Verif.Edge.C143_paths",
    "Verif.Edge.C143_violated_by_link",
    "Verif.Edge.C143_violated_by_env",
    "Verif.Edge.C143_violated_by_scheme"
   ],
   "note": "Non-interference is proved for configurations that mention no variable of the environment and link to nothing local (proto files left out). Negations proved: links by absolute paths read files of the server, templates read its environment, and URLs of other schemes are read from the disk."
  },
  {
   "property": "C144",
   "status": "partial",
   "theorems": [
    "Verif.Edge.C144_kept_partial",
    "Verif.Edge.C144_others",
    "Verif.Edge.C144_object_fails",
    "Verif.Edge.C144_violated_by_object",
    "Verif.Edge.C144_violated_by_enum",
    "Verif.Edge.C144_violated_by_age"
   ],
   "note": "Proved, by reading the stored text as JSON, for null, booleans, integers, strings and lists of them. Negations proved: objects and enum values make the next request fail, and the age, in milliseconds, is taken as seconds."
  },
  {
   "property": "C145",
   "status": "partial",
   "theorems": [
    "Verif.Report.C145_shown_partial",
    "Verif.Report.C145_answered",
    "Verif.Report.C145_depth_partial",
    "Verif.Report.C145_single",
    "Verif.Report.C145_violated_by_blank",
    "Verif.Report.C145_violated_by_newline"
   ],
   "note": "Exactly which errors have a report is proved in full. The lines of the report are proved for causes that have a text that does not end in a new line. Negations proved: a blank cause makes the report panic, and a cause that ends in a new line leaves an empty line."
  },
  {
   "property": "C146",
   "status": "partial",
   "theorems": [
    "Verif.Report.C146_blueprint_partial",
    "Verif.Report.C146_static_partial",
    "Verif.Report.C146_config_partial",
    "Verif.Report.C146_other_partial",
    "Verif.Report.C146_evaluation",
    "Verif.Report.C146_grpc",
    "Verif.Report.C146_validation_partial",
    "Verif.Report.C146_server",
    "Verif.Report.C146_violated_by_description",
    "Verif.Report.C146_violated_by_chain",
    "Verif.Report.C146_violated_by_place"
   ],
   "note": "Proved for errors of blueprints, for validation errors without descriptions, for other errors with at most one source, and for the errors of the evaluation. Negations proved: descriptions of validation errors that come as anyhow errors, sources beyond the first, and places of validations during the evaluation are lost."
  },
  {
   "property": "C147",
   "status": "partial",
   "theorems": [
    "Verif.Settings.C147_accepted",
    "Verif.Settings.C147_reported",
    "Verif.Settings.C147_all_partial",
    "Verif.Settings.C147_given",
    "Verif.Settings.C147_address",
    "Verif.Settings.C147_headers",
    "Verif.Settings.C147_cors",
    "Verif.Settings.C147_vars",
    "Verif.Settings.C147_script",
    "Verif.Settings.C147_http2",
    "Verif.Settings.C147_rest_limit",
    "Verif.Settings.C147_workers",
    "Verif.Settings.C147_violated_by_http2",
    "Verif.Settings.C147_violated_by_certificate",
    "Verif.Settings.C147_violated_by_timeout",
    "Verif.Settings.C147_violated_by_workers"
   ],
   "note": "Which settings are accepted and what each becomes is proved in full; that all errors are reported is proved for servers that have what their protocol needs. Negations proved: without a certificate for HTTP/2 other errors are not reported, certificates without a version are ignored and the server speaks plain HTTP, the limit of time does not hold for GraphQL requests, and zero workers are accepted and panic."
  },
  {
   "property": "C148",
   "status": "proved",
   "theorems": [
    "Verif.Settings.C148_reference",
    "Verif.Settings.C148_traces",
    "Verif.Settings.C148_otlp",
    "Verif.Settings.C148_reported",
    "Verif.Settings.C148_others"
   ],
   "note": "In full for the conversion and the reference to an Apollo graph; the exporters themselves are not modelled."
  },
  {
   "property": "C149",
   "status": "partial",
   "theorems": [
    "Verif.GenCmd.C149_sources_partial",
    "Verif.GenCmd.C149_links_partial",
    "Verif.GenCmd.C149_only_partial",
    "Verif.GenCmd.C149_urls",
    "Verif.GenCmd.C149_configs",
    "Verif.GenCmd.C149_violated_by_symlink",
    "Verif.GenCmd.C149_violated_by_dots",
    "Verif.GenCmd.C149_violated_by_import_paths",
    "Verif.GenCmd.C149_violated_by_config"
   ],
   "note": "Proved for proto files without symbolic links on the way to an output that does not exist yet, and with an absolute output free of dots. Negations proved: an output directory that is a symbolic link, an absolute output with dots, import paths, which are dropped, and links of configurations, which stay relative to where they were."
  },
  {
   "property": "C15",
   "status": "proved",
   "theorems": [
    "Verif.HttpUrl.C15_absent_is_omitted",
    "Verif.HttpUrl.C15_others_appear_in_order",
    "Verif.HttpUrl.C15_null_is_sent"
   ],
   "note": "For parameter names without query metacharacters; values are arbitrary. An explicit null counts as a value and is sent as a bare name."
  },
  {
   "property": "C150",
   "status": "partial",
   "theorems": [
    "Verif.GenCmd.C150_files",
    "Verif.GenCmd.C150_done",
    "Verif.GenCmd.C150_writes",
    "Verif.GenCmd.C150_asked",
    "Verif.GenCmd.C150_requests",
    "Verif.GenCmd.C150_preset",
    "Verif.GenCmd.C150_no_terminal",
    "Verif.GenCmd.C150_violated_by_format"
   ],
   "note": "In full for the files, the question and the requests that are sent. Negation proved: the format of the output is looked at after all requests have been sent."
  },
  {
   "property": "C151",
   "status": "partial",
   "theorems": [
    "Verif.Cli.C151_files_partial",
    "Verif.Cli.C151_done",
    "Verif.Cli.C151_settings_partial",
    "Verif.Cli.C151_new",
    "Verif.Cli.C151_invalid",
    "Verif.Cli.C151_folder",
    "Verif.Cli.C151_violated_by_unreadable",
    "Verif.Cli.C151_violated_by_single",
    "Verif.Cli.C151_violated_by_twice",
    "Verif.Cli.C151_violated_by_no"
   ],
   "note": "Proved except for a .graphqlrc.yml that is not UTF-8 text or whose schema is one text. Negations proved: such a file is replaced without a question, such a schema is dropped, a second run adds the schemas again, and a no to the folder leads to an error about the first file."
  },
  {
   "property": "C152",
   "status": "partial",
   "theorems": [
    "Verif.Cli.C152_out",
    "Verif.Cli.C152_dev",
    "Verif.Cli.C152_when",
    "Verif.Cli.C152_each",
    "Verif.Cli.C152_once",
    "Verif.Cli.C152_most",
    "Verif.Cli.C152_violated_by_first",
    "Verif.Cli.C152_violated_by_both"
   ],
   "note": "In full for the variable that counts. Negations proved: a false in the short variable does not count beside the long one, and an event that the first collector does not take never reaches the second."
  },
  {
   "property": "C153",
   "status": "partial",
   "theorems": [
    "Verif.Reflect.C153_ask_partial",
    "Verif.Reflect.C153_sent",
    "Verif.Reflect.C153_url",
    "Verif.Reflect.C153_headers_partial",
    "Verif.Reflect.C153_bad_name",
    "Verif.Reflect.C153_env_partial",
    "Verif.Reflect.C153_violated_by_name",
    "Verif.Reflect.C153_violated_by_value",
    "Verif.Reflect.C153_violated_by_env"
   ],
   "note": "Proved for names without two opening braces and for all headers whose values may be sent. Negations proved: a server that names a service {{.env.KEY}} is told the variable, a token with a line break is left out without an error, and {{.env}} panics."
  },
  {
   "property": "C154",
   "status": "partial",
   "theorems": [
    "Verif.Reflect.C154_services",
    "Verif.Reflect.C154_file",
    "Verif.Reflect.C154_served_partial",
    "Verif.Reflect.C154_link_partial",
    "Verif.Reflect.C154_violated_by_order"
   ],
   "note": "Proved for servers that send the file that was asked for first, and names without two opening braces. Negation proved: if a server sends an import first, it is taken for the file of the service."
  },
  {
   "property": "C155",
   "status": "partial",
   "theorems": [
    "Verif.Cmd.C155_check",
    "Verif.Cmd.C155_serves_partial",
    "Verif.Cmd.C155_same_error",
    "Verif.Cmd.C155_launch",
    "Verif.Cmd.C155_schema",
    "Verif.Cmd.C155_ok_partial",
    "Verif.Cmd.C155_npo",
    "Verif.Cmd.C155_endpoints",
    "Verif.Cmd.C155_violated_by_workers",
    "Verif.Cmd.C155_violated_by_key",
    "Verif.Cmd.C155_violated_by_ok"
   ],
   "note": "Proved for all configurations, relative to a place that is able. Negations proved: a configuration with zero workers or with a key that does not fit its certificate passes check and cannot be started, and endpoints are said to be ok before they are checked."
  },
  {
   "property": "C156",
   "status": "partial",
   "theorems": [
    "Verif.Cmd.C156_warned",
    "Verif.Cmd.C156_once_partial",
    "Verif.Cmd.C156_violated_by_two"
   ],
   "note": "Which files are warned of is proved for all paths that have a parent. Negation proved: a file is warned of once for each configuration beside it, always in the plural."
  },
  {
   "property": "C16",
   "status": "partial",
   "theorems": [
    "Verif.HttpKey.C16_same_method_url_body",
    "Verif.HttpKey.C16_identical_request_partial",
    "Verif.HttpKey.C16_same_resolver",
    "Verif.HttpKey.C16_kinds_disjoint",
    "Verif.HttpKey.C16_violated_by_encoding",
    "Verif.HttpKey.C16_violated_by_header_origin"
   ],
   "note": "Proved for two evaluations of one resolver and for resolvers with the same body encoding and number of configured headers; between other resolvers the key misses the encoding and which headers are configured, both shown by witnesses."
  },
  {
   "property": "C17",
   "status": "partial",
   "theorems": [
    "Verif.HttpKey.C17_same_operation_partial",
    "Verif.HttpKey.C17_violated_by_url",
    "Verif.HttpKey.C17_violated_by_headers"
   ],
   "note": "The key determines the body only; witnesses show that URL and headers are not covered."
  },
  {
   "property": "C18",
   "status": "partial",
   "theorems": [
    "Verif.HttpKey.C18_same_message_partial",
    "Verif.HttpKey.C18_violated_by_headers"
   ],
   "note": "The key determines URL and message text; a witness shows that headers are not covered."
  },
  {
   "property": "C19",
   "status": "partial",
   "theorems": [
    "Verif.HttpKey.C19_same_parts_partial",
    "Verif.HttpKey.C19_same_resolver_partial",
    "Verif.HttpKey.C19_grpc_same_parts_partial",
    "Verif.HttpKey.C19_violated_by_method",
    "Verif.HttpKey.C19_violated_by_unlisted_header"
   ],
   "note": "Equal requests agree in URL, body and first value of each listed header; witnesses for method and unlisted headers."
  },
  {
   "property": "C20",
   "status": "partial",
   "theorems": [
    "Verif.HttpBatch.C20_own_items_partial",
    "Verif.HttpBatch.C20_in_order_partial",
    "Verif.HttpBatch.C20_all_or_error",
    "Verif.HttpBatch.C20_grpc_own_item_partial",
    "Verif.HttpBatch.C20_violated_by_large_ids"
   ],
   "note": "Proved for string keys and integer keys up to 2^53; larger integer keys are mixed up (witness). gRPC included."
  },
  {
   "property": "C21",
   "status": "partial",
   "theorems": [
    "Verif.HttpBatch.C21_merged_body_partial",
    "Verif.HttpBatch.C21_own_items_partial",
    "Verif.HttpBatch.C21_violated_by_empty_body"
   ],
   "note": "Proved for bodies that are JSON values; an empty body breaks the merged body (witness)."
  },
  {
   "property": "C22",
   "status": "proved",
   "theorems": [
    "Verif.HttpBatch.C22_merged_get",
    "Verif.HttpBatch.C22_ids",
    "Verif.HttpBatch.C22_configured_name"
   ],
   "note": ""
  },
  {
   "property": "C23",
   "status": "proved",
   "theorems": [
    "Verif.HttpBatch.C23_positional"
   ],
   "note": ""
  },
  {
   "property": "C24",
   "status": "partial",
   "theorems": [
    "Verif.Merge.C24_config_associative",
    "Verif.Merge.C24_extensions_associative",
    "Verif.Merge.C24_index_map_associative",
    "Verif.Merge.C24_index_map_order",
    "Verif.Merge.C24_last_file_wins",
    "Verif.Merge.C24_last_nested_setting_wins",
    "Verif.Merge.C24_last_field_definition_wins",
    "Verif.Merge.C24_last_variable_wins",
    "Verif.Merge.C24_variables_listed_once",
    "Verif.Merge.C24_allowed_headers_united",
    "Verif.Merge.C24_members_united",
    "Verif.Merge.C24_type_settings",
    "Verif.Merge.C24_extensions_settings",
    "Verif.Merge.C24_lists_concatenated",
    "Verif.Merge.C24_resolvers_kept",
    "Verif.Merge.C24_empty_is_identity_partial",
    "Verif.Merge.C24_identity_violated_by_variable_order",
    "Verif.Merge.C24_silence_violated_by_verify_ssl",
    "Verif.Merge.C24_silence_violated_by_batch",
    "Verif.Merge.C24_values_associative_partial",
    "Verif.Merge.C24_object_entries",
    "Verif.Merge.C24_value_leaves",
    "Verif.Merge.C24_values_violated_by_list_and_scalars",
    "Verif.Merge.C24_values_violated_by_null_between_objects",
    "Verif.Merge.C24_null_left",
    "Verif.Merge.C24_identity_violated_by_null_right",
    "Verif.Merge.C24_yaml_associative_partial",
    "Verif.Merge.C24_yaml_entries",
    "Verif.Merge.C24_yaml_leaves",
    "Verif.Merge.C24_yaml_violated_by_mapping_then_sequence",
    "Verif.Merge.C24_yaml_violated_by_tags"
   ],
   "note": "Config and Extensions merge associatively and the last file wins for all configurations; identity up to the order of variables; GraphQL and YAML values only associative for equal shapes (witnesses)."
  },
  {
   "property": "C25",
   "status": "partial",
   "theorems": [
    "Verif.Federation.C25_type_merge_commutes",
    "Verif.Federation.C25_type_merge_associates",
    "Verif.Federation.C25_type_merge_idempotent",
    "Verif.Federation.C25_incompatible_shapes_rejected",
    "Verif.Federation.C25_merged_wrapping",
    "Verif.Federation.C25_object_merge_commutes",
    "Verif.Federation.C25_enum_merge_commutes",
    "Verif.Federation.C25_violated_by_default_values"
   ],
   "note": "The wrapping is order independent, associative and idempotent as claimed; object and enum merging too. Default values and root names depend on the order (the left wins), proved as a violation."
  },
  {
   "property": "C26",
   "status": "partial",
   "theorems": [
    "Verif.Federation.C26_subgraph_output_legal_in_merge_partial",
    "Verif.Federation.C26_subgraph_response_legal_in_merge_partial",
    "Verif.Federation.C26_roots_kept_partial",
    "Verif.Federation.C26_violated_by_scalar_and_object",
    "Verif.Federation.C26_violated_by_unreached_implementer",
    "Verif.Federation.C26_violated_by_root_names"
   ],
   "note": "Holds for well-formed subgraphs in which shared names mean the same sort of thing and implementers of interfaces are reached from the roots; violated otherwise (scalar against object, implementer used as input elsewhere, differently named roots)."
  },
  {
   "property": "C27",
   "status": "partial",
   "theorems": [
    "Verif.Federation.C27_merged_input_accepted_by_both_partial",
    "Verif.Federation.C27_merged_input_value_partial",
    "Verif.Federation.C27_violated_by_disjoint_input_types",
    "Verif.Federation.C27_violated_by_input_unions"
   ],
   "note": "Holds for well-formed subgraphs without input unions and whose input types keep at least one field; violated for input unions and for input types without a common field."
  },
  {
   "property": "C28",
   "status": "partial",
   "theorems": [
    "Verif.Rest.C28_path_matching_partial",
    "Verif.Rest.C28_segments",
    "Verif.Rest.C28_pattern_parsed",
    "Verif.Rest.C28_method_must_match",
    "Verif.Rest.C28_request_served_partial",
    "Verif.Rest.C28_shorter_paths_match_prefix",
    "Verif.Rest.C28_violated_by_short_paths",
    "Verif.Rest.C28_violated_by_percent_encoding",
    "Verif.Rest.C28_violated_by_replaced_prefix"
   ],
   "note": "Exact for request paths with at least as many segments as the pattern. Violated: shorter paths match a prefix of the pattern, segments are not percent-decoded, every /api in the path is removed."
  },
  {
   "property": "C29",
   "status": "partial",
   "theorems": [
    "Verif.Rest.C29_first_match_wins_partial",
    "Verif.Rest.C29_endpoints_in_visiting_order",
    "Verif.Rest.C29_violated_by_operation_order",
    "Verif.Rest.C29_violated_by_several_documents"
   ],
   "note": "First match in the order of the endpoint set. Violated: that order comes from iterating a hash map, and a second operation document replaces the endpoints of the first."
  },
  {
   "property": "C30",
   "status": "partial",
   "theorems": [
    "Verif.Rest.C30_query_parameters_bound_partial",
    "Verif.Rest.C30_variables_of_request",
    "Verif.Rest.C30_parameters_parsed_partial",
    "Verif.Rest.C30_body_bound",
    "Verif.Rest.C30_violated_by_dropped_query",
    "Verif.Rest.C30_violated_by_parameter_name"
   ],
   "note": "Matching binds as stated, but the request handler drops the query string before matching, and the type of a parameter is looked up under the parameter's own name."
  },
  {
   "property": "C31",
   "status": "partial",
   "theorems": [
    "Verif.Plan.C31_kept_iff_allowed_partial",
    "Verif.Plan.C31_executed_fields_partial",
    "Verif.Plan.C31_violated_by_skip_and_include",
    "Verif.Plan.C31_violated_by_literal_include",
    "Verif.Plan.C31_violated_by_fragment_directives",
    "Verif.Plan.C31_violated_by_defaults"
   ],
   "note": "Holds for every field whose @include is not false or whose @skip is not a variable. Violated by the remaining combination, by directives on fragments (ignored) and by declared variable defaults (ignored)."
  },
  {
   "property": "C32",
   "status": "partial",
   "theorems": [
    "Verif.Server.C32_plan_of_same_text",
    "Verif.Server.C32_operation_asked_for",
    "Verif.Server.C32_own_plan_partial",
    "Verif.Server.C32_violated_by_operation_name",
    "Verif.Server.C32_violated_by_unknown_name"
   ],
   "note": "Plans belong to the query text. The claim fails when two requests with the same text name different operations: the plan cache is keyed on the text only (negations proved)."
  },
  {
   "property": "C33",
   "status": "partial",
   "theorems": [
    "Verif.Server.C33_source_of_response",
    "Verif.Server.C33_only_same_headers_partial",
    "Verif.Server.C33_same_credentials_partial",
    "Verif.Server.C33_constant_answer_partial",
    "Verif.Server.C33_violated_by_mixed_plan",
    "Verif.Server.C33_violated_by_variables"
   ],
   "note": "Where each response comes from is characterised for every history. Non-constant or fully protected plans are answered only from executions with the same headers; unguarded constant plans get their own answer. Negations proved: operations mixing public and protected constants are served to anyone, and variables are ignored."
  },
  {
   "property": "C34",
   "status": "partial",
   "theorems": [
    "Verif.Server.C34_answered_alone_partial",
    "Verif.Server.C34_batch_in_order",
    "Verif.Server.C33_source_of_response",
    "Verif.Server.C34_violated_by_shared_id"
   ],
   "note": "Order holds. Operations that cannot be shared are answered by their own execution. Negation proved: shareable operations of one batch have one id, so one gets the response of the other."
  },
  {
   "property": "C35",
   "status": "partial",
   "theorems": [
    "Verif.Server.C35_single_id_partial",
    "Verif.Server.C35_headers_and_operation",
    "Verif.Server.C35_violated_by_key"
   ],
   "note": "What is fed to the hasher determines headers, query, operation name and variables, for variables whose object keys are GraphQL names (printing of nested values proved injective). Negation proved for other keys. Hash collisions are outside of the model."
  },
  {
   "property": "C36",
   "status": "proved",
   "theorems": [
    "Verif.Exec.C36_calls_in_order",
    "Verif.Exec.C36_result_of_each_item",
    "Verif.Exec.C36_fails_with_first_error"
   ],
   "note": "One call per applicable item in list order, each position gets the result of its own item at every nesting depth, and the error is that of the first failing item."
  },
  {
   "property": "C37",
   "status": "partial",
   "theorems": [
    "Verif.Exec.C37_answers_as_reference",
    "Verif.Exec.C37_success_is_reference",
    "Verif.Exec.C37_reference_when_resolved",
    "Verif.Exec.C37_response_is_reference_partial",
    "Verif.Exec.C38_null_and_list_rules_partial",
    "Verif.Exec.C37_violated_by_alias",
    "Verif.Exec.C37_violated_by_alias_panic"
   ],
   "note": "Execution, store and synthesis together answer as a reference executor that resolves each field on its own object. Restrictions: resolvers that depend only on their parent value, distinct field ids, plain fields above a resolver carry no alias (necessary: two negations proved), no introspection."
  },
  {
   "property": "C38",
   "status": "partial",
   "theorems": [
    "Verif.Exec.C38_null_and_list_rules_partial",
    "Verif.Exec.C38_resolver_field",
    "Verif.Exec.C38_named_field",
    "Verif.Exec.C38_violated_by_plain_list",
    "Verif.Exec.C38_violated_by_single_value",
    "Verif.Exec.C38_violated_by_list_for_single",
    "Verif.Exec.C38_violated_by_nested_list",
    "Verif.Exec.C38_violated_by_scalar_list"
   ],
   "note": "The rules enforced on every field and list item of a successful response; for fields with a resolver and for single values they are those of the declared type. Elsewhere the code violates the property: five negations."
  },
  {
   "property": "C39",
   "status": "partial",
   "theorems": [
    "Verif.Input.C39_argument_partial",
    "Verif.Input.C39_rejected_partial",
    "Verif.Input.C39_accepted_partial",
    "Verif.Input.C39_terminates_partial",
    "Verif.Input.C39_operation_partial",
    "Verif.Input.C39_operation_rejected_partial",
    "Verif.Input.C39_operation_accepted_partial",
    "Verif.Input.C39_plan_arguments",
    "Verif.Input.C39_violated_by_recursive_default",
    "Verif.Input.C39_violated_by_omitted_variable",
    "Verif.Input.C39_violated_by_null_scalar_item",
    "Verif.Input.C39_violated_by_null_object_item",
    "Verif.Input.C39_violated_by_nullable_object_item",
    "Verif.Input.C39_violated_by_null_default",
    "Verif.Input.C39_violated_by_scalar_for_object",
    "Verif.Input.C39_violated_by_unknown_argument"
   ],
   "note": "Sound and complete against the GraphQL input rules for whole operations, for values whose null list items sit where the code checks the right flag. Negations proved: recursive defaults never finish, omitted variables are errors, null items of lists are checked against the flag of the list (or not at all for scalars), null defaults, scalars for input objects, and unknown arguments are dropped."
  },
  {
   "property": "C40",
   "status": "partial",
   "theorems": [
    "Verif.Ir.C40_const_has_one_result_partial",
    "Verif.Ir.C40_violated_by_entity",
    "Verif.Ir.C40_violated_by_guard",
    "Verif.Exec.C40_const_plan_partial",
    "Verif.Exec.C40_violated_by_variables"
   ],
   "note": "For one resolver expression and for whole plans: constant classification implies one result for all contexts, states and upstreams, provided the request passes the guards, no entity resolver is used and, for plans, the variables are the same (each restriction is necessary: negations proved)."
  },
  {
   "property": "C41",
   "status": "partial",
   "theorems": [
    "Verif.Ir.C41_mutation_ignores_dedupe",
    "Verif.Ir.C41_mutation_calls",
    "Verif.Ir.C41_violated_by_cached_mutation",
    "Verif.Server.C41_mutation_executed_partial",
    "Verif.Server.C41_violated_by_operation_name",
    "Verif.Loaders.C138_violated_by_mutation"
   ],
   "note": "Deduplication never touches a mutation, and a mutation that is not constant is answered by its own execution when all requests with its text name the same operation. Negations proved: @cache on a mutation field, and documents with several operations. HTTP calls of mutations go through data loaders if batching is on, so that equal calls are made once (negation proved)."
  },
  {
   "property": "C42",
   "status": "proved",
   "theorems": [
    "Verif.Auth.C42_boolean",
    "Verif.Auth.C42_or_failure",
    "Verif.Auth.C42_and_failure",
    "Verif.Auth.C42_no_header",
    "Verif.Auth.C42_failure_is_a_providers"
   ],
   "note": "For every combination, request and outcome of the cryptographic oracles."
  },
  {
   "property": "C43",
   "status": "partial",
   "theorems": [
    "Verif.Ir.C43_no_call_under_failing_guard",
    "Verif.Ir.C43_failing_guard_yields_no_data",
    "Verif.Ir.C43_planner_preserves",
    "Verif.Ir.C43_planner_collects",
    "Verif.Ir.C43_planner_leaves_none",
    "Verif.Exec.C43_plan_calls_only_open",
    "Verif.Exec.C43_plan_rejected_partial",
    "Verif.Exec.C43_violated_by_unreached_guard"
   ],
   "note": "No call below a failing guard, for every plan; rejection of the whole operation up front for guards on fields below resolvers. A guard below a plain field is only checked when reached, so other data of the operation is returned (negation proved)."
  },
  {
   "property": "C44",
   "status": "partial",
   "theorems": [
    "Verif.Auth.C44_accepted_iff",
    "Verif.Auth.C44_unknown_kid",
    "Verif.Auth.C44_kid_required",
    "Verif.Auth.C44_basic_iff",
    "Verif.Auth.C44_claims_checked_violated_by_config"
   ],
   "note": "Acceptance is characterised exactly. Signature checking is an oracle. Negation proved: providers that come from the configuration never check issuer or audience."
  },
  {
   "property": "C45",
   "status": "partial",
   "theorems": [
    "Verif.Front.C45_only_allowed",
    "Verif.Front.C45_all_allowed_partial",
    "Verif.Front.C45_blueprint_partial",
    "Verif.Front.C45_upstream_request",
    "Verif.Front.C45_violated_by_repeated_header",
    "Verif.Front.C45_violated_by_forced_authorization"
   ],
   "note": "Only allow-listed headers are visible, compared without case. Negations proved: of a repeated header only the last value is kept, and with authentication the authorization header is forwarded although not listed."
  },
  {
   "property": "C46",
   "status": "partial",
   "theorems": [
    "Verif.Front.C46_credentials_only_listed",
    "Verif.Front.C46_no_wildcard_only_listed",
    "Verif.Front.C46_listed_granted",
    "Verif.Front.C46_credentials_and_preflight",
    "Verif.Front.C46_accepted_with_credentials",
    "Verif.Front.C46_without_configuration",
    "Verif.Front.C46_violated_by_custom_header",
    "Verif.Front.C46_violated_by_joined_wildcard"
   ],
   "note": "Origins are granted exactly as configured when the inner response does not carry CORS headers. Negations proved: a custom response header survives a denial, and a wildcard inside a comma separated value passes the validation."
  },
  {
   "property": "C47",
   "status": "partial",
   "theorems": [
    "Verif.Front.C47_max_age_partial",
    "Verif.Front.C47_max_age_attained",
    "Verif.Front.C47_private",
    "Verif.Front.C47_no_cache_partial",
    "Verif.Front.C47_order_independent",
    "Verif.Front.C47_no_header",
    "Verif.Front.C47_violated_by_truncated_age",
    "Verif.Front.C47_violated_by_no_store",
    "Verif.Front.C47_violated_by_zero_age"
   ],
   "note": "Holds for ages from 1 to 2^31-1 and the directives max-age, private, public and no-cache. Negations proved for larger ages, for no-store and for max-age=0."
  },
  {
   "property": "C48",
   "status": "partial",
   "theorems": [
    "Verif.Front.C48_order_independent",
    "Verif.Front.C48_conservative_partial",
    "Verif.Front.C48_batch_like_single",
    "Verif.Front.C48_violated_by_zero_age"
   ],
   "note": "Order independent, and as strict as every member with an age other than 0. Negation proved for members of age 0."
  },
  {
   "property": "C49",
   "status": "partial",
   "theorems": [
    "Verif.Schema.C49_reflexive",
    "Verif.Schema.C49_transitive",
    "Verif.Schema.C49_sound_partial",
    "Verif.Schema.C49_failures_partial",
    "Verif.Schema.C49_required_partial",
    "Verif.Schema.C49_required_for_optional",
    "Verif.Schema.C49_violated_by_any_member"
   ],
   "note": "Reflexive and transitive for all schemas; sound for supertypes without members declared Any, and for the others the only failures are such members being absent. Negation proved for a member declared Any."
  },
  {
   "property": "C50",
   "status": "partial",
   "theorems": [
    "Verif.Transform.C50_exact",
    "Verif.Transform.C50_terminates",
    "Verif.Transform.C50_idempotent",
    "Verif.Transform.C50_violated_by_implementing_type",
    "Verif.Transform.C50_violated_by_subscription"
   ],
   "note": "Exactly the types reachable from query and mutation through fields, arguments, unions and implemented interfaces stay, unchanged. Negations proved: types implementing a used interface and the subscription type are removed."
  },
  {
   "property": "C51",
   "status": "partial",
   "theorems": [
    "Verif.Transform.C51_exact",
    "Verif.Transform.C51_flat",
    "Verif.Transform.C51_recursive_rejected",
    "Verif.Transform.C51_rejected_iff_partial",
    "Verif.Transform.C51_errors",
    "Verif.Transform.C51_terminates",
    "Verif.Transform.C51_violated_by_diamond"
   ],
   "note": "Accepted unions become exactly their leaf members and recursive ones are always rejected and named. Negation proved: a union reached in two ways is rejected as recursive although none is."
  },
  {
   "property": "C52",
   "status": "partial",
   "theorems": [
    "Verif.Transform.C52_content_partial",
    "Verif.Transform.C52_separated_partial",
    "Verif.Transform.C52_references_partial",
    "Verif.Transform.C52_terminates",
    "Verif.Transform.C52_violated_by_existing_input_type",
    "Verif.Transform.C52_violated_by_enum_argument",
    "Verif.Transform.C52_violated_by_implementing_type"
   ],
   "note": "For configurations whose generated names are free, whose ambiguous names are objects and without unions used as input or implementing types, in every order of the hash maps. Negations proved for an existing PInput type, enum arguments and implementing types."
  },
  {
   "property": "C53",
   "status": "partial",
   "theorems": [
    "Verif.Transform.C53_content_partial",
    "Verif.Transform.C53_operations_partial",
    "Verif.Transform.C53_errors_partial",
    "Verif.Transform.C53_violated_by_existing_name",
    "Verif.Transform.C53_violated_by_swap",
    "Verif.Transform.C53_violated_by_union_chain",
    "Verif.Transform.C53_violated_by_subscription",
    "Verif.Transform.C53_violated_by_shared_operation_type"
   ],
   "note": "For rename maps onto names that are neither declared nor renamed themselves. Negations proved for an existing name, swaps, chains in unions, the subscription type and a type that is both query and mutation."
  },
  {
   "property": "C54",
   "status": "partial",
   "theorems": [
    "Verif.Ir.C54_resolved",
    "Verif.Ir.C54_total",
    "Verif.Ir.C54_member_partial",
    "Verif.Ir.C54_list_length",
    "Verif.Ir.C54_entity_items",
    "Verif.Ir.C54_violated_by_upstream_typename"
   ],
   "note": "Everything holds except that a type name sent by the upstream is kept even if it is not a member type (negation proved)."
  },
  {
   "property": "C55",
   "status": "partial",
   "theorems": [
    "Verif.Ir.C55_hit_is_fresh",
    "Verif.Ir.C55_stored_is_found",
    "Verif.Ir.C55_served_without_call",
    "Verif.Ir.C55_recomputed",
    "Verif.Ir.C55_answer_or_compute",
    "Verif.Ir.C55_overlapping",
    "Verif.Ir.C55_field_age",
    "Verif.Ir.C55_violated_by_shared_key",
    "Verif.Ir.C55_violated_by_overlap"
   ],
   "note": "The last value stored under a key is served within the age it was stored with, and recomputed after. Two parts of the claim fail (negations proved): overlapping evaluations replace a value that is still valid, and resolvers with different ages share a key. The TTL cache library is modelled, not verified."
  },
  {
   "property": "C56",
   "status": "partial",
   "theorems": [
    "Verif.Fold.C56_succeeds_iff",
    "Verif.Fold.C56_all_errors_partial",
    "Verif.Fold.C56_list_errors_partial",
    "Verif.Fold.C56_first_errors",
    "Verif.Fold.C56_part",
    "Verif.Fold.C56_transformers",
    "Verif.Fold.C56_violated_by_reset_state",
    "Verif.Fold.C56_violated_by_nesting",
    "Verif.Fold.C56_violated_by_transformers"
   ],
   "note": "Success iff every check succeeds in turn, for every nesting; all errors reported when the checks do not depend on the state. Negations proved: after a failure later checks see the initial state and report errors of their own; transformers stop at the first failure."
  },
  {
   "property": "C57",
   "status": "partial",
   "theorems": [
    "Verif.Mustache.C57_two_stage_partial",
    "Verif.Mustache.C57_violated_by_braces_in_value"
   ],
   "note": "Proved for values and text free of braces and quotes; false in general because substituted values are parsed again."
  },
  {
   "property": "C58",
   "status": "partial",
   "theorems": [
    "Verif.HttpKey.C58_no_panic_partial",
    "Verif.HttpKey.C58_panic_iff",
    "Verif.HttpKey.C58_violated_http",
    "Verif.HttpKey.C58_violated_grpc"
   ],
   "note": "Without deduplication an unusable URL is an error; with deduplication it panics, exactly when the URL does not parse."
  },
  {
   "property": "C59",
   "status": "partial",
   "theorems": [
    "Verif.HttpBatch.C59_headers_partial",
    "Verif.HttpBatch.C59_violated_http",
    "Verif.HttpBatch.C59_violated_graphql",
    "Verif.HttpBatch.C59_violated_grpc"
   ],
   "note": "Proved without a batch key and for requests with the same headers; requests of clients with different credentials are merged (witnesses), even for headers listed in batch.headers."
  },
  {
   "property": "C60",
   "status": "partial",
   "theorems": [
    "Verif.HttpBatch.C60_batch_is_alone_partial",
    "Verif.HttpBatch.C60_violated_by_other_params"
   ],
   "note": "Proved for requests that differ only in the id; other differing parameters are lost (witness)."
  },
  {
   "property": "C61",
   "status": "partial",
   "theorems": [
    "Verif.HttpKey.C61_body_is_json_partial",
    "Verif.HttpKey.C61_violated_by_apostrophe",
    "Verif.HttpKey.C61_violated_by_non_ascii"
   ],
   "note": "Proved for ASCII values without apostrophes; witnesses for the rest."
  },
  {
   "property": "C62",
   "status": "partial",
   "theorems": [
    "Verif.HttpKey.C62_literal_partial",
    "Verif.HttpKey.C62_violated_by_quote"
   ],
   "note": "Proved for texts without quotes, backslashes and line breaks; a witness for quotes."
  },
  {
   "property": "C63",
   "status": "partial",
   "theorems": [
    "Verif.HttpBatch.C63_failed_call_partial",
    "Verif.HttpBatch.C63_violated_by_error_object"
   ],
   "note": "A failing call is reported; a GraphQL batch answered with an error object or non-JSON silently gives null."
  },
  {
   "property": "C64",
   "status": "partial",
   "theorems": [
    "Verif.Federation.C64_identical_subgraphs_merge_partial",
    "Verif.Federation.C64_violated_by_shared_scalar",
    "Verif.Federation.C64_violated_by_any_shared_scalar"
   ],
   "note": "Holds if every type and enum is classified as input or output; violated by custom scalars and unreferenced types, whose merge is always rejected."
  },
  {
   "property": "C65",
   "status": "partial",
   "theorems": [
    "Verif.Rest.C65_configured_routes_served_partial",
    "Verif.Rest.C65_only_configured_route",
    "Verif.Rest.C65_violated_by_api_routes"
   ],
   "note": "Holds for routes that do not start with /api."
  },
  {
   "property": "C66",
   "status": "partial",
   "theorems": [
    "Verif.Plan.C31_executed_fields_partial",
    "Verif.Plan.C66_violated_by_repeated_field",
    "Verif.Plan.C66_violated_by_fragment_field",
    "Verif.Plan.C66_violated_by_skipped_field",
    "Verif.Plan.C66_violated_by_recursive_fragment"
   ],
   "note": "Holds for selection sets without repeated response names; repeated fields are not merged, and recursive fragments are not rejected."
  },
  {
   "property": "C67",
   "status": "partial",
   "theorems": [
    "Verif.Auth.C67_guard_partial",
    "Verif.Auth.C67_guarded_iff_protected",
    "Verif.Auth.C67_unknown_id_rejected",
    "Verif.Auth.C67_every_linked_file",
    "Verif.Auth.C67_output_type_ids_violated_by_field_ids",
    "Verif.Auth.C67_all_providers_violated_by_field_ids",
    "Verif.Auth.C67_mixed_providers_reject_all"
   ],
   "note": "The guard is characterised exactly for type and field ids. Negations proved: ids of the output type are ignored, and a field id replaces the type's all-providers default."
  },
  {
   "property": "C68",
   "status": "partial",
   "theorems": [
    "Verif.Server.C68_shared_calls_partial",
    "Verif.Server.C68_min_age",
    "Verif.Server.C33_source_of_response",
    "Verif.Server.C68_violated_by_nested_call",
    "Verif.Server.C68_violated_by_enum_mapping"
   ],
   "note": "Holds for the calls of root fields outside of enum mappings; nested fields are not looked at (negations proved)."
  },
  {
   "property": "C69",
   "status": "partial",
   "theorems": [
    "Verif.Exec.C69_typed_data_answered_partial",
    "Verif.Exec.C69_violated_by_null_list",
    "Verif.Exec.C69_violated_by_scalar_list",
    "Verif.Exec.C69_violated_by_enum_list",
    "Verif.Exec.C69_violated_by_nested_list"
   ],
   "note": "Proved for plans without nested lists, lists of custom scalars or enums, and plain nullable lists of required items; each of these is violated."
  },
  {
   "property": "C70",
   "status": "partial",
   "theorems": [
    "Verif.Exec.C70_no_call_for_other_types_partial",
    "Verif.Exec.C36_calls_in_order",
    "Verif.Exec.C70_violated_by_single_object"
   ],
   "note": "Holds for fields below a list; violated for a field of a single object."
  },
  {
   "property": "C71",
   "status": "partial",
   "theorems": [
    "Verif.Exec.C71_violated_by_earlier_field",
    "Verif.Exec.C71_violated_by_resolver_error"
   ],
   "note": "The code violates the property: stale segments of earlier fields and errors of resolvers without path."
  },
  {
   "property": "C72",
   "status": "proved",
   "theorems": [
    "Verif.Server.C72_response_is_fresh"
   ],
   "note": "For every history, with cancellation."
  },
  {
   "property": "C73",
   "status": "partial",
   "theorems": [
    "Verif.Front.C73_joined_says_nothing_partial",
    "Verif.Front.C73_violated_by_joining"
   ],
   "note": "Negation proved: the request that joined has no Cache-Control even if the data is private."
  },
  {
   "property": "C74",
   "status": "partial",
   "theorems": [
    "Verif.Front.C74_only_configured",
    "Verif.Front.C74_experimental_value",
    "Verif.Front.C74_static_partial",
    "Verif.Front.C74_violated_by_experimental_header"
   ],
   "note": "Upstream responses change only the configured headers. Negation proved for the second half: an upstream response replaces an operator header that is also listed as experimental."
  },
  {
   "property": "C75",
   "status": "partial",
   "theorems": [
    "Verif.Front.C75_single_cookie_partial",
    "Verif.Front.C75_violated_by_two_responses",
    "Verif.Front.C75_violated_by_two_cookies"
   ],
   "note": "Holds for a single cookie. Negations proved for two responses and for two cookies of one response."
  },
  {
   "property": "C76",
   "status": "proved",
   "theorems": [
    "Verif.Front.C76_batch_body",
    "Verif.Front.C76_serialised_batch"
   ],
   "note": "For all members, against an independent reading of the top level of a JSON array."
  },
  {
   "property": "C77",
   "status": "partial",
   "theorems": [
    "Verif.Front.C77_raw_document_partial",
    "Verif.Front.C77_violated_by_backslash",
    "Verif.Front.C77_violated_by_escape"
   ],
   "note": "Holds for documents of printable characters, newlines and tabs without a backslash. Negations proved for a backslash and for characters that the debug format escapes."
  },
  {
   "property": "C78",
   "status": "partial",
   "theorems": [
    "Verif.Schema.C78_errors_exact",
    "Verif.Schema.C78_values_accepted_partial",
    "Verif.Schema.C78_accepted_partial",
    "Verif.Schema.C78_terminates_partial",
    "Verif.Schema.C78_deterministic",
    "Verif.Schema.C78_violated_by_recursive_type",
    "Verif.Schema.C78_violated_by_declared_scalar",
    "Verif.Schema.C78_violated_by_enum",
    "Verif.Schema.C78_violated_by_union",
    "Verif.Schema.C78_violated_by_scalars"
   ],
   "note": "Errors are exactly the faults with respect to the schema; values are accepted unless scalars are declared; accepted constants are values for types made of objects, lists, String, Boolean, Empty and nullable custom scalars. Negations proved for recursive types, declared scalars, enums, unions, Int, Float, ID and non-null custom scalars."
  },
  {
   "property": "C79",
   "status": "partial",
   "theorems": [
    "Verif.Schema.C79_response_partial",
    "Verif.Schema.C79_failures_partial",
    "Verif.Schema.C79_violated_by_int64",
    "Verif.Schema.C79_violated_by_optional_id",
    "Verif.Schema.C79_violated_by_recursive_message"
   ],
   "note": "Holds without 64 bit numbers for the same types as C78. Negations proved for 64 bit numbers, an optional string passing for ID!, and recursive messages."
  },
  {
   "property": "C80",
   "status": "partial",
   "theorems": [
    "Verif.Gql.C80_asked_partial",
    "Verif.Gql.C80_sent_partial",
    "Verif.Gql.C80_violated_by_cache",
    "Verif.Gql.C80_violated_by_interface_resolver",
    "Verif.Gql.C80_violated_by_renamed_interface",
    "Verif.Gql.C80_violated_by_variable_argument",
    "Verif.Gql.C80_violated_by_mustache_string",
    "Verif.Gql.C80_violated_by_variable_directive",
    "Verif.Gql.C80_violated_by_union",
    "Verif.Gql.C80_violated_by_bare_object",
    "Verif.Gql.C80_violated_by_alias"
   ],
   "note": "The selection that is sent is read back by an independent GraphQL reader and asks for exactly the wanted paths, for object and interface types, constant arguments and directives and strings of plain ASCII without apostrophe and double braces. Negations proved for cached fields, interface fields with their own resolver, renamed interface fields, variables, unions, objects without remaining fields and aliases."
  },
  {
   "property": "C81",
   "status": "partial",
   "theorems": [
    "Verif.Gql.C81_every_call_asks_partial",
    "Verif.Gql.C81_only_own",
    "Verif.Gql.C81_violated_by_several_resolvers",
    "Verif.Gql.C81_violated_by_alias_in_fallback",
    "Verif.Gql.C81_violated_by_second_field_in_fallback"
   ],
   "note": "Every GraphQL call anywhere in a resolver without merging gets the selection of its field, at any depth, and no other call does. Negations proved: calls of fields with several resolvers get none, and the fallback they use drops aliased fields and the fields of a type's second occurrence."
  },
  {
   "property": "C82",
   "status": "partial",
   "theorems": [
    "Verif.Tmpl.C82_url_complete_partial",
    "Verif.Tmpl.C82_argument_given_partial",
    "Verif.Tmpl.C82_violated_by_list",
    "Verif.Tmpl.C82_violated_by_own_resolver",
    "Verif.Tmpl.C82_violated_by_argument_path",
    "Verif.Tmpl.C82_violated_by_explicit_null",
    "Verif.Tmpl.C82_violated_by_select",
    "Verif.Tmpl.C82_violated_by_headers_and_body",
    "Verif.Tmpl.C82_violated_by_root"
   ],
   "note": "Every URL expression of every direct or merged call has a text for paths over the parent's own data without lists, non-null whole arguments and variables; arguments are given and not lists. Negations proved: paths through lists, fields with own resolvers, paths into arguments, explicit nulls, `select`, headers and body, and values at the root."
  },
  {
   "property": "C83",
   "status": "partial",
   "theorems": [
    "Verif.Tmpl.C83_no_object_partial",
    "Verif.Tmpl.C83_violated_by_list",
    "Verif.Tmpl.C83_violated_by_path_into_scalar"
   ],
   "note": "No accepted argument expression of a query parameter sends an object. Negations proved: paths through lists and into scalars are accepted although they have no value."
  },
  {
   "property": "C84",
   "status": "partial",
   "theorems": [
    "Verif.Call.C84_meaning_partial",
    "Verif.Call.C84_accepts_partial",
    "Verif.Call.C84_violated_by_default",
    "Verif.Call.C84_violated_by_default_not_filled",
    "Verif.Call.C84_violated_by_query_type",
    "Verif.Call.C84_violated_by_mutation_in_query"
   ],
   "note": "Accepted fields mean what their directives say at every depth of calls, and calls whose fields exist, resolve and get all non-null arguments are accepted. Negations proved: non-null arguments with defaults are demanded, defaults are not filled in, query types of another name cannot be called, and mutations called from queries are deduplicated."
  },
  {
   "property": "C85",
   "status": "partial",
   "theorems": [
    "Verif.Call.C85_ends_iff_partial",
    "Verif.Call.C85_depth_irrelevant",
    "Verif.Call.C85_violated_by_cycle"
   ],
   "note": "Reading ends exactly for the fields without an endless chain of calls. Negation proved: a field that calls itself overflows the stack."
  },
  {
   "property": "C86",
   "status": "proved",
   "theorems": [
    "Verif.Call.C86_protection_kept"
   ],
   "note": "For every position of the protected step; the stages after protection may wrap the expression further."
  },
  {
   "property": "C87",
   "status": "partial",
   "theorems": [
    "Verif.Gen.C87_sample_fits_partial",
    "Verif.Gen.C87_types_kept",
    "Verif.Gen.C87_names_allowed",
    "Verif.Gen.C87_objects_told",
    "Verif.Gen.C87_violated_by_fraction",
    "Verif.Gen.C87_violated_by_large_number",
    "Verif.Gen.C87_violated_by_missing_keys",
    "Verif.Gen.C87_violated_by_disagreement",
    "Verif.Gen.C87_violated_by_nested_arrays",
    "Verif.Gen.C87_violated_by_open_type"
   ],
   "note": "Samples that have a shape (small integers, no arrays in arrays, items of arrays that agree, all keys present deep inside items) fit their types; earlier types are kept and names are allowed for all samples. Negations proved for fractions, large integers, missing keys deep inside items, items that disagree, nested arrays and types left open by the first item."
  },
  {
   "property": "C88",
   "status": "partial",
   "theorems": [
    "Verif.Gen.C88_body_fits_partial",
    "Verif.Gen.C88_violated_by_array"
   ],
   "note": "Bodies that have a shape and are not arrays fit the type of their argument. Negation proved: the argument for a body that is an array is not a list."
  },
  {
   "property": "C89",
   "status": "partial",
   "theorems": [
    "Verif.Sdl.C89_round_trip_partial",
    "Verif.Sdl.C89_stable",
    "Verif.Sdl.C89_faithful",
    "Verif.Sdl.C89_violated_by_telemetry",
    "Verif.Sdl.C89_violated_by_interface_arguments",
    "Verif.Sdl.C89_violated_by_scalar",
    "Verif.Sdl.C89_violated_by_modified_argument",
    "Verif.Sdl.C89_violated_by_discriminate",
    "Verif.Sdl.C89_violated_by_input",
    "Verif.Sdl.C89_violated_by_other_directive",
    "Verif.Sdl.C89_violated_by_union_doc",
    "Verif.Sdl.C89_violated_by_verify_ssl"
   ],
   "note": "Proved for the configurations whose parts are all written (Config.Ok), whatever types are used as inputs. Negations proved: telemetry, arguments of interface fields, @modify on arguments, @discriminate, documentation of unions, directives other than those of federation, and the directives and documentation of types without fields are not written; an unset verifySSL is set afterwards."
  },
  {
   "property": "C90",
   "status": "partial",
   "theorems": [
    "Verif.Sdl.C90_resolvers_partial",
    "Verif.Sdl.C90_modifiers_partial",
    "Verif.Sdl.C90_settings_partial",
    "Verif.Sdl.C90_unknown_refused_partial",
    "Verif.Sdl.C90_order_irrelevant",
    "Verif.Sdl.C90_violated_by_unknown_argument",
    "Verif.Sdl.C90_violated_by_empty_vary",
    "Verif.Sdl.C90_violated_by_null_body",
    "Verif.Sdl.C90_violated_by_jit"
   ],
   "note": "Proved for all directives, except for the values of the negations: an empty vary of CORS, an optional value that is null, enableJIT; unknown arguments of @protected, @call, @js and @alias are ignored."
  },
  {
   "property": "C91",
   "status": "partial",
   "theorems": [
    "Verif.Sdl.C91_types_read_partial",
    "Verif.Sdl.C91_nothing_else",
    "Verif.Sdl.C91_schema_read_partial",
    "Verif.Sdl.C91_violated_by_extend",
    "Verif.Sdl.C91_violated_by_duplicate",
    "Verif.Sdl.C91_violated_by_unknown_directive",
    "Verif.Sdl.C91_violated_by_second_schema",
    "Verif.Sdl.C91_violated_by_second_server",
    "Verif.Sdl.C91_violated_by_argument_directive",
    "Verif.Sdl.C91_violated_by_kind",
    "Verif.Sdl.C91_violated_by_scalar"
   ],
   "note": "Proved for documents that define each name once and have one schema definition. Negations proved: extensions and repeated definitions replace earlier ones, later schema definitions and earlier settings are ignored, unknown directives and unreadable @modify on arguments are dropped, inputs and types are not told apart, scalars lose documentation and directives."
  },
  {
   "property": "C92",
   "status": "proved",
   "theorems": [
    "Verif.Npo.C92_search_ends",
    "Verif.Npo.C92_reported_paths_are_real",
    "Verif.Npo.C92_first_offences_are_reported",
    "Verif.Npo.C92_entities_are_reported",
    "Verif.Npo.C92_silent_iff",
    "Verif.Npo.C92_bound_is_enough",
    "Verif.Npo.C92_printed_paths_differ",
    "Verif.Npo.C92_one_line_each"
   ],
   "note": "Chains go through the fields of declared types, as in the code; an entity resolver counts as batched if one of its resolvers is. Names are plain (no spaces, quotes, parentheses, line breaks) in the theorems on printing."
  },
  {
   "property": "C93",
   "status": "partial",
   "theorems": [
    "Verif.Npo.C93_silent_means_none_partial",
    "Verif.Npo.C93_all_chains_listed_partial",
    "Verif.Npo.C93_violated_by_unions",
    "Verif.Npo.C93_violated_by_interfaces",
    "Verif.Npo.C93_violated_by_mutations",
    "Verif.Npo.C93_violated_by_expressions",
    "Verif.Npo.C93_violated_by_cycles",
    "Verif.Npo.C93_violated_behind_the_first"
   ],
   "note": "Silence is right without unions, interfaces and mutations; every chain up to its first offending field is listed when no type leads back to itself. Negations proved: members of unions, implementors of interfaces and mutations are not searched, @expr is reported, chains are lost on cycles, and fields behind an offending one are not listed."
  },
  {
   "property": "C94",
   "status": "partial",
   "theorems": [
    "Verif.Prune.C94_ends_and_keeps_order",
    "Verif.Prune.C94_needed_is_kept_partial",
    "Verif.Prune.C94_nothing_dangles_partial",
    "Verif.Prune.C94_kept_is_needed_partial",
    "Verif.Prune.C94_idempotent",
    "Verif.Prune.C94_violated_by_interface_arguments",
    "Verif.Prune.C94_violated_by_enum_values"
   ],
   "note": "Needed definitions are kept and nothing dangles when what interfaces name is also named by an object that implements them (as in valid schemas whose interfaces are implemented). Negations proved: the types of arguments of an interface that nothing implements are dropped, and values of enums keep types of their name."
  },
  {
   "property": "C95",
   "status": "partial",
   "theorems": [
    "Verif.UnionIn.C95_ends",
    "Verif.UnionIn.C95_kept",
    "Verif.UnionIn.C95_sound",
    "Verif.UnionIn.C95_covered_partial",
    "Verif.UnionIn.C95_untouched",
    "Verif.UnionIn.C95_covered_violated_by_list",
    "Verif.UnionIn.C95_covered_violated_by_name",
    "Verif.UnionIn.C95_covered_violated_by_empty_union",
    "Verif.UnionIn.C95_sound_violated_by_type_name"
   ],
   "note": "Names are without two underscores in a row and without the mark Var after the name of another field of the type, and unions have members; coverage is without lists over types with a union inside. Negations proved: a list with two members of the union is accepted by no field, a field named like a copy takes its place, a type named like a copy takes its place, and an empty union takes the field away."
  },
  {
   "property": "C96",
   "status": "partial",
   "theorems": [
    "Verif.UnionIn.C96_no_union_left_partial",
    "Verif.UnionIn.C96_no_union_left_violated_by_cycle"
   ],
   "note": "When no type is inside itself. Negation proved: the copies of a recursive type have the type itself inside, with its union."
  },
  {
   "property": "C97",
   "status": "partial",
   "theorems": [
    "Verif.Subgraph.C97_covers_partial",
    "Verif.Subgraph.C97_minimal_partial",
    "Verif.Subgraph.C97_key_once",
    "Verif.Subgraph.C97_refused",
    "Verif.Subgraph.C97_args_refused",
    "Verif.Subgraph.C97_fields_exist",
    "Verif.Subgraph.C97_covers_violated_by_second_step",
    "Verif.Subgraph.C97_minimal_violated_by_name",
    "Verif.Subgraph.C97_fields_exist_violated_by_header",
    "Verif.Subgraph.C97_key_violated_by_object_leaf"
   ],
   "note": "Covering is for calls whose later steps do not read the representation, and minimality for names without templates. Negations proved: the second step of a call reads a field that the key does not name; a name of a parameter that looks like a template gets into the key; fields in headers are not checked to exist; a key can name an object without a selection."
  },
  {
   "property": "C98",
   "status": "partial",
   "theorems": [
    "Verif.Subgraph.C98_key_enough_partial",
    "Verif.Subgraph.C98_no_key_partial",
    "Verif.Subgraph.C98_http_url_partial",
    "Verif.Subgraph.C98_violated_by_inner_path",
    "Verif.Subgraph.C98_violated_by_whole"
   ],
   "note": "When no read path is a proper beginning of another, names are no templates, and the representation is not read as a whole. Negations proved for a field read both as a whole and through an inner field, and for a template with the whole representation. Of a call the first step is compared."
  },
  {
   "property": "C99",
   "status": "partial",
   "theorems": [
    "Verif.Subgraph.C99_disabled",
    "Verif.Subgraph.C99_accepted_iff",
    "Verif.Subgraph.C99_type_kept",
    "Verif.Subgraph.C99_no_other_types",
    "Verif.Subgraph.C99_query_fields",
    "Verif.Subgraph.C99_entity_union",
    "Verif.Subgraph.C99_added_types",
    "Verif.Subgraph.C99_idempotent_partial",
    "Verif.Subgraph.C99_kept_violated_by_any",
    "Verif.Subgraph.C99_kept_violated_by_union",
    "Verif.Subgraph.C99_service_violated_by_query_name"
   ],
   "note": "For types not named _Service or _Any and a union not named _Entity; idempotence when these names and the two fields of the query type are free. Negations proved: such a type or union is overwritten, and a query type named _Any loses _service."
  }
 ]
}