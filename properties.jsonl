{"id": "C01", "title": "Single flight per key", "statement": "When several tasks ask the deduplicating cache for the same key concurrently, at no moment are two of their computations for that key running and able to publish; every other caller waits for the one that is running.", "quantifier": "every finite interleaving of any number of callers, keys, completions, cancellations and wake-ups, in persistent and non-persistent mode", "why_tests_cant": "A test samples a handful of schedules; the claim is about all interleavings including cancellation at every await point.", "anchors": ["src/core/data_loader/dedupe.rs: Dedupe::dedupe, Dedupe::step, State, Step"]}
{"id": "C02", "title": "Dedupe returns only genuine results for the same key", "statement": "Every value a deduplicated call returns was produced by a computation that was started for that same key (its own or the one it joined); results are never invented nor leaked across keys.", "quantifier": "every interleaving, every caller and key", "why_tests_cant": "Cross-key leakage would need a particular interleaving; absence of leakage is a statement about all of them.", "anchors": ["src/core/data_loader/dedupe.rs: Dedupe::dedupe, Dedupe::step"]}
{"id": "C03", "title": "No lost wake-up after cancellation", "statement": "A caller that waits for another caller's computation is never stranded: either that computation is still alive, or a result is already available to the waiter, or the waiter is woken to retry; if the computing task is dropped the waiter's retry becomes the new computation or joins another live one.", "quantifier": "every reachable state of every interleaving with cancellation at any point", "why_tests_cant": "Stranding needs a precise race between drop and subscribe; tests cannot enumerate the crash points.", "anchors": ["src/core/data_loader/dedupe.rs: Dedupe::dedupe (recv error branch), Dedupe::step (Weak upgrade)"]}
{"id": "C04", "title": "Persistent dedupe computes at most once", "statement": "With persistence on, once a computation for a key has finished, every later or concurrently waiting call for that key returns exactly that value and the computation is never started again.", "quantifier": "every interleaving, every key, any number of later calls", "why_tests_cant": "Needs all histories after a completion, not one.", "anchors": ["src/core/data_loader/dedupe.rs: Dedupe::dedupe (persist branch), DedupeResult::dedupe"]}
{"id": "C05", "title": "Non-persistent dedupe does not serve stale results", "statement": "With persistence off, a call that begins when no computation for its key is alive starts a fresh computation; a finished result is only handed to callers that were already waiting for it.", "quantifier": "every interleaving, every key", "why_tests_cant": "Staleness after arbitrary histories cannot be sampled.", "anchors": ["src/core/data_loader/dedupe.rs: Dedupe::dedupe (remove branch), Dedupe::step"]}
{"id": "C06", "title": "Data loader answers contain exactly the asked keys", "statement": "When a load succeeds, the map handed to a caller contains only keys that caller asked for, and for each such key the value is either the one the upstream batch that served the caller returned for that key or the cached one; keys the upstream omitted are absent.", "quantifier": "every history of loads, timer firings, batch completions (success or failure), cache feeds and clears", "why_tests_cant": "Depends on how concurrent callers were packed into batches; all packings matter.", "anchors": ["src/core/data_loader/data_loader.rs: DataLoader::load_many, Requests::take, DataLoaderInner::do_load"]}
{"id": "C07", "title": "No data loader request is lost", "statement": "Whenever a caller is waiting on the data loader, its request is either inside a dispatched batch or queued with a flush already scheduled; queued keys never sit without a scheduled flush, so letting scheduled work run answers every caller.", "quantifier": "every reachable state of every history", "why_tests_cant": "Lost requests show up only under particular orders of size-triggered and timer-triggered flushes.", "anchors": ["src/core/data_loader/data_loader.rs: DataLoader::load_many (Action), Requests::take"]}
{"id": "C08", "title": "Batches respect the configured maximum size", "statement": "A batch sent upstream never contains more than the configured maximum number of keys.", "quantifier": "every history of loads and configured maximum size", "why_tests_cant": "Boundary depends on arbitrary histories of arrivals and flushes.", "anchors": ["src/core/data_loader/data_loader.rs: DataLoader::load_many, DataLoader::max_batch_size"]}
{"id": "C09", "title": "Every key waits for exactly the batch that carries it", "statement": "The key set of a dispatched batch is exactly the union of the key sets of the callers that the batch will answer, each caller is answered by exactly one batch, and no caller is answered twice.", "quantifier": "every history", "why_tests_cant": "Double or missing answers depend on the schedule.", "anchors": ["src/core/data_loader/data_loader.rs: Requests::take, DataLoaderInner::do_load"]}
{"id": "C10", "title": "Data loader cache hits avoid the upstream", "statement": "With caching enabled, after a key's value has been loaded and until the cache is cleared, loading that key again returns the most recently stored value for it at once and puts nothing in a batch; a key that is not in the cache is never answered without the upstream.", "quantifier": "every history with caching enabled and an unbounded cache", "why_tests_cant": "The claim is about all later histories.", "anchors": ["src/core/data_loader/data_loader.rs: DataLoader::load_many, DataLoaderInner::do_load, DataLoader::clear", "src/core/data_loader/cache.rs: HashMapCache"]}
{"id": "C11", "title": "Template print/parse round trip", "statement": "Printing a parsed template and parsing the text again yields the same template, so storing a template as text does not change what it renders.", "quantifier": "every template made of non-empty literals without '{{' separated by valid path expressions", "why_tests_cant": "Strings are unbounded; edge cases combine quotes, braces, spaces.", "anchors": ["src/core/mustache/parse.rs: parse_mustache, parse_segment, parse_expression, parse_name", "src/core/mustache/model.rs: Display for Mustache"]}
{"id": "C12", "title": "Text without expressions is rendered verbatim", "statement": "A template string that contains no '{{' is treated as a constant and renders to itself in every context.", "quantifier": "every string without '{{' and every context", "why_tests_cant": "Unbounded set of strings.", "anchors": ["src/core/mustache/parse.rs: Mustache::parse", "src/core/mustache/eval.rs: PathStringEval::eval", "src/core/mustache/model.rs: Mustache::is_const"]}
{"id": "C13", "title": "Rendering is segment-wise and never re-interprets values", "statement": "The rendered text is the concatenation, in order, of the literal pieces and of the looked-up values; a value containing '{{...}}' is inserted literally; a missing value renders as empty (or, in partial mode, as the original expression, and partial mode agrees with full mode when nothing is missing).", "quantifier": "every template and context", "why_tests_cant": "Unbounded templates/contexts.", "anchors": ["src/core/mustache/eval.rs: PathStringEval::eval, PathStringEval::eval_partial"]}
{"id": "C14", "title": "Query parameter integrity of upstream URLs", "statement": "The query string of the upstream URL parses back to exactly the parameters of the configured base URL followed by the configured query templates with their rendered values; a value supplied by a client can never add, remove or rename a parameter.", "quantifier": "every template, every rendered value", "why_tests_cant": "Injection needs adversarial values; the claim is over all values.", "anchors": ["src/core/http/request_template.rs: RequestTemplate::create_url", "src/core/http/query_encoder.rs: QueryEncoder"]}
{"id": "C15", "title": "skipEmpty omits exactly the missing parameters", "statement": "A query parameter marked skipEmpty is left out iff its value is absent; a parameter that is not marked always appears; the relative order of the others is unchanged.", "quantifier": "every list of query templates (names without URL metacharacters) and every context", "why_tests_cant": "Arbitrary lists/contexts.", "anchors": ["src/core/http/request_template.rs: RequestTemplate::create_url", "src/core/http/query_encoder.rs: QueryEncoder::encode, convert_value"]}
{"id": "C16", "title": "HTTP cache key identifies the request", "statement": "If two evaluations of HTTP resolvers get the same cache/dedupe key then the upstream requests they would send are identical (method, URL, headers, body).", "quantifier": "every pair of request templates and contexts", "why_tests_cant": "A pairwise claim over all inputs.", "anchors": ["src/core/http/request_template.rs: CacheKey for RequestTemplate (cache_key)", "src/core/ir/eval_io.rs: eval_io"]}
{"id": "C17", "title": "GraphQL upstream cache key identifies the request", "statement": "If two evaluations of GraphQL upstream resolvers get the same cache/dedupe key then they would send the same operation to the same URL with the same headers.", "quantifier": "every pair of templates and contexts", "why_tests_cant": "Pairwise claim over all inputs.", "anchors": ["src/core/graphql/request_template.rs: CacheKey for RequestTemplate"]}
{"id": "C18", "title": "gRPC cache key identifies the request", "statement": "If two evaluations of gRPC resolvers get the same cache/dedupe key then they would send the same message to the same method with the same metadata.", "quantifier": "every pair of templates and contexts", "why_tests_cant": "Pairwise claim over all inputs.", "anchors": ["src/core/grpc/request_template.rs: Hash for RenderedRequestTemplate, CacheKey for RequestTemplate"]}
{"id": "C19", "title": "Batched requests that are merged are interchangeable", "statement": "Two upstream requests that the HTTP data loader treats as the same key are the same request as far as the upstream can tell (method, URL, body and the headers that matter).", "quantifier": "every pair of requests and every set of batching headers", "why_tests_cant": "Pairwise claim over all inputs.", "anchors": ["src/core/http/data_loader_request.rs: Hash, PartialEq for DataLoaderRequest"]}
{"id": "C20", "title": "Batched HTTP responses are split by id", "statement": "After a batched GET, every original request receives exactly the response items whose batch-key value equals the id in its own URL (all of them in order for list fields, the first for single fields, null when none), and never an item of another id.", "quantifier": "every set of requests, every response body", "why_tests_cant": "Depends on arbitrary response shapes and ids.", "anchors": ["src/core/http/data_loader.rs: HttpDataLoader::load, get_body_value_list, get_body_value_single", "src/core/json/mod.rs: gather_path_matches, group_by_key"]}
{"id": "C21", "title": "Batched POST bodies keep every request", "statement": "The body of a merged POST is a JSON array containing each distinct request's body exactly once, in order, and each request is answered with the items of its own key.", "quantifier": "every list of request bodies", "why_tests_cant": "Arbitrary lists.", "anchors": ["src/core/http/transformations/body_batching.rs: BodyBatching", "src/core/http/data_loader.rs: HttpDataLoader::load"]}
{"id": "C22", "title": "Merged GET keeps every id and the base query", "statement": "The merged GET URL carries the batching parameter of every request, keeps the non-batch parameters of the base request, and adds nothing else.", "quantifier": "every list of requests", "why_tests_cant": "Arbitrary lists.", "anchors": ["src/core/http/transformations/query_batching.rs: QueryBatching", "src/core/http/data_loader.rs: HttpDataLoader::load"]}
{"id": "C23", "title": "GraphQL upstream batches are answered by position", "statement": "When several GraphQL upstream queries are sent as one batch, request i is answered by element i of the response list; extra elements are ignored and missing ones become null.", "quantifier": "every list of requests and responses", "why_tests_cant": "Arbitrary lists.", "anchors": ["src/core/graphql/data_loader.rs: collect_request_bodies, extract_responses"]}
{"id": "C24", "title": "Configuration merge is associative with the empty config as identity", "statement": "Linking configuration files a, b, c gives the same result however the merges are grouped, and merging with an empty part changes nothing; on conflicts the right-most file wins.", "quantifier": "all values of the mergeable container types", "why_tests_cant": "Algebraic law over all values.", "anchors": ["src/core/merge_right.rs: MergeRight for Option, Vec, BTreeSet, BTreeMap, HashMap, IndexMap, ConstValue, serde_json::Value", "src/core/config/key_values.rs: merge_key_value_vecs"]}
{"id": "C25", "title": "Federated type merge is order independent", "statement": "Merging the types of two subgraphs gives the same wrapping (list / non-null) whichever side comes first and however merges are grouped, merging a type with itself changes nothing, and incompatible list shapes are rejected in both orders.", "quantifier": "all wrapped types", "why_tests_cant": "Algebraic laws over all nestings.", "anchors": ["src/core/config/config_module/merge.rs: Covariant/Contravariant for Type", "src/core/wrapping_type.rs: Type"]}
{"id": "C26", "title": "Federated output merge is sound for every subgraph", "statement": "Every value that conforms to a subgraph's output type also conforms to the merged output type, so a client that handles the merged schema handles every subgraph's answers.", "quantifier": "all types and all values", "why_tests_cant": "Quantifies over all values and nestings.", "anchors": ["src/core/config/config_module/merge.rs: Covariant for Type, Cache::unify"]}
{"id": "C27", "title": "Federated input merge is sound for every subgraph", "statement": "Every argument value that conforms to the merged input type also conforms to each subgraph's input type, so an accepted argument can be forwarded to any of them.", "quantifier": "all types and all values", "why_tests_cant": "Quantifies over all values and nestings.", "anchors": ["src/core/config/config_module/merge.rs: Contravariant for Type, Contravariant/Covariant for collections and enums"]}
{"id": "C28", "title": "REST path matching is exact", "statement": "A request path matches a REST endpoint only if it has the same number of segments, literal segments are equal, and every path parameter is bound to the decoded segment in its position with the declared type.", "quantifier": "all patterns and all request paths", "why_tests_cant": "Unbounded paths.", "anchors": ["src/core/rest/path.rs: Path::matches", "src/core/rest/typed_variables.rs: UrlParamType::to_value"]}
{"id": "C29", "title": "First declared REST endpoint wins", "statement": "The endpoint chosen for a request is the first declared one that matches; a request is rejected iff none matches.", "quantifier": "all endpoint lists and requests", "why_tests_cant": "Arbitrary lists.", "anchors": ["src/core/rest/endpoint_set.rs: EndpointSet::matches", "src/core/rest/endpoint.rs: Endpoint::matches"]}
{"id": "C30", "title": "REST query parameters reach the operation", "statement": "A query parameter that a REST endpoint maps to an operation variable is taken from the client's URL.", "quantifier": "all endpoints and all client URLs", "why_tests_cant": "Arbitrary URLs.", "anchors": ["src/core/http/request_handler.rs: handle_rest_apis", "src/core/rest/query_params.rs: QueryParams::matches"]}
{"id": "C31", "title": "@skip / @include semantics", "statement": "A field appears in the response iff its @skip condition is not true and its @include condition is not false, whether the conditions are literals or variables.", "quantifier": "all combinations of directives, literals and variable assignments, in every selection", "why_tests_cant": "Combination of plan-time and run-time evaluation over all assignments.", "anchors": ["src/core/jit/model.rs: Field::skip", "src/core/jit/builder.rs: Conditions::is_const_skip, Builder::include", "src/core/jit/transform/skip.rs: Skip"]}
{"id": "C32", "title": "Plan cache never serves another operation's plan", "statement": "Executing a request uses the plan of the operation that this request names; requests served earlier can never change which operation runs.", "quantifier": "all histories of requests", "why_tests_cant": "Depends on arbitrary history.", "anchors": ["src/core/jit/graphql_executor.rs: JITExecutor::execute, req_hash", "src/core/jit/request.rs: Request::create_plan"]}
{"id": "C33", "title": "Constant-response cache never bypasses authentication", "statement": "A response that needed authentication when it was computed is never handed to a request that does not authenticate, and a cached response equals what executing the request would give.", "quantifier": "all plans and all histories of requests with any credentials", "why_tests_cant": "Depends on arbitrary history and credentials.", "anchors": ["src/core/jit/graphql_executor.rs: JITExecutor::execute (const cache)", "src/core/jit/transform/check_protected.rs", "src/core/jit/transform/check_const.rs"]}
{"id": "C34", "title": "Batch requests are answered independently", "statement": "Each request of a GraphQL batch is answered with its own response, in order, as if sent alone.", "quantifier": "all batches and schedules", "why_tests_cant": "Depends on interleaving of the batch members.", "anchors": ["src/core/jit/graphql_executor.rs: JITExecutor::execute_batch, dedupe_and_exec"]}
{"id": "C35", "title": "Operation identity covers everything that affects the answer", "statement": "Two single GraphQL requests get the same in-flight identity only if their headers, query text, operation name and variables are all the same.", "quantifier": "all pairs of requests", "why_tests_cant": "Pairwise claim.", "anchors": ["src/core/async_graphql_hyper.rs: GraphQLRequestLike::operation_id, Hash for GraphQLRequest, Hash for GraphQLBatchRequest"]}
{"id": "C36", "title": "List results keep shape and order", "statement": "Resolving a nested field below a list gives, for every list position, the result computed from exactly that item, and the resulting store mirrors the parent's list nesting at every depth.", "quantifier": "all nested lists and all resolvers", "why_tests_cant": "Arbitrary nesting.", "anchors": ["src/core/jit/exec.rs: Executor::iter_field, execute", "src/core/jit/exec_const.rs: ConstValueExec::call", "src/core/json/json_like_list.rs: JsonLikeList::map, map_ref, for_each"]}
{"id": "C37", "title": "Response has exactly the selected shape", "statement": "A successful response object has exactly the selected output names of the fields that apply to the value's type, each once, in selection order; leaf values are copied from the resolved data.", "quantifier": "all plans and all resolved data", "why_tests_cant": "Arbitrary plans/data.", "anchors": ["src/core/jit/synth/synth.rs: Synth::synthesize, iter, iter_inner"]}
{"id": "C38", "title": "Null and list rules of the response", "statement": "In a successful response a field declared non-null is never null, and a field declared as a list is an array or null; otherwise the response is an error.", "quantifier": "all plans, types and resolved data", "why_tests_cant": "Arbitrary plans/data.", "anchors": ["src/core/jit/synth/synth.rs: Synth::iter, node_nullable_guard"]}
{"id": "C39", "title": "Argument resolution follows the GraphQL input rules", "statement": "A resolved argument is the provided value, or the default if absent, input-object defaults are filled in at every depth, and a missing or null non-null argument is an error; executing never sees an unresolved variable.", "quantifier": "all argument definitions, variables and values", "why_tests_cant": "Recursive over arbitrary input types.", "anchors": ["src/core/jit/transform/input_resolver.rs: InputResolver::resolve_input, resolve_field, recursive_parse_arg"]}
{"id": "C40", "title": "Constant analysis is sound", "statement": "If a plan is classified constant, executing it gives the same data for every request context (headers, variables, environment, upstream responses).", "quantifier": "all IR expressions and contexts", "why_tests_cant": "Pairwise claim over contexts.", "anchors": ["src/core/jit/transform/check_const.rs: is_const", "src/core/ir/eval.rs: IR::eval"]}
{"id": "C41", "title": "Only queries are deduplicated or answered from caches", "statement": "A mutation is never answered by joining another in-flight operation or from the response cache, and every upstream call of a mutation is performed.", "quantifier": "all operations", "why_tests_cant": "Every operation/schedule.", "anchors": ["src/core/jit/model.rs: OperationPlan::can_dedupe", "src/core/jit/transform/check_dedupe.rs", "src/core/jit/transform/check_const.rs", "src/core/ir/eval_io.rs: eval_io"]}
{"id": "C42", "title": "Authentication combinators are boolean", "statement": "A request passes an AND (OR) of authentication providers iff it passes both (at least one); the reported failure of an OR is the most advanced failure and of an AND the first one.", "quantifier": "all nestings of AND/OR and all provider outcomes", "why_tests_cant": "Arbitrary nesting.", "anchors": ["src/core/auth/verification.rs: Verification", "src/core/auth/verify.rs: AuthVerifier::verify, Verify for Auth"]}
{"id": "C43", "title": "Protected data is never resolved unauthenticated", "statement": "If any selected field is protected and the request fails its authentication, no data of the operation is returned and no upstream call under a protected field is made.", "quantifier": "all plans, all placements of protected fields, all credentials", "why_tests_cant": "Arbitrary plans.", "anchors": ["src/core/jit/transform/auth_planner.rs: AuthPlanner", "src/core/jit/exec_const.rs: ConstValueExecutor::execute", "src/core/ir/eval.rs: IR::Protect", "src/core/blueprint/operators/protected.rs: update_protected"]}
{"id": "C44", "title": "JWT claims check", "statement": "A token is accepted only if it decodes under a configured key and its issuer and audience claims match the configured ones; key selection follows the kid rules.", "quantifier": "all tokens, key sets and claim sets", "why_tests_cant": "Arbitrary claims/keys.", "anchors": ["src/core/auth/jwt/jwt_verify.rs: JwtVerifier::validate_claims, validate_iss, validate_aud", "src/core/auth/jwt/jwks.rs: JwksDecoder::decode"]}
{"id": "C45", "title": "Only allow-listed headers reach the upstream context", "statement": "Every client header visible to templates and upstream requests is in the configured allow list (case-insensitively) with a value the client sent, and every allow-listed header that was sent is present.", "quantifier": "all header lists and allow lists", "why_tests_cant": "Arbitrary headers.", "anchors": ["src/core/http/request_handler.rs: create_allowed_headers"]}
{"id": "C46", "title": "CORS never grants an unlisted origin with credentials", "statement": "For an accepted configuration with credentials allowed, Access-Control-Allow-Origin is sent only for origins in the configured list; without a wildcard no response names an origin that is not listed.", "quantifier": "all accepted CORS configurations and requests", "why_tests_cant": "All configurations/origins.", "anchors": ["src/core/blueprint/cors.rs: Cors::allow_origin_to_header, ensure_usable_cors_rules, TryFrom<config::cors::Cors>", "src/core/http/request_handler.rs: handle_request_with_cors"]}
{"id": "C47", "title": "Cache-Control of a response is conservative", "statement": "The max-age sent to the client is never larger than the smallest max-age of the upstream responses used, and the response is private if any of them was private.", "quantifier": "all sequences of upstream responses", "why_tests_cant": "Arbitrary sequences in any completion order.", "anchors": ["src/core/http/request_context.rs: set_min_max_age, set_cache_visibility, set_cache_control", "src/core/async_graphql_hyper.rs: CacheControl::value, merge"]}
{"id": "C48", "title": "Batch Cache-Control is conservative", "statement": "The Cache-Control of a batch response is at most as permissive as that of each member response and does not depend on member order.", "quantifier": "all batches", "why_tests_cant": "Algebraic law.", "anchors": ["src/core/async_graphql_hyper.rs: CacheControl::merge", "src/core/jit/response.rs: BatchResponse::cache_control"]}
{"id": "C49", "title": "Structural subtyping is sound", "statement": "If schema A is accepted as a subtype of schema B then every JSON value valid for A is valid for B; subtyping is reflexive and transitive.", "quantifier": "all schemas and all values", "why_tests_cant": "Quantifies over all values and nestings.", "anchors": ["src/core/json/json_schema.rs: JsonSchema::is_a, JsonSchema::validate"]}
{"id": "C50", "title": "Removing unused types never breaks the schema", "statement": "After removing unused types every type reachable from the operations through fields, arguments, unions and interfaces is still present and unchanged, and nothing unreachable (other than enums) remains.", "quantifier": "all configurations", "why_tests_cant": "Arbitrary (cyclic) type graphs.", "anchors": ["src/core/config/config.rs: get_all_used_type_names, unused_types, remove_types", "src/core/config/transformer/tree_shake.rs: TreeShake"]}
{"id": "C51", "title": "Nested unions are flattened exactly", "statement": "Flattening replaces every union by the set of its non-union leaf members; it is rejected iff some union is recursive.", "quantifier": "all union graphs", "why_tests_cant": "Arbitrary graphs.", "anchors": ["src/core/config/transformer/nested_unions.rs: NestedUnions"]}
{"id": "C52", "title": "Splitting ambiguous types loses nothing", "statement": "Splitting a type used both as input and output never overwrites another type of the configuration, and afterwards no type is referenced both as an input and as an output.", "quantifier": "all configurations", "why_tests_cant": "Arbitrary configurations.", "anchors": ["src/core/config/transformer/ambiguous_type.rs: AmbiguousType"]}
{"id": "C53", "title": "Renaming types loses nothing", "statement": "Renaming types keeps every type's content under its new name and rewrites every reference consistently.", "quantifier": "all configurations and rename maps", "why_tests_cant": "Arbitrary maps (chains, swaps).", "anchors": ["src/core/config/transformer/rename_types.rs: RenameTypes"]}
{"id": "C54", "title": "__typename discrimination is truthful", "statement": "A value resolved for a union or interface gets a __typename that is one of the configured member types; existing type names are kept; lists are handled element-wise.", "quantifier": "all values and member sets", "why_tests_cant": "Arbitrary nesting.", "anchors": ["src/core/ir/discriminator.rs: Discriminator::resolve_type", "src/core/ir/discriminator/type_field_discriminator.rs", "src/core/ir/discriminator/keyed_discriminator.rs"]}
{"id": "C55", "title": "Cached resolvers return the stored value until expiry", "statement": "A field with @cache returns, for the same cache key and within maxAge, the value first computed; after maxAge it is recomputed.", "quantifier": "all histories of lookups and clock readings", "why_tests_cant": "All histories.", "anchors": ["src/core/ir/eval.rs: IR::Cache", "src/core/cache/cache.rs: InMemoryCache"]}
{"id": "C56", "title": "Validation reports every error", "statement": "Building a configuration pipeline reports the errors of all independent checks, and succeeds iff every check succeeds.", "quantifier": "all pipelines", "why_tests_cant": "Arbitrary composition.", "anchors": ["src/core/try_fold.rs: TryFold", "src/core/transform.rs"]}
{"id": "C57", "title": "Substituting configuration variables first does not change later rendering", "statement": "Rendering a configuration text with the configuration-time values first (unknown placeholders are kept), parsing the result again and rendering it with the request's values gives the same text as rendering the original text once with both sets of values.", "quantifier": "every template, every pair of value assignments", "why_tests_cant": "Depends on what the substituted values contain.", "anchors": ["src/core/resource_reader.rs", "src/core/mustache/eval.rs: PathStringEval::eval_partial"]}
{"id": "C58", "title": "An unusable upstream URL is an error of the field", "statement": "When the rendered upstream URL of a resolver cannot be parsed, evaluating the field reports an error and does not crash the request.", "quantifier": "every template, context and resolver setting", "why_tests_cant": "Depends on client-supplied text that is rendered into the URL.", "anchors": ["src/core/http/request_template.rs: CacheKey::cache_key", "src/core/grpc/request_template.rs: CacheKey::cache_key", "src/core/ir/eval_io.rs: eval_io"]}
{"id": "C59", "title": "Batched upstream calls respect each caller's headers", "statement": "When requests of several clients are merged into one upstream call, every merged request would have been sent with the headers that call carries.", "quantifier": "every set of requests waiting in a data loader", "why_tests_cant": "Needs concurrent requests of different clients in one batching window.", "anchors": ["src/core/http/data_loader.rs: HttpDataLoader::load", "src/core/graphql/data_loader.rs: create_batched_request", "src/core/grpc/data_loader.rs: load_with_group_by", "src/core/app_context.rs"]}
{"id": "C60", "title": "Batching does not change the answer of a field", "statement": "For an upstream that answers a list of ids with the items of these ids, loading a request as part of a batch gives the same value as loading it alone.", "quantifier": "every set of requests and every upstream data set", "why_tests_cant": "Needs all compositions of batches.", "anchors": ["src/core/http/data_loader.rs: HttpDataLoader::load", "src/core/http/transformations/query_batching.rs"]}
{"id": "C61", "title": "GraphQL upstream request bodies are valid JSON", "statement": "The body sent to a GraphQL upstream is a JSON object whose query string is exactly the configured operation with the rendered arguments, for every argument value.", "quantifier": "every template and every argument value", "why_tests_cant": "Depends on every character a client can send.", "anchors": ["src/core/graphql/request_template.rs: render_graphql_query"]}
{"id": "C62", "title": "Values cannot escape from a GraphQL upstream operation", "statement": "A header, variable or environment value inserted as an argument of a GraphQL upstream operation is one string literal whose content is that value.", "quantifier": "every value", "why_tests_cant": "Depends on every character a client can send.", "anchors": ["src/core/path.rs: PathGraphql"]}
{"id": "C63", "title": "A failed batch is reported", "statement": "When a batched upstream call fails as a whole or is answered with something that cannot be split, the fields that depend on it report an error instead of getting null.", "quantifier": "every batch and every upstream answer", "why_tests_cant": "Needs failing upstreams in combination with batching.", "anchors": ["src/core/http/data_loader.rs: HttpDataLoader::load", "src/core/graphql/data_loader.rs: load, extract_responses", "src/core/ir/eval_http.rs: execute_request_with_dl"]}
{"id": "C64", "title": "Subgraphs may share definitions", "statement": "Subgraphs that contain the same definitions can be merged, and merging a subgraph with an identical one changes nothing.", "quantifier": "every subgraph schema", "why_tests_cant": "Depends on how each type is used across a whole schema, of which there are unboundedly many.", "anchors": ["src/core/config/config_module/merge.rs: Cache::unify", "src/core/config/config.rs: find_connections, input_types, output_types"]}
{"id": "C65", "title": "Configured routes are served", "statement": "A GraphQL request POSTed to the configured GraphQL route is executed by the GraphQL engine, a GET of the configured status route answers the status, and nothing else reaches the GraphQL engine.", "quantifier": "every route configuration, endpoint set and request", "why_tests_cant": "Route texts are arbitrary and interact with the hard-coded /api prefix.", "anchors": ["src/core/http/request_handler.rs: handle_request_inner", "src/core/config/directives/server.rs: Routes"]}
{"id": "C66", "title": "Selections are collected as GraphQL prescribes", "statement": "The fields executed for a selection set are those of GraphQL's field collection: in the order of the document, fragments expanded in place, repeated response names merged.", "quantifier": "every operation, schema, fragment set and variables", "why_tests_cant": "Selection sets nest without bound and combine fields and fragments arbitrarily.", "anchors": ["src/core/jit/builder.rs: Builder::iter"]}
{"id": "C67", "title": "A protected field asks for exactly the named providers", "statement": "A field marked protected (itself, its enclosing type or its output type) is resolved only for requests that pass every provider named by the type or field, or every provider of the configuration when none is named; an unknown provider id is rejected at start-up.", "quantifier": "all configurations, directives and requests", "why_tests_cant": "Unit tests fix one configuration and one set of credentials; the guarantee is about all combinations of directives and providers.", "anchors": ["src/core/blueprint/operators/protected.rs: update_protected", "src/core/blueprint/auth.rs: Provider::from_config, Auth::from_config"]}
{"id": "C69", "title": "Data of the declared types is never rejected", "statement": "If every resolver of an operation answers with data of its declared type, the response has no error.", "quantifier": "all plans, schemas and typed data", "why_tests_cant": "Arbitrary plans and data.", "anchors": ["src/core/jit/synth/synth.rs: Synth::synthesize, iter, iter_inner, node_nullable_guard"]}
{"id": "C70", "title": "Fields of a fragment are resolved only for objects of its type", "statement": "The resolver of a field selected in a fragment on type T is called only for objects of type T (or an implementer or member of T).", "quantifier": "all plans, all data", "why_tests_cant": "Arbitrary plans and data.", "anchors": ["src/core/jit/exec.rs: ExecutorInner::iter_field, execute", "src/core/json/json_like_list.rs", "src/core/jit/model.rs: OperationPlan::field_is_part_of_value"]}
{"id": "C71", "title": "Error paths lead to the failing field", "statement": "The path of an error in a response names the output names and list positions that lead to the field whose value caused the error.", "quantifier": "all plans, all data", "why_tests_cant": "Arbitrary plans and data.", "anchors": ["src/core/jit/synth/synth.rs: Synth::iter, iter_inner, to_location_error"]}
{"id": "C68", "title": "Only shareable operations are shared in flight", "statement": "An operation is answered by joining an operation in flight only if it is a query and each of its upstream calls is declared shareable, is cached, or none is made.", "quantifier": "all operation plans", "why_tests_cant": "Every resolver tree and nesting.", "anchors": ["src/core/jit/transform/check_dedupe.rs: check_dedupe", "src/core/jit/transform/check_cache.rs: check_cache", "src/core/jit/model.rs: OperationPlan::can_dedupe"]}
{"id": "C72", "title": "Responses are not older than their request", "statement": "A response to an operation that is not constant was executed after the request for it arrived.", "quantifier": "all histories of concurrent requests, including dropped ones", "why_tests_cant": "Depends on the interleaving of requests.", "anchors": ["src/core/jit/graphql_executor.rs: JITExecutor::execute, dedupe_and_exec", "src/core/data_loader/dedupe.rs: Dedupe"]}
{"id": "C73", "title": "Shared executions keep their cache policy", "statement": "The Cache-Control of a response that was answered by sharing the execution of another request reflects the upstream responses its data came from.", "quantifier": "all upstream responses and all requests that share an execution", "why_tests_cant": "Needs two overlapping requests and the upstream policies.", "anchors": ["src/core/jit/graphql_executor.rs: JITExecutor::dedupe_and_exec", "src/core/http/request_context.rs: RequestContext::set_min_max_age", "src/core/app_context.rs"]}
{"id": "C74", "title": "Only configured upstream response headers reach the client", "statement": "An upstream response changes no header of the response to the client other than those the operator listed as experimental headers (all starting with x-) and Set-Cookie when cookies are enabled; headers the operator configured are always sent with their values.", "quantifier": "all upstream responses in all orders, all configurations", "why_tests_cant": "Depends on which upstream responses arrive and in which order.", "anchors": ["src/core/http/request_handler.rs: update_response_headers", "src/core/http/request_context.rs: add_x_headers, extend_x_headers", "src/core/blueprint/server.rs: validate_experimental_headers"]}
{"id": "C75", "title": "Every upstream cookie reaches the client", "statement": "With cookies enabled, every Set-Cookie header of every upstream response is sent to the client as its own Set-Cookie header.", "quantifier": "all sequences of upstream responses", "why_tests_cant": "Needs several upstream responses with cookies.", "anchors": ["src/core/http/request_context.rs: set_cookie_headers", "src/core/http/request_handler.rs: update_response_headers"]}
{"id": "C76", "title": "A batch is answered by a JSON array of its answers", "statement": "The body of the response to a batch is a JSON array that has one element for each member, in order, and each element is the body that the member would have on its own.", "quantifier": "all batches and all member bodies", "why_tests_cant": "All lengths and contents, including brackets and quotes in strings.", "anchors": ["src/core/async_graphql_hyper.rs: GraphQLArcResponse::default_body", "src/core/jit/response.rs"]}
{"id": "C77", "title": "A raw document is executed as it was sent", "statement": "The body of a request with content type application/graphql is executed as that document.", "quantifier": "all documents", "why_tests_cant": "Every character of the document has to survive two encodings.", "anchors": ["src/core/http/request_handler.rs: graphql_request, create_request_context"]}
{"id": "C78", "title": "Constant resolvers have the type of their field", "statement": "A configuration whose @expr constant is a value of the field's GraphQL type is accepted, one whose constant is not is refused with an error at every wrong place, and the check always ends.", "quantifier": "all configurations and all constants", "why_tests_cant": "All nestings of types and constants, including recursive types.", "anchors": ["src/core/blueprint/operators/expr.rs: compile_expr, validate_data_with_schema", "src/core/blueprint/from_config.rs: to_json_schema", "src/core/json/json_schema.rs: JsonSchema::validate, from_scalar_type"]}
{"id": "C79", "title": "gRPC operations fit their field", "statement": "If the output message of an @grpc operation is accepted for a field, every response of the operation is a value of the field's GraphQL type, and the check always ends.", "quantifier": "all message descriptors, all configurations and all responses", "why_tests_cant": "All messages and all responses.", "anchors": ["src/core/blueprint/operators/grpc.rs: validate_schema", "src/core/json/json_schema.rs: TryFrom<&MessageDescriptor>, TryFrom<&FieldDescriptor>, is_a", "src/core/grpc/protobuf.rs: ProtobufOperation::convert_output"]}
{"id": "C80", "title": "GraphQL upstreams are asked for exactly the selected fields", "statement": "For a field answered by a GraphQL upstream, the request asks that upstream for exactly the selected sub-fields whose values come from the field's own value: under the name the upstream knows, with the client's arguments and directives, below the type conditions of the client's fragments when the type is an interface or a union, with __typename for such types, recursively; fields with a resolver of their own are not asked for. The request body is JSON holding the configured operation with this selection.", "quantifier": "For every selection of a client, every type structure, every order in which the fragments are iterated and all values of variables.", "why_tests_cant": "The text of the selection is put together from fields, escapes, fragments and templates at planning time and rendered again at request time; tests compare it with a few snapshots.", "anchors": ["src/core/jit/transform/graphql.rs:24-159", "src/core/document.rs:315-332", "src/core/graphql/request_template.rs:113-165", "src/core/jit/transform/input_resolver.rs:94-110"]}
{"id": "C81", "title": "Every GraphQL call carries the selection of its field", "statement": "Every call to a GraphQL upstream that the resolver of a selected field makes, at any depth of the query and anywhere in the resolver, is sent with the selection of exactly this field; no other call gets one.", "quantifier": "For every plan, every resolver expression and every field.", "why_tests_cant": "Resolver expressions nest and the plan is walked recursively; a missed constructor only shows up for a particular combination of directives.", "anchors": ["src/core/jit/transform/graphql.rs:24-44", "src/core/ir/model.rs:135-154", "src/core/blueprint/operators/graphql.rs:12-54", "src/core/ir/eval_context.rs:120-187"]}
{"id": "C82", "title": "Accepted URLs are complete", "statement": "If a configuration is accepted, every expression in the URL of a request template has a value whenever the parent's data and the arguments agree with the schema, so no URL is sent with a hole; a value that may be null or is a list is refused at startup.", "quantifier": "Every accepted configuration, every resolver of a field, every URL expression, every parent value and arguments that agree with the schema.", "why_tests_cant": "The check walks types while the template walks data at run time; a test fixes one type and one value, not all pairs that agree.", "anchors": ["src/core/blueprint/mustache.rs:20-196", "src/core/path.rs:68-115", "src/core/blueprint/operators/resolver.rs:58-89"]}
{"id": "C83", "title": "Query parameters send scalars", "statement": "If an accepted `@http` query parameter uses an argument, the value that is sent is a scalar or a list of scalars, never an object; a path into an argument exists in its input type.", "quantifier": "Every accepted configuration, every query parameter, every path into an argument and every argument value that agrees with its type.", "why_tests_cant": "Input types nest without bound and the check follows the path by type names only.", "anchors": ["src/core/blueprint/template_validation/mod.rs:11-59", "src/core/blueprint/operators/http.rs:30-36"]}
{"id": "C84", "title": "A call runs the fields it names", "statement": "A field with `@call` behaves as running the fields its steps name, in order: the arguments of a step are filled in with the result of the step before as arguments, the first failure ends the call, and the result is that of the last step; the configuration is accepted exactly when the named fields exist, have resolvers and get the arguments that have no default; defaults are filled in.", "quantifier": "Every configuration, every nesting of calls, every number of steps, every request context and upstream behaviour.", "why_tests_cant": "Calls nest and chain without bound, and what a step sees depends on every step before it.", "anchors": ["src/core/blueprint/operators/call.rs:9-131", "src/core/blueprint/operators/resolver.rs:17-89", "src/core/ir/eval.rs:19-174"]}
{"id": "C85", "title": "Reading calls ends", "statement": "Every configuration with `@call` is accepted or refused with an error; reading it always ends.", "quantifier": "Every configuration.", "why_tests_cant": "Whether reading ends depends on the graph of calls of the whole configuration.", "anchors": ["src/core/blueprint/operators/call.rs:9-94", "src/core/blueprint/definitions.rs:537-558"]}
{"id": "C86", "title": "Calling a protected field needs its permission", "statement": "A request that may not have a protected field gets no value from any field that calls it, and nothing is sent upstream if it is the first step.", "quantifier": "Every configuration, every call with a step to a protected field at any position, every request without permission.", "why_tests_cant": "Protection is added when fields are compiled and must survive being wrapped into chains of any length.", "anchors": ["src/core/blueprint/operators/call.rs:9-94", "src/core/blueprint/operators/protected.rs:8-90", "src/core/ir/eval.rs:19-174"]}
{"id": "C87", "title": "Generated types fit the sample", "statement": "The types generated from a sample response describe it: the sample, and every value in it, fits the type it got; the types of earlier samples stay as they are; the fields of the new types have names GraphQL allows; and an array of objects gets a type of its own.", "quantifier": "Every sample JSON value of any depth and size, every set of types generated before.", "why_tests_cant": "Types of items are merged over arrays of any length and nested to any depth, so samples in tests show only a few of the combinations.", "anchors": ["src/core/generator/json/types_generator.rs:15-183", "src/core/generator/json/operation_generator.rs:14-76", "src/core/helpers/gql_type.rs:21-45"]}
{"id": "C88", "title": "Generated arguments fit the sample body", "statement": "The argument generated for the body of a sample request of a mutation has a type the body fits.", "quantifier": "Every sample request body of any depth and size.", "why_tests_cant": "Bodies have any shape, and the types of the response are generated before with the same counter.", "anchors": ["src/core/generator/json/operation_generator.rs:14-76", "src/core/generator/json/types_generator.rs:104-183"]}
{"id": "C89", "title": "Configurations survive being written as documents", "statement": "Writing a configuration as a schema document and reading the document gives the same configuration: server, upstream, types with their fields, arguments, defaults, resolvers and directives, unions, enums, links and telemetry.", "quantifier": "Every configuration.", "why_tests_cant": "A configuration combines some thirty optional parts of definitions, and each is written and read by different code.", "anchors": ["src/core/config/into_document.rs:15-253", "src/core/config/from_document.rs:22-449", "tailcall-macros/src/resolver.rs:56-106"]}
{"id": "C90", "title": "The arguments of directives survive and are checked", "statement": "Every directive that is written is read with the same arguments, in whatever order they are; an argument that the directive does not have is refused.", "quantifier": "Every value of every argument of the directives of fields, types, enums and schemas, every order of arguments.", "why_tests_cant": "The conversions are derived from some twenty structs with over a hundred fields, each with its own rule for being left out and its own default.", "anchors": ["src/core/directive.rs:12-86", "src/core/config/directives/http.rs:10-111", "src/core/config/directives/server.rs:13-179", "src/core/config/directives/upstream.rs:12-150"]}
{"id": "C91", "title": "Documents are read completely", "statement": "Everything that a schema document says is in the configuration that is read from it, and nothing else: every definition, field, argument, default, directive and setting, or else the document is refused.", "quantifier": "Every document, with any number of definitions in any order.", "why_tests_cant": "What is lost depends on how definitions, extensions and repeated directives are combined.", "anchors": ["src/core/config/from_document.rs:22-449", "src/core/config/directive.rs:12-46"]}
{"id": "C92", "title": "The N + 1 report names real chains of fields and is silent only when there is none", "statement": "Looking for N + 1 calls ends on every configuration, cyclic or not; each reported path is a chain of declared fields from the query type (or from an entity) with a list on the way that ends with a field whose resolver makes a call for each object; the first such field of every chain ends some reported path; nothing is reported exactly when there is no such chain; the report prints one line for each path, different lines for different paths, and their number.", "quantifier": "Every configuration, with any graph of types and any set of resolvers.", "why_tests_cant": "The search caches what it finds for a type while other types are still being searched; whether something is lost depends on the cycles of the whole graph.", "anchors": ["src/core/config/npo/tracker.rs:14-212", "src/core/config/resolver.rs:44-74", "src/cli/fmt.rs:24-35"]}
{"id": "C93", "title": "A silent N + 1 report means no operation makes a call for each element", "statement": "If nothing is reported, no operation makes an upstream call for each object of a list; every chain of fields that does is listed; and only fields that call an upstream are listed.", "quantifier": "Every configuration and every operation against it.", "why_tests_cant": "Operations go through unions, interfaces, mutations and cycles of any length.", "anchors": ["src/core/config/npo/tracker.rs:135-207", "src/core/config/config.rs:434-436"]}
{"id": "C94", "title": "Dropping unused definitions drops nothing that is used", "statement": "The last step of building a blueprint keeps each definition that operations can need (by fields, arguments, interfaces, objects of interfaces, members of unions, fields of inputs), leaves no definition that names a dropped one, keeps only what is needed, keeps the order, and is idempotent.", "quantifier": "Every blueprint, with any graph of definitions.", "why_tests_cant": "What is needed is a property of the whole graph; tests fix small graphs.", "anchors": ["src/core/blueprint/compress.rs:7-108", "src/core/blueprint/from_config.rs:46-57"]}
{"id": "C95", "title": "Replacing unions in arguments accepts the same values", "statement": "A field whose arguments have unions inside is replaced by several fields, one for each choice of members. The replacement ends on every configuration, also with recursive types; keeps every type and union; each new field is an old one with the marks of choices after its name, the same type, settings and argument names, and accepts only values that the old one accepted; any values that the old one accepted are accepted by one of the new ones; a field without unions in its arguments is not changed.", "quantifier": "Every configuration, every field and all values of its arguments.", "why_tests_cant": "The fields and the copies of types are products over all nested unions; which copies there are depends on the graph of types and the order of the visit.", "anchors": ["src/core/config/transformer/union_input_type.rs:28-279", "src/core/config/transformer/required.rs:13-21"]}
{"id": "C96", "title": "No argument has a union inside after the replacement", "statement": "After the replacement of unions, no argument of any field of the configuration has a type with a union inside, directly or through fields of input types.", "quantifier": "Every configuration.", "why_tests_cant": "Unions can be nested at any depth and types can be recursive.", "anchors": ["src/core/config/transformer/union_input_type.rs:107-178"]}
{"id": "C97", "title": "The key of an entity names what its resolver reads", "statement": "With federation switched on, the key declared for a type with a resolver names every path of the representation that the resolver reads, nothing but these paths and the fields on the way to them, and no path twice. A resolver that needs arguments of a field is refused. The paths in the URL and the parameters of an http resolver go through existing fields.", "quantifier": "Every resolver of any kind with any templates, every set of types.", "why_tests_cant": "The key is collected from templates at any depth of bodies and argument values, merged as trees and printed as a text that the gateway reads again.", "anchors": ["src/core/config/transformer/subgraph.rs:163-427"]}
{"id": "C98", "title": "The fields of the key are enough to answer for an entity", "statement": "Two representations with the same values at the leaves of the key make the resolver of the entity ask for the same: the same URL, parameters, headers, bodies and arguments. Without a key the representation makes no difference.", "quantifier": "Every resolver, any two representations, every context.", "why_tests_cant": "The property relates two runs and the text of the key, which other systems read; it needs all templates of the resolver at once.", "anchors": ["src/core/config/transformer/subgraph.rs:276-427", "src/core/http/request_template.rs:45-175", "src/core/path.rs:68-127"]}
{"id": "C99", "title": "A subgraph offers its entities and keeps the rest", "statement": "With federation switched on a configuration is accepted exactly if every type has at most one resolver that can work on a representation. The query type gets _service and, if there are entities, _entities with the resolver of each; _Entity has exactly the entities as members; every other type, field, union and directive stays as it was, but for the key of each entity. A second run changes nothing. Switched off, nothing changes.", "quantifier": "Every configuration.", "why_tests_cant": "The transformation touches types, unions, the query type and directives at once; that nothing else changes and that a second run is without effect is about all configurations.", "anchors": ["src/core/config/transformer/subgraph.rs:36-160"]}
{"id": "C100", "title": "Merging similar types keeps every type, field and reference", "statement": "When similar types of a generated configuration are merged, every type has one place in the result with all its fields, nothing else comes in, types that are not merged stay as they are, and every reference (of fields, arguments, unions, interfaces) goes to the new place. Merging ends, leaves no two types with the same fields that are used in the same way, does nothing when repeated, and merges only types that are both inputs, both outputs, both members of unions or both interfaces. The operations are not merged away.", "quantifier": "Every configuration, every threshold.", "why_tests_cant": "Similarity is found recursively with a store and a list of visited pairs, and merging is repeated until nothing changes, so what happens depends on the whole graph of types.", "anchors": ["src/core/config/transformer/merge_types/type_merger.rs", "src/core/config/transformer/merge_types/similarity.rs:29-122", "src/core/config/transformer/merge_types/mergeable_types.rs", "src/core/config/transformer/merge_types/pair_map.rs:17-24"]}
{"id": "C101", "title": "What could be asked for before merging can be asked for afterwards", "statement": "With the threshold one the same paths of fields can be asked for from every type after merging as before, leading to the same types or to JSON in the place of scalars, with the same lists, null where null was allowed and resolved in the same way. Inputs, members of unions and interfaces are merged only if they are alike, whatever the threshold.", "quantifier": "Every configuration, every path of fields.", "why_tests_cant": "A counterexample needs cycles or stored comparisons; sample configurations that are merged correctly say nothing about paths through other graphs.", "anchors": ["src/core/config/transformer/merge_types/similarity.rs:29-122", "src/core/config/transformer/merge_types/type_merger.rs", "src/core/config/transformer/merge_types/mergeable_types.rs:77-94"]}
{"id": "C102", "title": "A field of the query is flattened exactly when there is one way down", "statement": "A field of the query type is replaced by an added field exactly when from its type on every type has exactly one field, down to a scalar or an enum, and the added field has the path of the names along this way. The search ends also if types lead back to themselves.", "quantifier": "Every configuration, every field.", "why_tests_cant": "Types may be recursive and chains arbitrarily long.", "anchors": ["src/core/config/transformer/flatten_single_field.rs:15-86"]}
{"id": "C103", "title": "Types get the names their fields use most, each another", "statement": "A type is renamed after the fields that have it: the name that is used most often, among those that are neither names of types nor given to another type; ties are decided in favour of fields outside of the operations. The new names are distinct, a type keeps its name only if all candidates are taken, and every type, field and reference is kept under the new name; scalars stay scalars.", "quantifier": "Every configuration, any functions for singular forms and case.", "why_tests_cant": "The result depends on all fields of all types and on names given before.", "anchors": ["src/core/config/transformer/improve_type_names.rs:26-136"]}
{"id": "C104", "title": "An added field is accepted when its path exists, and has the type at its end", "statement": "A field added by @addField is accepted exactly when its path leads from the type (or from what the resolver of the first field gives) through fields without resolvers to an existing field, and has the type at the end of the path, made nullable.", "quantifier": "Every configuration, every added field, every path.", "why_tests_cant": "Paths are followed by a recursion that looks for names in several types, drops lists at indices and wraps types again; which of these applies depends on the whole path and on names of other types.", "anchors": ["src/core/blueprint/definitions.rs:101-242", "src/core/blueprint/definitions.rs:308-335", "src/core/blueprint/definitions.rs:455-525"]}
{"id": "C105", "title": "An added field has the value at its path", "statement": "The value of an added field is what is found at its path in the data of the object, or in what the resolver of the first field gives, null if there is nothing, and is a value of the type of the added field. If the resolver fails the added field fails.", "quantifier": "Every configuration, every data, every state of the request.", "why_tests_cant": "Values of all shapes may be there, and the operators of the first field (names, guards, enums, discriminators, empty objects) change what the path is applied to.", "anchors": ["src/core/blueprint/definitions.rs:315-335", "src/core/blueprint/definitions.rs:537-558", "src/core/ir/eval.rs"]}
{"id": "C106", "title": "A schema is accepted only if every field of the operations leads to resolvers", "statement": "The query and the mutation type are accepted exactly if they exist and every field that can be asked for without passing a resolver has a resolver or a type of the configuration; and a field whose type leads to resolvers only is given an empty object so that they can run.", "quantifier": "Every configuration, types may be recursive.", "why_tests_cant": "The check shares a set of visited types between all branches, so its result for recursive types is not seen from any single type.", "anchors": ["src/core/blueprint/schema.rs:10-80", "src/core/blueprint/definitions.rs:343-363"]}
{"id": "C107", "title": "Added fields do not open what is protected", "statement": "A request that may not see the fields along the path of an added field gets an error instead of the value.", "quantifier": "Every configuration, every path, every request.", "why_tests_cant": "Protection may come from the field, its type or the type that has it, at any place of the path.", "anchors": ["src/core/blueprint/definitions.rs:455-558", "src/core/blueprint/operators/protected.rs:8-90"]}
{"id": "C108", "title": "Every protobuf definition has its own name, and references lead to it", "statement": "Every message and every enum of the protobuf files, nested or not, is defined in the generated configuration under a name that belongs to it alone, and a reference to it by its full name gives that name.", "quantifier": "Every set of protobuf files, any nesting of messages and packages.", "why_tests_cant": "The name is built in one place from a stack of namespaces and in another one from the text of the reference; that the two agree for every nesting, and that no two names meet, is about all pairs of definitions.", "anchors": ["src/core/generator/graphql_type.rs:35-175", "src/core/generator/from_proto.rs:161-215", "src/core/generator/from_proto.rs:217-320", "src/core/generator/from_proto.rs:400-412"]}
{"id": "C109", "title": "Fields of messages become fields of their types", "statement": "The type of a message has one field for each field of the message, with the scalar that has all its values, the type of the message or enum it refers to, a list if it is repeated, required if it is required, or JSON if it is a map; every name in it is defined.", "quantifier": "Every set of protobuf files, every message and every field.", "why_tests_cant": "Maps are recognised by a set filled while nested messages are visited; a definition anywhere in the files may change the type of a field.", "anchors": ["src/core/generator/from_proto.rs:217-320", "src/core/generator/from_proto.rs:415-434"]}
{"id": "C110", "title": "Oneofs become unions of their choices", "statement": "A message with oneofs becomes a union whose members are, one for one, the choices of at most one field of each oneof; a member has the fields outside of oneofs, those that are alone in their oneof, and the chosen ones as required fields, and implements an interface with the fields outside.", "quantifier": "Every message with any number of oneofs of any size.", "why_tests_cant": "The members are built by a recursion over the oneofs; their number is the product of the sizes, and their names must not meet.", "anchors": ["src/core/generator/from_proto.rs:65-158"]}
{"id": "C111", "title": "Methods of services become fields of the query that call them", "statement": "Every method of every service is a field of the query: its argument has the type of the input and is the body of the request, its type is that of the output, and the call goes to the package, service and method it was made from, over gRPC or Connect.", "quantifier": "Every set of protobuf files with services, every method.", "why_tests_cant": "The name of the method is put together from package, service and name, and taken apart again by another module.", "anchors": ["src/core/generator/from_proto.rs:322-396", "src/core/blueprint/operators/grpc.rs:161-180", "src/core/generator/proto/connect_rpc.rs:50-93"]}
{"id": "C112", "title": "Comments stay with what they are about", "statement": "The comment of a message, a field, an enum or a method in a protobuf file is the documentation of what is generated for it, and nothing else gets it.", "quantifier": "Every set of protobuf files, any nesting.", "why_tests_cant": "Comments are found by paths of numbers that are counted while descending; a wrong count shifts comments to neighbours only in files with several definitions.", "anchors": ["src/core/generator/proto/comments_builder.rs:12-28", "src/core/generator/proto/path_builder.rs", "src/core/generator/from_proto.rs:161-396"]}
{"id": "C113", "title": "A request hook that returns its argument sends the same request", "statement": "If the function of onRequest returns the request it is given, the upstream is sent a request with the same method, URL, headers and body as without the hook, and the value of the field is the same.", "quantifier": "Every request, every upstream, every state of the script.", "why_tests_cant": "The request is turned into an object of JavaScript and back through maps, a decoded query and a printed URL; which requests survive that is about all URLs, headers and bodies.", "anchors": ["src/cli/javascript/codec.rs:39-103", "src/cli/javascript/codec.rs:137-164", "src/core/worker/worker.rs:122-212"]}
{"id": "C114", "title": "The answer of a request hook is obeyed", "statement": "If the function of onRequest answers with a request, exactly that request is sent; if it answers with a response, nothing is sent and the body of the response is the value; if it cannot be asked or answers with something else, the field is an error and nothing is sent.", "quantifier": "Every script, every state of it, every request and every answer.", "why_tests_cant": "The script is any program with a state; what is sent for each of its answers, including redirects that start again, cannot be seen from samples.", "anchors": ["src/core/ir/eval_http.rs:102-144", "src/cli/javascript/runtime.rs:144-181", "src/cli/javascript/codec.rs:11-37", "src/core/worker_hooks.rs:30-43"]}
{"id": "C115", "title": "The response hook is run exactly once, on the final answer", "statement": "If there is an answer, from the upstream or from the script, the function of onResponse is called once with the text of its body, and its result is the value; errors are passed on without a call.", "quantifier": "Every script, every request hook, every answer.", "why_tests_cant": "Calls have effects on the state of the script, and one evaluation may go through several requests.", "anchors": ["src/core/ir/eval_http.rs:102-144", "src/core/worker_hooks.rs:47-62", "src/cli/javascript/runtime.rs:105-126"]}
{"id": "C116", "title": "A script is evaluated once in each of its two workers, which are separate", "statement": "Once a worker has evaluated the script it does not do so again, and all later calls see the state that earlier ones left; what is sent does not depend on the state of the worker for responses.", "quantifier": "Every script, every sequence of calls, also through redirects.", "why_tests_cant": "This is about the state after any number of requests.", "anchors": ["src/cli/javascript/runtime.rs:60-126", "src/cli/javascript/runtime.rs:129-142", "src/core/ir/eval_io.rs:43-118"]}
{"id": "C117", "title": "A field gets what its own hooks make of its own request", "statement": "The value of a field with @http is what the hooks of this field make of the request of this field, also if requests are deduplicated.", "quantifier": "Every pair of fields, every script, every state of the cache.", "why_tests_cant": "Results are shared by keys that are made from some parts of the fields only; it takes two fields that differ in another part.", "anchors": ["src/core/ir/eval_io.rs:17-41", "src/core/ir/model.rs:46-53", "src/core/ir/model.rs:211-220"]}
{"id": "C118", "title": "The request generated from a sample can be the sample again", "statement": "For the @http directive that `gen` makes from the URL of a sample, there are values of the declared types of its arguments for which the request is the sample: same host, path and fragment, same values of every parameter in the same order.", "quantifier": "Every sample URL, every spelling of names.", "why_tests_cant": "Parts of the path and values become arguments by expressions, the URL is decoded and later read as a template; whether something is left out or changed is about all URLs.", "anchors": ["src/core/generator/json/http_directive_generator.rs:27-52", "src/core/generator/json/http_directive_generator.rs:63-135", "src/core/helpers/gql_type.rs:4-19"]}
{"id": "C119", "title": "Generated arguments are exactly those that are used, with types that hold the sample", "statement": "Every placeholder of the generated URL and query is a declared argument and every declared argument has a placeholder; an argument is an Int exactly if the value in the sample is a number that Int can hold.", "quantifier": "Every sample URL.", "why_tests_cant": "Names and numbers of arguments depend on all parts and parameters together, and types on the text of any value.", "anchors": ["src/core/generator/json/http_directive_generator.rs:63-135", "src/core/helpers/gql_type.rs:4-19"]}
{"id": "C120", "title": "Reading a proto file gives it and exactly what it imports", "statement": "For a proto file, what is read is the file and exactly the files that it imports, directly or through others, each once; reading ends for every set of files, and fails if and only if one of these files cannot be read or the file has no package. The same holds for the files of the services of a server with reflection.", "quantifier": "Every set of files and every graph of imports among them.", "why_tests_cant": "Imports form any graph, with files reached on several ways and cycles; tests read a few trees.", "anchors": ["src/core/proto_reader/reader.rs:35-64", "src/core/proto_reader/reader.rs:76-134"]}
{"id": "C121", "title": "An import is looked for in the proto paths in order, then beside the file", "statement": "An import of a proto file is the first file of its name in the directories of `protoPaths`, in their order, and then in the directory of the file that was asked for; absolute paths and URLs are read as they are, and well-known files are always there.", "quantifier": "Every name, every list of directories, every content of the disk and the web.", "why_tests_cant": "Which file is read depends on all the directories and on the text of the name.", "anchors": ["src/core/proto_reader/reader.rs:176-217"]}
{"id": "C122", "title": "Everything that is linked is there, and nothing else", "statement": "After a configuration has been read, the passwords, keys for tokens and certificates of all its links are there in order and under their ids, the script, key, operations and proto files are those of the links, linked configurations have been merged in order; if one link cannot be read, nothing is.", "quantifier": "Every list of links of every kind.", "why_tests_cant": "Links of nine kinds add to one state; that none replaces what another has added is about all lists of links.", "anchors": ["src/core/config/reader.rs:38-148", "src/core/config/config_module.rs:153-158", "src/core/blueprint/links.rs:12-60"]}
{"id": "C123", "title": "A configuration of several files says all that its files say", "statement": "What is read from several files are the types, settings, resources and scripts of all of them, with variables of the environment replaced by their values and all else kept.", "quantifier": "Every list of files and every text.", "why_tests_cant": "Any text can be among the files and any two files can say different things of one matter.", "anchors": ["src/core/config/reader.rs:187-228", "src/core/resource_reader.rs:24-29", "src/core/config/reader_context.rs:26-38", "src/core/config/config_module/merge.rs:204-321"]}
{"id": "C124", "title": "A gRPC call sends the configured message, and its value is the message of the answer", "statement": "The request for a gRPC call holds exactly one message, not compressed and with its length, which is what the configured body means for the type of the input; the value of the field is the JSON of the message in the answer, and an answer that is not one whole message is an error.", "quantifier": "Every type of message, every body and every answer.", "why_tests_cant": "Messages are trees of any shape and answers are bytes of any kind.", "anchors": ["src/core/grpc/protobuf.rs:16-40", "src/core/grpc/protobuf.rs:168-172", "src/core/grpc/protobuf.rs:213-233", "src/core/grpc/request_template.rs:111-117"]}
{"id": "C125", "title": "The status of a gRPC call decides whether the field has a value", "statement": "A call has a value exactly if its status, which the protocol has in the trailers or headers, says that it has succeeded; otherwise the field has an error with the code, the message and the details that the upstream has sent.", "quantifier": "Every answer, with every status, message and list of details.", "why_tests_cant": "The status can be in several places and in any form; tests mock the cases that work.", "anchors": ["src/core/grpc/request.rs:12-40", "src/core/http/response.rs:102-148", "src/core/ir/error.rs:75-91"]}
{"id": "C126", "title": "A batch of gRPC calls is one call, and each gets the entry of its key", "statement": "Calls of a method with a batch key are sent as one message that holds all of them in order, and each gets the entry of the answer that has its key, or null if there is none; there are as many answers as calls. Without a batch key each call is made and answered for itself.", "quantifier": "Every list of calls, every type of key, every answer.", "why_tests_cant": "Which entry a call gets depends on all entries and on the forms of keys on both sides.", "anchors": ["src/core/grpc/protobuf.rs:42-64", "src/core/grpc/protobuf.rs:174-211", "src/core/grpc/data_loader.rs:35-98"]}
{"id": "C127", "title": "The gRPC method that is named is the one that is called", "statement": "The text `package.service.method` names the method of that service: it is found if a proto file has it, and called under the address, the full name of the service and the name of the method.", "quantifier": "Every name, every set of services, every address.", "why_tests_cant": "Names have any number of parts, and addresses any number of slashes at their end.", "anchors": ["src/core/grpc/protobuf.rs:81-90", "src/core/blueprint/operators/grpc.rs:19-29", "src/core/blueprint/operators/grpc.rs:149-180"]}
{"id": "C128", "title": "A batch key is accepted if it leads to a list of what the field is", "statement": "The batch key of a gRPC field is accepted exactly if it leads, through the messages of the answer, to a list of messages that have the key and that are values of the type of the field.", "quantifier": "Every type, every message and every path.", "why_tests_cant": "Types and messages are nested in any way.", "anchors": ["src/core/blueprint/operators/grpc.rs:97-140"]}
{"id": "C129", "title": "Clients are told about the schema what is configured", "statement": "By introspection a client is told exactly what the definitions say: the types and their kinds, the fields with types and arguments, default values, interfaces, members, values and all descriptions; besides there are only the scalars that are used.", "quantifier": "Every list of definitions.", "why_tests_cant": "A schema has any number of definitions of six kinds; tests compare a few printed schemas.", "anchors": ["src/core/blueprint/into_schema.rs:53-193", "src/core/blueprint/into_schema.rs:195-247", "src/core/wrapping_type.rs:150-170"]}
{"id": "C130", "title": "A configuration is refused for a missing type exactly if it names one", "statement": "A configuration in which every named type is defined or a scalar of GraphQL or tailcall is not refused for a missing type, and one that names another type is.", "quantifier": "Every list of definitions.", "why_tests_cant": "Names can occur at any place of any definition.", "anchors": ["src/core/blueprint/into_schema.rs:211-247", "src/core/blueprint/from_config.rs:131-138"]}
{"id": "C131", "title": "Questions about the schema are answered beside the others, if that is enabled", "statement": "With introspection enabled the questions of an operation about the schema are answered beside its other fields, whose values, errors and order stay as they are; with introspection disabled no answer depends on the schema.", "quantifier": "Every operation, every answer of its fields and every answer about the schema.", "why_tests_cant": "Any selection and any answer can be combined.", "anchors": ["src/core/jit/builder.rs:366-373", "src/core/jit/exec_const.rs:57-58", "src/core/jit/exec_const.rs:101-108", "src/core/jit/response.rs:64-90"]}
{"id": "C132", "title": "The printed schema says what the document says", "statement": "Reading the text that is printed for a schema document gives the document back, with its definitions grouped by kind and otherwise in order.", "quantifier": "Every document and every segmentation of text into graphemes.", "why_tests_cant": "A document has any number of definitions of six kinds with nested types, values, directives and descriptions; tests compare a few printed schemas.", "anchors": ["src/core/document.rs:83-125", "src/core/document.rs:127-242", "src/core/document.rs:244-332", "src/core/document.rs:374-450"]}
{"id": "C133", "title": "Breaking a description into lines keeps its words", "statement": "A printed description is read as one with the same words in the same order, lines are cut nowhere else than after a white character, and a line passes the limit only to finish a word.", "quantifier": "Every description, limit, indentation and segmentation into graphemes.", "why_tests_cant": "Descriptions are any text; a wrong cut shows only at certain lengths.", "anchors": ["src/core/document.rs:24-62", "src/core/document.rs:64-81"]}
{"id": "C134", "title": "A configuration survives being written to a file", "statement": "A configuration that is written as SDL text and read from that text is the same configuration: the same settings, links, and the same types, unions and enums under each name.", "quantifier": "Every configuration, every set of input types and every segmentation of text into graphemes.", "why_tests_cant": "A configuration has any number of types, fields and directives; tests print and read a few.", "anchors": ["src/core/config/into_document.rs:15-203", "src/core/document.rs:374-418", "src/core/config/from_document.rs:30-62", "src/core/directive.rs:48-85"]}
{"id": "C135", "title": "Scalars of whole numbers accept exactly the numbers of their width", "statement": "A value passes for Int8, Int16, Int32, UInt8, UInt16 or UInt32 exactly if it is a whole number of that many bits, and for Int64, Int128, UInt64 or UInt128 exactly if it is the decimal text of one.", "quantifier": "Every value and every text.", "why_tests_cant": "There are infinitely many texts of numbers, with signs and leading zeros, around limits of 128 bits; tests try a few next to the limits.", "anchors": ["src/core/scalar.rs:78-104", "src/core/scalar.rs:117-145"]}
{"id": "C136", "title": "The value of a scalar field is of its type", "statement": "A value in a response passes for a field of a scalar type exactly if it is what the documentation of the scalar describes.", "quantifier": "Every scalar, every name of a type and every value.", "why_tests_cant": "Each of the scalars, built in, known or declared, meets every kind of value; tests try one or two values for each.", "anchors": ["src/core/scalar.rs:11-76", "src/core/scalar.rs:109-148", "src/core/jit/builder.rs:226-234", "src/core/jit/synth/synth.rs:155-168"]}
{"id": "C137", "title": "Every upstream call has a data loader of its own", "statement": "When the server starts, every HTTP, GraphQL and gRPC call in the resolvers gets the number of a data loader that was made for this call, no two calls get the same, and nothing else of the resolvers changes.", "quantifier": "Every list of definitions and every nesting of resolvers.", "why_tests_cant": "Resolvers nest without limit (pipes, merges, entities, caches, protection); tests use a few shapes.", "anchors": ["src/core/app_context.rs:36-150", "src/core/ir/model.rs:160-208"]}
{"id": "C138", "title": "Calls are combined exactly if batching is on", "statement": "With a batch delay of at least one, the calls of a query go through their data loaders; otherwise, and for mutations, each call is made for itself; batch keys are accepted only if batching is on; and no call panics.", "quantifier": "Every blueprint, all batch settings and every call.", "why_tests_cant": "The decision depends on the kind of call, the kind of operation, where the call is written and two settings; tests cover some combinations.", "anchors": ["src/core/ir/eval_io.rs:43-118", "src/core/ir/eval_http.rs:53-88", "src/core/blueprint/upstream.rs:34-43", "src/core/blueprint/from_config.rs:61-73", "src/core/blueprint/operators/http.rs:25-29"]}
{"id": "C139", "title": "A subgraph publishes its schema", "statement": "With federation on, the answer to _service { sdl } is a text that can be read and that says all about the schema that the server offers: every type with its fields, arguments, types, defaults, directives and descriptions, the names of the operations, and that it is a subgraph of Federation 2.", "quantifier": "Every blueprint and every accepted configuration.", "why_tests_cant": "Schemas are of any size with any nesting of types, values and directives; tests compare a few printed schemas with snapshots and do not read them back.", "anchors": ["src/core/blueprint/into_document.rs:15-151", "src/core/blueprint/operators/apollo_federation.rs:63-139", "src/core/blueprint/directive.rs:36-45", "src/core/document.rs:374-418"]}
{"id": "C140", "title": "Switching federation on keeps the rest of a schema", "statement": "A configuration that is accepted without federation is accepted with it if the resolvers of its entities can be compiled; only the resolvers of _service and _entities are added, _entities has the compiled resolver of every entity and no other, and all else stays as it is.", "quantifier": "Every blueprint, configuration and outcome of compiling resolvers.", "why_tests_cant": "The step meets every other feature that changes fields (renaming, omitting, adding); tests use federation without most of them.", "anchors": ["src/core/blueprint/operators/apollo_federation.rs:20-61", "src/core/blueprint/operators/apollo_federation.rs:77-139", "src/core/blueprint/operators/modify.rs:17-33", "src/core/blueprint/definitions.rs:429-533"]}
{"id": "C141", "title": "Requests and responses pass through Lambda and Cloudflare unchanged", "statement": "On AWS Lambda and on Cloudflare the server handles the request that the client sent (method, host, path, query, headers, body), and the client gets the response that the server made.", "quantifier": "Every request and every response.", "why_tests_cant": "Requests have any method, path, query and headers; tests convert one request and one response.", "anchors": ["tailcall-aws-lambda/src/http.rs:43-95", "tailcall-cloudflare/src/http.rs:53-97"]}
{"id": "C142", "title": "A worker serves the configuration that a request names", "statement": "On Cloudflare a request is served with the configuration that it names, as it is at that time and with all that it links to, whatever other requests are in flight.", "quantifier": "Every interleaving of requests and of the building of contexts, and every change of configurations.", "why_tests_cant": "Contexts are kept in a variable that all requests share, and requests interleave at every await; tests make one request at a time.", "anchors": ["tailcall-cloudflare/src/handle.rs:15-80", "src/core/http/showcase.rs:17-69"]}
{"id": "C143", "title": "The showcase reads nothing of the server's machine", "statement": "With the showcase on, a client of the server can have a configuration of the web served; nothing of the files and of the environment of the server becomes known by that.", "quantifier": "Every configuration, and every content of the disk and of the environment.", "why_tests_cant": "Absence of influence is about pairs of runs that differ in what the client must not see; tests do one run.", "anchors": ["src/core/http/showcase.rs:17-69", "src/core/http/request_handler.rs:306-318", "src/core/config/reader.rs:38-148"]}
{"id": "C144", "title": "Cached values on Cloudflare", "statement": "On Cloudflare the value of a field with @cache is what the call returned, for as long as maxAge says and no longer.", "quantifier": "Every value, key, age and moment.", "why_tests_cant": "Values are of any shape and size and the cache outlives requests; there are no tests of this cache.", "anchors": ["tailcall-cloudflare/src/cache.rs:29-66", "src/core/ir/eval.rs:47-66", "src/core/config/directives/cache.rs:23-27"]}
{"id": "C145", "title": "A report shows an error and all its causes", "statement": "The report of an error shows the message, the description and the place of the error and of every cause, at every depth, each cause on lines of its own and further in than what it caused.", "quantifier": "Every error with any tree of causes.", "why_tests_cant": "Errors nest to any depth and texts have any lines; tests show a few fixed errors.", "anchors": ["src/core/errata.rs:73-136"]}
{"id": "C146", "title": "Turning an error into a report loses nothing", "statement": "Whatever error ends the program or a request, its report says what the error said: all messages, descriptions, places and sources.", "quantifier": "Every error that is converted into a report.", "why_tests_cant": "Each kind of error has its own conversion; tests compare two of them.", "anchors": ["src/core/errata.rs:138-226", "src/core/ir/error.rs:40-106", "src/core/blueprint/error.rs:197-214"]}
{"id": "C147", "title": "The server runs with the settings of its configuration", "statement": "A server starts with exactly the settings that its configuration gives, and with the documented values for the others; settings that cannot be used are refused, and everything that is wrong with them is reported at once.", "quantifier": "Every configuration of the server, with any certificates, keys and scripts.", "why_tests_cant": "Some twenty settings interact in one conversion, and errors add up across them; tests convert a few configurations.", "anchors": ["src/core/blueprint/server.rs:83-240", "src/core/config/directives/server.rs:181-268", "src/core/config/headers.rs:43-50", "src/cli/server/http_server.rs:51-55"]}
{"id": "C148", "title": "Telemetry goes where the configuration says", "statement": "Telemetry that is accepted is exported to the place that is named, with the headers that are given, and never keeps the server from starting; telemetry that cannot be exported is refused with all its errors.", "quantifier": "Every configuration of telemetry.", "why_tests_cant": "References, URLs and headers are any texts; tests check five references.", "anchors": ["src/core/blueprint/telemetry.rs:33-107", "src/cli/server/server_config.rs:27-36"]}
{"id": "C149", "title": "A generated configuration links to what it was made from", "statement": "The configuration that the gen command writes links to the proto files it was made from, with their import paths, and to the files that the configurations it was made from link to; read from where it is written, each link leads to the same file, and paths in the file of the command are relative to that file.", "quantifier": "Every working directory, every file of the command with any inputs and output, any file system with or without symbolic links.", "why_tests_cant": "Relative paths between any two directories go through three libraries; tests run in one directory.", "anchors": ["src/cli/generator/config.rs:169-187", "src/cli/generator/config.rs:252-274", "src/cli/generator/generator.rs:138-147", "src/cli/generator/generator.rs:206-212", "src/core/generator/generator.rs:96-103", "src/core/config/reader.rs:253-262"]}
{"id": "C150", "title": "The gen command writes one file and asks first", "statement": "The gen command changes no file but its output, which it replaces as a whole, only when everything succeeded, and when it exists only after a yes; the question is asked only then, each request is sent once and in order, and requests are sent only when the result can be written.", "quantifier": "Every file of the command, every state of the files, the network and the terminal.", "why_tests_cant": "Whether something else is changed, in any state, is not something a test can show; the tests run without a terminal.", "anchors": ["src/cli/generator/generator.rs:35-72", "src/cli/generator/generator.rs:94-158", "src/cli/generator/generator.rs:161-196", "src/cli/generator/config.rs:122-159", "src/core/config/source.rs:63-69"]}
{"id": "C151", "title": "The init command keeps what is there", "statement": "The init command changes a file that is there only after a yes, adds to the settings in .graphqlrc.yml without losing any or adding anything twice, writes nothing else than its files, and ends quietly when its folder may not be created.", "quantifier": "Every state of the folder, every content of the files, every answer.", "why_tests_cant": "The command asks at a terminal and has no tests; the merge has any YAML on its left.", "anchors": ["src/cli/tc/init.rs:17-83", "src/cli/tc/init.rs:115-154", "src/cli/runtime/mod.rs:88-129", "src/core/merge_right.rs:131-176"]}
{"id": "C152", "title": "Use is reported only with consent", "statement": "Whoever has set a variable to false is not tracked and nobody looks for their addresses; development versions do not track by themselves; otherwise each collector gets each event at most once and in order, and addresses are looked for at most once.", "quantifier": "Every version, every value of the variables, every sequence of events, every state of the network.", "why_tests_cant": "Tests check four cases of one function; that nothing is sent in a whole run is about all runs.", "anchors": ["tailcall-tracker/src/can_track.rs:9-24", "tailcall-tracker/src/dispatch.rs:40-104", "src/cli/tc/run.rs:14-33", "tailcall-version/src/lib.rs:16-18"]}
{"id": "C153", "title": "Reflection asks what it should, and tells no more", "statement": "A link to a server with gRPC reflection asks exactly for the names at hand, at the endpoint of reflection of the server of the link, with the headers of the link filled from the environment and its own content type; nothing of the environment is in a request but for the templates of the link.", "quantifier": "Every link, every environment, every name that a server gives, every URL library that reads what it has printed.", "why_tests_cant": "Tests use one server and names that contain nothing to escape; that no secret is told is about all names that a server may choose.", "anchors": ["src/core/proto_reader/fetch.rs:100-180", "src/core/grpc/request_template.rs:60-118", "src/core/config/reader_context.rs:25-38"]}
{"id": "C154", "title": "Reflection gives what the server has", "statement": "What a server with reflection says about its services, symbols and files is what a link to it gives: each service but that of reflection with its file and exactly what that imports; an answer of another kind, an empty or short one, or one that cannot be decoded is an error.", "quantifier": "Every server, every answer, every set of services and files.", "why_tests_cant": "Tests have one server that sends one file per answer; servers may send several in any order.", "anchors": ["src/core/proto_reader/fetch.rs:54-63", "src/core/proto_reader/fetch.rs:100-129", "src/core/proto_reader/fetch.rs:174-192", "src/core/proto_reader/reader.rs:35-64", "src/core/grpc/protobuf.rs:213-233"]}
{"id": "C155", "title": "A configuration that passes check can be started", "statement": "The command check succeeds exactly for configurations that can be read, have a blueprint and have endpoints that fit; start serves exactly those, at a place that is able to run them, tells the same errors, and is the only one that launches a server.", "quantifier": "Every list of files, every configuration and blueprint, every place (threads, telemetry, address, certificate), every flag.", "why_tests_cant": "Tests run each command alone on a few files; that they agree is about all configurations and all places.", "anchors": ["src/cli/tc/check.rs:17-43", "src/cli/tc/start.rs:8-18", "src/cli/server/http_server.rs:34-60", "src/cli/server/server_config.rs:19-43"]}
{"id": "C156", "title": "Outdated files are told", "statement": "Before start and check, the user is warned of a file .tailcallrc.graphql or .tailcallrc.schema.json beside a configuration exactly if it is there and is not as the program would write it now, once for each.", "quantifier": "Every list of paths, every state of the disk, every content of the files of the program.", "why_tests_cant": "There are no tests for the warnings; that none is missed and none is too much is about all states of the disk.", "anchors": ["src/cli/tc/validate_rc.rs:6-49", "src/cli/tc/run.rs:43-57"]}
