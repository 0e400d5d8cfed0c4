# Formal model of tailcall: design and trusted base

The subject is the Rust source of tailcallhq/tailcall as found in `/repo`.
The model is written in Lean 4 (4.33.0, without Mathlib imports) under `lean/Verif/`.
It is a hand transcription of selected Rust functions into total Lean functions
(or, for concurrent code, into transition systems whose steps are the atomic
sections of the Rust code).

Contents: layout, conventions, trusted base, modelled code per area, places where the code and
the property disagree, axioms of every theorem.

## Layout

* `Verif/<Area>/Model.lean`  definitions, each citing the Rust file and lines it models.
* `Verif/<Area>/Lemmas.lean` helper lemmas (only when they are long).
* `Verif/<Area>/Props.lean` and sibling files: independent specification, property theorems
  `Cnn_...`, and concrete `example`s that meet the hypotheses of the theorems.

The properties are in `properties.jsonl`; `MANIFEST.json` names the theorems for each.  `seeded/LOG.jsonl`
records the wrong programs the theorems were tested with.

## Conventions

* Hash values. The Rust code keys caches by 64-bit hashes of a stream of
  values.  The model uses the hashed stream itself as the key.  So theorems are about what
  is *fed* to the hasher; accidental 64-bit collisions are outside of the model.
* Panics (`unwrap`, slice indexing) are explicit error results when they can be reached.
* Functions that need not terminate count their depth or their steps; `none` means "not finished".
  Theorems about results hold for every count for which there is a result, and termination is a
  theorem of its own.
* Maps: `HashMap`/`BTreeMap`/`IndexMap` are association lists with explicit
  insert/lookup functions, or functions `key -> Option value` where order is irrelevant.  Where the order of a
  hash map matters the theorems quantify over all orders.
* Strings are lists of characters; GraphQL and JSON values are one inductive type (`GVal`).
* Where the code violates a property, the violation is proved with a concrete
  witness (`..._violated_by_...`) and the strongest true
  statement is kept with the suffix `_partial` when it has restrictions.
* The external crate `tailcall_valid` is not part of the repo.  Its `Valid` type is
  modelled as `Except (List Cause)` with `zip/fuse/and` accumulating errors on both sides,
  `and_then` short-circuiting and `fold` accumulating.  This is an assumption.

## Trusted base

* The Lean 4.33.0 kernel, and `lake`/`lean` for elaborating the statements that are read by people.
* The axioms `propext`, `Classical.choice` and `Quot.sound` of Lean's core library.  No other axioms,
  no `sorry`, no `native_decide`, no `bv_decide`.  The last section lists the axioms for each of the 939
  theorems named in `MANIFEST.json`.
* The transcription: that the definitions in `Model.lean` say what the cited Rust lines do.  This is checked by
  reading only.  Every definition names its lines and its simplifications.
* The specifications: that the relations and predicates in the theorem statements mean what `properties.jsonl` says.
* Behaviour assumed of code outside of the repository, stated in the comments of the definitions that use it:
  tokio (a task runs undisturbed between two awaits; broadcast and oneshot channels; mutexes), `ttl_cache`, `url` and
  `form_urlencoded` (which characters are encoded and decoded), `nom` on complete input, `serde_json` printing,
  `http`/`headers` (header names compare without case), `async-graphql` values and printing, `jsonwebtoken` and
  `htpasswd-verify` (oracles), `prost-reflect` (JSON mapping of messages), `tailcall_valid`.

Out of scope everywhere: timing (how long a delay is), throughput, memory, collisions of 64-bit hashes, the network,
telemetry, JavaScript workers, the command line and the code generators.

## Modelled code per area

Line numbers are those of the files in `/repo` (paths may be shortened to the last components).

### Dedupe (C01, C02, C03, C04, C05)

Request deduplication as a transition system over concurrent tasks; theorems hold for all histories.

Modelled lines:

* `data_loader/dedupe.rs` 54-114
* `dedupe.rs` 16-23, 26-33, 50-52, 54-87, 89-114

Not modelled: the broadcast channel's capacity (one message is sent), `Weak`/`Arc` beyond whether a strong reference exists.

### DataLoader (C06, C07, C08, C09, C10)

The generic batching loader as a transition system.

Modelled lines:

* `cache.rs` 11-110
* `data_loader/data_loader.rs` 97-362

Not modelled: the LRU storage (`LruCache`), the timer's length, `Factory` tuning.

### Mustache (C11, C12, C13, C57)

Parser, printer and evaluators of templates.

Modelled lines:

* `eval.rs` 126
* `mustache/eval.rs` 26-43, 50-62
* `mustache/model.rs` 4, 6-10, 19-30, 58-72
* `mustache/parse.rs` 12-18, 21-35, 37-49, 51-70, 72-79
* `path.rs` 14-16

Not modelled: the inner syntax of JQ; tracing.

### HttpUrl (C14, C15)

Construction of upstream URLs and query encoding.

Modelled lines:

* `http/query_encoder.rs` 35, 51, 62-70
* `http/request_template.rs` 45-89
* `path.rs` 21-65, 108-115
* `query_encoder.rs` 5-12, 15-59, 62-70
* `request_template.rs` 23-33, 35-40, 45-89, 291-306

Not modelled: URL parsing errors other than the rules stated in the definitions; international host names.

### HttpKey (C16, C17, C18, C19, C58, C61, C62)

Rendered requests, cache keys and request equality for HTTP, GraphQL and gRPC.

Modelled lines:

* `graphql/request_template.rs` 50-59, 61-111, 113-163, 195-202
* `grpc/data_loader_request.rs` 9-27
* `grpc/request_template.rs` 20-27, 45-51, 53-58, 60-107, 120-127
* `http/data_loader_request.rs` 7-13, 39-55
* `http/request_template.rs` 101-110, 114-187, 254-280, 316-351
* `ir/eval_context.rs` 110-124
* `ir/eval_http.rs` 72-75
* `ir/eval_io.rs` 17-59, 78-93
* `mustache/eval.rs` 112-121, 130
* `path.rs` 117-128

Not modelled: protobuf encoding of messages (an oracle), mTLS, `reqwest` itself.

### HttpBatch (C20, C21, C22, C23, C59, C60, C63)

Splitting and merging of batched upstream calls.

Modelled lines:

* `config/group_by.rs` 7-12, 19-39
* `data_loader/data_loader.rs` 352
* `graphql/data_loader.rs` 40-63, 66-80, 82-91, 94-117
* `grpc/data_loader.rs` 61-98
* `grpc/data_loader_request.rs` 29-40
* `grpc/protobuf.rs` 192-201
* `http/data_loader.rs` 20-36, 61-164
* `http/data_loader_request.rs` 57-68
* `http/response.rs` 15-19
* `http/transformations/body_batching.rs` 29-68
* `http/transformations/query_batching.rs` 23-43
* `ir/eval_http.rs` 168-173
* `json/mod.rs` 16-36, 38-58

Not modelled: sorting done only with debug assertions; the HTTP client.

### Merge (C24)

Merging of configuration files.

Modelled lines:

* `config.rs` 228-233
* `macros/src/merge_right.rs` 64-75, 141-148
* `src/core/config/config.rs` 65-102, 107-133, 169-175, 228-233, 287-298
* `src/core/config/config_module.rs` 130-151, 169-175
* `src/core/config/cors.rs` 8-62
* `src/core/config/directives/protected.rs` 26
* `src/core/config/directives/server.rs` 22, 30-127, 129-135, 161-164, 166-170
* `src/core/config/directives/telemetry.rs` 88-96, 100-110
* `src/core/config/directives/upstream.rs` 12-30, 32-35, 47, 57-150, 184-186, 188-192, 201-203
* `src/core/config/headers.rs` 10-39
* `src/core/config/key_values.rs` 24-27, 33-47
* `src/core/config/resolver.rs` 144-154
* `src/core/merge_right.rs` 10-19, 21-26, 28-46, 48-108, 110-114, 116-129, 131-176
* `src/core/mod.rs` 64-66
* `src/core/primitive.rs` 25-29
* `src/core/rest/endpoint_set.rs` 15

Not modelled: parsing of files; links are opaque.

### Federation (C25, C26, C27, C64)

Merging of subgraph schemas.

Modelled lines:

* `src/core/config/config.rs` 65-101, 107-133, 163-165, 177-226, 279-285, 441-461, 465-469, 473-482, 493-505, 507-517, 550-560, 565-571
* `src/core/config/config_module.rs` 30-36, 38-51
* `src/core/config/config_module/merge.rs` 12-46, 48-61, 63-76, 78-87, 89-108, 110-130, 132-146, 148-162, 164-173, 175-184, 186-202, 204-312, 370-382, 402-415
* `src/core/merge_right.rs` 28-46
* `src/core/scalar.rs` 109-115
* `src/core/wrapping_type.rs` 12-30, 60-65, 68-73

Not modelled: texts of errors, documentation except in enum equality, `@link`s.

### Rest (C28, C29, C30, C65)

REST endpoints and request routing.

Modelled lines:

* `src/core/config/directives/server.rs` 130-135
* `src/core/config/reader.rs` 106-111
* `src/core/http/method.rs` 16-43
* `src/core/http/request_handler.rs` 249-286, 288-338
* `src/core/rest/directive.rs` 16-24
* `src/core/rest/endpoint.rs` 21-29, 40-84, 139-184
* `src/core/rest/endpoint_set.rs` 85-89
* `src/core/rest/partial_request.rs` 19-31
* `src/core/rest/path.rs` 7-11, 34-51, 53-76
* `src/core/rest/query_params.rs` 23-33, 35-44
* `src/core/rest/type_map.rs` 8
* `src/core/rest/typed_variables.rs` 6-17, 19-36, 38-60, 67-70

Not modelled: GraphQL and JSON parsing, number parsing (parameters).

### Plan (C31, C66)

Selection sets, skip and include.

Modelled lines:

* `src/core/jit/builder.rs` 19-24, 33-52, 55-58, 88-126, 130-314, 327-349, 352-384
* `src/core/jit/exec_const.rs` 62-64, 74-76
* `src/core/jit/model.rs` 70-83, 171-195
* `src/core/jit/transform/skip.rs` 38-43

Not modelled: arguments of fields (see Input), the schema index (a parameter), introspection.

### Auth (C42, C44, C67)

Providers, combinations and the guards derived from a configuration.

Modelled lines:

* `auth/basic.rs` 18-35
* `auth/error.rs` 1-11
* `auth/jwt/jwks.rs` 24-39, 41-65
* `auth/jwt/jwt_verify.rs` 14-17, 20-23, 41-47, 49-55, 57-63, 68-78, 81-93, 95-112
* `auth/verification.rs` 9-12, 23-28, 30-37, 39-44
* `auth/verify.rs` 19-23, 34-46, 49-56, 59-72
* `blueprint/auth.rs` 14-19, 22-25, 27-48, 52-66, 70-74, 77-82
* `blueprint/operators/protected.rs` 26, 30, 43-57, 63, 67
* `config/config_module.rs` 147-149
* `operators/protected.rs` 16-90

Not modelled: cryptography and key lookup (oracles), loading of JWKS.

### Ir (C40, C41, C43, C54, C55)

Evaluation of resolvers, discriminators and the cache.

Modelled lines:

* `blueprint/definitions.rs` 367-382
* `blueprint/dynamic_value.rs` 8-13, 83-90
* `blueprint/operators/protected.rs` 74-82
* `cache/cache.rs` 17-21, 40-44, 46-54
* `discriminator/keyed_discriminator.rs` 39-78
* `discriminator/type_field_discriminator.rs` 45-76
* `ir/discriminator.rs` 27-33, 69-93, 103, 111-115, 117-126
* `ir/error.rs` 12-38
* `ir/eval.rs` 19-174
* `ir/eval_context.rs` 14-27, 30-34, 36-40, 59-71, 73-80, 190-206
* `ir/eval_io.rs` 17-118
* `ir/model.rs` 17-35, 45-71, 74-81, 125-130, 168-208
* `jit/transform/check_cache.rs` 30, 32, 46
* `jit/transform/check_const.rs` 28, 30
* `jit/transform/check_dedupe.rs` 24, 26
* `jit/transform/check_protected.rs` 28, 30
* `json/graphql.rs` 29-31
* `path.rs` 68-99, 108-115
* `serde_value_ext.rs` 14-44
* `transform/auth_planner.rs` 56-85
* `transform/check_cache.rs` 20-35
* `transform/check_const.rs` 18-33
* `transform/check_dedupe.rs` 17-32
* `transform/check_protected.rs` 18-33

Not modelled: JavaScript, JSON path details beyond those stated, real concurrency of `join_all`.

### Exec (C36, C37, C38, C40, C43, C69, C70, C71)

Execution of plans, the store, synthesis of the response.

Modelled lines:

* `blueprint/index.rs` 59-71, 86-101
* `ir/eval.rs` 19-170
* `jit/context.rs` 42-85
* `jit/error.rs` 32-41, 44-57
* `jit/exec.rs` 43-53, 76-84, 86-101, 103-141
* `jit/exec_const.rs` 37-109, 122-140, 148-192
* `jit/model.rs` 70-83, 86-91, 172-195, 197-216, 308-321, 394-396, 421-440, 442-444, 527-532
* `jit/request.rs` 40-60
* `jit/response.rs` 13-23, 37-57, 64-90
* `jit/store.rs` 57-59
* `jit/synth/synth.rs` 127-229
* `jit/transform/check_cache.rs` 42
* `jit/transform/skip.rs` 38-43
* `json/borrow.rs` 98-103
* `json/graphql.rs` 75-80, 150-155
* `json/json_like_list.rs` 19-35, 37-43
* `synth.rs` 32-34, 37-56, 60-98, 102-123, 127-229
* `transform/auth_planner.rs` 25-37, 42-51
* `transform/check_cache.rs` 41-53
* `transform/check_const.rs` 39-48
* `transform/check_dedupe.rs` 38-50
* `transform/check_protected.rs` 39-46
* `wrapping_type.rs` 14-30, 61-66, 69-74, 76-78

Not modelled: introspection, real concurrency of `join_all`, subscriptions.

### Server (C32, C33, C34, C35, C41, C68, C72)

The executor with its caches over histories of concurrent requests.

Modelled lines:

* `app_context.rs` 30-32, 145-148
* `async_graphql_hyper.rs` 17, 42-51, 57-71, 102-111
* `graphql_executor.rs` 19-23, 74-77, 82-122, 126-137
* `jit/builder.rs` 327-349, 359-383
* `jit/error.rs` 8-17
* `jit/exec_const.rs` 32-35
* `jit/graphql_executor.rs` 73-122
* `jit/request.rs` 40-60
* `request_handler.rs` 135-138

Not modelled: hash collisions, the contents of plans (abstract), subscriptions.

### Front (C45, C46, C47, C48, C73, C74, C75, C76, C77)

Header filtering, CORS, cache control, response headers, cookies, batched and raw bodies.

Modelled lines:

* `async_graphql_hyper.rs` 293-296, 298-302, 305-326, 328-339, 361-380, 382-406
* `blueprint/cors.rs` 9-19, 22-32, 34-71, 73-112, 119-168, 170-229, 232, 235-237
* `blueprint/server.rs` 217-234
* `blueprint/upstream.rs` 59-64
* `config/cors.rs` 9-62
* `http/cache.rs` 5-10
* `http/mod.rs` 25-26
* `http/request_context.rs` 25-26, 33-34, 73-84, 86-100, 102-135, 161-171, 173-180, 184-206
* `http/request_handler.rs` 63-82, 94-107, 129-149, 151-162, 164-194, 196-247, 357-367
* `ir/eval_http.rs` 185-194, 196-210
* `jit/graphql_executor.rs` 82-122
* `jit/response.rs` 31, 95-105, 132, 137-140, 143-148, 151-164

Not modelled: the HTTP server, showcase and health endpoints, telemetry headers.

### Input (C39)

Resolution of arguments and variables.

Modelled lines:

* `blueprint/blueprint.rs` 115-120
* `blueprint/index.rs` 103-108
* `builder.rs` 187-205
* `input_resolver.rs` 24-35, 56-72, 112-140, 143-215
* `jit/model.rs` 20-21, 98-105, 123-136, 172-195, 232-267
* `jit/transform/input_resolver.rs` 24-35
* `json/graphql.rs` 25-27, 29-31, 131-133

Not modelled: custom scalar validation (a parameter).

### Schema (C49, C78, C79)

JSON schemas, constants and gRPC operations.

Modelled lines:

* `blueprint/from_config.rs` 85-86, 90-94
* `config/config.rs` 66-102, 182-226
* `from_config.rs` 82-116
* `json/json_schema.rs` 95-152, 156-230, 242-262, 283-322
* `json_schema.rs` 9-21, 83-92, 95-153, 156-227, 233-239, 245-269, 286-322
* `operators/expr.rs` 10-22, 46-57
* `operators/grpc.rs` 63-95
* `operators/resolver.rs` 46

Not modelled: regular expressions of scalar formats, protobuf parsing.

### Transform (C50, C51, C52, C53)

Tree shaking, flattening of unions, renaming and splitting of types.

Modelled lines:

* `ambiguous_type.rs` 28-32, 59-149
* `config.rs` 60-101, 107-133, 164-166, 180-228, 282-288, 290-294, 439-458, 463-467, 472-480, 491-503, 565-571, 573-580, 582-591, 594-625
* `config/config.rs` 573-580, 595-626
* `nested_unions.rs` 17-24, 32-47, 49-69
* `rename_types.rs` 27-138
* `transformer/ambiguous_type.rs` 59-149
* `transformer/nested_unions.rs` 49-69
* `transformer/rename_types.rs` 27-138
* `tree_shake.rs` 17-21

Not modelled: everything of a definition except its references to types; other transformers.

### Fold (C56)

Composition of checks and transformers.

Modelled lines:

* `blueprint/definitions.rs` 545-553
* `blueprint/from_config.rs` 46-56
* `transform.rs` 6-10, 31-56, 60-67
* `try_fold.rs` 7-9, 21-23, 37-44, 67-76, 88-98, 100-102, 108-110, 121-123, 126-137

Not modelled: the individual checks of the blueprint.

### Gql (C80, C81)

Selection sets sent to GraphQL upstreams: their text, the calls that get them and the request body; an independent reader of selection sets.

Modelled lines:

* `config/config.rs` 382-388
* `document.rs` 83-91, 315-332, 454-458, 461-472
* `graphql.rs` 24-44, 61-114, 116-143, 145-159
* `input_resolver.rs` 94-110
* `ir/eval_context.rs` 120-144, 146-171
* `ir/mod.rs` 22-26
* `ir/model.rs` 135-154
* `ir/resolver_context_like.rs` 93-125
* `jit/model.rs` 23-28, 98-105, 107-121, 172-195, 447-451
* `operators/graphql.rs` 12-53
* `request_template.rs` 31-36, 39-46, 119-123
* `resolver_context_like.rs` 98-101

Not modelled: batched entity queries; selection of introspection fields; the type-condition filter of the fallback selection.

### Tmpl (C82, C83)

The startup checks on request templates: URLs, query parameters, headers and bodies against the types of the configuration, and query parameters against input types.

Modelled lines:

* `blueprint/definitions.rs` 289-292
* `blueprint/mustache.rs` 20-46, 48-102, 104-175, 179-196
* `config/config.rs` 382-392
* `graphql/request_template.rs` 50-59
* `grpc/request_template.rs` 20-28
* `http/request_template.rs` 23-33
* `ir/model.rs` 45-71
* `mustache/model.rs` 40-48
* `operators/http.rs` 30-36
* `scalar.rs` 11, 21-76, 109-115
* `template_validation/mod.rs` 11-30, 33-59

Not modelled: the checks on group keys and batches; the conversion of paths in the templates of federation entities (not checked by the code).

### Call (C84, C85, C86)

`@call`: lookup of the fields of the steps, required arguments, chaining of their expressions, the combination of several resolvers of a field, and recursion of calls (a depth limit stands for the stack).

Modelled lines:

* `blueprint/dynamic_value.rs` 93-122
* `config/config.rs` 382-384
* `config/directives/call.rs` 13-25
* `definitions.rs` 537-558
* `operators/call.rs` 9-94, 96-106, 108-131
* `operators/resolver.rs` 17-56, 58-89

Not modelled: the conversion of step arguments from JSON; the stages after the resolvers are one function `finish`, except that C86 assumes what protection does; traces of errors.

### Gen (C87, C88)

the generation of types from a sample response and of the argument for a sample request body: names, compatibility, merging of the items of arrays, the type of the operation.

Modelled lines:

* `generator/mod.rs` 16-30
* `helpers/gql_type.rs` 21-24, 26-40, 42-45
* `json/operation_generator.rs` 14-76
* `json/types_generator.rs` 1, 15-27, 31-52, 65-71, 73-102, 104-153, 172-183
* `scalar.rs` 44
* `wrapping_type.rs` 81-83

Not modelled: the URL and headers of the generated `@http` (json/http_directive_generator.rs), the transformers that run afterwards (merging of types, better names), numbers that are not integers beyond their kind.

### Sdl (C89, C90, C91)

Writing a configuration as a schema document (abstract syntax) and reading one: the conversion of every directive to and from its arguments, of types, fields, arguments, unions, enums, links and settings.

Modelled lines:

* `config/config.rs` 65-101, 107-133, 169-175, 180-226, 279-285, 287-291, 293-298, 300-306, 472-480, 505-513, 678-685
* `config/cors.rs` 8-70
* `config/directive.rs` 12-18, 20-29, 31-46
* `config/directives/add_field.rs` 4-15
* `config/directives/alias.rs` 6-24
* `config/directives/cache.rs` 6-27
* `config/directives/call.rs` 9-25, 27-55
* `config/directives/discriminate.rs` 6-32
* `config/directives/expr.rs` 5-23
* `config/directives/federation.rs` 9-29
* `config/directives/graphql.rs` 7-59
* `config/directives/grpc.rs` 8-77
* `config/directives/http.rs` 10-111
* `config/directives/js.rs` 4-18
* `config/directives/link.rs` 18-56, 58-101
* `config/directives/modify.rs` 6-25
* `config/directives/omit.rs` 4-18
* `config/directives/protected.rs` 17-36
* `config/directives/server.rs` 13-127, 129-149, 166-170, 172-179
* `config/directives/telemetry.rs` 70-97
* `config/directives/upstream.rs` 12-30, 32-35, 37-150
* `config/from_document.rs` 10, 22-28, 30-62, 64-72, 74-85, 87-104, 144-170, 184-203, 205-224, 226-361, 363-401, 403-418, 420-432, 434-449
* `config/headers.rs` 10-40
* `config/into_document.rs` 11-13, 15-204, 215-226, 228-253
* `config/key_values.rs` 23-27
* `config/resolver.rs` 19-41
* `config/url_query.rs` 5-18
* `directive.rs` 1, 4, 16-25, 28-36, 39-46, 48-67, 69-85
* `http/method.rs` 16-27
* `json/json_schema.rs` 9-21
* `macros/src/resolver.rs` 56-66, 68-78, 97-105
* `mod.rs` 109-111
* `wrapping_type.rs` 120-133, 135-148

Not modelled: the text of documents (parser and printer); the exporter of telemetry is kept as JSON; numbers that are not integers are texts; serde's reading of structs from arrays and the coercion of integers to other number types; the set of types used as inputs is a parameter.

### Npo (C92, C93)

The search for paths that issue N + 1 calls: the recursion over types with its cache, the loop over entities, what counts as batched, and the printed report.

Modelled lines:

* `cli/fmt.rs` 24-35
* `config/config.rs` 66-102, 108-133, 182-226
* `config/resolver.rs` 31-41, 44-57, 60-62, 64-66, 68-74
* `npo/tracker.rs` 13-17, 37-71, 103-106, 108-118, 123-128, 131-179, 181-207, 209-211

Not modelled: colours and logging; `Chunk` is a list; the map of types is a list in the order of the map.

### Prune (C94)

Dropping unused definitions as the last step of building a blueprint: the dependency graph, the search and the filter.

Modelled lines:

* `blueprint.rs` 22-28, 31-38, 41-50, 66-157
* `compress.rs` 7-43, 45-87, 97-105

Not modelled: descriptions, directives, resolvers and default values of definitions, which nothing here reads; hash maps are lists.

### UnionIn (C95, C96)

The replacement of unions in arguments: the search for unions inside types, the copies of types, the copies of fields and the loop over the configuration.

Modelled lines:

* `config/config.rs` 66-102, 108-133, 182-226
* `union_input_type.rs` 32-40, 43-49, 51-60, 75-97, 100-105, 107-178, 180-190, 192-228, 230-279
* `wrapping_type.rs` 110-117

Not modelled: what else a field, an argument or a type has, which is carried along as one number; the maps of the outcome are lists of insertions, the last of which counts.

### Subgraph (C97, C98, C99)

The federation layer: extraction of keys from resolvers, their merging and printing, the check of paths against the types, the directives, and the fields and types added for the gateway; and what a resolver asks for given a representation.

Modelled lines:

* `blueprint/dynamic_value.rs` 93-122
* `config/config.rs` 66-102, 108-133, 182-226
* `config/directive.rs` 12-18
* `config/directives/federation.rs` 35-37, 39-43
* `config/resolver.rs` 31-41
* `graphql/request_template.rs` 50-59, 61-150
* `grpc/request_template.rs` 20-28, 61-105
* `helpers/body.rs` 7-20
* `http/request_template.rs` 23-33, 45-89, 101-175
* `ir/eval.rs` 39, 121-160
* `ir/eval_context.rs` 73-80
* `merge_right.rs` 48-63
* `path.rs` 68-99, 117-127
* `serde_value_ext.rs` 13-45
* `transformer/subgraph.rs` 20-25, 37-160, 163-164, 171-177, 184-200, 202-205, 210-227, 229-250, 252-274, 276-337, 339-361, 363-369, 374-383, 386-394, 396-412, 414-420

Not modelled: the texts and traces of errors except those of the check of paths; documentation of the added fields; running the requests; of calls the steps after the first.

### Refine (C100, C101, C102, C103)

The refinement of generated configurations: merging of similar types (similarity, its store, groups, merged types, replacement of references, repetition), flattening of query fields with one way down, and the choice of better names of types.

Modelled lines:

* `config/config.rs` 107-133, 229-233, 483-488, 505-515
* `flatten_single_field.rs` 12-54, 68-82
* `generator/mod.rs` 14
* `improve_type_names.rs` 11-15, 18-22, 36-62, 82-120, 124-134
* `merge_types/mergeable_types.rs` 9-15, 18-26, 29-35, 58-75, 82-93, 99-104
* `merge_types/pair_map.rs` 17-24
* `merge_types/pair_set.rs` 16-19
* `merge_types/similarity.rs` 12, 40-133
* `merge_types/type_merger.rs` 35-202, 205-233, 235-242
* `scalar.rs` 43
* `wrapping_type.rs` 77-79

Not modelled: the functions of the crates pluralizer and convert_case (any functions in the theorems); documentation and settings of merged types (`join` is any function); floating-point thresholds (any relation between the number of equal and of all fields).

### Added (C104, C105, C106, C107)

Added fields (`@addField`): following of paths in types, the resolver of an added field, the operators every field goes through (resolver, `@modify`, empty objects, cache, `@protected`, enum aliases, discriminators), and the check for missing resolvers.

Modelled lines:

* `blueprint/blueprint.rs` 123-131
* `config/config.rs` 66-102, 108-133, 182-226, 413-417, 472-480
* `config/directives/add_field.rs` 10-15
* `definitions.rs` 101-242, 308-313, 315-335, 343-363, 367-382, 384-391, 393-535, 537-558
* `interface_resolver.rs` 31-53
* `operators/enum_alias.rs` 11-41
* `operators/modify.rs` 16-38
* `operators/protected.rs` 8-90
* `operators/resolver.rs` 17-56, 73-78
* `scalar.rs` 109-116
* `schema.rs` 10-23, 27-43, 46-66, 68-80
* `union_resolver.rs` 29-51
* `wrapping_type.rs` 77-79, 82-87, 90-95, 103-108

Not modelled: the compilation of resolvers (a field carries what its resolvers are compiled to); arguments of fields; errors of later operators once one has failed; the executor that puts the values of fields together (see Exec).

### Proto (C108, C109, C110, C111, C112)

The generator for protobuf: names of types and methods, enums, messages with nested ones, maps and oneofs, services, comments; what is done with the names of methods when they are called over gRPC or Connect.

Modelled lines:

* `blueprint/operators/grpc.rs` 149-153, 161-180
* `comments_builder.rs` 12-28
* `config/config.rs` 66-102, 108-133, 182-226
* `connect_rpc.rs` 50-93
* `from_proto.rs` 22-39, 42-50, 59-62, 65-158, 161-320, 322-396, 399-412, 415-434, 437-449, 451-456, 458-486
* `generator/mod.rs` 14
* `graphql_type.rs` 7, 10-12, 24-29, 35-42, 49, 63, 83-101, 125-132, 154-173
* `wrapping_type.rs` 52-56, 82-87, 98-100

Not modelled: reading and linking of protobuf files (descriptors are the input); the conversion to camel case (any function, names must stay different); the text of comments in the source information (a function from paths to texts); the transformers run on the result (see Transform, Similar).

### Hook (C113, C114, C115, C116, C117)

The hooks in JavaScript: requests and responses as values of JavaScript and back, the runtime with its workers, onRequest with its commands and redirects, onResponse, `@js`, and the sharing of results of fields.

Modelled lines:

* `blueprint/operators/http.rs` 90-95
* `cli/runtime/mod.rs` 80-81
* `codec.rs` 11-208
* `eval_http.rs` 22-27, 48-52, 77-144
* `eval_io.rs` 17-41, 48-62, 103-116
* `http/response.rs` 13-18
* `ir/model.rs` 46-53, 211-220
* `ir/request.rs` 2-6
* `javascript/mod.rs` 21-29
* `mod.rs` 24-26
* `runtime.rs` 36-52, 66-72, 87-103, 105-126, 128-142, 144-201
* `worker.rs` 19-31, 37, 45-49, 56-62, 83-94, 122-146, 157-164, 166-173, 176-183, 199-212
* `worker/error.rs` 8-62
* `worker_hooks.rs` 10-14, 17-26, 30-43, 47-62

Not modelled: the engine for JavaScript (any script is a state and functions on it; it ends); the parser for host, port and path of URLs (a parameter); JSON (a parameter); threads and the waiting for a shared result (fields are evaluated one after the other); validation and taken over headers (part of the upstream).

### Sample (C118, C119)

The generation of `@http` from sample URLs: numbers and UUIDs in paths, types and lists of parameters, decoding, and the template that the directive becomes (with the models of templates and URLs of the areas Mustache and HttpUrl).

Modelled lines:

* `blueprint/operators/http.rs` 46-65
* `generator/mod.rs` 14
* `gql_type.rs` 4-19
* `http/request_template.rs` 213-252
* `http_directive_generator.rs` 12-17, 27-52, 54-57, 63-135

Not modelled: the parser for URLs (a sample is its parts; `norm` is a parameter); the case of names (`camel` is a parameter); white space outside of ASCII; the types generated from bodies; the merging of arguments of several samples.

### Load (C120, C121, C122, C123)

The reading of configurations: files and their environment, links of all kinds, the merging of several files, and proto files with their imports, from files and from servers with reflection.

Modelled lines:

* `src/core/blueprint/links.rs` 12-60
* `src/core/config/config_module.rs` 130-151, 153-158
* `src/core/config/config_module/merge.rs` 204-312, 314-321
* `src/core/config/directives/link.rs` 18-56, 74-101
* `src/core/config/reader.rs` 38-148, 150-176, 187-228, 232-249, 253-262
* `src/core/config/reader_context.rs` 26-38
* `src/core/merge_right.rs` 10-78, 110-114
* `src/core/proto_reader/reader.rs` 35-64, 76-96, 99-134, 137-159, 162-172, 176-191, 194-223
* `src/core/resource_reader.rs` 24-29, 145-178

Not modelled: the parsers for configurations, proto files, PEM and JSON, and the unification of types, which are parameters (the last is in the area Federation); the cache of the reader; headers of links; the templates of telemetry; URLs other than http; paths with slashes in a row; which error is reported of several.

### Grpc (C124, C125, C126, C127, C128)

gRPC calls: the frames of messages, the status of answers and the errors made of it, batches with their keys, the names and URLs of methods, and the check of batch keys.

Modelled lines:

* `src/cli/runtime/http.rs` 179-184
* `src/core/blueprint/operators/grpc.rs` 19-29, 97-140, 149-153, 155-159, 161-180
* `src/core/grpc/data_loader.rs` 35-59, 61-98
* `src/core/grpc/protobuf.rs` 16-28, 30-40, 42-56, 58-64, 81-90, 114-125, 128-134, 157, 168-172, 174-211, 213-233
* `src/core/grpc/request.rs` 10, 12-18, 20-40
* `src/core/grpc/request_template.rs` 46-51, 111-117
* `src/core/http/response.rs` 15-19, 52-57, 90-100, 102-148
* `src/core/ir/error.rs` 15-20, 75-91
* `src/core/ir/eval_http.rs` 228-236
* `src/core/ir/eval_io.rs` 79-93

Not modelled: the encoding of messages, JSON and base64 (parameters), HTTP/2 and its trailers beyond the fact that they are not looked at, the headers of requests (area HttpUrl has the like), caching and the data loader (areas Batch and Cache), and floats as keys.

### Introspect (C129, C130, C131)

The schema that clients can ask about: how it is made of the definitions, which names it has to have, and how answers about it are merged with the others.

Modelled lines:

* `src/core/blueprint/blueprint.rs` 31-38, 41-50, 115-120, 123-131
* `src/core/blueprint/from_config.rs` 133-137
* `src/core/blueprint/into_schema.rs` 53-193, 195-209, 212-221, 223-244
* `src/core/jit/builder.rs` 366-373
* `src/core/jit/exec_const.rs` 57-58, 101-108
* `src/core/jit/response.rs` 12-23, 64-90
* `src/core/scalar.rs` 11, 21-76
* `src/core/wrapping_type.rs` 150-170

Not modelled: async-graphql itself: what it tells about a registered type is in the specification (`Shows`), its answer for an operation is a parameter, and of its checks only the one for missing types is modelled; directives; whether definitions are made rightly from the configuration.

### Doc (C132, C133, C134)

The text that is printed for a schema document, with values, directives and descriptions that are broken into lines, and the configuration that is read from such a file. That the text says what the document says is stated with a lexer and a reader of the GraphQL grammar written for this purpose (Spec.lean).

Modelled lines:

* `document.rs` 24-62, 64-81, 93-101, 103-125, 127-242, 244-261, 263-293, 295-300, 302-313, 315-332, 374-418, 434-447

Not modelled: Definitions of directives; the real parser (the lexer and reader are a specification); the segmentation of text into graphemes, which is a parameter.

### Scalar (C135, C136)

The check of values of scalar types in responses, with the reading of whole numbers of the standard library.

Modelled lines:

* `blueprint/index.rs` 37-41
* `jit/builder.rs` 226-234
* `jit/synth/synth.rs` 155-168
* `json/graphql.rs` 96-101, 103-115
* `json/json_like.rs` 40-64
* `scalar.rs` 11, 14-15, 19, 21-76, 78-80, 82-92, 94-104, 109-115, 117-151

Not modelled: The formats of e-mail addresses, telephone numbers, times and URLs, which are parameters; the JSON schemas of scalars.

### Loaders (C137, C138, C41)

The numbering of upstream calls with data loaders when the server starts, and the decision whether a call goes through its loader.

Modelled lines:

* `app_context.rs` 36-150
* `blueprint/blueprint.rs` 31-38, 123-131, 136-140
* `blueprint/from_config.rs` 55, 61-73
* `blueprint/operators/grpc.rs` 182-245
* `blueprint/operators/http.rs` 25-29
* `blueprint/upstream.rs` 35-43, 66, 87-98
* `config/directives/upstream.rs` 12-30, 188-190, 192-196
* `ir/eval_http.rs` 53-88, 147-174, 238-265
* `ir/eval_io.rs` 43-118
* `ir/model.rs` 16-35, 45-71, 160-208

Not modelled: What loaders do with calls (see DataLoader, HttpBatch, Grpc); templates, which are opaque here.

### Service (C139, C140)

The document of a blueprint, the text that a subgraph publishes about itself, and the step that gives `_service` and `_entities` their resolvers.

Modelled lines:

* `blueprint/blueprint.rs` 22-29, 31-38, 41-50, 52-62, 115-120, 122-131
* `blueprint/definitions.rs` 41-59, 61-71, 429-433, 527-533, 569-579
* `blueprint/directive.rs` 36-45
* `blueprint/into_document.rs` 15-22, 24-42, 44-60, 62-127, 129-151
* `blueprint/operators/apollo_federation.rs` 20-61, 63-74, 77-139
* `blueprint/operators/modify.rs` 17-33
* `config/config.rs` 180-226
* `config/resolver.rs` 14-17
* `ir/model.rs` 17-35

Not modelled: The compilation of ordinary resolvers, which is a parameter; the changes of the configuration for federation (see Subgraph).

### Edge (C141, C142, C143, C144)

Requests and responses on AWS Lambda and on Cloudflare, contexts that a Cloudflare worker keeps between requests, its cache, and the showcase.

Modelled lines:

* `cloudflare/src/cache.rs` 20-26, 33-51, 53-65
* `cloudflare/src/handle.rs` 15-17, 20-39, 44-80
* `cloudflare/src/http.rs` 53-69, 71-97
* `lambda/src/http.rs` 43-80, 82-95
* `src/core/http/request_handler.rs` 293-305
* `src/core/http/showcase.rs` 17-69
* `src/core/ir/eval.rs` 47-66

Not modelled: The HTTP clients of both platforms; the file system and the environment of Cloudflare; the limits that the store of Cloudflare puts on ages and sizes; decoding of the query; escapes with `\\u` in JSON.

### Report (C145, C146)

Reports of errors: how errors with causes are shown, and what each kind of error becomes.

Modelled lines:

* `src/core/blueprint/error.rs` 197-221
* `src/core/errata.rs` 12-24, 27-36, 38-46, 73-79, 81-86, 88-136, 138-151, 153-176, 196-212, 214-226
* `src/core/ir/error.rs` 11-37, 40-44, 46-73, 77, 96-106

Not modelled: Colours; conversions from boxed, I/O and core errors, which take the text of the error.

### Settings (C147, C148)

Settings of the server and of telemetry: defaults, validation, and what the start makes of them.

Modelled lines:

* `src/cli/server/http_server.rs` 50-60
* `src/cli/server/server_config.rs` 27-36
* `src/core/blueprint/blueprint.rs` 220-224
* `src/core/blueprint/error.rs` 10-189
* `src/core/blueprint/server.rs` 12, 15-37, 40-44, 46-53, 83-151, 153-170, 172-178, 180-217, 220-240
* `src/core/blueprint/telemetry.rs` 20-26, 37, 46, 54, 61-89, 98-100, 104
* `src/core/blueprint/timeout.rs` 27-31
* `src/core/config/directives/server.rs` 31-125, 127-133, 143-147, 175-179, 181-268
* `src/core/config/directives/telemetry.rs` 63-68
* `src/core/config/headers.rs` 13-41, 43-50
* `src/core/http/request_handler.rs` 131-139, 267-270

Not modelled: The parser of IP addresses and of URLs (parameters); which rule for other origins is broken; exporters; Unicode case.

### GenCmd (C149, C150)

The `gen` command: how the paths in its file are resolved, the links of what it generates, what it asks for and what it writes.

Modelled lines:

* `src/cli/generator/config.rs` 19-28, 49-54, 70-96, 122-159, 169-187, 207-240, 252-274
* `src/cli/generator/generator.rs` 35-90, 94-158, 161-196, 211
* `src/cli/generator/source.rs` 10-31
* `src/core/config/directives/link.rs` 58-101
* `src/core/config/reader.rs` 208, 253-262
* `src/core/config/source.rs` 10-14, 42-49, 63-69
* `src/core/config/transformer/preset.rs` 17-24
* `src/core/generator/generator.rs` 96-103, 112-149
* `src/core/merge_right.rs` 21-26
* `src/core/resource_reader.rs` 145-178

Not modelled: What the generator makes of the inputs (area Gen and Sample; a parameter here), the model that names types, spelling of paths, headers and bodies of samples, imports of proto files.

### Cli (C151, C152)

The `init` command with its questions and the merge of `.graphqlrc.yml`, and what the program reports about its use.

Modelled lines:

* `src/cli/runtime/file.rs` 14-19, 21-36
* `src/cli/runtime/mod.rs` 88-108, 110-129
* `src/cli/tc/init.rs` 17-54, 56-61, 63-83, 123-139
* `src/cli/tc/run.rs` 14-33
* `src/core/merge_right.rs` 131-176
* `tracker/src/can_track.rs` 9-16, 18-24
* `tracker/src/dispatch.rs` 33-38, 40-56, 59-67, 69-96, 98-104
* `tracker/src/event.rs` 8-21, 45-48
* `version/src/lib.rs` 16-18

Not modelled: Reader and writer of YAML (parameters), the texts that are written, what an event says besides its kind and the addresses, the search for addresses itself.

### Reflect (C153, C154)

The client for gRPC reflection: the three questions as JSON and as templates, the endpoint, the headers, the reading of answers, and the link as a whole on top of the area Load.

Modelled lines:

* `fetch.rs` 60-62, 106, 151, 175, 187, 189
* `protobuf.rs` 214-231
* `request_template.rs` 96-107
* `src/core/config/reader.rs` 131-135
* `src/core/config/reader_context.rs` 21, 26-38
* `src/core/grpc/protobuf.rs` 168-172, 213-233
* `src/core/grpc/request.rs` 12-18
* `src/core/grpc/request_template.rs` 38, 62, 67-79, 81-94, 111-117
* `src/core/proto_reader/fetch.rs` 54-63, 66-72, 87-91, 100-113, 116-122, 125-129, 131-180, 184-192
* `src/core/proto_reader/reader.rs` 40-44, 47, 52

Not modelled: URLs beyond their parts, the encoding of messages and files (parameters), BASE64, the status and headers of answers (the program does not look at them), JSON bodies that only arise from braces in names.

### Cmd (C155, C156)

The commands check and start from the reading of the files to a server that serves, and the warnings about outdated files.

Modelled lines:

* `check.rs` 21-22, 26, 29-34
* `helpers.rs` 38-42
* `http_2.rs` 24-62
* `http_server.rs` 39, 52, 56
* `server_config.rs` 19-43
* `src/cli/fmt.rs` 24-34
* `src/cli/server/http_1.rs` 33-49
* `src/cli/server/http_server.rs` 34-47, 50-60
* `src/cli/server/mod.rs` 11-24
* `src/cli/server/server_config.rs` 39
* `src/cli/tc/check.rs` 17-43
* `src/cli/tc/helpers.rs` 9-11, 17-36
* `src/cli/tc/run.rs` 47, 56
* `src/cli/tc/start.rs` 8-18
* `src/cli/tc/validate_rc.rs` 6-49
* `start.rs` 12

Not modelled: What the commands call (reading, blueprint, validation of endpoints, telemetry, network and TLS are parameters; other areas model most of them), panics of the start of the runtime, the update checker.


## Where the code and the property disagree

Each item has a theorem `..._violated_by_...` (or, where noted in the manifest, an equivalent negation).

**Data loaders and templates.** `load_many` can exceed the maximum batch size.  A template consisting of one double
quote renders as nothing.  Configuration values that contain braces are parsed again as templates.

**Upstream requests.** Query values are inserted without escaping, so a client value can add parameters; parameters of
the base URL are decoded and not encoded again, or dropped when empty.  The HTTP cache key misses the body encoding and the names of the
configured headers; the GraphQL key covers the body only; the gRPC key misses the headers; request equality misses the
method and unlisted headers.  A deduplicated request with an unusable URL panics.  GraphQL request bodies are
invalid JSON for apostrophes and non-ASCII characters; quotes in values escape from the string literal.

**Batching.** Integer keys above 2^53 are mixed up; an empty body breaks the merged body; requests of clients with different credentials
are merged; differing parameters other than the id are lost; a GraphQL batch answered with an error object silently gives null.

**Merging configurations.** Variables are reordered by merging with an empty configuration; `@upstream` without `verifySSL` resets it to
true; `batch: {}` resets delay and size; `ConstValue` merging is not associative and a null on the right wipes the left;
YAML merging is not associative.

**Federation.** Default values and root names are those of the left subgraph; a scalar and an object of the same name are merged as an object; an
implementer only reachable via its interface is shrunk; input types without a common field become an empty type, that is a scalar; input
unions are united; shared custom scalars always fail; enum equality also compares documentation.

**REST.** Shorter request paths match; percent-encoding is not decoded; every `/api` in the path is removed; the order of operations comes from a
hash map; a second operation document replaces the endpoints of the first; the query string is dropped before
matching; the type of a parameter is looked up under the parameter's name; a GraphQL route under `/api` is unreachable.

**Planning.** A field with `@include(if: false)` and a variable `@skip` is kept; directives on fragments and defaults of variables are
ignored; repeated fields are not merged; a skipped field hides a later duplicate; recursive fragments are not rejected.

**Authentication.** JWT providers of a configuration never check issuer or audience; ids of `@protected` on the output type are ignored; a field's ids
replace the type's all-providers default; the default of basic and JWT providers together rejects everyone; every decoding failure of a JWT is reported as a
parse error.

**Resolvers.** Entity and protected resolvers count as constant; a cached mutation is answered from the cache; resolvers with
different ages share a key; overlapping cached evaluations replace a value that is still valid; an upstream `__typename` is kept even
if it is not a member.

**Execution and synthesis.** An alias on a plain field above a resolver loses data or panics; null for a plain `[T]!` is accepted, single values and lists are accepted for
each other, nested lists use the wrong nullability; scalar lists are validated as a whole; an enum list with a null is rejected; resolvers of fragment fields are called
for single objects of other types; error paths are stale and errors of resolvers have none; guards below plain fields are not
checked up front; nested objects can contain a key twice.

**Request executor.** The plan cache is keyed on the query text only; a constant plan with public and protected fields is cached and
served to unauthenticated callers; the constant cache ignores variables; all requests of a batch share one operation id; object keys that are not GraphQL names
collide in the operation id; the checks for deduplication and caching ignore nested fields and enum mappings.

**HTTP front end.** Of a repeated client header only the last value is kept; with authentication `authorization` is forwarded to every
upstream; a custom `Access-Control-Allow-Origin` survives a denial; `"*, x"` evades the wildcard check; `tailcall.run` is granted without CORS configuration; ages are
truncated to 32 bits; `no-store` is ignored; `max-age=0` gives no header; merging with age 0 is more permissive; joined responses carry no
Cache-Control; an upstream header replaces the operator's; two cookies are joined or lost; `application/graphql` bodies with a backslash or a
character escaped by Rust's debug format are not decoded as sent.

**Arguments.** An input type with itself as a default overflows the stack; an omitted nullable variable is an error; null in
`[Int!]` is accepted and in `[A]!` rejected; a null default of a non-null argument is accepted; a scalar is accepted for an input object; unknown arguments
are dropped.

**JSON schema checks.** `{k: Option<Str>}` passes for `{k: Any}`; recursive types and messages never finish; declared scalars only accept objects as
constants; enums, unions, Float and ID accept anything; Int accepts fractions and large numbers; null passes for non-null custom scalars; int64 passes
for Int but arrives as a string; an optional string passes for `ID!`.

**Configuration transformers.** Tree shaking removes implementers of a used interface and the subscription type; a union reached in two ways is rejected as
recursive; renaming onto an existing name or swapping names destroys a type; union members are renamed twice; the subscription type is not renamed; a type that is both query and mutation is
renamed as query only; an existing `PInput` is overwritten when `P` is split; an enum argument of an ambiguous type's field is renamed to an undeclared `EInput`;
implementing types are not considered when splitting.

**Composed validations.** After a failure later checks run on the initial state and report errors of their own; the nesting of `and` changes the errors; transformers stop at the
first failure.

**Selections for GraphQL upstreams.** Cached fields and interface fields with their own resolver are also asked of the parent's upstream; a renamed interface field is
asked by its new name; variables are sent undeclared; `{{x}}` in a client's string is replaced by the variable; string variables in directives are not
escaped; fragments on unions lose their conditions; objects can be left without selection; aliases with different arguments conflict.  Fields with several
resolvers use a fallback that misses aliases and the second field of a type.

**Checks on templates.** A URL may use a path through a list, a field that has its own resolver, a path into an argument that does not exist, a nullable argument with a
default, or a sibling of a root field: none of them has a value when the request is sent.  With `select` nothing is checked, headers and bodies of HTTP calls
never are.  Query parameters may use paths through lists and into scalars.

**Calls.** Cyclic calls overflow the stack when the configuration is read; a non-null argument must be given although it has a default, and defaults of other arguments are
not filled in; the names `Query` and `Mutation` are fixed; a mutation that is called from a query is deduplicated like a query.

**Generated types.** Every number becomes `Int`, also fractions and integers beyond 32 bits; an array in an array gets the type of a flat one; items that disagree get the
type of the first; objects inside the items of an array keep only the fields of the first item; a field that is an empty object in the first item gets the type of a
later one; and the argument for a body that is an array is not a list.

**Documents.** Configurations lose parts when they are written as documents: telemetry, the arguments of interface fields, `@modify` on arguments, `@discriminate`, the
documentation of unions, directives other than those of federation, and everything of types without fields but the name. An unset `verifySSL` is read back as true, so that a
file that was written and read turns the verification on again when it is merged after one that turns it off; an empty `vary` is read as three headers. Reading drops parts of
documents without an error: `extend type` and second definitions replace the first, second schema definitions are ignored, of several `@server` the last counts even if an earlier
one cannot be read, unknown directives are dropped, and so are unknown arguments of `@protected`, `@call`, `@js` and `@alias`: `@protected(ids: ["a"])` is read as `@protected`.

**N + 1 report.** It does not look at members of unions, at types that implement interfaces, or at mutations; it stops at the first offending field of a chain;
with cycles it loses chains, because the result for a type is cached while a type above it is still being searched (each offending field is still the end of some reported path,
C92); and it reports `@expr` and `@js` fields, which call nothing.

**Unused definitions.** The types of the arguments of an interface's fields, and the interfaces it implements, are not counted as used; if no object repeats them they are dropped
and the blueprint is refused with an unknown type. A type whose name is a value of a used enum is kept.

**Unions in arguments.** An argument `[U]` becomes `[A]` in one field and `[B]` in another, so a list with values of both members is accepted by none. Types that contain
themselves keep their unions inside the copies. Copies are named `{type}__{field}{i}` and `{field}Var{i}` without a look at existing names, which they overwrite or are overwritten by.

**Federation.** The key of an entity is read from the first step of a call only, so a path that a later step reads may be missing from the key. Names of parameters, headers and
arguments are searched for templates though they are not rendered. Only the URL and the parameters of an http resolver are checked against the types. A field that is read as a whole
appears in the key without a selection, or, if an inner field is read as well, with that inner field only; a template with the whole representation asks for no key. Types named
`_Service` and `_Any` and a union named `_Entity` are overwritten, and a query type named `_Any` is left without `_service`.

**Refinement of generated configurations.** When the comparison of two types meets a pair of types for the second time, the types around are taken as similar at once, so types without any
field in common are merged even at the threshold one. Lists are compared only for scalars and equal types; of merged fields the last one decides about null, the depth of lists, arguments and
the resolver. A query and a mutation type that are alike are merged, and the schema then names types that do not exist. Merging a configuration with a type `GEN__M1` overwrites it. Better names
of types may be those of enums, unions and scalars.

**Added fields and missing resolvers.** The path of an added field may have a name that does not exist if the next one does, may go on after a scalar, and may have indices where there is no list;
the value is then null. A name after a field with a resolver is looked for in the type that has the field first, so the added field may have the type of a field that has nothing to do with its
value. A path that ends at a list of objects gives a list of lists, one that ends at a list after an index gives no list, and one that ends at an enum or a union is refused, although the
flattening of query fields makes such paths. An empty path panics. Protection of fields further down the path is not looked at, so an added field gives protected data to everyone; protection
of the first field makes the value null if the field has no resolver. A field whose type is a scalar of the configuration passes the check for missing resolvers, and its value is replaced by an empty object; so is a
list of objects that have resolvers only.

**Configurations from protobuf.** Names with two underscores in a row, or with one at the end, may meet those of other messages, and a nested message named `Var`, `Var0` or `Interface` meets what is
generated for oneofs. A message that has the name of a scalar and is in no package replaces the scalar. The types `fixed32` and `fixed64` become `Int` and `Int64`, which lack the upper half of
their values. A comment on the value of an enum becomes a part of the name of the variant. A file without source information gets the comments of the file before it. The methods of a file
without a package cannot be called over gRPC: the name is taken apart into three parts, and there are two.

**Hooks.** A request that goes through `onRequest` unchanged is not always the same: repeated query parameters and headers lose all values but the last, an encoded `&` or `#` in a value becomes a
separator (so a value of a client may add a parameter), credentials of the URL and bytes that are no text are lost, and the value for batching in the body is dropped. An exception in `onRequest`
is ignored and the request is sent, so a hook that throws to forbid a request forbids nothing. A redirect keeps the host and takes the whole location as a path, has no limit, and runs
`onResponse` once for each redirect. Deduplication does not look at hooks: two fields with the same request and different hooks get the same value.

**Samples.** The directive generated from a sample cannot always give the sample again: the whole URL is decoded after the placeholders have been set, so an escaped `/`, `?` or `#` changes the path,
escaped braces become a template, and an escape that is no UTF-8 is a panic. `/007` becomes an `Int`, whose text is `7`, and a number that does not fit into an `Int` is one too. A UUID that starts with
eight digits is taken for a number with something after it. `ids=1,2` is a list that is sent as `ids=1&ids=2`; parameters like `user_id` and `userId` share one argument; and for `ids[]` the placeholder
is no template and is sent as it stands.

**Reading configurations.** Links of a linked configuration are not followed, of several links to operations only the last counts, and of several files the settings of all but the first and the scripts of
all but the last are dropped. Proto files are known by the text of the import: two linked files that import a `common.proto` of their own directory share one of the two, and a file that is linked and also
imported is there twice under two names unless the configuration is in the working directory. An import whose name starts with `http` is not looked for in the proto paths. In texts, `{{ .env.X }}` with
a space is not filled in, and `{{.env}}` is a panic. The cache of the reader is looked up by a hash and filled by the path (src/core/resource_reader.rs:203-219), so it never has what is asked for; this
changes no result and is not modelled.

**gRPC.** The status in the trailers of an answer, which is where the protocol has it unless there is no body, is never read: a call that fails after its first bytes has a value, and one that fails
without a body is an error without code and message. The length and the compression flag of an answer are ignored. Batch keys that are enums or booleans never match, a key whose name has an underscore
cannot be written, and a service without a package cannot be named. The check of batch keys compares in the wrong direction, so it accepts types that the answer does not fit, and refuses every field that can be null;
it looks for all parts of the path in the answer itself and never checks the key.

**Introspection.** Descriptions of arguments, enum values, interfaces and unions, and arguments and interfaces of interfaces, are in the definitions but never reach the schema that clients ask about. A scalar
of tailcall that only arguments have is not registered, so that such a configuration is refused. Questions about the schema in fragments are silently not answered, and beside a question about
the schema an answer that has to be null is replaced by one in which a field that must not be null is null.

**Printed schemas.** Not printed are: directives of scalars, interfaces and arguments, descriptions of interfaces, unions and arguments, directive arguments that are `null`, and a schema without query and mutation
together with its `@server`, `@upstream` and `@link`. Printed in a way that cannot be read or that says something else are: an input field with directives and a default value (the default comes
last), a type without fields, an extension, and a description with three quotes or several lines.

**Configurations in files.** A configuration whose query is not set loses all its settings when it is written to a file. A field that is always `null` is written as `@expr`, which cannot be read, and so is an input
field that is renamed and has a default value. The descriptions of arguments are lost.

**Scalars.** Fields of the types Int, Float, String, Boolean and ID accept every value; so does `Empty`. `Date` accepts only times, and no date. A number of more than 32 bits must be a text, though its
documentation calls it an integer. `-0` is refused for types without a sign.

**Batching.** With a batch delay of zero, which is documented as no batching, GraphQL and gRPC calls still go through data loaders. HTTP calls of mutations go through them too if batching is on, so that equal calls are made once.
The calls of interface fields have no loader: with batch settings, a GraphQL or gRPC call of such a field panics. The batch key of a gRPC call is accepted without batch settings and then ignored.

**Subgraphs.** The published schema of a subgraph has no descriptions, and no directives of interfaces and input fields: an interface marked `@inaccessible` is published as accessible. The default of an argument of an enum type is
published as a string. With federation on, a query field that is renamed by `@modify` or added by `@addField` makes the whole configuration invalid ("field not found"), because fields of the blueprint are looked up in the configuration by their new name.

**Lambda, Cloudflare and the showcase.** On Lambda no request that is handled has a query, whatever the client sent; ports are lost, and methods other than the nine of HTTP panic. A Cloudflare worker keeps the context of the configuration that was used
last and does not notice that it has changed, serves no REST endpoints, and stores cached values in the syntax of GraphQL but reads them as JSON, so that a field with `@cache` whose value is an object fails from the second request on; `maxAge` is
taken as seconds. The showcase refuses paths, but a configuration on the web can link to files of the server by absolute paths and can mention variables of its environment.

**Reports of errors.** A cause whose text is empty makes the report panic, because its bullet overwrites two characters that are not there. A validation error that comes as an `anyhow::Error` is shown without descriptions, though the same error with
fixed messages is shown with them, and of a chain of sources only the first is shown.

**Settings.** A server for HTTP/2 without certificate reports that and nothing else, whatever else is wrong. Certificates and keys are ignored unless `version` is given, and the server then speaks plain HTTP. `globalResponseTimeout` is an
extension of the schema of async-graphql, which only REST endpoints run, so it does not limit GraphQL requests. `workers: 0` is accepted and panics.

**GenCmd.** The link to a proto file is computed from names: when the output directory is a symbolic link and the output does not exist yet, or the output is an absolute path with `..`, it leads elsewhere. Import paths of a proto file are
not written into its link. Links of a configuration among the inputs are copied as they are, although they are relative to that configuration. The format of the output is checked last, after all requests, also those that change something.

**Cli.** `init` takes any failure to read `.graphqlrc.yml` for its absence, so one that is not UTF-8 is replaced without a question. A `schema` that is one text is dropped from it, and each run appends the schemas again. A no to the
creation of the folder does not end `init`, which then fails at the first file. `TC_TRACKER=false` does not count when `TAILCALL_TRACKER` is set; an event that the first collector does not take never reaches the second.

**Reflect.** The body of a question of reflection is a template that contains the name the server has given, so a server that lists a service `{{.env.KEY}}` is told the variable `KEY` of the environment. A header whose value has a
control character (a token with a line break at its end) is left out without an error, `{{.env}}` panics, and of several files in an answer the first is taken for the one that was asked for.

**Cmd.** `check` does not look at the number of workers (zero panics at the start) or at whether the key fits the certificate, and it writes "Endpoint … ok" and "Config … ok" before the endpoints are checked. The warning about
outdated files is given once for each configuration in a folder, and says "are" also for one file, since the length of the text with the names is taken for the number of files.

## Axioms of every theorem

### No axioms (3)

* `Verif.Mustache`: C13_render
* `Verif.Ir`: C55_violated_by_overlap
* `Verif.Fold`: C56_part

### propext (40)

* `Verif.DataLoader`: C08_violated_by_load_many, C09_answer_final, C10_answer_cached
* `Verif.Added`: C104_violated_by_empty_path
* `Verif.Mustache`: C11_lone_quote_counterexample, C12_violated_by_quote, C13_render_partial_mode, C13_modes_agree
* `Verif.Hook`: C116_js
* `Verif.Grpc`: C128_violated_by_single
* `Verif.Scalar`: C135_denotes, C136_violated_by_date, C136_violated_by_empty
* `Verif.Loaders`: C137_own_partial, C137_loader_partial, C137_same, C138_off, C138_mutation_partial, C138_safe_partial, C138_violated_by_zero_delay, C138_violated_by_grpc_key
* `Verif.Edge`: C141_response, C142_violated_by_change
* `Verif.Cmd`: C155_check
* `Verif.Merge`: C24_value_leaves, C24_values_violated_by_list_and_scalars, C24_null_left, C24_yaml_leaves
* `Verif.Federation`: C26_roots_kept_partial
* `Verif.Rest`: C30_body_bound
* `Verif.Ir`: C43_planner_leaves_none
* `Verif.Transform`: C50_violated_by_implementing_type, C51_violated_by_diamond, C53_violated_by_union_chain, C53_violated_by_subscription, C53_violated_by_shared_operation_type
* `Verif.Fold`: C56_violated_by_reset_state, C56_violated_by_nesting
* `Verif.Front`: C77_violated_by_backslash
* `Verif.Schema`: C79_violated_by_recursive_message

### Quot.sound, propext (129)

* `Verif.Dedupe`: C01_single_flight, C01_others_wait, C02_genuine_result, C03_no_lost_wakeup, C03_can_always_finish, C04_persist_same_value, C04_persist_immediate, C05_fresh_when_idle, C05_no_stale_result
* `Verif.DataLoader`: C07_batch_answers_all, C08_batch_size_load_one_partial, C08_batch_size_load_many_partial, C08_queue_below_max, C10_stays_cached
* `Verif.Refine`: C102_path, C103_best, C103_distinct
* `Verif.Added`: C104_nullable, C104_accepted_partial, C104_type_partial, C104_refused_partial, C105_safe_partial, C105_source, C106_query, C106_mutation, C106_empty_object
* `Verif.Mustache`: C11_reparse_stable, C11_parse_print, C11_print_injective, C12_plain_text_verbatim_partial, C12_isConst_iff, C57_two_stage_partial
* `Verif.Proto`: C111_called_partial, C111_violated_by_no_package
* `Verif.Grpc`: C124_sent_partial, C124_violated_by_length, C127_read, C127_found, C128_lists_partial, C128_violated_by_nullable
* `Verif.Doc`: C133_lines, C133_width
* `Verif.Scalar`: C135_numbers
* `Verif.Loaders`: C138_keys, C138_settings
* `Verif.Service`: C140_entities
* `Verif.Edge`: C142_named, C142_fresh_partial, C142_answered
* `Verif.Settings`: C147_workers, C148_reference
* `Verif.GenCmd`: C149_sources_partial, C149_urls, C149_configs, C150_done, C150_asked, C150_requests
* `Verif.Cmd`: C155_schema, C155_ok_partial
* `Verif.HttpKey`: C19_same_parts_partial, C19_grpc_same_parts_partial, C62_literal_partial
* `Verif.Merge`: C24_index_map_associative, C24_index_map_order, C24_last_file_wins, C24_last_nested_setting_wins, C24_last_field_definition_wins, C24_last_variable_wins, C24_variables_listed_once, C24_allowed_headers_united, C24_members_united, C24_type_settings, C24_extensions_settings, C24_lists_concatenated, C24_resolvers_kept, C24_silence_violated_by_verify_ssl, C24_values_associative_partial, C24_yaml_associative_partial, C24_yaml_entries
* `Verif.Federation`: C25_type_merge_commutes, C25_type_merge_associates, C25_type_merge_idempotent, C25_merged_wrapping, C25_object_merge_commutes, C25_enum_merge_commutes, C64_violated_by_any_shared_scalar
* `Verif.Server`: C32_plan_of_same_text, C32_operation_asked_for, C32_own_plan_partial, C33_source_of_response, C33_only_same_headers_partial, C34_answered_alone_partial, C34_batch_in_order, C41_mutation_executed_partial, C68_shared_calls_partial, C68_min_age, C72_response_is_fresh
* `Verif.Input`: C39_violated_by_unknown_argument
* `Verif.Ir`: C43_planner_collects, C55_field_age
* `Verif.Auth`: C44_basic_iff, C67_unknown_id_rejected
* `Verif.Front`: C45_only_allowed, C45_all_allowed_partial, C76_batch_body, C77_raw_document_partial, C77_violated_by_escape
* `Verif.Schema`: C49_reflexive, C49_required_partial, C49_required_for_optional
* `Verif.Transform`: C50_terminates, C50_violated_by_subscription, C51_exact, C51_flat, C51_recursive_rejected, C51_errors, C52_terminates, C52_violated_by_existing_input_type, C52_violated_by_enum_argument, C52_violated_by_implementing_type, C53_operations_partial, C53_violated_by_existing_name, C53_violated_by_swap
* `Verif.Fold`: C56_succeeds_iff, C56_all_errors_partial, C56_list_errors_partial, C56_first_errors, C56_transformers, C56_violated_by_transformers

### Classical.choice, Quot.sound, propext (767)

* `Verif.Dedupe`: C04_persist_computes_once
* `Verif.DataLoader`: C06_answer_exact, C06_error_exact, C07_never_stranded, C07_can_always_finish, C09_batch_keys, C09_one_batch_per_caller, C10_hit_is_immediate, C10_miss_waits, C10_cached_is_genuine
* `Verif.Refine`: C100_ends, C100_merged, C100_closed, C100_idempotent, C100_uses, C100_complete, C100_query_violated_by_merging, C100_kept_violated_by_name, C101_paths_partial, C101_lists_partial, C101_strict_partial, C101_paths_violated_by_second_meeting, C101_lists_violated_by_other_type, C101_null_violated_by_other_field, C101_lists_violated_by_depth, C101_resolver_violated_by_other_field, C101_paths_violated_by_threshold, C103_kept, C103_content_partial, C103_scalars_partial, C103_violated_by_enum, C103_violated_by_scalar
* `Verif.Added`: C104_violated_by_skipped_name, C104_violated_by_scalar, C104_violated_by_index, C104_violated_by_name_outside, C104_violated_by_list_of_objects, C104_violated_by_list_after_index, C104_violated_by_enum, C104_violated_by_same_name, C105_within_partial, C105_resolved_partial, C105_violated_by_list, C105_violated_by_modify, C105_violated_by_protected, C106_violated_by_scalar, C106_violated_by_scalar_query, C106_violated_by_list, C107_first_partial, C107_anonymous_partial, C107_violated_by_field_below
* `Verif.Proto`: C108_reference, C108_distinct, C108_defined_partial, C108_enum_partial, C108_violated_by_underscores, C108_violated_by_scalar, C108_violated_by_reserved, C108_violated_by_comment, C109_fields_partial, C109_closed_partial, C109_scalar_partial, C109_violated_by_fixed32, C109_violated_by_fixed64, C109_total, C110_union_partial, C110_plain_partial, C111_method_partial, C111_empty_partial, C111_body, C111_connect, C112_message_partial, C112_others_partial, C112_violated_by_missing_info
* `Verif.Hook`: C113_identity_partial, C113_value_partial, C113_violated_by_repeated_parameter, C113_violated_by_order, C113_violated_by_encoded, C113_violated_by_repeated_header, C113_violated_by_credentials, C113_violated_by_binary, C113_violated_by_batching, C114_request_partial, C114_response, C114_refused, C114_no_hook, C114_redirect_partial, C114_violated_by_exception, C114_violated_by_no_script, C114_violated_by_other_host, C114_violated_by_endless_redirect, C114_violated_by_empty_response, C114_violated_by_header_of_redirect, C115_once_partial, C115_upstream, C115_violated_by_redirect, C116_once, C116_separate, C116_state, C117_own_partial, C117_shared, C117_violated_by_same_template
* `Verif.Sample`: C118_roundtrip_partial, C118_violated_by_escapes, C118_violated_by_question_marks, C118_violated_by_bytes, C118_violated_by_zeros, C118_violated_by_commas, C119_arguments_partial, C119_int_detected, C119_int_sound, C119_boolean_detected, C119_violated_by_large_numbers, C119_violated_by_mixed_values, C119_violated_by_names, C119_violated_by_brackets, C119_violated_by_uuids, C119_violated_by_words
* `Verif.Load`: C120_imports, C120_closed, C120_ends, C120_succeeds_iff, C120_reflection_partial, C120_violated_by_cycles, C120_violated_by_reflection_names, C120_violated_by_reflection_v1, C121_search_partial, C121_beside, C121_well_known, C121_url, C121_absolute, C121_violated_by_http_names, C121_violated_by_copies, C121_violated_by_urls, C122_collected, C122_latest, C122_valid_iff, C122_script_and_key, C122_configs, C122_protos, C122_missing, C122_violated_by_operations, C122_violated_by_nested_links, C122_violated_by_spellings, C122_violated_by_names, C123_one, C123_single, C123_files_partial, C123_environment_partial, C123_violated_by_settings, C123_violated_by_scripts, C123_violated_by_spaces, C123_violated_by_quotes, C123_violated_by_paths, C123_violated_by_env
* `Verif.Grpc`: C124_answer, C124_call_partial, C124_violated_by_compression, C124_violated_by_pieces, C124_violated_by_streams, C125_success_partial, C125_errors_partial, C125_transport, C125_violated_by_trailers, C125_violated_by_trailers_alone, C125_violated_by_bytes, C125_violated_by_codes, C125_violated_by_details, C126_sent_partial, C126_entries_partial, C126_number, C126_each, C126_violated_by_enums, C126_violated_by_booleans, C126_violated_by_names, C126_violated_by_lists, C127_text, C127_called, C127_violated_by_packages, C128_violated_by_direction, C128_violated_by_keys, C128_violated_by_depth
* `Verif.Introspect`: C129_true, C129_told_partial, C129_others, C129_violated_by_loss, C130_accepted_partial, C130_refused_partial, C130_violated_by_arguments, C130_violated_by_interfaces, C131_disabled, C131_merged_partial, C131_others, C131_violated_by_fragments, C131_violated_by_null, C131_violated_by_order
* `Verif.Doc`: C132_text_partial, C132_text_violated_by_default, C132_text_violated_by_scalar_directive, C132_text_violated_by_interface_description, C132_text_violated_by_interface_directive, C132_text_violated_by_union_description, C132_text_violated_by_argument_description, C132_text_violated_by_argument_directive, C132_text_violated_by_no_roots, C132_text_violated_by_null, C132_text_violated_by_no_fields, C132_text_violated_by_extension, C132_text_violated_by_quotes, C132_text_violated_by_lines, C132_text_violated_by_input_lines, C133_words_partial, C133_words_raw, C133_words_violated_by_lines, C134_file_partial, C134_file_violated_by_argument_description, C134_file_violated_by_null, C134_file_violated_by_no_query, C134_file_violated_by_default
* `Verif.Scalar`: C135_texts_partial, C135_violated_by_number, C135_violated_by_minus_zero, C136_found, C136_found_only, C136_values_partial, C136_others, C136_violated_by_builtin, C136_violated_by_list
* `Verif.Loaders`: C138_violated_by_interface, C138_on_partial, C138_zero_partial, C138_violated_by_mutation
* `Verif.Service`: C139_service_partial, C139_violated_by_descriptions, C139_violated_by_interface, C139_violated_by_input, C139_violated_by_enum_default, C140_kept, C140_off, C140_accepts_partial, C140_reported, C140_refuses, C140_violated_by_rename, C140_violated_by_added
* `Verif.HttpUrl`: C14_pairs_exact_partial, C14_rest_unchanged, C14_violated_by_ampersand_in_value, C14_violated_by_question_mark_in_path, C14_violated_by_plus, C14_violated_by_mixed_template, C14_violated_by_empty_base_value, C14_violated_by_encoded_base_value, C15_absent_is_omitted, C15_others_appear_in_order, C15_null_is_sent
* `Verif.Edge`: C141_lambda_partial, C141_lambda_no_query, C141_worker_partial, C141_worker_refuses, C141_violated_by_query, C141_violated_by_port, C141_violated_by_method, C141_violated_by_route, C141_violated_by_header, C142_none, C142_read, C142_no_endpoints, C142_violated_by_rest, C143_showcase_partial, C143_paths, C143_violated_by_link, C143_violated_by_env, C143_violated_by_scheme, C144_kept_partial, C144_others, C144_object_fails, C144_violated_by_object, C144_violated_by_enum, C144_violated_by_age
* `Verif.Report`: C145_shown_partial, C145_answered, C145_depth_partial, C145_single, C145_violated_by_blank, C145_violated_by_newline, C146_blueprint_partial, C146_static_partial, C146_config_partial, C146_other_partial, C146_evaluation, C146_grpc, C146_validation_partial, C146_server, C146_violated_by_description, C146_violated_by_chain, C146_violated_by_place
* `Verif.Settings`: C147_accepted, C147_reported, C147_all_partial, C147_given, C147_address, C147_headers, C147_cors, C147_vars, C147_script, C147_http2, C147_rest_limit, C147_violated_by_http2, C147_violated_by_certificate, C147_violated_by_timeout, C147_violated_by_workers, C148_traces, C148_otlp, C148_reported, C148_others
* `Verif.GenCmd`: C149_links_partial, C149_only_partial, C149_violated_by_symlink, C149_violated_by_dots, C149_violated_by_import_paths, C149_violated_by_config, C150_files, C150_writes, C150_preset, C150_no_terminal, C150_violated_by_format
* `Verif.Cli`: C151_files_partial, C151_done, C151_settings_partial, C151_new, C151_invalid, C151_folder, C151_violated_by_unreadable, C151_violated_by_single, C151_violated_by_twice, C151_violated_by_no, C152_out, C152_dev, C152_when, C152_each, C152_once, C152_most, C152_violated_by_first, C152_violated_by_both
* `Verif.Reflect`: C153_ask_partial, C153_sent, C153_url, C153_headers_partial, C153_bad_name, C153_env_partial, C153_violated_by_name, C153_violated_by_value, C153_violated_by_env, C154_services, C154_file, C154_served_partial, C154_link_partial, C154_violated_by_order
* `Verif.Cmd`: C155_serves_partial, C155_same_error, C155_launch, C155_npo, C155_endpoints, C155_violated_by_workers, C155_violated_by_key, C155_violated_by_ok, C156_warned, C156_once_partial, C156_violated_by_two
* `Verif.HttpKey`: C16_same_method_url_body, C16_identical_request_partial, C16_same_resolver, C16_kinds_disjoint, C16_violated_by_encoding, C16_violated_by_header_origin, C17_same_operation_partial, C17_violated_by_url, C17_violated_by_headers, C18_same_message_partial, C18_violated_by_headers, C19_same_resolver_partial, C19_violated_by_method, C19_violated_by_unlisted_header, C58_no_panic_partial, C58_panic_iff, C58_violated_http, C58_violated_grpc, C61_body_is_json_partial, C61_violated_by_apostrophe, C61_violated_by_non_ascii, C62_violated_by_quote
* `Verif.HttpBatch`: C20_own_items_partial, C20_in_order_partial, C20_all_or_error, C20_grpc_own_item_partial, C20_violated_by_large_ids, C21_merged_body_partial, C21_own_items_partial, C21_violated_by_empty_body, C22_merged_get, C22_ids, C22_configured_name, C23_positional, C59_headers_partial, C59_violated_http, C59_violated_graphql, C59_violated_grpc, C60_batch_is_alone_partial, C60_violated_by_other_params, C63_failed_call_partial, C63_violated_by_error_object
* `Verif.Merge`: C24_config_associative, C24_extensions_associative, C24_empty_is_identity_partial, C24_identity_violated_by_variable_order, C24_silence_violated_by_batch, C24_object_entries, C24_values_violated_by_null_between_objects, C24_identity_violated_by_null_right, C24_yaml_violated_by_mapping_then_sequence, C24_yaml_violated_by_tags
* `Verif.Federation`: C25_incompatible_shapes_rejected, C25_violated_by_default_values, C26_subgraph_output_legal_in_merge_partial, C26_subgraph_response_legal_in_merge_partial, C26_violated_by_scalar_and_object, C26_violated_by_unreached_implementer, C26_violated_by_root_names, C27_merged_input_accepted_by_both_partial, C27_merged_input_value_partial, C27_violated_by_disjoint_input_types, C27_violated_by_input_unions, C64_identical_subgraphs_merge_partial, C64_violated_by_shared_scalar
* `Verif.Rest`: C28_path_matching_partial, C28_segments, C28_pattern_parsed, C28_method_must_match, C28_request_served_partial, C28_shorter_paths_match_prefix, C28_violated_by_short_paths, C28_violated_by_percent_encoding, C28_violated_by_replaced_prefix, C29_first_match_wins_partial, C29_endpoints_in_visiting_order, C29_violated_by_operation_order, C29_violated_by_several_documents, C30_query_parameters_bound_partial, C30_variables_of_request, C30_parameters_parsed_partial, C30_violated_by_dropped_query, C30_violated_by_parameter_name, C65_configured_routes_served_partial, C65_only_configured_route, C65_violated_by_api_routes
* `Verif.Plan`: C31_kept_iff_allowed_partial, C31_executed_fields_partial, C31_violated_by_skip_and_include, C31_violated_by_literal_include, C31_violated_by_fragment_directives, C31_violated_by_defaults, C66_violated_by_repeated_field, C66_violated_by_fragment_field, C66_violated_by_skipped_field, C66_violated_by_recursive_fragment
* `Verif.Server`: C32_violated_by_operation_name, C32_violated_by_unknown_name, C33_same_credentials_partial, C33_constant_answer_partial, C33_violated_by_mixed_plan, C33_violated_by_variables, C34_violated_by_shared_id, C35_single_id_partial, C35_headers_and_operation, C35_violated_by_key, C41_violated_by_operation_name, C68_violated_by_nested_call, C68_violated_by_enum_mapping
* `Verif.Exec`: C36_calls_in_order, C36_result_of_each_item, C36_fails_with_first_error, C37_answers_as_reference, C37_success_is_reference, C37_reference_when_resolved, C37_response_is_reference_partial, C38_null_and_list_rules_partial, C37_violated_by_alias, C37_violated_by_alias_panic, C38_resolver_field, C38_named_field, C38_violated_by_plain_list, C38_violated_by_single_value, C38_violated_by_list_for_single, C38_violated_by_nested_list, C38_violated_by_scalar_list, C40_const_plan_partial, C40_violated_by_variables, C43_plan_calls_only_open, C43_plan_rejected_partial, C43_violated_by_unreached_guard, C69_typed_data_answered_partial, C69_violated_by_null_list, C69_violated_by_scalar_list, C69_violated_by_enum_list, C69_violated_by_nested_list, C70_no_call_for_other_types_partial, C70_violated_by_single_object, C71_violated_by_earlier_field, C71_violated_by_resolver_error
* `Verif.Input`: C39_argument_partial, C39_rejected_partial, C39_accepted_partial, C39_terminates_partial, C39_operation_partial, C39_operation_rejected_partial, C39_operation_accepted_partial, C39_plan_arguments, C39_violated_by_recursive_default, C39_violated_by_omitted_variable, C39_violated_by_null_scalar_item, C39_violated_by_null_object_item, C39_violated_by_nullable_object_item, C39_violated_by_null_default, C39_violated_by_scalar_for_object
* `Verif.Ir`: C40_const_has_one_result_partial, C40_violated_by_entity, C40_violated_by_guard, C41_mutation_ignores_dedupe, C41_mutation_calls, C41_violated_by_cached_mutation, C43_no_call_under_failing_guard, C43_failing_guard_yields_no_data, C43_planner_preserves, C54_resolved, C54_total, C54_member_partial, C54_list_length, C54_entity_items, C54_violated_by_upstream_typename, C55_hit_is_fresh, C55_stored_is_found, C55_served_without_call, C55_recomputed, C55_answer_or_compute, C55_overlapping, C55_violated_by_shared_key
* `Verif.Auth`: C42_boolean, C42_or_failure, C42_and_failure, C42_no_header, C42_failure_is_a_providers, C44_accepted_iff, C44_unknown_kid, C44_kid_required, C44_claims_checked_violated_by_config, C67_guard_partial, C67_guarded_iff_protected, C67_every_linked_file, C67_output_type_ids_violated_by_field_ids, C67_all_providers_violated_by_field_ids, C67_mixed_providers_reject_all
* `Verif.Front`: C45_blueprint_partial, C45_upstream_request, C45_violated_by_repeated_header, C45_violated_by_forced_authorization, C46_credentials_only_listed, C46_no_wildcard_only_listed, C46_listed_granted, C46_credentials_and_preflight, C46_accepted_with_credentials, C46_without_configuration, C46_violated_by_custom_header, C46_violated_by_joined_wildcard, C47_max_age_partial, C47_max_age_attained, C47_private, C47_no_cache_partial, C47_order_independent, C47_no_header, C47_violated_by_truncated_age, C47_violated_by_no_store, C47_violated_by_zero_age, C48_order_independent, C48_conservative_partial, C48_batch_like_single, C48_violated_by_zero_age, C73_joined_says_nothing_partial, C73_violated_by_joining, C74_only_configured, C74_experimental_value, C74_static_partial, C74_violated_by_experimental_header, C75_single_cookie_partial, C75_violated_by_two_responses, C75_violated_by_two_cookies, C76_serialised_batch
* `Verif.Schema`: C49_transitive, C49_sound_partial, C49_failures_partial, C49_violated_by_any_member, C78_errors_exact, C78_values_accepted_partial, C78_accepted_partial, C78_terminates_partial, C78_deterministic, C78_violated_by_recursive_type, C78_violated_by_declared_scalar, C78_violated_by_enum, C78_violated_by_union, C78_violated_by_scalars, C79_response_partial, C79_failures_partial, C79_violated_by_int64, C79_violated_by_optional_id
* `Verif.Transform`: C50_exact, C50_idempotent, C51_rejected_iff_partial, C51_terminates, C52_content_partial, C52_separated_partial, C52_references_partial, C53_content_partial, C53_errors_partial
* `Verif.Mustache`: C57_violated_by_braces_in_value
* `Verif.Gql`: C80_asked_partial, C80_sent_partial, C80_violated_by_cache, C80_violated_by_interface_resolver, C80_violated_by_renamed_interface, C80_violated_by_variable_argument, C80_violated_by_mustache_string, C80_violated_by_variable_directive, C80_violated_by_union, C80_violated_by_bare_object, C80_violated_by_alias, C81_every_call_asks_partial, C81_only_own, C81_violated_by_several_resolvers, C81_violated_by_alias_in_fallback, C81_violated_by_second_field_in_fallback
* `Verif.Tmpl`: C82_url_complete_partial, C82_argument_given_partial, C82_violated_by_list, C82_violated_by_own_resolver, C82_violated_by_argument_path, C82_violated_by_explicit_null, C82_violated_by_select, C82_violated_by_headers_and_body, C82_violated_by_root, C83_no_object_partial, C83_violated_by_list, C83_violated_by_path_into_scalar
* `Verif.Call`: C84_meaning_partial, C84_accepts_partial, C84_violated_by_default, C84_violated_by_default_not_filled, C84_violated_by_query_type, C84_violated_by_mutation_in_query, C85_ends_iff_partial, C85_depth_irrelevant, C85_violated_by_cycle, C86_protection_kept
* `Verif.Gen`: C87_sample_fits_partial, C87_types_kept, C87_names_allowed, C87_objects_told, C87_violated_by_fraction, C87_violated_by_large_number, C87_violated_by_missing_keys, C87_violated_by_disagreement, C87_violated_by_nested_arrays, C87_violated_by_open_type, C88_body_fits_partial, C88_violated_by_array
* `Verif.Sdl`: C89_round_trip_partial, C89_stable, C89_faithful, C89_violated_by_telemetry, C89_violated_by_interface_arguments, C89_violated_by_scalar, C89_violated_by_modified_argument, C89_violated_by_discriminate, C89_violated_by_input, C89_violated_by_other_directive, C89_violated_by_union_doc, C89_violated_by_verify_ssl, C90_resolvers_partial, C90_modifiers_partial, C90_settings_partial, C90_unknown_refused_partial, C90_order_irrelevant, C90_violated_by_unknown_argument, C90_violated_by_empty_vary, C90_violated_by_null_body, C90_violated_by_jit, C91_types_read_partial, C91_nothing_else, C91_schema_read_partial, C91_violated_by_extend, C91_violated_by_duplicate, C91_violated_by_unknown_directive, C91_violated_by_second_schema, C91_violated_by_second_server, C91_violated_by_argument_directive, C91_violated_by_kind, C91_violated_by_scalar
* `Verif.Npo`: C92_search_ends, C92_reported_paths_are_real, C92_first_offences_are_reported, C92_entities_are_reported, C92_silent_iff, C92_bound_is_enough, C92_printed_paths_differ, C92_one_line_each, C93_silent_means_none_partial, C93_all_chains_listed_partial, C93_violated_by_unions, C93_violated_by_interfaces, C93_violated_by_mutations, C93_violated_by_expressions, C93_violated_by_cycles, C93_violated_behind_the_first
* `Verif.Prune`: C94_ends_and_keeps_order, C94_needed_is_kept_partial, C94_nothing_dangles_partial, C94_kept_is_needed_partial, C94_idempotent, C94_violated_by_interface_arguments, C94_violated_by_enum_values
* `Verif.UnionIn`: C95_ends, C95_kept, C95_sound, C95_covered_partial, C95_untouched, C95_covered_violated_by_list, C95_covered_violated_by_name, C95_covered_violated_by_empty_union, C95_sound_violated_by_type_name, C96_no_union_left_partial, C96_no_union_left_violated_by_cycle
* `Verif.Subgraph`: C97_covers_partial, C97_minimal_partial, C97_key_once, C97_refused, C97_args_refused, C97_fields_exist, C97_covers_violated_by_second_step, C97_minimal_violated_by_name, C97_fields_exist_violated_by_header, C97_key_violated_by_object_leaf, C98_key_enough_partial, C98_no_key_partial, C98_http_url_partial, C98_violated_by_inner_path, C98_violated_by_whole, C99_disabled, C99_accepted_iff, C99_type_kept, C99_no_other_types, C99_query_fields, C99_entity_union, C99_added_types, C99_idempotent_partial, C99_kept_violated_by_any, C99_kept_violated_by_union, C99_service_violated_by_query_name

