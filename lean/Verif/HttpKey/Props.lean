import Verif.HttpKey.Lemmas

set_option linter.unusedSimpArgs false

/-!
# C16-C19, C58, C61, C62: keys of upstream requests and GraphQL upstream bodies
-/

namespace Verif.HttpKey
open Verif.Mustache (Text Template Seg)
open Verif.HttpUrl

/-! ## C16: HTTP -/

section C16
variable (norm form : Text → Option Text)

/-- **C16 (method, URL, body).** Two evaluations of *any* two HTTP resolvers with the same key send
requests with the same method and URL, and (unless the body encodings differ) the same body. -/
theorem C16_same_method_url_body (t t' : ReqTemplate) (c c' : RCtx) (k : List Tok) (r r' : HttpReq)
    (hk : cacheKey norm t c = some k) (hk' : cacheKey norm t' c' = some k)
    (hr : toRequest norm form t c = some r) (hr' : toRequest norm form t' c' = some r') :
    r.method = r'.method ∧ r.url = r'.url ∧ (t.encoding = t'.encoding → r.body = r'.body) := by
  obtain ⟨u, hu, he⟩ := cacheKey_eq hk
  obtain ⟨u', hu', he'⟩ := cacheKey_eq hk'
  obtain ⟨hm, _, hb, huu⟩ := stream_inj (he.symm.trans he')
  unfold toRequest at hr hr'
  rw [hu] at hr
  rw [hu'] at hr'
  simp only [Option.map_eq_some_iff] at hr hr'
  obtain ⟨b, hb1, rfl⟩ := hr
  obtain ⟨b', hb1', rfl⟩ := hr'
  refine ⟨hm, huu, fun henc => ?_⟩
  unfold setBody at hb1 hb1'
  rw [henc] at hb1
  cases h1 : t.body <;> cases h2 : t'.body <;> rw [h1] at hb1 hb <;> rw [h2] at hb1' hb
  · simp_all
  · simp at hb
  · simp at hb
  · simp only [Option.map_some, Option.some.injEq] at hb
    simp only at hb1 hb1'
    rw [hb] at hb1
    exact Option.some.inj (hb1.symm.trans hb1')

/-- **C16 (partial).** Two evaluations with the same key, of resolvers with the same body encoding and
the same number of configured headers, would send identical requests (or both fail).

Missing from the full statement: the key covers neither the body encoding nor which headers come
from the resolver; see `C16_violated_by_encoding` and `C16_violated_by_header_origin`. -/
theorem C16_identical_request_partial (t t' : ReqTemplate) (c c' : RCtx) (k : List Tok)
    (hk : cacheKey norm t c = some k) (hk' : cacheKey norm t' c' = some k)
    (henc : t.encoding = t'.encoding) (hn : t.headers.length = t'.headers.length) :
    toRequest norm form t c = toRequest norm form t' c' := by
  obtain ⟨u, hu, he⟩ := cacheKey_eq hk
  obtain ⟨u', hu', he'⟩ := cacheKey_eq hk'
  obtain ⟨hm, hh, hb, huu⟩ := stream_inj (he.symm.trans he')
  obtain ⟨hh1, hh2⟩ := List.append_inj hh (by simp [rendered, hn])
  have hbody : setBody form t c = setBody form t' c' := by
    unfold setBody
    cases h1 : t.body <;> cases h2 : t'.body <;> simp_all
  unfold toRequest
  rw [hu, hu', hbody]
  have : setHeaders t c = setHeaders t' c' := by
    unfold setHeaders
    rw [hh1, hh2, hm, henc]
  rw [this, hm, huu]

/-- **C16 (one resolver).** Two evaluations of the *same* HTTP resolver, in any two contexts (users,
arguments, parents), that get the same key would send identical requests. -/
theorem C16_same_resolver (t : ReqTemplate) (c c' : RCtx) (k : List Tok)
    (hk : cacheKey norm t c = some k) (hk' : cacheKey norm t c' = some k) :
    toRequest norm form t c = toRequest norm form t c' :=
  C16_identical_request_partial norm form t t c c' k hk hk' rfl rfl

end C16

/-- The key of an HTTP resolver is never the key of a GraphQL or gRPC resolver. -/
theorem C16_kinds_disjoint (norm : Text → Option Text) (t : ReqTemplate) (c : RCtx) (g : GqlTemplate)
    (gc : GCtx) (p : GrpcTemplate) (pc : RCtx) :
    cacheKey norm t c ≠ some (gqlCacheKey g gc) ∧
    (∀ k, cacheKey norm t c = some k → grpcCacheKey norm p pc ≠ some k) ∧
    grpcCacheKey norm p pc ≠ some (gqlCacheKey g gc) := by
  refine ⟨fun h => ?_, fun k h h' => ?_, fun h => ?_⟩
  · obtain ⟨u, _, he⟩ := cacheKey_eq h
    have := congrArg List.length he
    simp [gqlCacheKey] at this
  · obtain ⟨u, _, he⟩ := cacheKey_eq h
    unfold grpcCacheKey at h'
    simp only [Option.map_eq_some_iff] at h'
    obtain ⟨r, _, hr⟩ := h'
    rw [he] at hr
    simp at hr
  · unfold grpcCacheKey at h
    simp only [Option.map_eq_some_iff] at h
    obtain ⟨r, _, hr⟩ := h
    simp [gqlCacheKey] at hr

section examples
/-- URLs without a host do not parse. -/
def normHost (t : Text) : Option Text := if t = "http://".toList then none else some t

/-- Example data for the concrete cases below. -/
def ctxWith (hs : List (Text × Text)) (id : String) : RCtx :=
  { raw := fun p => if p = ["args".toList, "id".toList] then some (.value false (.str id.toList)) else none
    json := fun _ => []
    headers := hs }

/-- `POST http://u/p` with body `{{.args.id}}` and header `x-a: {{.args.id}}`. -/
def post (e : BodyEnc) : ReqTemplate :=
  { root := [.lit "http://u/p".toList], query := [], method := "POST".toList
    headers := [("x-a".toList, [.expr ["args".toList, "id".toList]])]
    body := some [.expr ["args".toList, "id".toList]], encoding := e, encoder := .repeatedKey }

/-- The hypotheses of the C16 theorems are met by two contexts that differ in something the
resolver does not use. -/
example : ∃ k, cacheKey normHost (post .json) (ctxWith [("a".toList, "1".toList)] "7") = some k ∧
    cacheKey normHost (post .json)
      { ctxWith [("a".toList, "1".toList)] "7" with json := fun _ => "x".toList } = some k ∧
    k.length = 7 := ⟨_, rfl, rfl, by decide⟩

/-- Two resolvers that differ only in the body encoding share a key but send different bodies and
different content types. -/
theorem C16_violated_by_encoding :
    ∃ (form : Text → Option Text) (t t' : ReqTemplate) (c : RCtx) (k : List Tok) (r r' : HttpReq),
      cacheKey normHost t c = some k ∧ cacheKey normHost t' c = some k ∧
      toRequest normHost form t c = some r ∧ toRequest normHost form t' c = some r' ∧
      r.body ≠ r'.body ∧ r.headers contentType ≠ r'.headers contentType := by
  refine ⟨fun s => if s = "{\"a\":1}".toList then some "a=1".toList else some s, post .json, post .form,
    ctxWith [] "{\"a\":1}", _, _, _, rfl, rfl, rfl, rfl, ?_, ?_⟩
  · decide
  · decide

/-- A configured `content-type` header is overridden by the encoding, a forwarded client header is
not; the key does not tell them apart. -/
theorem C16_violated_by_header_origin :
    ∃ (t t' : ReqTemplate) (c c' : RCtx) (k : List Tok) (r r' : HttpReq),
      t.encoding = t'.encoding ∧
      cacheKey normHost t c = some k ∧ cacheKey normHost t' c' = some k ∧
      toRequest normHost some t c = some r ∧ toRequest normHost some t' c' = some r' ∧
      r.headers contentType ≠ r'.headers contentType := by
  refine ⟨{ post .json with headers := [(contentType, [.lit "text/plain".toList])] },
    { post .json with headers := [] }, ctxWith [] "7", ctxWith [(contentType, "text/plain".toList)] "7",
    _, _, _, rfl, rfl, rfl, rfl, rfl, ?_⟩
  decide
end examples

/-! ## C17: GraphQL upstream -/

/-- **C17 (partial).** The same key means the same operation text; and if URL, configured header values
and forwarded headers agree too, the same request.

Missing from the full statement: URL and headers are not covered by the key; see
`C17_violated_by_url` and `C17_violated_by_headers`. -/
theorem C17_same_operation_partial (norm : Text → Option Text) (t t' : GqlTemplate) (c c' : GCtx)
    (hk : gqlCacheKey t c = gqlCacheKey t' c') :
    (∀ r r', gqlRequest norm t c = some r → gqlRequest norm t' c' = some r' → r.body = r'.body) ∧
    (t.url = t'.url → rendered t.headers (fun m => renderG m c.gql) =
        rendered t'.headers (fun m => renderG m c'.gql) → c.headers = c'.headers →
      gqlRequest norm t c = gqlRequest norm t' c') := by
  have hq : renderQuery t c = renderQuery t' c' := by simpa [gqlCacheKey] using hk
  constructor
  · intro r r' h h'
    unfold gqlRequest at h h'
    simp only [Option.map_eq_some_iff] at h h'
    obtain ⟨_, _, rfl⟩ := h
    obtain ⟨_, _, rfl⟩ := h'
    simp [hq]
  · intro h1 h2 h3
    unfold gqlRequest
    rw [h1, h2, h3, hq]

/-- Example data for the concrete cases below. -/
def gqlT (url : String) (hs : List (Text × Template)) : GqlTemplate :=
  { url := url.toList, opType := "query".toList, opName := "user".toList
    args := some [("id".toList, [.expr ["args".toList, "id".toList]])]
    headers := hs, fixedSelection := none }

/-- A context where the argument `id` prints as `v`. -/
def gctx (v : String) (hs : List (Text × Text)) : GCtx :=
  { gql := fun p => if p = ["args".toList, "id".toList] then some v.toList else none
    headers := hs, directives := none, selection := "{ name }".toList }

/-- Two upstreams with the same operation share a key. -/
theorem C17_violated_by_url :
    ∃ (t t' : GqlTemplate) (c : GCtx) (r r' : HttpReq), gqlCacheKey t c = gqlCacheKey t' c ∧
      gqlRequest normHost t c = some r ∧ gqlRequest normHost t' c = some r' ∧ r.url ≠ r'.url := by
  refine ⟨gqlT "http://a/graphql" [], gqlT "http://b/graphql" [], gctx "1" [], _, _,
    by unfold gqlCacheKey renderQuery queryLiteral argsText gqlT; rfl, rfl, rfl, ?_⟩
  intro h
  have := congrArg (fun u => u.base) h
  revert this
  decide

/-- Two users with different forwarded credentials share a key. -/
theorem C17_violated_by_headers :
    ∃ (t : GqlTemplate) (c c' : GCtx) (r r' : HttpReq), gqlCacheKey t c = gqlCacheKey t c' ∧
      gqlRequest normHost t c = some r ∧ gqlRequest normHost t c' = some r' ∧
      r.headers "authorization".toList ≠ r'.headers "authorization".toList := by
  refine ⟨gqlT "http://a/graphql" [], gctx "1" [("authorization".toList, "alice".toList)],
    gctx "1" [("authorization".toList, "bob".toList)], _, _, rfl, rfl, rfl, ?_⟩
  decide

/-- The hypotheses of `C17_same_operation_partial` with different argument contexts. -/
example : gqlCacheKey (gqlT "http://a/graphql" []) (gctx "1" []) =
    gqlCacheKey (gqlT "http://a/graphql" []) { gctx "1" [] with directives := some [] } := rfl

/-! ## C18: gRPC -/

/-- **C18 (partial).** The same key means the same URL (which contains service and method) and the same
message text; and if operation, configured header values and forwarded headers agree too, the same request.

Missing from the full statement: headers (metadata) are not covered by the key; see
`C18_violated_by_headers`. -/
theorem C18_same_message_partial (norm : Text → Option Text) (t t' : GrpcTemplate) (c c' : RCtx)
    (k : List Tok) (r r' : GrpcRendered)
    (hk : grpcCacheKey norm t c = some k) (hk' : grpcCacheKey norm t' c' = some k)
    (hr : grpcRender norm t c = some r) (hr' : grpcRender norm t' c' = some r') :
    r.url = r'.url ∧ r.body = r'.body ∧
    (t.op = t'.op → rendered t.headers (fun m => Verif.Mustache.render m c.str) =
        rendered t'.headers (fun m => Verif.Mustache.render m c'.str) → c.headers = c'.headers →
      r = r') := by
  unfold grpcCacheKey at hk hk'
  rw [hr] at hk
  rw [hr'] at hk'
  simp only [Option.map_some, Option.some.injEq] at hk hk'
  have h := hk.trans hk'.symm
  simp only [List.cons.injEq, Tok.url.injEq, Tok.txt.injEq, and_true] at h
  refine ⟨h.1, h.2, fun h1 h2 h3 => ?_⟩
  unfold grpcRender at hr hr'
  simp only [Option.map_eq_some_iff] at hr hr'
  obtain ⟨u, _, rfl⟩ := hr
  obtain ⟨u', _, rfl⟩ := hr'
  obtain ⟨hu, hb⟩ := h
  simp only at hu hb
  rw [h2, h3, h1, hu, hb]

/-- A gRPC resolver with the body `{{.args.id}}`. -/
def grpcT : GrpcTemplate :=
  { url := [.lit "http://a/svc/method".toList], headers := [],
    body := some [.expr ["args".toList, "id".toList]], op := "pkg.Svc.method".toList }

/-- Two users with different forwarded credentials share a key. -/
theorem C18_violated_by_headers :
    ∃ (t : GrpcTemplate) (c c' : RCtx) (k : List Tok) (r r' : GrpcRendered),
      grpcCacheKey normHost t c = some k ∧ grpcCacheKey normHost t c' = some k ∧
      grpcRender normHost t c = some r ∧ grpcRender normHost t c' = some r' ∧
      r.headers "authorization".toList ≠ r'.headers "authorization".toList := by
  refine ⟨grpcT, ctxWith [("authorization".toList, "alice".toList)] "7",
    ctxWith [("authorization".toList, "bob".toList)] "7", _, _, _, rfl, rfl, rfl, rfl, ?_⟩
  decide

/-- The hypotheses of `C18_same_message_partial`: different messages have different keys. -/
example : ∃ k k', grpcCacheKey normHost grpcT (ctxWith [] "7") = some k ∧
    grpcCacheKey normHost grpcT (ctxWith [] "8") = some k' ∧ k ≠ k' := ⟨_, _, rfl, rfl, by decide⟩

/-! ## C19: keys of the data loader -/

/-- **C19 (partial).** Requests with the same data loader key have the same URL, the same body and the same
value (the first, if there are several) for each configured batching header.

Missing from the full statement: the method and further values of a header are not covered; see
`C19_violated_by_method`, `C19_violated_by_unlisted_header`. -/
theorem C19_same_parts_partial (r r' : DLReq) (hs : r.batchHeaders = r'.batchHeaders)
    (hn : r.batchHeaders.Nodup) (hk : r.key = r'.key) :
    r.req.url = r'.req.url ∧ r.req.body = r'.req.body ∧
    ∀ n ∈ r.batchHeaders, (r.req.headers n).head? = (r'.req.headers n).head? := by
  unfold DLReq.key at hk
  rw [← hs] at hk
  simp only [List.cons_append, List.nil_append, List.cons.injEq, Tok.url.injEq] at hk
  obtain ⟨hu, hk⟩ := hk
  obtain ⟨a, ha⟩ := headers_stream_even r.batchHeaders (fun n => (r.req.headers n).head?)
  obtain ⟨b, hb⟩ := headers_stream_even r.batchHeaders (fun n => (r'.req.headers n).head?)
  have hlen := congrArg List.length hk
  simp only [List.length_append] at hlen
  rw [ha, hb] at hlen
  cases h1 : r.req.body with
  | none =>
    cases h2 : r'.req.body with
    | none =>
      simp only [h1, h2, List.nil_append] at hk
      exact ⟨hu, rfl, headers_stream_inj _ hn _ _ hk⟩
    | some y => simp [h1, h2] at hlen; omega
  | some x =>
    cases h2 : r'.req.body with
    | none => simp [h1, h2] at hlen; omega
    | some y =>
      simp only [h1, h2, List.cons_append, List.nil_append, List.cons.injEq, Tok.txt.injEq] at hk
      exact ⟨hu, by rw [hk.1], headers_stream_inj _ hn _ _ hk.2⟩

/-- **C19 (one resolver).** A data loader serves one resolver.  If two of its requests have the same key,
they agree in method, URL, body and the first value of every batching header. -/
theorem C19_same_resolver_partial (norm form : Text → Option Text) (t : ReqTemplate) (c c' : RCtx)
    (r r' : HttpReq) (hs : List Text) (hn : hs.Nodup) (b b' : Option Text)
    (hr : toRequest norm form t c = some r) (hr' : toRequest norm form t c' = some r')
    (hk : (DLReq.mk r hs b).key = (DLReq.mk r' hs b').key) :
    r.method = r'.method ∧ r.url = r'.url ∧ r.body = r'.body ∧
    ∀ n ∈ hs, (r.headers n).head? = (r'.headers n).head? := by
  obtain ⟨h1, h2, h3⟩ := C19_same_parts_partial ⟨r, hs, b⟩ ⟨r', hs, b'⟩ rfl hn hk
  refine ⟨?_, h1, h2, h3⟩
  unfold toRequest at hr hr'
  split at hr
  · cases hr
  · split at hr'
    · cases hr'
    · simp only [Option.map_eq_some_iff] at hr hr'
      obtain ⟨_, _, rfl⟩ := hr
      obtain ⟨_, _, rfl⟩ := hr'
      rfl

/-- **C19 (gRPC).** Requests of a gRPC data loader with the same key have the same URL, message text and
first value of each batching header. -/
theorem C19_grpc_same_parts_partial (r r' : GrpcDLReq) (hs : r.batchHeaders = r'.batchHeaders)
    (hn : r.batchHeaders.Nodup) (hk : r.key = r'.key) :
    r.req.url = r'.req.url ∧ r.req.body = r'.req.body ∧
    ∀ n ∈ r.batchHeaders, (r.req.headers n).head? = (r'.req.headers n).head? := by
  unfold GrpcDLReq.key at hk
  rw [← hs] at hk
  simp only [List.cons_append, List.nil_append, List.cons.injEq, Tok.url.injEq, Tok.txt.injEq] at hk
  exact ⟨hk.1, hk.2.1, headers_stream_inj _ hn _ _ hk.2.2⟩

/-- The key ignores the method (a worker hook may change it). -/
theorem C19_violated_by_method :
    ∃ r r' : DLReq, r.batchHeaders = r'.batchHeaders ∧ r.key = r'.key ∧ r.req.method ≠ r'.req.method :=
  ⟨⟨⟨"GET".toList, ⟨[], none, none⟩, HMap.empty, none⟩, [], none⟩,
   ⟨⟨"DELETE".toList, ⟨[], none, none⟩, HMap.empty, none⟩, [], none⟩, rfl, rfl, by decide⟩

/-- The key ignores credentials that are not listed as batching headers: requests of two users are
the same key, and the second gets the first one's answer. -/
theorem C19_violated_by_unlisted_header :
    ∃ (t : ReqTemplate) (c c' : RCtx) (r r' : HttpReq),
      toRequest normHost some t c = some r ∧ toRequest normHost some t c' = some r' ∧
      (DLReq.mk r [] none).key = (DLReq.mk r' [] none).key ∧
      r.headers "authorization".toList ≠ r'.headers "authorization".toList := by
  refine ⟨post .json, ctxWith [("authorization".toList, "alice".toList)] "7",
    ctxWith [("authorization".toList, "bob".toList)] "7", _, _, rfl, rfl, rfl, ?_⟩
  decide

/-- With the header listed the two users' requests are different keys. -/
example : ∃ r r', toRequest normHost some (post .json) (ctxWith [("authorization".toList, "alice".toList)] "7")
      = some r ∧
    toRequest normHost some (post .json) (ctxWith [("authorization".toList, "bob".toList)] "7") = some r' ∧
    (DLReq.mk r ["authorization".toList] none).key ≠ (DLReq.mk r' ["authorization".toList] none).key :=
  ⟨_, _, rfl, rfl, by decide⟩

/-! ## C58: an unusable URL -/

/-- **C58 (partial).** Without deduplication, or outside of queries, evaluating an HTTP or gRPC resolver
never panics before the request is sent; a URL that does not parse is an error.

Missing from the full statement: with deduplication it does panic, `C58_violated_http`,
`C58_violated_grpc`. -/
theorem C58_no_panic_partial (norm form : Text → Option Text) (t : ReqTemplate) (p : GrpcTemplate)
    (c : RCtx) (dedupe isQuery : Bool) (h : dedupe = false ∨ isQuery = false) :
    prepareHttp norm form t c dedupe isQuery ≠ .panic ∧
    prepareGrpc norm p c dedupe isQuery ≠ .panic ∧
    (createUrl norm t c = none → prepareHttp norm form t c dedupe isQuery = .error) := by
  have hd : (!dedupe || !isQuery) = true := by rcases h with h | h <;> simp [h]
  refine ⟨?_, ?_, fun hu => ?_⟩
  · unfold prepareHttp
    rw [if_pos hd]
    split <;> simp
  · unfold prepareGrpc
    rw [if_pos hd]
    split <;> simp
  · unfold prepareHttp toRequest
    rw [if_pos hd, hu]

/-- **C58.** With deduplication the panic happens exactly when the URL does not parse. -/
theorem C58_panic_iff (norm form : Text → Option Text) (t : ReqTemplate) (c : RCtx) :
    prepareHttp norm form t c true true = .panic ↔ createUrl norm t c = none := by
  unfold prepareHttp cacheKey
  cases h : createUrl norm t c with
  | none => simp
  | some u =>
    simp only [Bool.not_true, Bool.or_self, Bool.false_eq_true, if_false, Option.map_some]
    split <;> simp

/-- `url: "http://{{.args.id}}"` with an empty id. -/
theorem C58_violated_http :
    ∃ (t : ReqTemplate) (c : RCtx), prepareHttp normHost some t c true true = .panic :=
  ⟨{ post .json with root := [.lit "http://".toList, .expr ["args".toList, "id".toList]] },
    ctxWith [] "", rfl⟩

theorem C58_violated_grpc :
    ∃ (t : GrpcTemplate) (c : RCtx), prepareGrpc normHost t c true true = .panic :=
  ⟨{ grpcT with url := [.lit "http://".toList, .expr ["args".toList, "id".toList]] },
    ctxWith [] "", rfl⟩

/-- The hypotheses of `C58_no_panic_partial` with a URL that does not parse. -/
example : prepareHttp normHost some
    { post .json with root := [.lit "http://".toList, .expr ["args".toList, "id".toList]] }
    (ctxWith [] "") false true = .error := rfl

/-! ## C61: the body of a GraphQL upstream request is JSON -/

/-- A hexadecimal digit, as a number. -/
def hexOf (c : Char) : Option Nat :=
  if c.isDigit then some (c.toNat - 48)
  else if 'a' ≤ c ∧ c ≤ 'f' then some (c.toNat - 87)
  else if 'A' ≤ c ∧ c ≤ 'F' then some (c.toNat - 55)
  else none

/-- Reading a JSON string (RFC 8259, section 7) after its opening quote: the decoded content and what
follows the closing quote; `none` when it is not a JSON string.  Surrogate pairs are not combined. -/
def scanStr : Text → Option (Text × Text)
  | [] => none
  | '"' :: r => some ([], r)
  | '\\' :: 'u' :: a :: b :: c :: d :: r =>
      match hexOf a, hexOf b, hexOf c, hexOf d with
      | some a, some b, some c, some d =>
          (scanStr r).map (fun p => (Char.ofNat (4096 * a + 256 * b + 16 * c + d) :: p.1, p.2))
      | _, _, _, _ => none
  | '\\' :: e :: r =>
      match e with
      | '"' | '\\' | '/' => (scanStr r).map (fun p => (e :: p.1, p.2))
      | 'b' => (scanStr r).map (fun p => (Char.ofNat 8 :: p.1, p.2))
      | 'f' => (scanStr r).map (fun p => (Char.ofNat 12 :: p.1, p.2))
      | 'n' => (scanStr r).map (fun p => ('\n' :: p.1, p.2))
      | 'r' => (scanStr r).map (fun p => ('\r' :: p.1, p.2))
      | 't' => (scanStr r).map (fun p => ('\t' :: p.1, p.2))
      | _ => none
  | c :: r => if c.toNat < 32 then none else (scanStr r).map (fun p => (c :: p.1, p.2))

/-- The value of `query` in a body of the form `{ "query": <string> }`; `none` if the body is not such a
JSON object. -/
def bodyQuery (b : Text) : Option Text :=
  if "{ \"query\": \"".toList.isPrefixOf b then
    match scanStr (b.drop 12) with
    | some (q, r) => if r = " }".toList then some q else none
    | none => none
  else none

/-- The operation that was configured: nothing escaped. -/
def intendedQuery (t : GqlTemplate) (ctx : GCtx) (selection : Text) : Text :=
  let args := (t.args.getD []).filterMap (fun kv =>
    let v := renderG kv.2 ctx.gql
    if v.isEmpty then none else some (kv.1 ++ ": ".toList ++ v))
  t.opType ++ " { ".toList ++ t.opName
    ++ (if args.isEmpty then [] else "(".toList ++ ", ".toList.intercalate args ++ ")".toList)
    ++ (if (ctx.directives.getD []).isEmpty then [] else " ".toList ++ ctx.directives.getD [])
    ++ " ".toList ++ selection ++ " }".toList

/-- `lit` is, inside a JSON string, a spelling of `plain`. -/
def Spells (lit plain : Text) : Prop :=
  ∀ r, scanStr (lit ++ r) = (scanStr r).map (fun p => (plain ++ p.1, p.2))

theorem Spells.nil : Spells [] [] := by
  intro r
  rw [List.nil_append]
  cases scanStr r <;> simp

theorem Spells.append {a b a' b' : Text} (h : Spells a a') (h' : Spells b b') :
    Spells (a ++ b) (a' ++ b') := by
  intro r
  rw [List.append_assoc, h, h']
  cases scanStr r <;> simp

theorem Spells.cons {c : Char} {a a' : Text} (h : Spells [c] [c]) (h' : Spells a a') :
    Spells (c :: a) (c :: a') := Spells.append h h'

/-- Characters that mean themselves inside a JSON string. -/
def PlainChar (c : Char) : Prop := 32 ≤ c.toNat ∧ c ≠ '"' ∧ c ≠ '\\'

instance (c : Char) : Decidable (PlainChar c) := by unfold PlainChar; infer_instance

theorem spells_char {c : Char} (h : PlainChar c) : Spells [c] [c] := by
  obtain ⟨h1, h2, h3⟩ := h
  intro r
  rw [List.singleton_append, scanStr]
  · have : ¬ c.toNat < 32 := by omega
    simp [this]
  · exact h2
  · intro a b c d r' h _; exact absurd h h3
  · intro e r' h _; exact absurd h h3

theorem spells_plain {s : Text} (h : ∀ c ∈ s, PlainChar c) : Spells s s := by
  induction s with
  | nil => exact Spells.nil
  | cons c r ih =>
    exact Spells.cons (spells_char (h c List.mem_cons_self))
      (ih (fun x hx => h x (List.mem_cons_of_mem _ hx)))

/-- Values that survive: ASCII without apostrophe (tab, CR and LF are fine). -/
def GoodValue (s : Text) : Prop :=
  ∀ c ∈ s, c ≠ '\'' ∧ ((32 ≤ c.toNat ∧ c.toNat ≤ 126) ∨ c = '\t' ∨ c = '\r' ∨ c = '\n')

theorem spells_escapeChar {c : Char}
    (h : c ≠ '\'' ∧ ((32 ≤ c.toNat ∧ c.toNat ≤ 126) ∨ c = '\t' ∨ c = '\r' ∨ c = '\n')) :
    Spells (escapeChar c) [c] := by
  obtain ⟨h1, h2⟩ := h
  by_cases ht : c = '\t'
  · subst ht; intro r; rfl
  by_cases hr : c = '\r'
  · subst hr; intro r; rfl
  by_cases hn : c = '\n'
  · subst hn; intro r; rfl
  by_cases hq : c = '"'
  · subst hq; intro r; rfl
  by_cases hb : c = '\\'
  · subst hb; intro r; rfl
  have h3 : 32 ≤ c.toNat ∧ c.toNat ≤ 126 := by
    rcases h2 with h | h | h | h
    · exact h
    · exact absurd h ht
    · exact absurd h hr
    · exact absurd h hn
  have : escapeChar c = [c] := by
    simp [escapeChar, ht, hr, hn, hq, hb, h1, h3]
  rw [this]
  exact spells_char ⟨h3.1, hq, hb⟩

theorem spells_escape {s : Text} (h : GoodValue s) : Spells (escape s) s := by
  induction s with
  | nil => exact Spells.nil
  | cons c r ih =>
    have := Spells.append (spells_escapeChar (h c List.mem_cons_self))
      (ih (fun x hx => h x (List.mem_cons_of_mem _ hx)))
    simpa [escape] using this

/-- Item by item. -/
inductive SpellsAll : List Text → List Text → Prop where
  | nil : SpellsAll [] []
  | cons {a a' : Text} {l l' : List Text} : Spells a a' → SpellsAll l l' → SpellsAll (a :: l) (a' :: l')

theorem joinComma_spells {l l' : List Text} (h : SpellsAll l l') :
    Spells (joinComma l) (", ".toList.intercalate l') := by
  induction h with
  | nil => exact Spells.nil
  | cons h1 h2 ih =>
    cases h2 with
    | nil => simpa [joinComma, List.intercalate] using h1
    | cons h3 h4 =>
      rename_i x x' y y' l l'
      have hc : Spells [',', ' '] [',', ' '] :=
        spells_plain (by intro c hc; simp at hc; rcases hc with rfl | rfl <;>
          exact ⟨by decide, by decide, by decide⟩)
      have := Spells.append h1 (Spells.append hc ih)
      have e1 : joinComma (x :: y :: l) = x ++ ([',', ' '] ++ joinComma (y :: l)) := rfl
      have e2 : ", ".toList.intercalate (x' :: y' :: l') =
          x' ++ ([',', ' '] ++ ", ".toList.intercalate (y' :: l')) := by
        simp [List.intercalate, List.intersperse]
      rw [e1, e2]
      exact this

/-- **C61 (partial).** If the configured names are plain text and every argument value and the directives
are ASCII without apostrophes, the body is a JSON object whose `query` is exactly the configured operation with
the rendered arguments.

Missing from the full statement: the escaping used (`escape_default`) is Rust's, not JSON's; see
`C61_violated_by_apostrophe` and `C61_violated_by_non_ascii`. -/
theorem C61_body_is_json_partial (t : GqlTemplate) (ctx : GCtx) (selection : Text)
    (h1 : ∀ c ∈ t.opType ++ t.opName, PlainChar c)
    (h2 : ∀ kv ∈ t.args.getD [], (∀ c ∈ kv.1, PlainChar c) ∧ GoodValue (renderG kv.2 ctx.gql))
    (h3 : GoodValue (ctx.directives.getD []))
    (h4 : Spells (t.fixedSelection.getD ctx.selection) selection) :
    bodyQuery (renderQuery t ctx) = some (intendedQuery t ctx selection) := by
  have plain : ∀ s : Text, (∀ c ∈ s, PlainChar c) → Spells s s := fun s => spells_plain
  have hargs : ∀ l : List (Text × Template),
      (∀ kv ∈ l, (∀ c ∈ kv.1, PlainChar c) ∧ GoodValue (renderG kv.2 ctx.gql)) →
      SpellsAll
        (l.filterMap (fun kv => if (renderG kv.2 ctx.gql).isEmpty then none
          else some (kv.1 ++ ": ".toList ++ escape (renderG kv.2 ctx.gql))))
        (l.filterMap (fun kv => if (renderG kv.2 ctx.gql).isEmpty then none
          else some (kv.1 ++ ": ".toList ++ renderG kv.2 ctx.gql))) := by
    intro l hl
    induction l with
    | nil => exact .nil
    | cons kv r ih =>
      have ih := ih (fun x hx => hl x (List.mem_cons_of_mem _ hx))
      obtain ⟨hk, hv⟩ := hl kv List.mem_cons_self
      rw [List.filterMap_cons, List.filterMap_cons]
      by_cases he : (renderG kv.2 ctx.gql).isEmpty = true
      · simpa [he] using ih
      · simp only [he, Bool.false_eq_true, if_false]
        refine .cons ?_ ih
        refine Spells.append (Spells.append (plain _ hk) (plain _ ?_)) (spells_escape hv)
        intro c hc; simp at hc; rcases hc with rfl | rfl <;> exact ⟨by decide, by decide, by decide⟩
  have hA : Spells (argsText t ctx)
      (let args := (t.args.getD []).filterMap (fun kv =>
        let v := renderG kv.2 ctx.gql
        if v.isEmpty then none else some (kv.1 ++ ": ".toList ++ v))
       if args.isEmpty then [] else "(".toList ++ ", ".toList.intercalate args ++ ")".toList) := by
    unfold argsText
    cases ha : t.args with
    | none => exact Spells.nil
    | some args =>
      rw [ha] at h2
      have hf := hargs args h2
      simp only [Option.getD_some]
      have hj := joinComma_spells hf
      generalize List.filterMap (fun kv => if (renderG kv.2 ctx.gql).isEmpty = true then none
        else some (kv.1 ++ ": ".toList ++ escape (renderG kv.2 ctx.gql))) args = L at hf hj ⊢
      generalize hLL : List.filterMap (fun kv => if (renderG kv.2 ctx.gql).isEmpty = true then none
        else some (kv.1 ++ ": ".toList ++ renderG kv.2 ctx.gql)) args = L' at hf hj ⊢
      have hne : ∀ p ∈ L', p ≠ [] := by
        intro p hp hh
        rw [← hLL, List.mem_filterMap] at hp
        obtain ⟨kv, _, hkv⟩ := hp
        split at hkv
        · cases hkv
        · injection hkv with hkv; rw [hh] at hkv; simp at hkv
      cases hf with
      | nil => simpa [joinComma] using Spells.nil
      | cons hx hy =>
        rename_i x x' l l'
        have hje : (joinComma (x :: l)).isEmpty = false := by
          cases hxe : joinComma (x :: l) with
          | cons => rfl
          | nil =>
            exfalso
            have hx0 : x = [] := by
              cases l with
              | nil => simpa [joinComma] using hxe
              | cons => simp [joinComma] at hxe
            subst hx0
            have := hx ['"']
            simp only [List.nil_append, scanStr, Option.map_some, List.append_nil,
              Option.some.injEq, Prod.mk.injEq, and_true] at this
            exact hne x' List.mem_cons_self this.symm
        rw [hje]
        simp only [Bool.false_eq_true, if_false, List.isEmpty_cons]
        have hp : Spells ['('] ['('] := spells_char ⟨by decide, by decide, by decide⟩
        have hq : Spells [')'] [')'] := spells_char ⟨by decide, by decide, by decide⟩
        have := Spells.append hp (Spells.append hj hq)
        simpa using this
  have hD : Spells (directivesText ctx)
      (if (ctx.directives.getD []).isEmpty then [] else " ".toList ++ ctx.directives.getD []) := by
    unfold directivesText
    cases hd : ctx.directives with
    | none => exact Spells.nil
    | some d =>
      rw [hd] at h3
      simp only [Option.getD_some] at h3 ⊢
      split
      · exact Spells.nil
      · exact Spells.cons (spells_char ⟨by decide, by decide, by decide⟩) (spells_escape h3)
  have hS : ∀ s : Text, s = " { ".toList ∨ s = [' '] ∨ s = " }".toList → Spells s s := by
    intro s hs
    refine plain s ?_
    rcases hs with rfl | rfl | rfl <;> decide
  have hall : Spells (queryLiteral t ctx) (intendedQuery t ctx selection) := by
    unfold queryLiteral intendedQuery
    refine Spells.append (Spells.append (Spells.append (Spells.append (Spells.append (Spells.append
      (Spells.append ?_ (hS _ (Or.inl rfl))) ?_) hA) hD) (hS _ (Or.inr (Or.inl rfl)))) h4)
      (hS _ (Or.inr (Or.inr rfl)))
    · exact plain _ (fun c hc => h1 c (List.mem_append_left _ hc))
    · exact plain _ (fun c hc => h1 c (List.mem_append_right _ hc))
  unfold bodyQuery renderQuery
  have hpre : "{ \"query\": \"".toList.isPrefixOf
      ("{ \"query\": \"".toList ++ queryLiteral t ctx ++ "\" }".toList) = true := by
    rw [List.isPrefixOf_iff_prefix, List.append_assoc]
    exact List.prefix_append _ _
  have hdrop : ("{ \"query\": \"".toList ++ queryLiteral t ctx ++ "\" }".toList).drop 12 =
      queryLiteral t ctx ++ "\" }".toList := by
    rw [List.append_assoc, List.drop_append]
    simp
  rw [if_pos hpre, hdrop, hall]
  simp [scanStr]

/-- The hypotheses are met by an argument that contains quotes, backslashes and a line break. -/
example : bodyQuery (renderQuery (gqlT "http://a" []) (gctx "\"say \\\"hi\\\"\n\"" [])) =
    some "query { user(id: \"say \\\"hi\\\"\n\") { name } }".toList := by decide

example : bodyQuery (renderQuery (gqlT "http://a" []) (gctx "\"a\tb\"" [])) =
    some (intendedQuery (gqlT "http://a" []) (gctx "\"a\tb\"" []) "{ name }".toList) :=
  C61_body_is_json_partial _ _ _ (by decide)
    (by unfold GoodValue; decide) (by unfold GoodValue; decide) (spells_plain (by decide))

/-- An apostrophe in a value gives a body that is not JSON (`\'` is no JSON escape). -/
theorem C61_violated_by_apostrophe :
    bodyQuery (renderQuery (gqlT "http://a" []) (gctx "\"O'Brien\"" [])) = none := by decide

/-- A non-ASCII character in a value gives a body that is not JSON (`\u{e9}`). -/
theorem C61_violated_by_non_ascii :
    bodyQuery (renderQuery (gqlT "http://a" []) (gctx "\"é\"" [])) = none := by decide

/-! ## C62: texts as GraphQL literals -/

/-- Reading a GraphQL string literal (GraphQL spec 2.9.4, without block strings and unicode escapes)
after its opening quote. -/
def gqlScan : Text → Option (Text × Text)
  | [] => none
  | '"' :: r => some ([], r)
  | '\\' :: e :: r =>
      match e with
      | '"' | '\\' | '/' => (gqlScan r).map (fun p => (e :: p.1, p.2))
      | 'n' => (gqlScan r).map (fun p => ('\n' :: p.1, p.2))
      | 'r' => (gqlScan r).map (fun p => ('\r' :: p.1, p.2))
      | 't' => (gqlScan r).map (fun p => ('\t' :: p.1, p.2))
      | _ => none
  | c :: r => if c = '\n' ∨ c = '\r' then none else (gqlScan r).map (fun p => (c :: p.1, p.2))

/-- A whole text that is one string literal, and its value. -/
def gqlLiteral : Text → Option Text
  | '"' :: r => match gqlScan r with
      | some (v, []) => some v
      | _ => none
  | _ => none

/-- **C62 (partial).** A text value without quotes, backslashes and line breaks is inserted as one string
literal with that value.

Missing from the full statement: other values are not escaped, `C62_violated_by_quote`. -/
theorem C62_literal_partial (printVal : GVal → Text) (raw : List Text → Option VS) (p : List Text)
    (hp : 2 ≤ p.length) (s : Text) (hs : raw p = some (.string s))
    (hv : ∀ c ∈ s, c ∉ ['"', '\\', '\n', '\r']) :
    ∃ l, pathGraphql printVal raw p = some l ∧ gqlLiteral l = some s := by
  refine ⟨'"' :: (s ++ ['"']), ?_, ?_⟩
  · unfold pathGraphql
    rw [if_neg (by omega), hs]
    rfl
  · have : ∀ s : Text, (∀ c ∈ s, c ∉ ['"', '\\', '\n', '\r']) → gqlScan (s ++ ['"']) = some (s, []) := by
      intro s
      induction s with
      | nil => intro _; rfl
      | cons c r ih =>
        intro h
        have hc := h c List.mem_cons_self
        simp only [List.mem_cons, List.not_mem_nil, or_false, not_or] at hc
        rw [List.cons_append, gqlScan]
        · rw [ih (fun x hx => h x (List.mem_cons_of_mem _ hx))]
          simp [hc]
        · exact hc.1
        · intro e r' hh _; exact absurd hh hc.2.1
    simp [gqlLiteral, this s hv]

/-- A client header with a quote closes the literal: the rest of the header becomes part of the
operation. -/
theorem C62_violated_by_quote :
    ∃ (raw : List Text → Option VS) (s : Text) (l : Text),
      raw ["headers".toList, "x-id".toList] = some (.string s) ∧
      pathGraphql (fun _ => []) raw ["headers".toList, "x-id".toList] = some l ∧
      gqlLiteral l = none ∧ l = "\"1\") { id } other: secret(id: \"2\"".toList :=
  ⟨fun _ => some (.string "1\") { id } other: secret(id: \"2".toList), _, _, rfl, rfl,
    by decide, by decide⟩

example : ∃ l, pathGraphql (fun _ => []) (fun _ => some (.string "it's 7".toList))
    ["vars".toList, "x".toList] = some l ∧ gqlLiteral l = some "it's 7".toList :=
  C62_literal_partial _ _ _ (by decide) _ rfl (by decide)

end Verif.HttpKey
