import Verif.Sdl.Lemmas

/-!
# Configurations written as documents

C89: writing a configuration as a schema document and reading the document gives the configuration again.
C90: the arguments of a directive mean the same after they were written and read, and arguments that the directive does
not have are refused.
-/

set_option linter.unusedSimpArgs false

namespace Verif.Sdl

open Verif.Mustache (Text)
open Verif.Merge (get)
open Verif.Exec (Ty)

/-! ## C89 -/

/-- C89, for the configurations that can be written (`Config.Ok`): reading what was written gives the same server,
upstream, types, unions, enums, links and telemetry, except that an unset `verifySSL` is then set to true.  Missing: the
parts of configurations that `Config.Ok` excludes are not written at all, see the theorems below. -/
theorem C89_round_trip_partial {inputs : Text → Bool} {c : Config} (h : c.Ok inputs) :
    fromDoc (toDoc inputs c) = some { c with upstream := { c.upstream with verifySsl := some (c.upstream.verifySsl.getD true) } } :=
  read_doc h

/-- Once read back, a configuration is stable: writing and reading it once more gives the very same one. -/
theorem C89_stable {inputs : Text → Bool} {c c' : Config} (h : c.Ok inputs) (h1 : fromDoc (toDoc inputs c) = some c') :
    fromDoc (toDoc inputs c') = some c' := by
  rw [read_doc h] at h1
  simp only [Option.some.injEq] at h1
  subst h1
  exact read_doc ⟨h.jit, h.headers, h.allowed, h.batch, h.typeKeys, h.unionKeys, h.enumKeys, h.types, h.unions, h.enums, h.links, h.telemetry⟩

/-- Two configurations that can be written and that have the same document are the same, up to the default of
`verifySSL`. -/
theorem C89_faithful {inputs : Text → Bool} {a b : Config} (ha : a.Ok inputs) (hb : b.Ok inputs) (h : toDoc inputs a = toDoc inputs b) :
    a.server = b.server ∧ a.schema = b.schema ∧ a.types = b.types ∧ a.unions = b.unions ∧ a.enums = b.enums ∧ a.links = b.links ∧
    { a.upstream with verifySsl := none } = { b.upstream with verifySsl := none } ∧
    a.upstream.verifySsl.getD true = b.upstream.verifySsl.getD true := by
  have h1 := read_doc ha
  rw [h, read_doc hb] at h1
  obtain ⟨⟩ := a
  obtain ⟨⟩ := b
  simp only [Option.some.injEq, Config.mk.injEq, Upstream.mk.injEq] at h1 ⊢
  obtain ⟨g1, g2, g3, g4, g5, g6, g7, g8⟩ := h1
  obtain ⟨u1, u2, u3, u4, u5, u6, u7, u8, u9, u10, u11, u12, u13, u14, u15, u16⟩ := g2
  simp [g1.symm, g3.symm, g4.symm, g5.symm, g6.symm, g7.symm, u1, u2, u3, u4, u5, u6, u7, u8, u9, u10, u11, u12, u13, u14, u15, u16]

/-! A configuration with most kinds of definitions. -/

/-- A text. -/
abbrev t! (s : String) : Text := s.toList

/-- A plain field. -/
def plain (ty : Ty) : Field := ⟨ty, [], none, none, none, none, none, none, none, [], []⟩

/-- A type with fields. -/
def obj (fs : List (Text × Field)) : CType := ⟨fs, [], none, [], none, none, [], []⟩

/-- An HTTP resolver. -/
def get1 (url : Text) : Http := ⟨none, url, none, .json, [], [], none, .get, none, [], none, none, none⟩

/-- `users(id: Int = 1): [User!] @http(url: ..) @cache(maxAge: 60) @protected @shareable`, an interface, an input type, a
union, an enum with an alias and a link. -/
def demo : Config :=
  { server := { Server.dflt with port := some 8000, hostname := some (t! "h"), headers := some ⟨some true, [⟨t! "x", t! "1"⟩], none, none, none⟩ },
    upstream := { Upstream.dflt with batch := some ⟨5, [t! "a", t! "b"], some 100⟩, timeout := some 30, verifySsl := some false },
    schema := ⟨some (t! "Query"), none, none⟩,
    types := [
      (t! "Query", obj [(t! "users", ⟨.list (.named (t! "User") true) false, [(t! "id", ⟨.named (t! "Int") false, some (t! "d"), none, some (.int 1)⟩),
          (t! "f", ⟨.named (t! "Filter") false, none, none, none⟩)],
        some (t! "doc"), none, none, some ⟨⟨60, by decide⟩⟩, none, some ⟨none⟩, none,
        [.http { get1 (t! "http://a.b/c") with method := .post, body := some (.obj [(t! "k", .str (t! "v"))]), batchKey := [t! "id"] },
         .expr ⟨.null⟩], [⟨t! "shareable", []⟩]⟩)]),
      (t! "User", { obj [(t! "name", { plain (.named (t! "String") true) with modify := some ⟨some (t! "n"), none⟩ })] with
        impl := [t! "Node"], added := [⟨t! "x", [t! "name"]⟩], doc := some (t! "u"), dirs := [⟨t! "key", [(t! "fields", .str (t! "id"))]⟩] }),
      (t! "Node", obj [(t! "name", plain (.named (t! "String") true))]),
      (t! "Filter", { obj [(t! "q", { plain (.named (t! "String") false) with dflt := some (.str (t! "z")) })] with doc := some (t! "in") }),
      (t! "Date", CType.dflt)],
    unions := [(t! "U", ⟨[t! "User", t! "Node"], none⟩)],
    enums := [(t! "E", ⟨[⟨t! "A", none⟩, ⟨t! "B", some ⟨[t! "b", t! "bb"]⟩⟩], some (t! "e")⟩)],
    links := [⟨some (t! "p"), t! "a.proto", .protobuf, none, none, none⟩],
    telemetry := Telemetry.dflt }

/-- The types that `demo` uses as inputs. -/
def demoInputs (n : Text) : Bool := n == t! "Filter"

theorem demo_ok : demo.Ok demoInputs := by
  refine ⟨rfl, ?_, ?_, ?_, by decide, by decide, by decide, ?_, ?_, ?_, ?_, rfl⟩
  · rintro x ⟨⟩
    exact ⟨by rintro x ⟨⟩, by rintro x ⟨⟩⟩
  · rintro x ⟨⟩
  · rintro x ⟨⟩
    decide
  · intro p hp
    simp only [demo, List.mem_cons, List.not_mem_nil, or_false] at hp
    rcases hp with rfl | rfl | rfl | rfl | rfl
    · refine ⟨by decide, ?_, ?_, ?_, ?_, ?_, ?_⟩
      · rintro p hp
        simp only [obj, List.mem_cons, List.not_mem_nil, or_false] at hp
        subst hp
        refine ⟨?_, ?_, rfl⟩
        · simp [Resolver.Ok, get1]
        · simp [Directive.Ok, apollo, t!]
      · simp [obj]
      · simp [demo, obj, CType.dflt, t!]
      · simp [obj, ArgsOk, t!]
        rintro _ _ _ b (⟨_, rfl⟩ | ⟨_, rfl⟩) <;> rfl
      · intro _ h
        exact absurd h (by decide)
      · simp [obj]
    · refine ⟨by decide, ?_, ?_, ?_, ?_, ?_, ?_⟩
      · rintro p hp
        simp only [obj, List.mem_cons, List.not_mem_nil, or_false] at hp
        subst hp
        exact ⟨by simp [plain], by simp [plain], rfl⟩
      · simp [obj, plain, Directive.Ok, apollo, t!]
      · simp [obj, plain]
      · simp [obj, ArgsOk, plain]
      · intro _ h
        exact absurd h (by decide)
      · simp [obj]
    · refine ⟨by decide, ?_, ?_, ?_, ?_, ?_, ?_⟩
      · rintro p hp
        simp only [obj, List.mem_cons, List.not_mem_nil, or_false] at hp
        subst hp
        exact ⟨by simp [plain], by simp [plain], rfl⟩
      · simp [obj, plain]
      · simp [obj, plain]
      · simp [obj, ArgsOk, plain]
      · intro _ h
        exact absurd h (by decide)
      · simp [obj]
    · have hi : ¬ ∃ t ∈ demo.types, t! "Filter" ∈ t.2.impl := by
        rw [← isIface_iff]
        decide
      refine ⟨by decide, ?_, ?_, ?_, ?_, ?_, ?_⟩
      · rintro p hp
        simp only [obj, List.mem_cons, List.not_mem_nil, or_false] at hp
        subst hp
        exact ⟨by simp [plain], by simp [plain], rfl⟩
      · rintro (h | ⟨h, _⟩)
        · exact absurd h hi
        · exact absurd (by decide) h
      · exact fun h => absurd h hi
      · intro _ h
        exact absurd (by decide) h
      · intro _ _
        simp [obj, plain]
      · simp [obj]
    · have hi : ¬ ∃ t ∈ demo.types, t! "Date" ∈ t.2.impl := by
        rw [← isIface_iff]
        decide
      refine ⟨by decide, ?_, ?_, ?_, ?_, ?_, ?_⟩ <;> simp [CType.dflt]
  · intro p hp
    simp only [demo, List.mem_cons, List.not_mem_nil, or_false] at hp
    subst hp
    exact ⟨by decide, rfl⟩
  · intro p hp
    simp only [demo, List.mem_cons, List.not_mem_nil, or_false] at hp
    subst hp
    refine ⟨by decide, ?_⟩
    intro v hv a ha
    simp only [List.mem_cons, List.not_mem_nil, or_false] at hv
    rcases hv with rfl | rfl
    · cases ha
    · cases ha
      decide
  · intro l hl
    simp only [demo, List.mem_cons, List.not_mem_nil, or_false] at hl
    subst hl
    simp

example : fromDoc (toDoc demoInputs demo) = some demo := C89_round_trip_partial demo_ok

example : ∃ c', fromDoc (toDoc demoInputs demo) = some c' ∧ fromDoc (toDoc demoInputs c') = some c' :=
  ⟨demo, C89_round_trip_partial demo_ok, C89_stable demo_ok (C89_round_trip_partial demo_ok)⟩

example : demo.types = demo.types ∧ demo.upstream.verifySsl.getD true = false := ⟨(C89_faithful demo_ok demo_ok rfl).2.2.1, rfl⟩

/-- C89 fails for every configuration with telemetry: it is never written. -/
theorem C89_violated_by_telemetry {inputs : Text → Bool} {c c' : Config} (h : fromDoc (toDoc inputs c) = some c') :
    c'.telemetry = Telemetry.dflt := by
  have e : lastDir "telemetry".toList Telemetry.dec Telemetry.dflt (findSchema (toDoc inputs c)).dirs = some Telemetry.dflt := by
    have := lastDir_skip (n := "telemetry".toList) (dec := Telemetry.dec) (dflt := Telemetry.dflt) (l := [])
      (r := toDir "server".toList c.server.enc :: toDir "upstream".toList c.upstream.enc :: c.links.map linkDir) (fun d hd => by
        simp only [List.mem_cons] at hd
        rcases hd with rfl | rfl | hd
        · simp [toDir]
        · simp [toDir]
        · rw [links_name hd]; decide)
    exact this
  simp only [fromDoc, e, Option.bind_eq_bind, Option.bind_eq_some_iff] at h
  obtain ⟨_, _, _, _, _, _, _, _, _, _, _, _, t, ht, h⟩ := h
  cases ht
  cases h
  rfl

/-- A configuration with one type besides the query. -/
def one (n : Text) (t : CType) : Config :=
  ⟨Server.dflt, Upstream.dflt, ⟨some (t! "Query"), none, none⟩, [(t! "Query", { obj [(t! "a", plain (.named n false))] with impl := [] }), (n, t)], [], [], [], Telemetry.dflt⟩

/-- The type with the name in the configuration that was written and read. -/
def back (inputs : Text → Bool) (c : Config) (n : Text) : Option CType := (fromDoc (toDoc inputs c)).bind (fun c => get n c.types)

example : ((back demoInputs demo (t! "User")).map (fun t => t.fields.length)) = some 1 := by
  rw [back, C89_round_trip_partial demo_ok]
  rfl

/-- C89 fails: the arguments of a field of an interface are lost. -/
theorem C89_violated_by_interface_arguments :
    let a : Arg := ⟨.named (t! "Int") true, none, none, none⟩
    let f : Field := { plain (.named (t! "Int") false) with args := [(t! "n", a)] }
    let c := { one (t! "I") (obj [(t! "x", f)]) with types := [(t! "I", obj [(t! "x", f)]), (t! "A", { obj [(t! "x", f)] with impl := [t! "I"] })] }
    ((back (fun _ => false) c (t! "I")).map (fun t => t.fields.map (fun f => f.2.args.length)) = some [0]) ∧
    ((back (fun _ => false) c (t! "A")).map (fun t => t.fields.map (fun f => f.2.args.length)) = some [1]) := ⟨by rfl, by rfl⟩

/-- C89 fails: a type without fields loses its documentation, its directives and the fields that are added to it. -/
theorem C89_violated_by_scalar :
    (back (fun _ => false) (one (t! "A") { CType.dflt with doc := some (t! "d"), added := [⟨t! "x", [t! "y"]⟩], prot := some ⟨none⟩ }) (t! "A")).map
      (fun t => (t.doc, t.added.length, t.prot.isSome)) = some (none, 0, false) := by rfl

/-- C89 fails: `@modify` of an argument is not written. -/
theorem C89_violated_by_modified_argument :
    let a : Arg := ⟨.named (t! "Int") true, none, some ⟨some (t! "m"), none⟩, none⟩
    (back (fun _ => false) (one (t! "A") (obj [(t! "x", { plain (.named (t! "Int") false) with args := [(t! "n", a)] })])) (t! "A")).map
      (fun t => t.fields.map (fun f => f.2.args.map (fun a => a.2.modify.isSome))) = some [[false]] := by rfl

/-- C89 fails: `@discriminate` is not written. -/
theorem C89_violated_by_discriminate :
    (back (fun _ => false) (one (t! "A") (obj [(t! "x", { plain (.named (t! "U") false) with disc := some ⟨some (t! "kind")⟩ })])) (t! "A")).map
      (fun t => t.fields.map (fun f => f.2.disc.isSome)) = some [false] := by rfl

/-- C89 fails: the added fields, the cache and the directives of an input type are lost. -/
theorem C89_violated_by_input :
    (back (fun n => n == t! "A") (one (t! "A") { obj [(t! "x", plain (.named (t! "Int") false))] with
      added := [⟨t! "x", [t! "y"]⟩], dirs := [⟨t! "tag", [(t! "name", .str (t! "n"))]⟩] }) (t! "A")).map
      (fun t => (t.added.length, t.dirs.length)) = some (0, 0) := by rfl

/-- C89 fails: directives that are not of Apollo Federation are lost. -/
theorem C89_violated_by_other_directive :
    (back (fun _ => false) (one (t! "A") { obj [(t! "x", plain (.named (t! "Int") false))] with dirs := [⟨t! "deprecated", []⟩] }) (t! "A")).map
      (fun t => t.dirs.length) = some 0 := by rfl

/-- C89 fails: the documentation of a union is lost. -/
theorem C89_violated_by_union_doc :
    (fromDoc (toDoc (fun _ => false) { one (t! "A") (obj [(t! "x", plain (.named (t! "Int") false))]) with unions := [(t! "U", ⟨[t! "A"], some (t! "d")⟩)] })).map
      (fun c => c.unions.map (fun u => u.2.doc)) = some [none] := by rfl

/-- C89 fails: an unset `verifySSL` is set afterwards, so that merged after a file that switches it off it switches it on
again. -/
theorem C89_violated_by_verify_ssl :
    (fromDoc (toDoc (fun _ => false) (one (t! "A") (obj [(t! "x", plain (.named (t! "Int") false))])))).map (fun c => c.upstream.verifySsl) = some (some true) ∧
    (one (t! "A") (obj [(t! "x", plain (.named (t! "Int") false))])).upstream.verifySsl = none := ⟨by rfl, by rfl⟩

/-! ## C90 -/

/-- C90 for resolvers that can be written: the directive that is written is read as the same resolver, even among others
and after its document went through JSON. -/
theorem C90_resolvers_partial {l : List Resolver} (h : ∀ r ∈ l, r.Ok) :
    (l.filterMap Resolver.toDir?).length = l.length ∧ collect Resolver.ofDir (l.filterMap Resolver.toDir?) = some l := by
  refine ⟨?_, collect_resolvers h⟩
  induction l with
  | nil => rfl
  | cons r l ih =>
    obtain ⟨d, hd, _⟩ := ofDir_toDir (h r List.mem_cons_self)
    simp only [List.filterMap_cons, hd, List.length_cons, ih (fun x hx => h x (List.mem_cons_of_mem _ hx))]

example : collect Resolver.ofDir ([Resolver.http (get1 (t! "http://a")), .call ⟨[⟨some (t! "q"), none, [(t! "a", .int 1)]⟩], some true⟩].filterMap Resolver.toDir?)
    = some [Resolver.http (get1 (t! "http://a")), .call ⟨[⟨some (t! "q"), none, [(t! "a", .int 1)]⟩], some true⟩] :=
  (C90_resolvers_partial (by simp [Resolver.Ok, get1])).2

/-- C90 for the directives of fields, types and enum values. -/
theorem C90_modifiers_partial :
    (∀ (a : Modify) n, fromDir Modify.dec (toDir n a.enc) = some a) ∧ (∀ (a : Omit) n, fromDir Omit.dec (toDir n a.enc) = some a) ∧
    (∀ (a : Cache) n, fromDir Cache.dec (toDir n a.enc) = some a) ∧ (∀ (a : Protected) n, fromDir Protected.dec (toDir n a.enc) = some a) ∧
    (∀ (a : AddField) n, fromDir AddField.dec (toDir n a.enc) = some a) ∧
    (∀ (a : Discriminate) n, fromDir Discriminate.dec (toDir n a.enc) = some a) ∧
    (∀ (a : Alias) n, a.options.Nodup → fromDir Alias.dec (toDir n a.enc) = some a) ∧
    (∀ (a : Telemetry) n, a.exporter ≠ some .null → fromDir Telemetry.dec (toDir n a.enc) = some a) ∧
    ∀ (a : Link), a.info ≠ some .null → fromDir Link.dec (linkDir a) = some a :=
  ⟨fun a _ => fromDir_toDir (keep_nodup a.keys) a.law, fun a _ => fromDir_toDir (keep_nodup a.keys) a.law,
    fun a _ => fromDir_toDir (keep_nodup a.keys) a.law, fun a _ => fromDir_toDir (keep_nodup a.keys) a.law,
    fun a _ => fromDir_toDir (keep_nodup a.keys) a.law, fun a _ => fromDir_toDir (keep_nodup a.keys) a.law,
    fun a _ h => fromDir_toDir (keep_nodup a.keys) (a.law h), fun a _ h => fromDir_toDir (keep_nodup a.keys) (a.law h), fun _ h => read_link h⟩

example : fromDir Modify.dec (toDir (t! "modify") (Modify.enc ⟨some (t! "n"), some true⟩)) = some ⟨some (t! "n"), some true⟩ :=
  C90_modifiers_partial.1 _ _

/-- C90 for `@server` and `@upstream`. -/
theorem C90_settings_partial :
    (∀ a : Server, a.enableJit = none → (∀ x, a.headers = some x → x.Ok) → fromDir Server.dec (toDir (t! "server") a.enc) = some a) ∧
    ∀ a : Upstream, a.verifySsl ≠ none → (∀ x, a.allowedHeaders = some x → x.Nodup) → (∀ x, a.batch = some x → x.headers.Nodup) →
      fromDir Upstream.dec (toDir (t! "upstream") a.enc) = some a := by
  refine ⟨fun a h1 h2 => fromDir_toDir (keep_nodup a.keys) (a.law h1 h2), fun a h1 h2 h3 => ?_⟩
  have hv : some (a.verifySsl.getD true) = a.verifySsl := by
    cases h : a.verifySsl with
    | none => exact absurd h h1
    | some b => rfl
  have := a.law h2 h3
  rw [hv] at this
  exact fromDir_toDir (keep_nodup a.keys) this

example : fromDir Upstream.dec (toDir (t! "upstream") demo.upstream.enc) = some demo.upstream :=
  C90_settings_partial.2 _ (by decide) (fun _ h => by cases h) (fun _ h => by cases h; decide)

theorem put_keys {V : Type} {k k' : Text} {v : V} : ∀ {m : List (Text × V)}, k' ∈ m.map (·.1) ∨ k' = k → k' ∈ (put k v m).map (·.1)
  | [], h => by simpa [put] using h
  | (k2, v2) :: r, h => by
    unfold put
    split
    · rename_i h2
      simp only [List.map_cons, List.mem_cons] at h ⊢
      rcases h with (h | h) | h
      · exact .inl (h.trans h2)
      · exact .inr h
      · exact .inl h
    · simp only [List.map_cons, List.mem_cons] at h ⊢
      rcases h with (h | h) | h
      · exact .inl h
      · exact .inr (put_keys (.inl h))
      · exact .inr (put_keys (.inr h))

theorem build_keys {V : Type} {k : Text} : ∀ {l m : List (Text × V)}, k ∈ m.map (·.1) ∨ k ∈ l.map (·.1) →
    k ∈ (l.foldl (fun m p => put p.1 p.2 m) m).map (·.1)
  | [], m, h => by simpa using h
  | p :: r, m, h => by
    simp only [List.foldl_cons]
    refine build_keys ?_
    simp only [List.map_cons, List.mem_cons] at h
    rcases h with h | h | h
    · exact .inl (put_keys (.inl h))
    · exact .inl (put_keys (.inr h))
    · exact .inr h

theorem toFields_keys : ∀ l : List (Text × V), (toFields l).map (·.1) = l.map (·.1)
  | [] => rfl
  | (k, x) :: r => by simp [toFields, toField, toFields_keys r]

theorem unknown_none {d : Dir} {ks : List Text} {k : Text} (h : k ∈ d.args.map (·.1)) (hk : k ∉ ks) :
    known (build (toFields d.args)) ks = none := by
  have : k ∈ (build (toFields d.args)).map (·.1) := build_keys (.inr (by rw [toFields_keys]; exact h))
  unfold known
  rw [if_neg]
  intro ha
  rw [List.all_eq_true] at ha
  obtain ⟨p, hp, rfl⟩ := List.mem_map.1 this
  exact hk (by simpa using ha p hp)

/-- C90, for the directives that check their arguments: an argument that the directive does not have makes the document
be refused.  Missing: `@call`, `@js`, `@protected` and `@alias`, see `C90_violated_by_unknown_argument`. -/
theorem C90_unknown_refused_partial {d : Dir} {k : Text} (h : k ∈ d.args.map (·.1)) :
    (k ∉ ["onRequest", "url", "body", "encoding", "batchKey", "headers", "input", "method", "output", "query", "dedupe", "select",
      "onResponseBody"].map String.toList → fromDir Http.dec d = none) ∧
    (k ∉ ["url", "body", "batchKey", "headers", "method", "dedupe", "select", "onResponseBody"].map String.toList → fromDir Grpc.dec d = none) ∧
    (k ∉ ["args", "url", "batch", "headers", "name", "dedupe"].map String.toList → fromDir GraphQL.dec d = none) ∧
    (k ≠ t! "body" → fromDir Expr.dec d = none) ∧ (k ≠ t! "maxAge" → fromDir Cache.dec d = none) ∧ fromDir Omit.dec d = none ∧
    (k ∉ ["name", "omit"].map String.toList → fromDir Modify.dec d = none) ∧
    (k ∉ ["name", "path"].map String.toList → fromDir AddField.dec d = none) ∧
    (k ≠ t! "field" → fromDir Discriminate.dec d = none) ∧
    (k ∉ ["id", "src", "type", "headers", "meta", "proto_paths"].map String.toList → fromDir Link.dec d = none) ∧
    (k ∉ ["enableJIT", "apolloTracing", "batchRequests", "headers", "globalResponseTimeout", "hostname", "introspection", "enableFederation",
      "pipelineFlush", "port", "queryValidation", "responseValidation", "script", "showcase", "vars", "version", "workers",
      "routes"].map String.toList → fromDir Server.dec d = none) ∧
    (k ∉ ["onRequest", "allowedHeaders", "batch", "connectTimeout", "httpCache", "http2Only", "keepAliveInterval", "keepAliveTimeout",
      "keepAliveWhileIdle", "poolMaxIdlePerHost", "poolIdleTimeout", "proxy", "tcpKeepAlive", "timeout", "userAgent",
      "verifySSL"].map String.toList → fromDir Upstream.dec d = none) ∧
    (k ∉ ["export", "requestHeaders"].map String.toList → fromDir Telemetry.dec d = none) := by
  refine ⟨?_, ?_, ?_, ?_, ?_, ?_, ?_, ?_, ?_, ?_, ?_, ?_, ?_⟩
  · intro hk
    simp only [List.map_cons, List.map_nil] at hk
    simp only [fromDir, Http.dec, unknown_none h hk]; rfl
  · intro hk
    simp only [List.map_cons, List.map_nil] at hk
    simp only [fromDir, Grpc.dec, unknown_none h hk]; rfl
  · intro hk
    simp only [List.map_cons, List.map_nil] at hk
    simp only [fromDir, GraphQL.dec, unknown_none h hk]; rfl
  · intro hk
    simp only [fromDir, Expr.dec, unknown_none (ks := ["body".toList]) h (by simp only [List.mem_singleton]; exact hk)]; rfl
  · intro hk
    simp only [fromDir, Cache.dec, unknown_none (ks := ["maxAge".toList]) h (by simp only [List.mem_singleton]; exact hk)]; rfl
  · simp only [fromDir, Omit.dec, unknown_none (ks := []) h (by simp)]; rfl
  · intro hk
    simp only [List.map_cons, List.map_nil] at hk
    simp only [fromDir, Modify.dec, unknown_none h hk]; rfl
  · intro hk
    simp only [List.map_cons, List.map_nil] at hk
    simp only [fromDir, AddField.dec, unknown_none h hk]; rfl
  · intro hk
    simp only [fromDir, Discriminate.dec, unknown_none (ks := ["field".toList]) h (by simp only [List.mem_singleton]; exact hk)]; rfl
  · intro hk
    simp only [List.map_cons, List.map_nil] at hk
    simp only [fromDir, Link.dec, unknown_none h hk]; rfl
  · intro hk
    simp only [List.map_cons, List.map_nil] at hk
    simp only [fromDir, Server.dec, unknown_none h hk]; rfl
  · intro hk
    simp only [List.map_cons, List.map_nil] at hk
    simp only [fromDir, Upstream.dec, unknown_none h hk]; rfl
  · intro hk
    simp only [List.map_cons, List.map_nil] at hk
    simp only [fromDir, Telemetry.dec, unknown_none h hk]; rfl

example : fromDir Http.dec ⟨t! "http", [(t! "url", .str (t! "http://a")), (t! "methd", .enum (t! "POST"))]⟩ = none :=
  (C90_unknown_refused_partial (k := t! "methd") (by decide)).1 (by decide)

/-- C90 fails: `@protected(ids: ["a"])`, with the argument `id` misspelt, is read as `@protected`, which any provider of
the configuration satisfies; unknown arguments of `@call`, `@js` and `@alias` are ignored, too. -/
theorem C90_violated_by_unknown_argument :
    fromDir Protected.dec ⟨t! "protected", [(t! "ids", .arr [.str (t! "a")])]⟩ = some ⟨none⟩ ∧
    fromDir Js.dec ⟨t! "js", [(t! "name", .str (t! "f")), (t! "x", .null)]⟩ = some ⟨t! "f"⟩ ∧
    fromDir Alias.dec ⟨t! "alias", [(t! "options", .arr []), (t! "x", .null)]⟩ = some ⟨[]⟩ ∧
    fromDir Call.dec ⟨t! "call", [(t! "steps", .arr []), (t! "x", .null)]⟩ = some ⟨[], none⟩ := ⟨by rfl, by rfl, by rfl, by rfl⟩

theorem get_perm {V : Type} {l l' : List (Text × V)} (h : l.Perm l') (k : Text) : (l.map (·.1)).Nodup → get k l = get k l' := by
  induction h with
  | nil => exact fun _ => rfl
  | cons p _ ih =>
    intro hn
    simp only [List.map_cons, List.nodup_cons] at hn
    simp only [Verif.Merge.get, ih hn.2]
  | swap p q l =>
    intro hn
    simp only [List.map_cons, List.nodup_cons, List.mem_cons, not_or] at hn
    simp only [Verif.Merge.get]
    split
    · rename_i h1
      rw [if_neg (fun h2 => hn.1.1 (h1.trans h2.symm))]
    · rfl
  | trans h1 _ ih1 ih2 =>
    intro hn
    exact (ih1 hn).trans (ih2 ((h1.map _).nodup_iff.1 hn))

theorem known_perm {l l' : List (Text × J)} (h : l.Perm l') (ks : List Text) : known l ks = known l' ks := by
  have : l.all (fun p => ks.contains p.1) = l'.all (fun p => ks.contains p.1) := by
    rw [Bool.eq_iff_iff, List.all_eq_true, List.all_eq_true]
    exact ⟨fun hh x hx => hh x (h.mem_iff.2 hx), fun hh x hx => hh x (h.mem_iff.1 hx)⟩
  simp only [known, this]

/-- C90: what a directive means does not depend on the order in which its arguments are written. -/
theorem C90_order_irrelevant {n n' : Text} {l l' : List (Text × V)} (h : l.Perm l') (hn : (l.map (·.1)).Nodup) :
    fromDir Http.dec ⟨n, l⟩ = fromDir Http.dec ⟨n', l'⟩ ∧ fromDir Grpc.dec ⟨n, l⟩ = fromDir Grpc.dec ⟨n', l'⟩ ∧
    fromDir GraphQL.dec ⟨n, l⟩ = fromDir GraphQL.dec ⟨n', l'⟩ ∧ fromDir Call.dec ⟨n, l⟩ = fromDir Call.dec ⟨n', l'⟩ ∧
    fromDir Js.dec ⟨n, l⟩ = fromDir Js.dec ⟨n', l'⟩ ∧ fromDir Expr.dec ⟨n, l⟩ = fromDir Expr.dec ⟨n', l'⟩ ∧
    fromDir Cache.dec ⟨n, l⟩ = fromDir Cache.dec ⟨n', l'⟩ ∧ fromDir Modify.dec ⟨n, l⟩ = fromDir Modify.dec ⟨n', l'⟩ ∧
    fromDir Protected.dec ⟨n, l⟩ = fromDir Protected.dec ⟨n', l'⟩ ∧ fromDir AddField.dec ⟨n, l⟩ = fromDir AddField.dec ⟨n', l'⟩ ∧
    fromDir Link.dec ⟨n, l⟩ = fromDir Link.dec ⟨n', l'⟩ ∧ fromDir Server.dec ⟨n, l⟩ = fromDir Server.dec ⟨n', l'⟩ ∧
    fromDir Upstream.dec ⟨n, l⟩ = fromDir Upstream.dec ⟨n', l'⟩ := by
  have hp : (toFields l).Perm (toFields l') := by
    have : ∀ m : List (Text × V), toFields m = m.map toField := by
      intro m
      induction m with
      | nil => rfl
      | cons p r ih => simp only [toFields, ih, List.map_cons]
    rw [this, this]
    exact h.map _
  have hn1 : ((toFields l).map (·.1)).Nodup := by rw [toFields_keys]; exact hn
  have hn2 : ((toFields l').map (·.1)).Nodup := (hp.map _).nodup_iff.1 hn1
  have hg : ∀ k, get k (toFields l) = get k (toFields l') := fun k => get_perm hp k hn1
  have hk := known_perm hp
  simp only [fromDir, build_id hn1, build_id hn2]
  refine ⟨?_, ?_, ?_, ?_, ?_, ?_, ?_, ?_, ?_, ?_, ?_, ?_, ?_⟩
  · simp only [Http.dec, need, maybe, hg, hk]
  · simp only [Grpc.dec, need, maybe, hg, hk]
  · simp only [GraphQL.dec, need, maybe, hg, hk]
  · simp only [Call.dec, need, maybe, hg, hk]
  · simp only [Js.dec, need, maybe, hg, hk]
  · simp only [Expr.dec, need, maybe, hg, hk]
  · simp only [Cache.dec, need, maybe, hg, hk]
  · simp only [Modify.dec, need, maybe, hg, hk]
  · simp only [Protected.dec, need, maybe, hg, hk]
  · simp only [AddField.dec, need, maybe, hg, hk]
  · simp only [Link.dec, need, maybe, hg, hk]
  · simp only [Server.dec, need, maybe, hg, hk]
  · simp only [Upstream.dec, need, maybe, hg, hk]

example : fromDir Grpc.dec ⟨t! "grpc", [(t! "url", .str (t! "u")), (t! "method", .str (t! "m"))]⟩ =
    fromDir Grpc.dec ⟨t! "grpc", [(t! "method", .str (t! "m")), (t! "url", .str (t! "u"))]⟩ :=
  (C90_order_irrelevant (.swap _ _ _) (by decide)).2.1

/-- C90 fails: an empty list `vary` is not written and then read as the default of three headers. -/
theorem C90_violated_by_empty_vary :
    (Cors.dec (Cors.enc ⟨none, [], [], [], none, [], none, []⟩)).map (fun c => c.vary) =
      some [t! "origin", t! "access-control-request-method", t! "access-control-request-headers"] := by rfl

/-- C90 fails: a body that is null is read as no body. -/
theorem C90_violated_by_null_body :
    (fromDir Http.dec (toDir (t! "http") (Http.enc { get1 (t! "u") with body := some .null }))).map (fun h => h.body.isSome) = some false := by rfl

/-- C90 fails: `enableJIT` is read but never written. -/
theorem C90_violated_by_jit :
    (fromDir Server.dec ⟨t! "server", [(t! "enableJIT", .bool false)]⟩).map (fun s => s.enableJit) = some (some false) ∧
    (fromDir Server.dec (toDir (t! "server") (Server.enc { Server.dflt with enableJit := some false }))).map (fun s => s.enableJit) = some none :=
  ⟨by rfl, by rfl⟩

end Verif.Sdl
