import Verif.Edge.Props
import Verif.Load.Cases

/-!
# What goes wrong, and concrete cases
-/

set_option linter.unusedSimpArgs false

namespace Verif.Edge

open Verif.Mustache (Text)
open Verif.Sdl (V)
open Verif.Load (Io Cfg Ext Link isUrl readFile none')

/-! ## C141 -/

/-- A request as the gateway passes it on. -/
def post : LReq :=
  ⟨"POST".toList, some "https".toList, some "example.com".toList, none, "/api/posts".toList, none,
    some ["api".toList, "posts".toList], [("accept".toList, [42, 47, 42])], [123, 125]⟩

example : ∃ q, lambdaRequest post = .ok q ∧ q.method = "POST".toList ∧ q.headers = post.headers ∧ q.body = [123, 125] ∧
    Says q.uri "example.com".toList "/api/posts".toList none ∧ q.path = "/api/posts".toList :=
  C141_lambda_partial post "POST" rfl (by unfold Standard; decide) "example.com".toList rfl (by unfold Plain; decide) (by unfold Plain; decide)
    (by decide) (by unfold Plain; decide)

/-- The text of the URI. -/
example : lambdaRequest post = .ok ⟨"POST".toList, "https://example.com/api/posts".toList, post.headers, [123, 125]⟩ := by
  decide +kernel

/-- The request with a query. -/
def asked : LReq := { post with method := "GET".toList, query := some "userId=1".toList }

example : ∀ q, lambdaRequest asked = .ok q → q.query = none := fun q h =>
  C141_lambda_no_query asked q h (by intro h e; cases e; unfold Plain; decide) (by unfold Plain; decide) (by unfold Plain; decide)

/-- **C141** does not hold on Lambda for requests with a query: it is lost. -/
theorem C141_violated_by_query : ∃ (r : LReq) (q : HReq), lambdaRequest r = .ok q ∧ r.query = some "userId=1".toList ∧ q.query = none :=
  ⟨asked, ⟨"GET".toList, "https://example.com/api/posts".toList, post.headers, [123, 125]⟩, by decide +kernel, rfl, by decide +kernel⟩

/-- **C141** does not hold on Lambda for a URL with a port: it is lost. -/
theorem C141_violated_by_port : ∃ (r : LReq) (q : HReq), lambdaRequest r = .ok q ∧ r.port = some "3000".toList ∧
    q.uri = "https://example.com/api/posts".toList :=
  ⟨{ post with port := some "3000".toList }, ⟨"POST".toList, "https://example.com/api/posts".toList, post.headers, [123, 125]⟩,
    by decide +kernel, rfl, by decide⟩

/-- **C141** does not hold on Lambda for other methods: the function panics. -/
theorem C141_violated_by_method : ∃ r : LReq, r.method = "PROPFIND".toList ∧ lambdaRequest r = .panic :=
  ⟨{ post with method := "PROPFIND".toList }, rfl, by decide +kernel⟩

/-- **C141** does not hold on Lambda if the route of the function has no parameter `proxy`: the path is lost. -/
theorem C141_violated_by_route : ∃ (r : LReq) (q : HReq), lambdaRequest r = .ok q ∧ r.path = "/graphql".toList ∧ q.path = "/".toList :=
  ⟨{ post with path := "/graphql".toList, proxy := none }, ⟨"POST".toList, "https://example.com/".toList, post.headers, [123, 125]⟩,
    by decide +kernel, rfl, by decide +kernel⟩

/-- Bytes below 128 are a text; for the cases. -/
def ascii (b : Bytes) : Bool := b.all (· < 128)

/-- A request to a worker. -/
def wpost : WReq := ⟨"POST".toList, "https://w.dev/graphql?config=a".toList, [("accept".toList, [42])], [123, 125]⟩

example : workerRequest id wpost = .ok ⟨"POST".toList, "https://w.dev/graphql?config=a".toList, [("accept".toList, [42])], [123, 125]⟩ :=
  C141_worker_partial id wpost "POST" rfl (by unfold Standard; decide) rfl

example : (HReq.mk "POST".toList "https://w.dev/graphql?config=a".toList [] []).query = some "config=a".toList := by decide +kernel

example : workerRequest id { wpost with method := "PROPFIND".toList } = .err :=
  C141_worker_refuses id _ (by
    intro m hm
    rcases hm with h | h | h | h | h | h | h | h | h <;> subst h <;> decide)

/-- A response with a text and one with a byte that is not part of a text. -/
example : workerResponse ascii ⟨200, [("a".toList, [104, 105])], [1]⟩ = .ok ⟨200, [("a".toList, [104, 105])], [1]⟩ ∧
    workerResponse ascii ⟨200, [("a".toList, [104, 105]), ("b".toList, [233])], [1]⟩ = .err :=
  ⟨(C141_response ascii _).2.1 (by decide), (C141_response ascii _).2.2 (by decide)⟩

/-- **C141** does not hold on Cloudflare for responses with a header that is not UTF-8: the client gets an error. -/
theorem C141_violated_by_header : ∃ r : Resp, r.status = 200 ∧ workerResponse ascii r = .err :=
  ⟨⟨200, [("x-name".toList, [233])], []⟩, rfl, by decide⟩

/-! ## C142 -/

/-- Two configurations, of which the first changes from 1 to 3. -/
def before : World Nat
  | some ['a'] => .app 1
  | some ['b'] => .app 2
  | some _ => .refused .invalidUrl
  | none => .refused .noConfig
/-- The same, later. -/
def after : World Nat
  | some ['a'] => .app 3
  | c => before c

/-- Two requests whose contexts are built in the other order, and one for a configuration that is known by then. -/
def mixed : List (Ev Nat) :=
  [⟨before, .start 1 (some ['a'])⟩, ⟨before, .start 2 (some ['b'])⟩, ⟨before, .built 2⟩, ⟨before, .start 3 (some ['b'])⟩,
    ⟨before, .start 4 none⟩, ⟨before, .built 1⟩, ⟨before, .built 4⟩]

example : (run {} mixed).got =
    [(2, some ['b'], .app 2), (3, some ['b'], .app 2), (1, some ['a'], .app 1), (4, none, .refused .noConfig)] := by decide

example : ∃ e ∈ mixed, (∃ j, e.act = .built j) ∧ e.world (some ['b']) = .app 2 := (C142_named mixed 3 (some ['b']) (.app 2) (by decide)).2

/-- The first request of `mixed` is answered, though another one comes and is answered in between. -/
example : ∃ b, (1, some ['a'], b) ∈ (run {} ([⟨before, .start 9 none⟩] ++ ⟨before, .start 1 (some ['a'])⟩ ::
    [⟨before, .start 2 (some ['b'])⟩, ⟨before, .built 2⟩] ++ [⟨after, .built 1⟩])).got :=
  C142_answered _ _ _ _ 1 _ (by simp) (by simp)

example : (run (run {} mixed) [⟨after, .start 5 (some ['b'])⟩, ⟨after, .built 5⟩]).got =
    (run {} mixed).got ++ [(5, some ['b'], .app 2)] :=
  C142_fresh_partial (run {} mixed) after after 5 ['b'] (by intro q a h; have : (some (['a'], 1) : Option (Text × Nat)) = some (q, a) := h
                                                            cases this; decide) (by decide)

/-- **C142** does not hold for a configuration that has changed: as long as no other one is asked for, requests get the
old one. -/
theorem C142_violated_by_change : ∃ (es : List (Ev Nat)) (w : World Nat) (i : Nat) (p : Text),
    (∀ x ∈ (run {} es).waiting, False) ∧ w (some p) = .app 3 ∧
      (run {} (es ++ [⟨w, .start i (some p)⟩])).got = (run {} es).got ++ [(i, some p, .app 1)] :=
  ⟨[⟨before, .start 1 (some ['a'])⟩, ⟨before, .built 1⟩], after, 2, ['a'], by decide, rfl, by decide⟩

/-- A configuration with one link, and what the link leads to. -/
def linked (kind : Verif.Load.Kind) (src : Text) : Io (List Text) :=
  { none' with
    web := [("http://h/c.graphql".toList, ['c'])]
    ops := fun _ => some [7]
    config := fun _ c => some ⟨if c = ['c'] then [⟨none, src, kind, none⟩] else [], [], [c]⟩ }

/-- What can be compared of a context. -/
def summary (b : Built (App (List Text))) : Option (List Text × Ext × List Nat) :=
  match b with
  | .app a => some (a.config.types, a.ext, a.endpoints)
  | _ => none

/-- **C142** does not hold for REST endpoints: the configuration has one, the context none. -/
theorem C142_violated_by_rest : ∃ (io : Io (List Text)) (p : Text) (a : App (List Text)),
    createAppCtx io 5 (fun _ => true) true (some p) = .app a ∧ a.ext.endpoints = [7] ∧ a.endpoints = [] := by
  have h : (summary (createAppCtx { linked .operation "/ops".toList with disk := [("/ops".toList, ['o'])] } 5 (fun _ => true) true
      (some "http://h/c.graphql".toList))).map (fun x => x.2.1.endpoints) = some [7] := by decide +kernel
  cases hc : createAppCtx { linked .operation "/ops".toList with disk := [("/ops".toList, ['o'])] } 5 (fun _ => true) true
      (some "http://h/c.graphql".toList) with
  | app a =>
    rw [hc] at h
    refine ⟨_, _, a, hc, ?_, C142_no_endpoints _ _ _ _ _ a hc⟩
    simpa [summary] using h
  | refused r => rw [hc] at h; simp [summary] at h
  | failed => rw [hc] at h; simp [summary] at h

example : createAppCtx none' 5 (fun _ => true) true none = .refused .noConfig := C142_none none' 5 _ true

/-! ## C143 -/

/-- A configuration on the web with a link to another one there, by a relative path. -/
def remote : Io (List Text) :=
  { linked .config "d.graphql".toList with
    web := [("http://h/c.graphql".toList, ['c']), ("http://h/d.graphql".toList, ['d'])] }

theorem remote_files {q c : Text} (h : readFile remote q = .ok c) : c = ['c'] ∨ c = ['d'] := by
  have h' : Verif.Transform.get remote.web q = some c := by
    unfold readFile at h
    split at h
    · cases hg : Verif.Transform.get remote.web q with
      | none => rw [hg] at h; simp [Verif.Load.orErr] at h
      | some x => rw [hg] at h; simp only [Verif.Load.orErr, Verif.Load.Res.ok.injEq] at h; rw [h]
    · have : Verif.Transform.get remote.disk q = none := rfl
      rw [this] at h
      simp [Verif.Load.orErr] at h
  have hm := Verif.Load.mem_of_get h'
  have hw : remote.web.map (·.2) = [['c'], ['d']] := rfl
  have := List.mem_map_of_mem (f := fun x : Text × Text => x.2) hm
  rw [hw] at this
  simpa using this

example : ∀ (disk : List (Text × Text)) (env : Text → Option Text),
    createAppCtx { remote with disk := disk, env := env } 5 (fun _ => true) false (some "http://h/c.graphql".toList) =
      createAppCtx remote 5 (fun _ => true) false (some "http://h/c.graphql".toList) :=
  C143_showcase_partial remote 5 _ _ (by decide +kernel) (by decide +kernel)
    (by
      intro q c h r
      rcases remote_files h with rfl | rfl
      · rw [show Verif.Mustache.parse ['c'] = [.lit ['c']] from by decide +kernel]; simp
      · rw [show Verif.Mustache.parse ['d'] = [.lit ['d']] from by decide +kernel]; simp)
    (by
      intro q c o h l hl
      have ho : o = ⟨if c = ['c'] then [⟨none, "d.graphql".toList, .config, none⟩] else [], [], [c]⟩ := by
        simp only [remote, linked, Option.some.injEq] at h
        exact h.symm
      subst ho
      simp only at hl
      split at hl
      · simp only [List.mem_singleton] at hl
        subst hl
        exact ⟨Or.inr (by decide), by decide⟩
      · cases hl)

/-- Both files are read. -/
example : (summary (createAppCtx remote 5 (fun _ => true) false (some "http://h/c.graphql".toList))).map (·.1) =
    some [['c'], ['d']] := by decide +kernel

example : createAppCtx remote 5 (fun _ => true) false (some "/etc/passwd".toList) = .refused .invalidUrl :=
  C143_paths remote 5 _ _ (by decide)

/-- **C143** does not hold for links: a configuration of a client that links to a file of the server by an absolute path
gets the contents of that file. -/
theorem C143_violated_by_link : ∃ (io : Io (List Text)) (p path : Text),
    (∀ secret : Text, secret = ['x'] ∨ secret = ['y'] →
      (summary (createAppCtx { io with disk := [(path, secret)] } 5 (fun _ => true) false (some p))).map (fun x => x.2.1.script) =
        some (some secret)) := by
  refine ⟨linked .script "/etc/secret".toList, "http://h/c.graphql".toList, "/etc/secret".toList, ?_⟩
  rintro s (rfl | rfl)
  · decide +kernel
  · decide +kernel

/-- **C143** does not hold for templates: a configuration of a client that mentions a variable of the environment of the
server gets its value. -/
theorem C143_violated_by_env : ∃ (io : Io (List Text)) (p : Text),
    (∀ secret : Text, secret = ['x'] ∨ secret = ['y'] →
      (summary (createAppCtx { io with env := fun k => if k = "KEY".toList then some secret else none } 5 (fun _ => true) false
        (some p))).map (·.1) = some [secret]) := by
  refine ⟨{ linked .script [] with web := [("http://h/c.graphql".toList, "{{.env.KEY}}".toList)] }, "http://h/c.graphql".toList, ?_⟩
  rintro s (rfl | rfl)
  · decide +kernel
  · decide +kernel

/-- **C143** does not hold for URLs that are not of the web: they are taken as paths on the disk. -/
theorem C143_violated_by_scheme : ∃ (io : Io (List Text)) (p : Text),
    (summary (createAppCtx { io with disk := [(p, ['x'])] } 5 (fun _ => true) false (some p))).map (·.1) = some [['x']] :=
  ⟨linked .script [], "a:b/c.graphql".toList, by decide +kernel⟩

/-! ## C144 -/

/-- A list that is written alike in GraphQL and in JSON. -/
theorem flat_list : Flat (.arr [.int (-12), .str "a \"b\"\n".toList, .arr [], .bool true, .null]) := by
  refine .arr ?_
  intro v hv
  simp only [List.mem_cons, List.not_mem_nil, or_false] at hv
  rcases hv with rfl | rfl | rfl | rfl | rfl
  · exact .int _
  · exact .str (by decide)
  · exact .arr (by simp)
  · exact .bool _
  · exact .null

example : kvGet 150 9 (kvSet 100 9 (.arr [.int (-12), .str "a \"b\"\n".toList, .arr [], .bool true, .null]) 60 []) =
    .ok (some (.arr [.int (-12), .str "a \"b\"\n".toList, .arr [], .bool true, .null])) :=
  C144_kept_partial 100 150 9 60 _ [] flat_list (by decide)

example : kvGet 150 8 (kvSet 100 9 .null 60 (kvSet 90 8 (.bool true) 100 [])) = .ok (some (.bool true)) := by
  rw [C144_others 100 150 9 8 60 .null _ (by decide)]
  exact C144_kept_partial 90 150 8 100 _ [] (.bool true) (by decide)

/-- A user. -/
def user : V := .obj [("id".toList, .int 1)]

example : kvGet 150 9 (kvSet 100 9 user 60 []) = .error () :=
  C144_object_fails 100 150 9 60 "id".toList (.int 1) [] [] ⟨'i', ['d'], rfl, by decide⟩ (by decide)

/-- Whether a result is a value, and nothing else. -/
def succeeds {α : Type} : Except Unit α → Bool
  | .ok _ => true
  | .error _ => false

/-- **C144** does not hold for fields whose values are objects: the first request gets the value, the next one an error,
though the call would have succeeded. -/
theorem C144_violated_by_object : ∃ (v : V) (now later key maxAge : Nat), later < now + maxAge ∧
    (cached now key maxAge (.ok v) []).1 = .ok v ∧
      (cached later key maxAge (.ok v) (cached now key maxAge (.ok v) []).2).1 = .error () := by
  refine ⟨user, 100, 150, 9, 60, by decide, rfl, ?_⟩
  have h : kvGet 150 9 (kvSet 100 9 user 60 []) = .error () :=
    C144_object_fails 100 150 9 60 "id".toList (.int 1) [] [] ⟨'i', ['d'], rfl, by decide⟩ (by decide)
  have e : (cached 100 9 60 (.ok user) []).2 = kvSet 100 9 user 60 [] := rfl
  rw [e, cached, h]

/-- **C144** does not hold for the names of enum values either. -/
theorem C144_violated_by_enum : ∃ (v : V) (now later key maxAge : Nat), later < now + maxAge ∧
    succeeds (kvGet later key (kvSet now key v maxAge [])) = false :=
  ⟨.enum "RED".toList, 100, 150, 9, 60, by decide, by decide +kernel⟩

/-- **C144** does not hold for the age: a value that may be kept for a second is there for more than ten minutes. -/
theorem C144_violated_by_age : ∃ (v : V) (now later key maxAge : Nat), now + maxAge < later ∧ later = now + 600000 ∧
    kvGet later key (kvSet now key v maxAge []) = .ok (some v) := by
  refine ⟨.bool true, 0, 600000, 9, 1000, by decide, rfl, ?_⟩
  have h := readJson_flat (.bool true)
  simp [kvGet, kvSet, h]

end Verif.Edge
