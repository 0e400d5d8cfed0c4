import Verif.Reflect.Props

/-!
# Cases of C153 and C154
-/

set_option linter.unusedSimpArgs false

namespace Verif.Reflect

open Verif.Mustache (Text NoBraces)
open Verif.Transform (At get)
open Verif.Load (PFile)

/-- The URL of a server. -/
def home : Url := ⟨"http://h:1".toList, "x".toList, some "k=1".toList⟩

/-- Two files: a service, and what it imports. -/
def news : PFile := ⟨"news.proto".toList, ⟨some "news".toList, ["date.proto".toList], 1⟩⟩

/-- The file that is imported. -/
def date : PFile := ⟨"date.proto".toList, ⟨some "date".toList, [], 2⟩⟩

/-- Libraries that know one URL, its endpoint, three answers and two files. -/
def lib : Lib where
  url := fun t => if t = "http://h:1/x?k=1".toList then some home
    else if t = printUrl (Endpoint home) then some (Endpoint home) else none
  answer := fun b => if b = [1] then some ⟨some ["news.News".toList, "grpc.reflection.v1alpha.ServerReflection".toList], none⟩
    else if b = [2] then some ⟨none, some [[7]]⟩
    else if b = [3] then some ⟨none, some [[8]]⟩
    else if b = [4] then some ⟨none, some [[8], [7]]⟩
    else none
  file := fun b => if b = [7] then some news else if b = [8] then some date else none

/-- What the server says. -/
def sv : Ask → Option Answer
  | .services => some ⟨some ["news.News".toList, "grpc.reflection.v1alpha.ServerReflection".toList], none⟩
  | .symbol n => if n = "news.News".toList then some ⟨none, some [[7]]⟩ else none
  | .file n => if n = "date.proto".toList then some ⟨none, some [[8]]⟩ else none

/-- The server. -/
def up : Req → Option (List UInt8) := fun q =>
  match q.ask with
  | .services => some [0, 0, 0, 0, 1, 1]
  | .symbol n => if n = "news.News".toList then some [0, 0, 0, 0, 1, 2] else none
  | .file n => if n = "date.proto".toList then some [0, 0, 0, 0, 1, 3] else none

/-- An environment with a token and a secret. -/
def env : Text → Option Text := fun k =>
  if k = "TOKEN".toList then some "abc".toList else if k = "KEY".toList then some "s3cret".toList
  else if k = "FILE".toList then some "abc\n".toList else none

/-- A link with headers. -/
def link : Link := ⟨"http://h:1/x?k=1".toList, some [("X-Old".toList, "1".toList), ("authorization".toList, "Bearer {{.env.TOKEN}}".toList),
  ("x-old".toList, "2".toList), ("Content-Type".toList, "text/plain".toList)]⟩

/-- The result of a request: all of it, or nothing. -/
def seen (x : Except Err Req) : Option Req :=
  match x with
  | .ok q => some q
  | .error _ => none

example : PlainUrl lib link home := by
  refine ⟨?_, ?_, ?_⟩
  · decide +kernel
  · rw [noBraces_iff, ← Verif.Mustache.takeUntil_none]
    decide +kernel
  · decide +kernel

theorem link_good : GoodHeaders link := by
  intro h hh
  have hn : (headersOf link).all (fun h => (Verif.Hook.headerName h.1).isSome) = true := by decide +kernel
  have hv : (headersOf link).all (fun h => decide (¬ Verif.Mustache.Seg.expr [['e', 'n', 'v']] ∈ Verif.Mustache.parse h.2)) = true := by
    decide +kernel
  refine ⟨?_, by simpa [NamesNoVar] using List.all_eq_true.1 hv h hh⟩
  rcases goodName_iff (k := h.1) with e | e
  · exact e.2
  · have := List.all_eq_true.1 hn h hh
    rw [e.1] at this
    cases this

example : GoodHeaders link := link_good

/-- What is sent for the link: the last of two headers with one name, the token, and the own content type. -/
example : (seen (request lib env link (.symbol "a\"\n\\b".toList))).map (fun q => (q.url, q.ask)) =
    some (Endpoint home, .symbol "a\"\n\\b".toList) := by
  decide +kernel

example : (seen (request lib env link .services)).map
      (fun q => ["x-old".toList, "authorization".toList, "content-type".toList, "x-other".toList].map (get q.headers)) =
    some [some "2".toList, some "Bearer abc".toList, some "application/grpc+proto".toList, none] := by
  decide +kernel

/-- A name that hides no template, with all that JSON escapes. -/
example : NoBraces "a\"\n\\b{}".toList := by
  rw [noBraces_iff, ← Verif.Mustache.takeUntil_none]
  decide +kernel

example : About (.symbol "news.News".toList) "news.News".toList := .symbol

/-- A header with a name that no header may have. -/
example : ¬ GoodName "a b".toList ∧ ("a b".toList, []) ∈ headersOf ⟨"http://h:1/x?k=1".toList, some [("a b".toList, [])]⟩ := by
  refine ⟨fun h => ?_, List.mem_singleton.2 rfl⟩
  rcases goodName_iff (k := "a b".toList) with e | e
  · have : Verif.Hook.headerName "a b".toList = none := by decide +kernel
    rw [this] at e
    cases e.1
  · exact e.2 h

/-- Headers without templates, for `C153_env_partial`. -/
example : ∀ h ∈ headersOf ⟨"http://h:1/x?k=1".toList, some [("x-a".toList, "1".toList)]⟩, NoBraces h.2 := by
  intro h hh
  have hh : h ∈ [("x-a".toList, "1".toList)] := hh
  rw [List.mem_singleton] at hh
  subst hh
  rw [noBraces_iff, ← Verif.Mustache.takeUntil_none]
  decide +kernel

example : Serves lib up home sv := by
  rintro ⟨u, hs, a⟩ _ r hr
  cases a with
  | services =>
    refine ⟨[0, 0, 0, 0, 1], [1], rfl, rfl, ?_⟩
    rw [← hr]
    rfl
  | symbol n =>
    change (if n = "news.News".toList then some (⟨none, some [[7]]⟩ : Answer) else none) = some r at hr
    split at hr
    · next e =>
      refine ⟨[0, 0, 0, 0, 1], [2], ?_, rfl, ?_⟩
      · show (if n = "news.News".toList then some [0, 0, 0, 0, 1, 2] else none) = _
        rw [if_pos e]
        rfl
      · rw [← hr]
        rfl
    · cases hr
  | file n =>
    change (if n = "date.proto".toList then some (⟨none, some [[8]]⟩ : Answer) else none) = some r at hr
    split at hr
    · next e =>
      refine ⟨[0, 0, 0, 0, 1], [3], ?_, rfl, ?_⟩
      · show (if n = "date.proto".toList then some [0, 0, 0, 0, 1, 3] else none) = _
        rw [if_pos e]
        rfl
      · rw [← hr]
        rfl
    · cases hr

/-- The files that the client gets, and the services. -/
example : ok? (listAll lib env up link) = some ["news.News".toList, "grpc.reflection.v1alpha.ServerReflection".toList] ∧
    ok? (byService lib env up link "news.News".toList) = some news ∧ ok? (byFile lib env up link "date.proto".toList) = some date ∧
    ok? (byFile lib env up link "other.proto".toList) = none := by
  refine ⟨?_, ?_, ?_, ?_⟩ <;> decide +kernel

/-- Nothing else but this server. -/
def io : Verif.Load.Io Unit where
  disk := []
  web := []
  google := []
  env := env
  services := fun _ => none
  byService := fun _ _ => none
  byFile := fun _ _ => none
  proto := fun _ => none
  certs := fun _ => none
  keys := fun _ => none
  ops := fun _ => none
  jwks := fun _ => none
  config := fun _ _ => none
  unify := fun _ _ => none

/-- The link as a whole: the service and what it imports. -/
example : (match Verif.Load.fetch (withClient io lib up link.headers) 3 link.src with
      | .ok ls => ls.map (fun l => l.map (·.name))
      | _ => []) = [["date.proto".toList, "news.proto".toList]] := by
  decide +kernel

theorem noBraces_date : NoBraces "date.proto".toList := by
  rw [noBraces_iff, ← Verif.Mustache.takeUntil_none]
  decide +kernel

/-- The server sends the file that it is asked for. -/
example : ∀ i f, NoBraces i → byFile lib env up link i = .ok f → f.name = i := by
  intro i f hi h
  obtain ⟨r, b, rest, ⟨q, head, body, hq, hu, h5, ha⟩, hr, hf⟩ := C154_file.2.1 h
  have hq' : q.ask = .file i := C153_ask_partial .file hi hq
  have hu' : (if i = "date.proto".toList then some [0, 0, 0, 0, 1, 3] else none) = some (head ++ body) := by
    rw [← hu, up, hq']
  split at hu'
  · next e =>
    subst e
    have hu' : [0, 0, 0, 0, 1, 3] = head ++ body := Option.some.inj hu'
    have hb : body = [3] := by
      have := congrArg (List.drop 5) hu'
      rw [← h5, List.drop_left, h5] at this
      exact this.symm
    subst hb
    cases (show some (⟨none, some [[8]]⟩ : Answer) = some r from ha)
    cases (show some [[8]] = some (b :: rest) from hr)
    cases (show some date = some f from hf)
    rfl
  · cases hu'

/-- No import of its files contains braces. -/
example : ∀ i f, byFile lib env up link i = .ok f ∨ byService lib env up link i = .ok f → ∀ j ∈ f.src.deps, NoBraces j := by
  have key : ∀ b f, lib.file b = some f → ∀ j ∈ f.src.deps, NoBraces j := by
    intro b f hf j hj
    change (if b = [7] then some news else if b = [8] then some date else none) = some f at hf
    split at hf
    · cases hf
      have hj : j ∈ ["date.proto".toList] := hj
      rw [List.mem_singleton] at hj
      subst hj
      exact noBraces_date
    · split at hf
      · cases hf
        cases hj
      · cases hf
  rintro i f (h | h)
  · obtain ⟨_, b, _, _, _, hf⟩ := C154_file.2.1 h
    exact key b f hf
  · obtain ⟨_, b, _, _, _, hf⟩ := C154_file.1.1 h
    exact key b f hf

/-! ## What does not hold -/

/-- **C153** does not hold for names with templates: a server that lists a service with the name
`{{.env.KEY}}` is told the variable KEY of the environment. -/
theorem C153_violated_by_name : ∃ (lib : Lib) (env : Text → Option Text) (l : Link) (n key : Text) (q : Req),
    n = "{{.env.KEY}}".toList ∧ env "KEY".toList = some key ∧ l.headers = none ∧
    request lib env l (.symbol n) = .ok q ∧ q.ask = .symbol key ∧ key ≠ n := by
  refine ⟨lib, env, ⟨"http://h:1/x?k=1".toList, none⟩, _, "s3cret".toList,
    ⟨Endpoint home, [("content-type".toList, "application/grpc+proto".toList)], .symbol "s3cret".toList⟩, rfl, ?_, rfl, ?_, rfl, ?_⟩
  · decide +kernel
  · have : seen (request lib env ⟨"http://h:1/x?k=1".toList, none⟩ (.symbol "{{.env.KEY}}".toList)) =
        some ⟨Endpoint home, [("content-type".toList, "application/grpc+proto".toList)], .symbol "s3cret".toList⟩ := by decide +kernel
    cases h : request lib env ⟨"http://h:1/x?k=1".toList, none⟩ (.symbol "{{.env.KEY}}".toList) with
    | error e => rw [h] at this; cases this
    | ok q => rw [h] at this; rw [Option.some.inj this]
  · decide

/-- **C153** does not hold for values with control characters: a token that ends with a line break is left
out, and the server is asked without it. -/
theorem C153_violated_by_value : ∃ (lib : Lib) (env : Text → Option Text) (l : Link) (q : Req),
    l.headers = some [("authorization".toList, "{{.env.FILE}}".toList)] ∧ env "FILE".toList = some "abc\n".toList ∧
    request lib env l .services = .ok q ∧ get q.headers "authorization".toList = none := by
  refine ⟨lib, env, ⟨"http://h:1/x?k=1".toList, some [("authorization".toList, "{{.env.FILE}}".toList)]⟩,
    ⟨Endpoint home, [("content-type".toList, "application/grpc+proto".toList)], .services⟩, rfl, ?_, ?_, ?_⟩
  · decide +kernel
  · have : seen (request lib env ⟨"http://h:1/x?k=1".toList, some [("authorization".toList, "{{.env.FILE}}".toList)]⟩ .services) =
        some ⟨Endpoint home, [("content-type".toList, "application/grpc+proto".toList)], .services⟩ := by decide +kernel
    cases h : request lib env ⟨"http://h:1/x?k=1".toList, some [("authorization".toList, "{{.env.FILE}}".toList)]⟩ .services with
    | error e => rw [h] at this; cases this
    | ok q => rw [h] at this; rw [Option.some.inj this]
  · decide +kernel

/-- **C153** does not hold for `{{.env}}` without a variable: the program panics. -/
theorem C153_violated_by_env : ∃ (lib : Lib) (l : Link) (h : Text × Text), l.headers = some [h] ∧ GoodName h.1 ∧
    ∀ env a, request lib env l a = .error .panic := by
  refine ⟨lib, ⟨"http://h:1/x?k=1".toList, some [("x-a".toList, "{{.env}}".toList)]⟩, _, rfl, ?_, fun env a => ?_⟩
  · rcases goodName_iff (k := "x-a".toList) with e | e
    · exact e.2
    · have : Verif.Hook.headerName "x-a".toList = some "x-a".toList := by decide +kernel
      rw [this] at e
      cases e.1
  · have h1 : lib.url "http://h:1/x?k=1".toList = some home := by decide +kernel
    have h2 : templates (some [("x-a".toList, "{{.env}}".toList)]) =
        .ok [("x-a".toList, "{{.env}}".toList), ("content-type".toList, "application/grpc+proto".toList)] := by rfl
    have h3 : render env (printUrl { home with path := reflectionPath }) = .ok (printUrl (Endpoint home)) := by
      refine plain_render ?_ (by decide +kernel)
      rw [noBraces_iff, ← Verif.Mustache.takeUntil_none]
      decide +kernel
    have h4 : lib.url (printUrl (Endpoint home)) = some (Endpoint home) := by decide +kernel
    have h5 : createHeaders env [("x-a".toList, "{{.env}}".toList), ("content-type".toList, "application/grpc+proto".toList)] =
        .error .panic := by
      have hp : Verif.Mustache.parse "{{.env}}".toList = [.expr ["env".toList]] := by decide +kernel
      have : render env "{{.env}}".toList = .error .panic := by
        unfold render
        rw [hp]
        exact if_pos (List.mem_singleton.2 rfl)
      unfold createHeaders
      rw [fill, this]
    unfold request
    simp only [h1, h2, h3, h4, h5]

/-- **C154** does not hold for servers that send the imports of a file before it, as the protocol allows:
the first of the files is taken for that of the service. -/
theorem C154_violated_by_order : ∃ (lib : Lib) (env : Text → Option Text) (up : Req → Option (List UInt8)) (l : Link) (s : Text)
    (r : Answer) (b b' : List UInt8) (f g : PFile), Answers lib env up l (.symbol s) r ∧ r.files = some [b, b'] ∧
    lib.file b = some g ∧ lib.file b' = some f ∧ g.name ∈ f.src.deps ∧ byService lib env up l s = .ok g ∧ g ≠ f := by
  have h : ok? (execute lib env (fun _ => some [0, 0, 0, 0, 1, 4]) link (.symbol "news.News".toList)) =
      some ⟨none, some [[8], [7]]⟩ := by decide +kernel
  refine ⟨lib, env, fun _ => some [0, 0, 0, 0, 1, 4], link, "news.News".toList, ⟨none, some [[8], [7]]⟩, [8], [7], news, date,
    execute_ok.1 (ok?_some.1 h), rfl, by decide +kernel, by decide +kernel, by decide +kernel, ?_, by decide +kernel⟩
  exact C154_file.1.2 ⟨_, [8], [[7]], execute_ok.1 (ok?_some.1 h), rfl, by decide +kernel⟩

end Verif.Reflect
