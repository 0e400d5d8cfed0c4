import Verif.Reflect.Lemmas
import Verif.Load.Props

/-!
# Properties C153 and C154: what is asked of a server with reflection, and what is made of its answers
-/

set_option linter.unusedSimpArgs false

namespace Verif.Reflect

open Verif.Mustache (Text NoBraces)
open Verif.Transform (At get get_some)
open Verif.Load (PFile)

/-! ## C153: the request -/

/-- **C153**: a question about a name without `{{` reaches the server as it is, whatever else the name
contains.  Missing: names with `{{` (`C153_violated_by_name`). -/
theorem C153_ask_partial {lib : Lib} {env : Text → Option Text} {l : Link} {a : Ask} {n : Text} {q : Req}
    (hn : About a n) (hb : NoBraces n) (h : request lib env l a = .ok q) : q.ask = a := by
  obtain ⟨u, _, _, _, _, b, hr, ha⟩ := request_ok.1 h
  rw [body_render (by rw [about_arg hn]; exact hb)] at hr
  cases hr
  rw [readBody_body] at ha
  exact (Option.some.inj ha).symm

/-- **C153**: a link to a URL without templates, with headers that may be sent, does lead to a request. -/
theorem C153_sent {lib : Lib} {env : Text → Option Text} {l : Link} {u : Url} {a : Ask} {n : Text}
    (hu : PlainUrl lib l u) (hh : GoodHeaders l) (hn : About a n) (hb : NoBraces n) :
    ∃ q, request lib env l a = .ok q := by
  have hg : ∀ x ∈ allHeaders l, ¬ NamesNoVar x.2 := by
    intro x hx
    rw [allHeaders, List.mem_append] at hx
    rcases hx with hx | hx
    · obtain ⟨y, hy, rfl⟩ := List.mem_map.1 hx
      exact (hh y hy).2
    · rw [List.mem_singleton] at hx
      subst hx
      unfold NamesNoVar
      decide +kernel
  obtain ⟨m, hm⟩ := fill_some (env := env) hg [("content-type".toList, "application/grpc".toList)]
  refine ⟨⟨Endpoint u, m, a⟩, request_ok.2 ⟨u, hu.parses, fun x hx => (hh x hx).1, ⟨_, plain_render hu.plain ?_, hu.again⟩, hm,
    _, body_render (by rw [about_arg hn]; exact hb), readBody_body a⟩⟩
  intro e
  have := congrArg List.length e
  simp [printUrl, Endpoint] at this
  have h1 : 0 < "grpc.reflection.v1alpha.ServerReflection/ServerReflectionInfo".toList.length := by decide
  simp at h1
  omega

/-- **C153**: the request goes to the server of the link, with the query of the link, at the endpoint of
reflection. -/
theorem C153_url {lib : Lib} {env : Text → Option Text} {l : Link} {u : Url} {a : Ask} {q : Req}
    (hu : PlainUrl lib l u) (h : request lib env l a = .ok q) : q.url = Endpoint u := by
  obtain ⟨u', hu', _, ⟨t, ht, ht'⟩, _⟩ := request_ok.1 h
  rw [hu.parses] at hu'
  cases hu'
  rw [plain_render hu.plain] at ht
  · cases ht
    rw [hu.again] at ht'
    exact (Option.some.inj ht').symm
  · intro e
    have := congrArg List.length e
    simp [printUrl, Endpoint] at this
    have h1 : 0 < "grpc.reflection.v1alpha.ServerReflection/ServerReflectionInfo".toList.length := by decide
    simp at h1
    omega

theorem lastOf_all {env : Text → Option Text} {l : Link} {k v : Text} :
    LastOf env (allHeaders l) k v ↔
      if k = "content-type".toList then v = "application/grpc+proto".toList else Carries env (headersOf l) k v := by
  have hf : Filled env "application/grpc+proto".toList = "application/grpc+proto".toList := by
    have hp : Verif.Mustache.parse "application/grpc+proto".toList = [.lit "application/grpc+proto".toList] := by decide +kernel
    rw [Filled, hp]
    rfl
  have hg : GoodValue "application/grpc+proto".toList := goodValue_iff.1 (by decide +kernel)
  unfold allHeaders
  generalize headersOf l = hs
  by_cases e : k = "content-type".toList
  · rw [if_pos e]
    subst e
    induction hs with
    | nil =>
      show LastOf env [_] _ _ ↔ _
      rw [lastOf_cons]
      constructor
      · rintro (⟨b, t, a, x, _⟩ | ⟨_, x, _⟩)
        · cases b <;> simp at x
        · rw [x]; exact hf
      · rintro rfl
        exact .inr ⟨rfl, hf.symm, hg, fun h hh => absurd hh (by simp)⟩
    | cons h r ih =>
      show LastOf env ((h.1.map Char.toLower, h.2) :: (lower r ++ _)) _ _ ↔ _
      rw [lastOf_cons]
      refine (or_congr ih Iff.rfl).trans ?_
      constructor
      · rintro (x | ⟨_, _, _, x⟩)
        · exact x
        · exact absurd (hf ▸ hg) (x _ (List.mem_append_right _ (List.mem_singleton.2 rfl)) rfl)
      · exact .inl
  · rw [if_neg e]
    induction hs with
    | nil =>
      show LastOf env [_] _ _ ↔ _
      rw [lastOf_cons]
      constructor
      · rintro (⟨b, t, a, x, _⟩ | ⟨x, _⟩)
        · cases b <;> simp at x
        · exact absurd x.symm e
      · rintro ⟨b, _, t, a, x, _⟩
        cases b <;> simp at x
    | cons h r ih =>
      show LastOf env ((h.1.map Char.toLower, h.2) :: (lower r ++ _)) _ _ ↔ _
      rw [lastOf_cons]
      refine (or_congr ih Iff.rfl).trans ?_
      constructor
      · rintro (⟨b, k', t, a, x, y⟩ | ⟨x, y, z, w⟩)
        · exact ⟨h :: b, k', t, a, by rw [x]; rfl, y⟩
        · refine ⟨[], h.1, h.2, r, rfl, x, y, z, fun g hg' e' => ?_⟩
          exact w (g.1.map Char.toLower, g.2) (List.mem_append_left _ (List.mem_map.2 ⟨g, hg', rfl⟩)) e'
      · rintro ⟨b, k', t, a, x, y, z, w, v'⟩
        cases b with
        | nil =>
          simp only [List.nil_append, List.cons.injEq] at x
          obtain ⟨rfl, rfl⟩ := x
          refine .inr ⟨y, z, w, fun g hg' e' => ?_⟩
          rcases List.mem_append.1 hg' with hg' | hg'
          · obtain ⟨g', h1, rfl⟩ := List.mem_map.1 hg'
            exact v' g' h1 e'
          · rw [List.mem_singleton] at hg'
            subst hg'
            exact absurd e'.symm e
        | cons x' b =>
          simp only [List.cons_append, List.cons.injEq] at x
          exact .inl ⟨b, k', t, a, x.2, y, z, w, v'⟩

/-- **C153**: the request has exactly the headers of the link, filled from the environment, of several with
one name the last, without those whose value no header may have; and its own content type, which no header of
the link can change.  Missing: headers whose values may not be sent are left out without a word
(`C153_violated_by_value`). -/
theorem C153_headers_partial {lib : Lib} {env : Text → Option Text} {l : Link} {a : Ask} {q : Req}
    (h : request lib env l a = .ok q) (k v : Text) :
    At q.headers k v ↔
      if k = "content-type".toList then v = "application/grpc+proto".toList else Carries env (headersOf l) k v := by
  obtain ⟨u, _, _, _, hm, _⟩ := request_ok.1 h
  rw [← get_some, (fill_ok hm).2, ← lastOf_all]
  constructor
  · rintro (x | ⟨x, y⟩)
    · exact x
    · exfalso
      by_cases e : k = "content-type".toList
      · subst e
        have hx : LastOf env (allHeaders l) "content-type".toList "application/grpc+proto".toList :=
          lastOf_all.2 (by rw [if_pos rfl])
        obtain ⟨b, t, a', x1, x2, x3, _⟩ := hx
        exact y _ (by rw [x1]; exact List.mem_append_right _ List.mem_cons_self) rfl (x2 ▸ x3)
      · have : get [("content-type".toList, "application/grpc".toList)] k = none := by
          show (if "content-type".toList = k then _ else _) = _
          exact if_neg (fun z => e z.symm)
        rw [this] at x
        cases x
  · exact .inl

/-- **C153**: a header whose name no header may have ends the link with an error, and nothing is asked. -/
theorem C153_bad_name {lib : Lib} {env : Text → Option Text} {l : Link} {u : Url} {k v : Text} {up : Req → Option (List UInt8)}
    {a : Ask} (hu : lib.url l.src = some u) (hk : (k, v) ∈ headersOf l) (hb : ¬ GoodName k) :
    request lib env l a = .error .header ∧ execute lib env up l a = .error .header := by
  have ht : templates l.headers = .error .header := by
    unfold templates
    cases hn : names (l.headers.getD []) with
    | error e =>
      rw [names_error hn]
      rfl
    | ok r => exact absurd ((names_ok.1 hn).1 _ hk) hb
  have hr : request lib env l a = .error .header := by
    unfold request
    simp only [hu, ht]
  refine ⟨hr, ?_⟩
  unfold execute
  rw [hr]

/-- **C153**: the environment is in a request only through the templates of the link: without them, and
with a name without `{{`, requests are the same in all environments.  Missing: names with `{{`
(`C153_violated_by_name`). -/
theorem C153_env_partial {lib : Lib} {l : Link} {u : Url} {a : Ask} {n : Text} (env env' : Text → Option Text)
    (hu : PlainUrl lib l u) (hh : ∀ h ∈ headersOf l, NoBraces h.2) (hn : About a n) (hb : NoBraces n) :
    request lib env l a = request lib env' l a := by
  have hr : ∀ t, NoBraces t → render env t = render env' t := by
    intro t ht
    unfold render
    rw [Verif.Mustache.parse_noBraces ht]
    split <;> rfl
  have hc : createHeaders env (allHeaders l) = createHeaders env' (allHeaders l) := by
    refine fill_env (fun x hx => ?_) _
    rw [allHeaders, List.mem_append] at hx
    rcases hx with hx | hx
    · obtain ⟨y, hy, rfl⟩ := List.mem_map.1 hx
      exact hr _ (hh y hy)
    · rw [List.mem_singleton] at hx
      subst hx
      have hp : Verif.Mustache.parse "application/grpc+proto".toList = [.lit "application/grpc+proto".toList] := by decide +kernel
      show render env "application/grpc+proto".toList = render env' "application/grpc+proto".toList
      unfold render
      rw [hp]
      rfl
  have hbody : render env (bodyText a) = render env' (bodyText a) := by
    rw [body_render (by rw [about_arg hn]; exact hb), body_render (by rw [about_arg hn]; exact hb)]
  have hurl : render env (printUrl (Endpoint u)) = render env' (printUrl (Endpoint u)) := hr _ hu.plain
  have hE : ({ u with path := reflectionPath } : Url) = Endpoint u := rfl
  unfold request
  simp only [hu.parses, hE]
  cases ht : templates l.headers with
  | error e => rfl
  | ok hs =>
    obtain ⟨_, rfl⟩ := templates_ok.1 ht
    simp only [hurl, hc, hbody]

/-! ## C154: the answer -/

/-- **C154**: the services of a server are those of its answer, in its order; without such an answer there is
an error. -/
theorem C154_services {lib : Lib} {env : Text → Option Text} {up : Req → Option (List UInt8)} {l : Link} {ns : List Text} :
    listAll lib env up l = .ok ns ↔ ∃ r, Answers lib env up l .services r ∧ r.services = some ns := by
  unfold listAll
  constructor
  · intro h
    split at h
    · cases h
    · next r hr =>
      split at h
      · cases h
      · next ns' hn =>
        cases h
        exact ⟨r, execute_ok.1 hr, hn⟩
  · rintro ⟨r, hr, hn⟩
    rw [execute_ok.2 hr]
    simp only [hn]

/-- **C154**: the file of a service or of a name is the first of the answer to the question about it; without
one there is an error. -/
theorem C154_file {lib : Lib} {env : Text → Option Text} {up : Req → Option (List UInt8)} {l : Link} {n : Text} {f : PFile} :
    (byService lib env up l n = .ok f ↔ ∃ r b rest, Answers lib env up l (.symbol n) r ∧ r.files = some (b :: rest) ∧
      lib.file b = some f) ∧
    (byFile lib env up l n = .ok f ↔ ∃ r b rest, Answers lib env up l (.file n) r ∧ r.files = some (b :: rest) ∧
      lib.file b = some f) := by
  constructor
  · unfold byService
    constructor
    · intro h
      split at h
      · cases h
      · next r hr =>
        obtain ⟨b, rest, x⟩ := requestProto_ok.1 h
        exact ⟨r, b, rest, execute_ok.1 hr, x⟩
    · rintro ⟨r, b, rest, hr, x⟩
      rw [execute_ok.2 hr]
      exact requestProto_ok.2 ⟨b, rest, x⟩
  · unfold byFile
    constructor
    · intro h
      split at h
      · cases h
      · next r hr =>
        obtain ⟨b, rest, x⟩ := requestProto_ok.1 h
        exact ⟨r, b, rest, execute_ok.1 hr, x⟩
    · rintro ⟨r, b, rest, hr, x⟩
      rw [execute_ok.2 hr]
      exact requestProto_ok.2 ⟨b, rest, x⟩

theorem answers_of_serves {lib : Lib} {env : Text → Option Text} {up : Req → Option (List UInt8)} {l : Link} {u : Url}
    {sv : Ask → Option Answer} {a : Ask} {n : Text} {r : Answer} (hu : PlainUrl lib l u) (hh : GoodHeaders l)
    (hs : Serves lib up u sv) (hn : About a n) (hb : NoBraces n) (ha : sv a = some r) : Answers lib env up l a r := by
  obtain ⟨q, hq⟩ := C153_sent (env := env) hu hh hn hb
  obtain ⟨head, body, x⟩ := hs q (C153_url hu hq) r (by rw [C153_ask_partial hn hb hq]; exact ha)
  exact ⟨q, head, body, hq, x⟩

/-- **C154**, from the server to the client: what a server with reflection says about its services, about a
symbol and about a file is what the client gets, if the file that is asked for comes first.  Missing: servers
that send the imports of a file before it (`C154_violated_by_order`) and names with `{{`
(`C153_violated_by_name`). -/
theorem C154_served_partial {lib : Lib} {env : Text → Option Text} {up : Req → Option (List UInt8)} {l : Link} {u : Url}
    {sv : Ask → Option Answer} (hu : PlainUrl lib l u) (hh : GoodHeaders l) (hs : Serves lib up u sv) :
    (∀ r ns, sv .services = some r → r.services = some ns → listAll lib env up l = .ok ns) ∧
    (∀ n, NoBraces n → ∀ r b rest f, r.files = some (b :: rest) → lib.file b = some f →
      (sv (.symbol n) = some r → byService lib env up l n = .ok f) ∧
      (sv (.file n) = some r → byFile lib env up l n = .ok f)) := by
  refine ⟨fun r ns ha hr => ?_, fun n hb r b rest f hr hf => ⟨fun ha => ?_, fun ha => ?_⟩⟩
  · refine C154_services.2 ⟨r, answers_of_serves hu hh hs .services ?_ ha, hr⟩
    rintro ⟨x, y, e⟩
    cases x <;> simp at e
  · exact C154_file.1.2 ⟨r, b, rest, answers_of_serves hu hh hs .symbol hb ha, hr, hf⟩
  · exact C154_file.2.2 ⟨r, b, rest, answers_of_serves hu hh hs .file hb ha, hr, hf⟩

theorem ok?_some {α : Type} {x : Except Err α} {a : α} : ok? x = some a ↔ x = .ok a := by
  cases x <;> simp [ok?]

/-! ### The link as a whole -/

section

open Verif.Load (Res absorb walk resolveDependencies Imported Io Each fetch fetchAll fetchOne orErr)

theorem absorb_queue {rs : List (Res PFile)} {q d q' d' : List PFile} (h : absorb rs q d = .ok (q', d')) :
    ∀ p ∈ q', p ∈ q ∨ Res.ok p ∈ rs := by
  induction rs generalizing q d with
  | nil =>
    rw [absorb] at h
    cases Res.ok.inj h
    exact fun p hp => .inl hp
  | cons r rs ih =>
    cases r with
    | err e => rw [absorb] at h; cases h
    | more => rw [absorb] at h; cases h
    | ok x =>
      rw [absorb] at h
      split at h
      · intro p hp
        rcases ih h p hp with y | y
        · exact .inl y
        · exact .inr (List.mem_cons_of_mem _ y)
      · intro p hp
        rcases ih h p hp with y | y
        · rcases List.mem_append.1 y with y | y
          · exact .inl y
          · rw [List.mem_singleton] at y
            subst y
            exact .inr List.mem_cons_self
        · exact .inr (List.mem_cons_of_mem _ y)

/-- Two readers that agree on the imports of all files that they read lead to the same files. -/
theorem walk_congr {rd rd' : Text → Res PFile} {P : Text → Prop} (hp : ∀ i f, rd i = .ok f → ∀ j ∈ f.src.deps, P j)
    (he : ∀ i, P i → rd i = rd' i) : ∀ n q d, (∀ f ∈ q, ∀ j ∈ f.src.deps, P j) → walk rd n q d = walk rd' n q d
  | _, [], d, _ => by rw [walk.eq_1, walk.eq_1]
  | 0, f :: q, d, _ => by rw [walk.eq_2, walk.eq_2]
  | n + 1, f :: q, d, hq => by
    rw [walk.eq_3, walk.eq_3]
    have hm : f.src.deps.map rd = f.src.deps.map rd' :=
      List.map_congr_left (fun i hi => he i (hq f List.mem_cons_self i hi))
    rw [← hm]
    cases ha : absorb (f.src.deps.map rd) q d with
    | err e => rfl
    | more => rfl
    | ok x =>
      refine walk_congr hp he n x.1 x.2 (fun g hg j hj => ?_)
      rcases absorb_queue (q' := x.1) (d' := x.2) ha g hg with y | y
      · exact hq g (List.mem_cons_of_mem _ y) j hj
      · obtain ⟨i, _, hi⟩ := List.mem_map.1 y
        exact hp i g hi j hj

theorem imported_congr {rd rd' : Text → Res PFile} {P : Text → Prop} (hp : ∀ i f, rd i = .ok f → ∀ j ∈ f.src.deps, P j)
    (he : ∀ i, P i → rd i = rd' i) {root f : PFile} (hr : ∀ j ∈ root.src.deps, P j) (h : Imported rd root f) :
    Imported rd' root f ∧ ∀ j ∈ f.src.deps, P j := by
  induction h with
  | direct hi hf => exact ⟨.direct hi (by rw [← he _ (hr _ hi)]; exact hf), hp _ _ hf⟩
  | step _ hi hf ih => exact ⟨.step ih.1 hi (by rw [← he _ (ih.2 _ hi)]; exact hf), hp _ _ hf⟩

theorem fetchAll_congr {β : Type} {io io' : Io β} {n : Nat} {url : Text} (hs : io.byService url = io'.byService url)
    (hw : ∀ s f, io.byService url s = some f →
      resolveDependencies (fun i => orErr (.missing i) (io.byFile url i)) n f =
      resolveDependencies (fun i => orErr (.missing i) (io'.byFile url i)) n f) :
    ∀ ss, fetchAll io n url ss = fetchAll io' n url ss
  | [] => rfl
  | s :: ss => by
    rw [fetchAll, fetchAll, fetchAll_congr hs hw ss]
    have : fetchOne io n url s = fetchOne io' n url s := by
      unfold fetchOne
      rw [← hs]
      cases h : io.byService url s with
      | none => rfl
      | some f =>
        show (Verif.Load.checkPackage f).bind _ = (Verif.Load.checkPackage f).bind _
        rw [hw s f h]
    rw [this]

/-- **C154**, the link as a whole: if a server sends the file that it is asked for, and no import of its files
contains `{{`, a link gives for each of its services, but that of reflection itself, the file of the service
and exactly what it imports, all as the server sends them.  Missing: imports with `{{`, as the names of
`C153_violated_by_name`, and servers for which the first file is another (`C154_violated_by_order`). -/
theorem C154_link_partial {β : Type} {io : Io β} {lib : Lib} {up : Req → Option (List UInt8)} {l : Link} {n : Nat}
    {ls : List (List PFile)} (hn : ∀ i f, NoBraces i → byFile lib io.env up l i = .ok f → f.name = i)
    (hd : ∀ i f, byFile lib io.env up l i = .ok f ∨ byService lib io.env up l i = .ok f → ∀ j ∈ f.src.deps, NoBraces j)
    (h : fetch (withClient io lib up l.headers) n l.src = .ok ls) :
    ∃ r ns, Answers lib io.env up l .services r ∧ r.services = some ns ∧
      Each (fun s fs => ∃ root, byService lib io.env up l s = .ok root ∧ root.src.package ≠ none ∧
        ∃ imports, fs = imports ++ [root] ∧ (imports.map (·.name)).Nodup ∧
          ∀ f, f ∈ imports ↔ Imported
            (fun i => match byFile lib io.env up l i with | .ok f => .ok f | .error _ => .err (.missing i)) root f)
        (ns.filter (fun s => s ≠ "grpc.reflection.v1alpha.ServerReflection".toList)) ls := by
  classical
  let io1 := withClient io lib up l.headers
  let io2 : Io β := { io1 with byFile := fun url i => if NoBraces i then io1.byFile url i else none }
  have hp : ∀ i f, orErr (.missing i) (io1.byFile l.src i) = .ok f → ∀ j ∈ f.src.deps, NoBraces j :=
    fun i f hf => hd i f (.inl (ok?_some.1 (Verif.Load.orErr_ok.1 hf)))
  have hp2 : ∀ i f, orErr (.missing i) (io2.byFile l.src i) = .ok f → ∀ j ∈ f.src.deps, NoBraces j := by
    intro i f hf
    have hf : (if NoBraces i then io1.byFile l.src i else none) = some f := Verif.Load.orErr_ok.1 hf
    split at hf
    · exact hd i f (.inl (ok?_some.1 hf))
    · cases hf
  have he : ∀ i, NoBraces i → orErr (.missing i) (io1.byFile l.src i) = orErr (.missing i) (io2.byFile l.src i) := by
    intro i hi
    show _ = orErr _ (if NoBraces i then io1.byFile l.src i else none)
    rw [if_pos hi]
  have hw : fetch io1 n l.src = fetch io2 n l.src := by
    have ha : ∀ ss, fetchAll io1 n l.src ss = fetchAll io2 n l.src ss := fetchAll_congr rfl (fun s f hf => by
      unfold resolveDependencies
      rw [walk_congr hp he n [f] [] (fun g hg => by
        rw [List.mem_singleton] at hg
        subst hg
        exact hd s g (.inr (ok?_some.1 hf)))])
    unfold fetch
    show (orErr _ (io1.services l.src)).bind _ = (orErr _ (io1.services l.src)).bind _
    rw [funext ha]
  have h2 : fetch io2 n l.src = .ok ls := by rw [← hw]; exact h
  obtain ⟨ss, hs, hE⟩ := Verif.Load.C120_reflection_partial (io := io2) (fun i f hf => by
    have hf : (if NoBraces i then io1.byFile l.src i else none) = some f := hf
    split at hf
    · next hi => exact hn i f hi (ok?_some.1 hf)
    · cases hf) h2
  obtain ⟨r, hr, hr'⟩ := C154_services.1 (ok?_some.1 (show ok? (listAll lib io.env up l) = some ss from hs))
  refine ⟨r, ss, hr, hr', ?_⟩
  have hrd : (fun i => orErr (.missing i) (io1.byFile l.src i)) =
      (fun i => match byFile lib io.env up l i with | .ok f => .ok f | .error _ => .err (.missing i)) := by
    funext i
    show orErr _ (ok? (byFile lib io.env up l i)) = _
    cases byFile lib io.env up l i <;> rfl
  rw [← hrd]
  clear hs hr hr' h h2
  generalize ss.filter _ = ss' at hE
  induction hE with
  | nil => exact .nil
  | @cons s _ _ _ hx _ ih =>
    refine .cons ?_ ih
    obtain ⟨root, h1, h2, imports, h3, h4, h5⟩ := hx
    have h1 : byService lib io.env up l s = .ok root := ok?_some.1 h1
    have hr := hd s root (.inr h1)
    refine ⟨root, h1, h2, imports, h3, h4, fun f => (h5 f).trans ⟨fun x => ?_, fun x => ?_⟩⟩
    · exact (imported_congr hp2 (fun i hi => (he i hi).symm) hr x).1
    · exact (imported_congr hp he hr x).1

end

end Verif.Reflect
