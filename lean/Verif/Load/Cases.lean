import Verif.Load.Files

/-!
# What goes wrong, and concrete cases
-/

namespace Verif.Load

open Verif.Mustache (Text Seg)
open Verif.Transform (get At Lacks)

/-- A world without anything; the types of a configuration are a list of names, merged by appending. -/
def none' : Io (List Text) where
  disk := []
  web := []
  google := []
  env := fun _ => none
  services := fun _ => none
  byService := fun _ _ => none
  byFile := fun _ _ => none
  proto := fun _ => none
  certs := fun _ => none
  keys := fun _ => none
  ops := fun _ => none
  jwks := fun _ => none
  config := fun _ _ => none
  unify := fun a b => some (a ++ b)

/-- The only case of a result. -/
def Res.toOption {α : Type} : Res α → Option α
  | .ok a => some a
  | _ => none

theorem toOption_some {α : Type} {r : Res α} {a : α} : r.toOption = some a ↔ r = .ok a := by
  cases r <;> simp [Res.toOption]

/-! ## C120 -/

/-- `a.proto` imports `b.proto` and the well-known `empty.proto`; `b.proto` imports `c/d.proto`, which imports
`empty.proto`. -/
def tree : Io (List Text) :=
  { none' with
    disk := [("p/a.proto".toList, ['a']), ("p/b.proto".toList, ['b']), ("q/c/d.proto".toList, ['d'])]
    google := [("empty.proto".toList, ['e'])]
    proto := get [(['a'], ⟨some "x".toList, ["b.proto".toList, "empty.proto".toList], 1⟩),
      (['b'], ⟨none, ["c/d.proto".toList], 2⟩), (['d'], ⟨none, ["empty.proto".toList], 3⟩), (['e'], ⟨none, [], 4⟩)] }

/-- All four files are read, each once. -/
theorem tree_read : (read tree 5 "p/a.proto".toList (some ["q".toList])).toOption.map (fun l => l.map (·.name)) =
    some ["b.proto".toList, "empty.proto".toList, "c/d.proto".toList, "p/a.proto".toList] := by decide +kernel

example : (mentions tree).length + 1 ≤ 5 := by decide +kernel

example : ∃ l, read tree 5 "p/a.proto".toList (some ["q".toList]) = .ok l := by
  cases h : read tree 5 "p/a.proto".toList (some ["q".toList]) with
  | ok l => exact ⟨l, rfl⟩
  | err e => have := tree_read; rw [h] at this; simp [Res.toOption] at this
  | more => have := tree_read; rw [h] at this; simp [Res.toOption] at this

/-- Without the directory `q` one import is missing, so nothing is read. -/
example : read tree 5 "p/a.proto".toList none = .err (.missing "p/c/d.proto".toList) := by decide +kernel

/-- Two files that import each other. -/
def loop : Io (List Text) :=
  { none' with
    disk := [("a.proto".toList, ['a']), ("b.proto".toList, ['b'])]
    proto := get [(['a'], ⟨some "x".toList, ["b.proto".toList], 1⟩), (['b'], ⟨none, ["a.proto".toList], 2⟩)] }

/-- **C120** does not hold as stated for files that import each other: the file that was asked for is there
twice. -/
theorem C120_violated_by_cycles : ∃ (io : Io (List Text)) (n : Nat) (path : Text) (l : List PFile),
    read io n path none = .ok l ∧ ¬ (l.map (·.name)).Nodup := by
  refine ⟨loop, 3, "a.proto".toList, [⟨"b.proto".toList, ⟨none, ["a.proto".toList], 2⟩⟩,
    ⟨"a.proto".toList, ⟨some "x".toList, ["b.proto".toList], 1⟩⟩, ⟨"a.proto".toList, ⟨some "x".toList, ["b.proto".toList], 1⟩⟩], ?_, ?_⟩
  · decide +kernel
  · decide +kernel

/-- A server with two services and the two versions of reflection. -/
def server : Io (List Text) :=
  { none' with
    services := fun _ => some ["news.News".toList, "grpc.reflection.v1alpha.ServerReflection".toList]
    byService := fun _ s => get [("news.News".toList, ⟨"news.proto".toList, ⟨some "news".toList, ["date.proto".toList], 1⟩⟩)] s
    byFile := fun _ i => get [("date.proto".toList, ⟨"date.proto".toList, ⟨none, [], 2⟩⟩)] i }

example : (fetch server 2 "h".toList).toOption.map (fun ls => ls.map (fun l => l.map (·.name))) =
    some [["date.proto".toList, "news.proto".toList]] := by decide +kernel

example : ∀ i f, server.byFile "h".toList i = some f → f.name = i := by
  intro i f h
  simp only [server, Verif.Transform.get] at h
  split at h
  · rename_i e
    rw [← Option.some.inj h]
    exact e
  · exact absurd h (by simp)

/-- **C120** does not hold for a server that knows a file by another name than that of the import, as servers
do that have been built from another directory: the import cannot be found among the files. -/
theorem C120_violated_by_reflection_names : ∃ (io : Io (List Text)) (n : Nat) (url : Text) (l : List PFile) (f : PFile) (i : Text),
    fetch io n url = .ok [l] ∧ f ∈ l ∧ i ∈ f.src.deps ∧ ∀ g ∈ l, g.name ≠ i := by
  refine ⟨{ server with byFile := fun _ _ => some ⟨"proto/date.proto".toList, ⟨none, [], 2⟩⟩ }, 2, "h".toList,
    [⟨"proto/date.proto".toList, ⟨none, [], 2⟩⟩, ⟨"news.proto".toList, ⟨some "news".toList, ["date.proto".toList], 1⟩⟩],
    ⟨"news.proto".toList, ⟨some "news".toList, ["date.proto".toList], 1⟩⟩, "date.proto".toList, ?_, ?_, ?_, ?_⟩
  · decide +kernel
  · simp
  · simp
  · decide +kernel

/-- **C120** does not hold for servers with the newer version of reflection: it is taken for a service of
theirs. -/
theorem C120_violated_by_reflection_v1 : ∃ (io : Io (List Text)) (n : Nat) (url : Text) (l : List PFile),
    io.services url = some ["grpc.reflection.v1.ServerReflection".toList] ∧ fetch io n url = .ok [l] ∧ l ≠ [] := by
  refine ⟨{ none' with
    services := fun _ => some ["grpc.reflection.v1.ServerReflection".toList]
    byService := fun _ _ => some ⟨"r".toList, ⟨some "grpc.reflection.v1".toList, [], 1⟩⟩ }, 1, [],
    [⟨"r".toList, ⟨some "grpc.reflection.v1".toList, [], 1⟩⟩], rfl, ?_, by simp⟩
  decide +kernel

/-! ## C121 -/

/-- Two directories have the file; the first is taken. -/
def twoDirs : Io (List Text) :=
  { none' with
    disk := [("p/t.proto".toList, ['0']), ("q/t.proto".toList, ['1']), ("r/t.proto".toList, ['2'])]
    proto := get [(['0'], ⟨none, [], 0⟩), (['1'], ⟨none, [], 1⟩), (['2'], ⟨none, [], 2⟩)] }

example : readProto twoDirs "t.proto".toList (some "p".toList) (some ["x".toList, "q".toList, "r".toList]) = .ok ⟨"t.proto".toList, ⟨none, [], 1⟩⟩ := by
  decide +kernel

/-- The conditions of `C121_search_partial` hold. -/
example : "http".toList.isPrefixOf "t.proto".toList = false ∧ isAbsolute "t.proto".toList = false ∧ Lacks twoDirs.google "t.proto".toList ∧
    isUrl "p".toList = false ∧ ∀ d ∈ ["x".toList, "q".toList, "r".toList], isUrl d = false := by
  refine ⟨by decide +kernel, by decide +kernel, ?_, by decide +kernel, by decide +kernel⟩
  simp [Lacks, twoDirs, none']

/-- Beside a file on the web. -/
example : readProto { none' with web := [("https://h/p/t.proto".toList, ['0'])], proto := get [(['0'], ⟨none, [], 7⟩)] } "t.proto".toList
    (some (parent "https://h/p/a.proto".toList)) none = .ok ⟨"t.proto".toList, ⟨none, [], 7⟩⟩ := by decide +kernel

/-- An absolute path, a URL and a well-known file. -/
example : readProto { none' with disk := [("/p/t.proto".toList, ['0'])], proto := get [(['0'], ⟨none, [], 7⟩)] } "/p/t.proto".toList
    (some "q".toList) (some ["r".toList]) = .ok ⟨"/p/t.proto".toList, ⟨none, [], 7⟩⟩ := by decide +kernel

example : readProto { none' with web := [("http://h/t.proto".toList, ['0'])], proto := get [(['0'], ⟨none, [], 7⟩)] } "http://h/t.proto".toList
    (some "q".toList) (some ["r".toList]) = .ok ⟨"http://h/t.proto".toList, ⟨none, [], 7⟩⟩ := by decide +kernel

example : readProto tree "empty.proto".toList none none = .ok ⟨"empty.proto".toList, ⟨none, [], 4⟩⟩ := by decide +kernel

/-- **C121** does not hold for a file whose name starts with `http`: it is beside the file that imports it, but
is looked for where the program runs. -/
theorem C121_violated_by_http_names : ∃ (io : Io (List Text)) (i dir c : Text) (s : Src),
    FirstDir io.disk [dir] i c ∧ io.proto c = some s ∧ readProto io i (some dir) none = .err (.missing i) := by
  refine ⟨{ none' with disk := [("p/http_rule.proto".toList, ['0'])], proto := get [(['0'], ⟨none, [], 7⟩)] },
    "http_rule.proto".toList, "p".toList, ['0'], ⟨none, [], 7⟩, ⟨[], "p".toList, [], rfl, by simp, ?_⟩, ?_, ?_⟩
  · rw [← Verif.Transform.get_some]; decide +kernel
  · decide +kernel
  · decide +kernel

/-- **C121** does not hold for copies of well-known files: that of the directories is not used. -/
theorem C121_violated_by_copies : ∃ (io : Io (List Text)) (i d c : Text) (s s' : Src),
    FirstDir io.disk [d] i c ∧ io.proto c = some s ∧ readProto io i (some d) (some [d]) = .ok ⟨i, s'⟩ ∧ s' ≠ s := by
  refine ⟨{ tree with disk := [("p/empty.proto".toList, ['d'])] }, "empty.proto".toList, "p".toList, ['d'],
    ⟨none, ["empty.proto".toList], 3⟩, ⟨none, [], 4⟩, ⟨[], "p".toList, [], rfl, by simp, ?_⟩, ?_, ?_, by simp⟩
  · rw [← Verif.Transform.get_some]; decide +kernel
  · decide +kernel
  · decide +kernel

/-- **C121** does not hold for `protoPaths` that are URLs, though links may be URLs: nothing is looked for
there. -/
theorem C121_violated_by_urls : ∃ (io : Io (List Text)) (i d dir c : Text) (s : Src),
    At io.web (join d i) c ∧ io.proto c = some s ∧ isUrl (join d i) = true ∧
      readProto io i (some dir) (some [d]) = .err (.missing (join dir i)) := by
  refine ⟨{ none' with web := [("http://h/t.proto".toList, ['0'])], proto := get [(['0'], ⟨none, [], 7⟩)] },
    "t.proto".toList, "http://h".toList, "p".toList, ['0'], ⟨none, [], 7⟩, ?_, ?_, ?_, ?_⟩
  · rw [← Verif.Transform.get_some]; decide +kernel
  · decide +kernel
  · decide +kernel
  · decide +kernel

/-! ## C122 -/

/-- A configuration with links of all kinds. -/
def full : Cfg (List Text) where
  links := [⟨none, "s.js".toList, .script, none⟩, ⟨some "u".toList, "u.ht".toList, .htpasswd, none⟩,
    ⟨some "v".toList, "v.ht".toList, .htpasswd, none⟩, ⟨some "j".toList, "j.json".toList, .jwks, none⟩,
    ⟨none, "c.pem".toList, .cert, none⟩, ⟨none, "k.pem".toList, .key, none⟩, ⟨none, "o.graphql".toList, .operation, none⟩,
    ⟨none, "a.proto".toList, .protobuf, some ["x".toList]⟩, ⟨none, "more.graphql".toList, .config, none⟩, ⟨none, "h".toList, .grpc, none⟩]
  settings := "port".toList
  types := ["Query".toList]

/-- The files of these links. -/
def linked : Io (List Text) :=
  { server with
    disk := [("d/s.js".toList, "js".toList), ("d/u.ht".toList, "uu".toList), ("d/v.ht".toList, "vv".toList), ("d/j.json".toList, "jj".toList),
      ("d/c.pem".toList, "cc".toList), ("d/k.pem".toList, "kk".toList), ("d/o.graphql".toList, "oo".toList), ("d/a.proto".toList, ['a']),
      ("d/x/b.proto".toList, ['b']), ("d/more.graphql".toList, "mm".toList)]
    proto := get [(['a'], ⟨some "x".toList, ["b.proto".toList], 1⟩), (['b'], ⟨none, [], 2⟩)]
    certs := fun t => if t = "cc".toList then some [1, 2] else none
    keys := fun t => if t = "kk".toList then some [3] else none
    ops := fun t => if t = "oo".toList then some [4] else none
    jwks := fun t => if t = "jj".toList then some 5 else none
    config := fun _ t => if t = "mm".toList then some ⟨[], [], ["User".toList]⟩ else none }

/-- The result of reading them. -/
def fullOut {α : Type} (f : Cfg (List Text) × Ext → α) : Option α := (resolve linked 9 "d".toList full).toOption.map f

/-- All that is linked is there. -/
theorem full_read : fullOut (·.1.types) = some ["Query".toList, "User".toList] ∧ fullOut (·.1.settings) = some "port".toList ∧
    fullOut (·.2.script) = some (some "js".toList) ∧ fullOut (·.2.certs) = some [1, 2] ∧ fullOut (·.2.keys) = some [3] ∧
    fullOut (·.2.endpoints) = some [4] := by decide +kernel

example : fullOut (·.2.htpasswd) = some [(some "u".toList, "uu".toList), (some "v".toList, "vv".toList)] ∧
    fullOut (·.2.jwks) = some [(some "j".toList, 5)] ∧
    fullOut (fun m => m.2.protos.map (·.1)) = some ["news.proto".toList, "date.proto".toList, "d/a.proto".toList, "b.proto".toList] := by decide +kernel

example : ∃ m, resolve linked 9 "d".toList full = .ok m := by
  cases h : resolve linked 9 "d".toList full with
  | ok m => exact ⟨m, rfl⟩
  | err e => have := full_read.1; rw [fullOut, h] at this; simp [Res.toOption] at this
  | more => have := full_read.1; rw [fullOut, h] at this; simp [Res.toOption] at this

example : linksValid full.links = true := by decide +kernel

/-- Two scripts, two links of one id, and a link to nowhere. -/
example : linksValid [⟨none, "a".toList, .script, none⟩, ⟨none, "b".toList, .script, none⟩] = false ∧
    linksValid [⟨some "i".toList, "a".toList, .htpasswd, none⟩, ⟨some "i".toList, "b".toList, .jwks, none⟩] = false ∧
    linksValid [⟨none, [], .cert, none⟩] = false := by decide +kernel

/-- A file that is not there. -/
example : (resolve { linked with disk := [] } 9 "d".toList full) matches .err (.missing _) := by decide +kernel

/-- **C122** does not hold for several links to operations, which are allowed: only the endpoints of the last
remain. -/
theorem C122_violated_by_operations : ∃ (io : Io (List Text)) (c c' : Cfg (List Text)) (x : Ext) (l : Link) (t : Text) (e : Nat),
    linksValid c.links = true ∧ resolve io 0 [] c = .ok (c', x) ∧ l ∈ c.links ∧ l.kind = .operation ∧ TextOf io [] l t ∧
      (io.ops t).map (e ∈ ·) = some True ∧ e ∉ x.endpoints := by
  refine ⟨{ none' with disk := [(['a'], ['1']), (['b'], ['2'])], ops := fun t => if t = ['1'] then some [1] else some [2] },
    ⟨[⟨none, ['a'], .operation, none⟩, ⟨none, ['b'], .operation, none⟩], [], []⟩, _, _, ⟨none, ['a'], .operation, none⟩, ['1'], 1,
    by decide +kernel, rfl, by simp, rfl, ⟨['a'], by decide +kernel, ?_⟩, by simp, by decide +kernel⟩
  rw [if_neg (by decide +kernel), ← Verif.Transform.get_some]
  decide +kernel

/-- **C122** does not hold for the links of configurations that are linked: they are not followed, so the
passwords of such a configuration are not there. -/
theorem C122_violated_by_nested_links : ∃ (io : Io (List Text)) (c c' o : Cfg (List Text)) (x : Ext) (k l : Link),
    resolve io 0 [] c = .ok (c', x) ∧ k ∈ c.links ∧ k.kind = .config ∧ ConfigOf io [] k o ∧ l ∈ o.links ∧ l.kind = .htpasswd ∧
      (∃ t, TextOf io [] l t) ∧ x.htpasswd = [] := by
  let o : Cfg (List Text) := ⟨[⟨none, ['u'], .htpasswd, none⟩], [], []⟩
  let io : Io (List Text) := { none' with disk := [(['m'], ['1']), (['u'], ['2'])], config := fun _ t => if t = ['1'] then some o else none }
  refine ⟨io, ⟨[⟨none, ['m'], .config, none⟩], [], []⟩, _, o, _, ⟨none, ['m'], .config, none⟩, ⟨none, ['u'], .htpasswd, none⟩,
    rfl, by simp, rfl, ⟨['1'], ['1'], ⟨['m'], by decide +kernel, ?_⟩, by decide +kernel, rfl⟩, by simp [o], rfl,
    ⟨['2'], ['u'], by decide +kernel, ?_⟩, rfl⟩
  · rw [if_neg (by decide +kernel), ← Verif.Transform.get_some]; decide +kernel
  · rw [if_neg (by decide +kernel), ← Verif.Transform.get_some]; decide +kernel

/-- **C122** does not hold for links to proto files of which one imports the other, if the configuration is in
another directory than the program: the imported file is there by two names, so all it defines is defined
twice. -/
theorem C122_violated_by_spellings : ∃ (io : Io (List Text)) (c c' : Cfg (List Text)) (x : Ext) (k k' : Text) (f g : PFile),
    linksValid c.links = true ∧ resolve io 2 "d".toList c = .ok (c', x) ∧ At x.protos k f ∧ At x.protos k' g ∧ k ≠ k' ∧ f.src = g.src := by
  refine ⟨{ none' with disk := [("d/a.proto".toList, ['a']), ("d/b.proto".toList, ['b'])],
                       proto := get [(['a'], ⟨some "x".toList, ["b.proto".toList], 1⟩), (['b'], ⟨some "y".toList, [], 2⟩)] },
    ⟨[⟨none, "a.proto".toList, .protobuf, none⟩, ⟨none, "b.proto".toList, .protobuf, none⟩], [], []⟩, _, _, "b.proto".toList, "d/b.proto".toList,
    ⟨"b.proto".toList, ⟨some "y".toList, [], 2⟩⟩, ⟨"d/b.proto".toList, ⟨some "y".toList, [], 2⟩⟩, by decide +kernel, rfl, ?_, ?_, by decide +kernel, rfl⟩
  · rw [← Verif.Transform.get_some]; decide +kernel
  · rw [← Verif.Transform.get_some]; decide +kernel

/-- **C122** does not hold for links to proto files of two directories that import files of one name: only one
of these is there, so the other link has lost an import. -/
theorem C122_violated_by_names : ∃ (io : Io (List Text)) (c c' : Cfg (List Text)) (x : Ext) (l : Link) (f : PFile),
    linksValid c.links = true ∧ resolve io 2 [] c = .ok (c', x) ∧ l ∈ c.links ∧ FromLink io 2 [] l f ∧ ∀ k, ¬ At x.protos k f := by
  refine ⟨{ none' with disk := [("d/a.proto".toList, ['a']), ("d/t.proto".toList, ['1']), ("e/b.proto".toList, ['b']), ("e/t.proto".toList, ['2'])],
                       proto := get [(['a'], ⟨some "x".toList, ["t.proto".toList], 1⟩), (['b'], ⟨some "y".toList, ["t.proto".toList], 2⟩),
                         (['1'], ⟨none, [], 3⟩), (['2'], ⟨none, [], 4⟩)] },
    ⟨[⟨none, "d/a.proto".toList, .protobuf, none⟩, ⟨none, "e/b.proto".toList, .protobuf, none⟩], [], []⟩, _, _,
    ⟨none, "d/a.proto".toList, .protobuf, none⟩, ⟨"t.proto".toList, ⟨none, [], 3⟩⟩, by decide +kernel, rfl, by simp, .inl ⟨rfl, ?_⟩, ?_⟩
  · exact ⟨[⟨"t.proto".toList, ⟨none, [], 3⟩⟩, ⟨"d/a.proto".toList, ⟨some "x".toList, ["t.proto".toList], 1⟩⟩], by decide +kernel, by simp⟩
  · intro k h
    have := mem_of_at h
    revert this
    suffices H : ∀ p ∈ ([("e/b.proto".toList, ⟨"e/b.proto".toList, ⟨some "y".toList, ["t.proto".toList], 2⟩⟩),
        ("t.proto".toList, ⟨"t.proto".toList, ⟨none, [], 4⟩⟩), ("d/a.proto".toList, ⟨"d/a.proto".toList, ⟨some "x".toList, ["t.proto".toList], 1⟩⟩)] : List (Text × PFile)),
        p.2 ≠ ⟨"t.proto".toList, ⟨none, [], 3⟩⟩ by
      intro hm
      exact H _ hm rfl
    decide +kernel

/-! ## C123 -/

/-- Two files, with a script and passwords each. -/
def two : Io (List Text) :=
  { none' with
    disk := [("a.graphql".toList, ['a']), ("b.graphql".toList, ['b']), (['s'], ['1']), (['t'], ['2']), (['u'], ['3']), (['v'], ['4'])]
    config := fun _ t => if t = ['a'] then some ⟨[⟨none, ['s'], .script, none⟩, ⟨none, ['u'], .htpasswd, none⟩], "port 8000".toList, ["A".toList]⟩
      else some ⟨[⟨none, ['t'], .script, none⟩, ⟨none, ['v'], .htpasswd, none⟩], "port 9000".toList, ["B".toList]⟩ }

/-- The result of reading them. -/
def twoOut {α : Type} (f : Cfg (List Text) × Ext → α) : Option α :=
  (readAll two 0 ["a.graphql".toList, "b.graphql".toList]).toOption.map f

theorem two_read : twoOut (·.1.types) = some ["A".toList, "B".toList] ∧ twoOut (·.1.settings) = some "port 8000".toList ∧
    twoOut (·.2.script) = some (some ['2']) ∧ twoOut (·.2.htpasswd) = some [(none, ['3']), (none, ['4'])] := by decide +kernel

example : ∃ m, readAll two 0 ["a.graphql".toList, "b.graphql".toList] = .ok m := by
  cases h : readAll two 0 ["a.graphql".toList, "b.graphql".toList] with
  | ok m => exact ⟨m, rfl⟩
  | err e => have := two_read.1; rw [twoOut, h] at this; simp [Res.toOption] at this
  | more => have := two_read.1; rw [twoOut, h] at this; simp [Res.toOption] at this

example : readAll none' 0 [] matches .err .nothing := by decide +kernel

/-- **C123** does not hold for settings: those of the second file are lost. -/
theorem C123_violated_by_settings : ∃ (io : Io (List Text)) (p q : Text) (m o : Cfg (List Text) × Ext),
    readAll io 0 [p, q] = .ok m ∧ readOne io 0 q = .ok o ∧ o.1.settings ≠ [] ∧ m.1.settings ≠ o.1.settings := by
  refine ⟨two, "a.graphql".toList, "b.graphql".toList, _, _, rfl, rfl, by decide +kernel, by decide +kernel⟩

/-- **C123** does not hold for scripts: the second file replaces the script of the first, though two links in
one file are an error. -/
theorem C123_violated_by_scripts : ∃ (io : Io (List Text)) (p q : Text) (m o : Cfg (List Text) × Ext),
    readAll io 0 [p, q] = .ok m ∧ readOne io 0 p = .ok o ∧ linksValid m.1.links = true ∧ o.2.script ≠ none ∧ m.2.script ≠ o.2.script := by
  refine ⟨two, "a.graphql".toList, "b.graphql".toList, _, _, rfl, rfl, by decide +kernel, by decide +kernel, by decide +kernel⟩

/-- The host of an upstream is set, its port is not. -/
def world : Io (List Text) := { none' with env := fun k => if k = "HOST".toList then some "h".toList else none }

example : renderFile world "url: \"http://{{.env.HOST}}:{{env.PORT}}/{{.args.id}}\"\n".toList =
    .ok "url: \"http://h:{{.env.PORT}}/{{.args.id}}\"\n".toList := by decide +kernel

/-- The conditions of `C123_environment_partial` hold for such a text. -/
example : Verif.Mustache.WellFormed [.expr ["env".toList, "HOST".toList], .expr ["args".toList, "id".toList]] ∧
    ∀ ps, Seg.expr ps ∈ ([.expr ["env".toList, "HOST".toList], .expr ["args".toList, "id".toList]] : List Seg) →
      (∀ k r, ps = "env".toList :: k :: r → r = []) ∧ ps ≠ ["env".toList] := by
  have e : "env".toList = ['e', 'n', 'v'] := by decide +kernel
  have h : "HOST".toList = ['H', 'O', 'S', 'T'] := by decide +kernel
  have a : "args".toList = ['a', 'r', 'g', 's'] := by decide +kernel
  have i : "id".toList = ['i', 'd'] := by decide +kernel
  rw [e, h, a, i]
  refine ⟨?_, ?_⟩
  · simp only [Verif.Mustache.WellFormed, Verif.Mustache.GoodName]
    refine ⟨by simp, ?_, by simp, ?_, trivial⟩
    · intro p hp
      simp only [List.mem_cons, List.not_mem_nil, or_false] at hp
      rcases hp with rfl | rfl
      · exact ⟨_, _, rfl, by decide, by decide⟩
      · exact ⟨_, _, rfl, by decide, by decide⟩
    · intro p hp
      simp only [List.mem_cons, List.not_mem_nil, or_false] at hp
      rcases hp with rfl | rfl
      · exact ⟨_, _, rfl, by decide, by decide⟩
      · exact ⟨_, _, rfl, by decide, by decide⟩
  · intro ps hps
    simp only [List.mem_cons, Seg.expr.injEq, List.not_mem_nil, or_false] at hps
    rcases hps with rfl | rfl
    · simp
    · simp

/-- **C123** does not hold for expressions with a space before the dot: the variable is not filled in. -/
theorem C123_violated_by_spaces : ∃ (io : Io (List Text)) (c : Text),
    io.env "HOST".toList = some "h".toList ∧ c = "{{ .env.HOST }}".toList ∧ renderFile io c = .ok c :=
  ⟨world, _, by decide +kernel, rfl, by decide +kernel⟩

/-- **C123** does not hold for a quote that is all that follows: it is lost. -/
theorem C123_violated_by_quotes : ∃ (io : Io (List Text)) (c : Text),
    c = "\"http://{{.env.HOST}}\"".toList ∧ renderFile io c = .ok "\"http://h".toList :=
  ⟨world, _, rfl, by decide +kernel⟩

/-- **C123** does not hold for paths that go on after a variable: the rest is ignored. -/
theorem C123_violated_by_paths : ∃ (io : Io (List Text)) (c : Text),
    c = "{{.env.HOST.name}}".toList ∧ renderFile io c = .ok "h".toList :=
  ⟨world, _, rfl, by decide +kernel⟩

/-- **C123** does not hold for the path `env` by itself: reading ends in a panic. -/
theorem C123_violated_by_env : ∃ (io : Io (List Text)) (c : Text), c = "a {{.env}} b".toList ∧ renderFile io c = .err .panic :=
  ⟨world, _, rfl, by decide +kernel⟩

end Verif.Load
