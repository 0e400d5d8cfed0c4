import Verif.GenCmd.Props

/-!
# Cases of the `gen` command

For each theorem a case that meets its hypotheses.
-/

namespace Verif.GenCmd.Cases

open Verif.GenCmd

/-- Names as components. -/
def named (l : List String) : List Comp := l.map (fun s => .name s.toList)
/-- An absolute path of names. -/
def root (l : List String) : Path := ⟨true, named l⟩
/-- A relative path of names. -/
def rel (l : List String) : Path := ⟨false, named l⟩

/-- A computer where `/app/proto/news.proto` exists. -/
def sys : Sys where
  canonicalize p :=
    if p = ⟨false, [.name "conf".toList, .up, .name "proto".toList, .name "news.proto".toList]⟩ then
      some (root ["app", "proto", "news.proto"])
    else none
  cwd := some (root ["app"])

/-- No symbolic links. -/
def plain : Symlinks := fun _ => none

theorem honest : Honest plain (root ["app"]) sys := by
  refine ⟨rfl, rfl, ?_⟩
  intro p a h
  unfold sys at h
  simp only at h
  split at h
  · rename_i hp
    cases h
    subst hp
    exact ⟨⟨rfl, by simp [root, named]⟩, by decide +kernel⟩
  · cases h

/-- The file of the command. -/
def file : Path := rel ["conf", "gen.yml"]
/-- A proto file, from the file of the command. -/
def news : Path := ⟨false, [.up, .name "proto".toList, .name "news.proto".toList]⟩
/-- The output, from the file of the command. -/
def out : Path := ⟨false, [.up, .name "out".toList, .name "deep".toList, .name "a.graphql".toList]⟩

/-- A configuration with all kinds of inputs. -/
def conf : Conf :=
  ⟨[.curl (.url "http://a/b".toList) false, .proto (.path news) none, .proto (.url "http://a/c.proto".toList) none,
    .config (.path (rel ["b.graphql"]))], .path out, some 80⟩

/-- The links of the configuration among the inputs. -/
def own : Loc → List Link := fun s =>
  if s = .path (root ["app", "conf", "b.graphql"]) then [⟨.path (rel ["ops.graphql"]), none⟩] else []

/-! ## C149 -/

-- The file exists: its path is what the computer says; the output does not: its path is cleaned.
example : ∃ q, resolveLoc sys (parent file) (.path news) = .path q ∧ q.abs = true ∧
    place plain q = meant plain (root ["app"]) file news :=
  C149_sources_partial honest file news (.inl (by decide +kernel))

example : resolveLoc sys (parent file) (.path out) = .path (root ["app", "out", "deep", "a.graphql"]) := by decide +kernel

example : ∃ o, (resolveConf sys file conf).output = .path o ∧ place plain o = meant plain (root ["app"]) file out ∧
    ∃ l ∈ links own (resolveConf sys file conf), LeadsTo plain o l (meant plain (root ["app"]) file news) :=
  C149_links_partial (fun _ => rfl) honest own file conf out news none rfl (by intro h; cases h) (by decide +kernel)

example : links own (resolveConf sys file conf) =
    [⟨.path ⟨false, [.up, .up, .name "proto".toList, .name "news.proto".toList]⟩, none⟩,
      ⟨.url "http://a/c.proto".toList, none⟩, ⟨.path (rel ["ops.graphql"]), none⟩] := by decide +kernel

example := C149_only_partial (fun _ => rfl) honest own file conf out rfl (by intro h; cases h)
  ⟨.url "http://a/c.proto".toList, none⟩ (by decide +kernel)

example : ∃ l ∈ links own (resolveConf sys file conf), ∀ dir, readLoc dir l.src = .url "http://a/c.proto".toList :=
  C149_urls sys own file conf _ none (by decide +kernel)

example : (⟨.path (rel ["ops.graphql"]), none⟩ : Link) ∈ links own (resolveConf sys file conf) :=
  C149_configs sys own file conf (.path (rel ["b.graphql"])) (by decide +kernel) _ (by decide +kernel)

/-! ## C150 -/

/-- An environment in which all can be read; `answer` is what is said, `old` what the output holds. -/
def env (answer : Option Bool) (old : Option Text) (threshold : Int) : Env where
  sys := sys
  disk l :=
    if l = .path file then some "inputs".toList
    else if l = .path (root ["app", "proto", "news.proto"]) then some "proto".toList
    else if l = .path (root ["app", "conf", "b.graphql"]) then some "config".toList
    else if l = .path (root ["app", "out", "deep", "a.graphql"]) then old
    else none
  web _ := some "{}".toList
  parse f t := if f = .yml ∧ t = "inputs".toList then some { conf with mergeType := some threshold } else none
  render ts := some ts.flatten
  confirm := answer
  writable _ := true

/-- The output. -/
def dest : Loc := .path (root ["app", "out", "deep", "a.graphql"])

/-- The generated text. -/
def text : Text := "{}proto{}config".toList

/-- The configuration, resolved. -/
def resolved (t : Int) : Conf := resolveConf sys file { conf with mergeType := some t }

-- A new file is written without a question.
example : (generate (env none none 80) file).written = [(dest, text)] ∧
    (generate (env none none 80) file).asked = false := by decide +kernel

example := C150_files (env none none 80) file dest (by decide +kernel)

-- An old one is replaced after a yes, and stays after a no.
example : after (env (some true) (some "old".toList) 80) (generate (env (some true) (some "old".toList) 80) file) dest =
    some text := by decide +kernel

example := C150_files (env (some true) (some "old".toList) 80) file dest (by decide +kernel)

example : after (env (some false) (some "old".toList) 80) (generate (env (some false) (some "old".toList) 80) file) dest =
    some "old".toList := by decide +kernel

example := C150_done (env (some false) (some "old".toList) 80) file (by
  have : (match (generate (env (some false) (some "old".toList) 80) file).result with
    | .ok _ => true
    | .error _ => false) = true := by decide +kernel
  revert this
  generalize (generate (env (some false) (some "old".toList) 80) file).result = r
  cases r with
  | ok u => intro _; rfl
  | error e => intro h; cases h)

example := C150_writes (env (some true) (some "old".toList) 80) file (resolved 80) (by decide +kernel)
  (by intro t h; have : t = 80 := by cases h; rfl
      omega)
  ["{}".toList, "proto".toList, "{}".toList, "config".toList] text (by rfl) (by decide +kernel)
  (root ["app", "out", "deep", "a.graphql"]) (by decide +kernel) "a.graphql".toList
  ⟨named ["app", "out", "deep"], by decide +kernel⟩
  ⟨"a".toList, "graphql".toList, by decide +kernel, by decide +kernel, .inl (by decide +kernel)⟩ rfl (.inr rfl)

example := C150_asked (env (some true) (some "old".toList) 80) file (by decide +kernel)

example := C150_requests (env none none 80) file (resolved 80) (by decide +kernel)

example : (generate (env none none 80) file).sent =
    [(.url "http://a/b".toList, false), (.url "http://a/c.proto".toList, false)] := by decide +kernel

-- A threshold of 1.2.
example := C150_preset (env none none 120) file (resolved 120) (by decide +kernel) 120 rfl (.inr (by decide))

example := C150_no_terminal (env none (some "old".toList) 80) file (resolved 80) (by decide +kernel) rfl (by decide +kernel)

end Verif.GenCmd.Cases
