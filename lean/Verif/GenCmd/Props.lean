import Verif.GenCmd.Lemmas

/-!
# Properties of the `gen` command

C149: the generated configuration links to the files that were read.
C150: `gen` writes one file, asks before it replaces it, and stops before that at any error.
-/

namespace Verif.GenCmd

/-! ## C149 -/

/-- The paths in the file of the command lead where they lead from the directory of that file.
Missing: a file that does not exist yet, as most outputs, when there are symbolic links
(`C149_violated_by_symlink`). -/
theorem C149_sources_partial {sl : Symlinks} {cwd : Path} {sys : Sys} (hs : Honest sl cwd sys) (file p : Path)
    (hl : (sys.canonicalize (join (parent file) p)).isSome ∨ p.abs = true ∨ Plain sl) :
    ∃ q, resolveLoc sys (parent file) (.path p) = .path q ∧ q.abs = true ∧ place sl q = meant sl cwd file p := by
  obtain ⟨q, h1, h2, _, _, h5⟩ := resolveLoc_place hs file p hl
  exact ⟨q, h1, h2, h5⟩

/-- Each proto file among the inputs has a link that, read from the output, leads to it, and the output is
where the file of the command says.  Missing: symbolic links, an absolute output with dots
(`C149_violated_by_dots`), and import paths (`C149_violated_by_import_paths`). -/
theorem C149_links_partial {sl : Symlinks} (hpl : Plain sl) {cwd : Path} {sys : Sys} (hs : Honest sl cwd sys)
    (own : Loc → List Link) (file : Path) (c : Conf) (o p : Path) (ps : Option (List Loc))
    (ho : c.output = .path o) (hn : o.abs = true → Named o) (hp : Src.proto (.path p) ps ∈ c.inputs) :
    ∃ out, (resolveConf sys file c).output = .path out ∧ place sl out = meant sl cwd file o ∧
      ∃ l ∈ links own (resolveConf sys file c), LeadsTo sl out l (meant sl cwd file p) := by
  obtain ⟨out, ho1, ho2, ho3, ho4, ho5⟩ := resolveLoc_place hs file o (.inr (.inr hpl))
  obtain ⟨q, hq1, hq2, _, _, hq5⟩ := resolveLoc_place hs file p (.inr (.inr hpl))
  have hnamed : Named out := by
    cases h : o.abs with
    | true => rw [ho3 h]; exact hn h
    | false => exact ho4 h
  have hout : (resolveConf sys file c).output = .path out := by simp [resolveConf, ho, ho1]
  obtain ⟨r, hr, hra, hrp⟩ := diff_place hpl hq2 (parent_named hnamed)
  refine ⟨out, hout, ho5, ⟨.path r, none⟩, ?_, join (parent out) r, rfl, ?_, by rw [hrp, hq5]⟩
  · unfold links
    rw [hout]
    refine List.mem_flatMap.mpr ⟨resolveSrc sys (parent file) (.proto (.path p) ps), ?_, ?_⟩
    · exact List.mem_map.mpr ⟨_, hp, rfl⟩
    · simp [resolveSrc, hq1, linksOf, linkTo, outputDir, hr]
  · exact join_abs_of (parent_named hnamed).1

/-- There are no other links than those to the proto files and those of the configurations: with the output
at a path of names, every link leads to a proto file of the inputs, is the URL of one, or is a link of a
configuration. -/
theorem C149_only_partial {sl : Symlinks} (hpl : Plain sl) {cwd : Path} {sys : Sys} (hs : Honest sl cwd sys)
    (own : Loc → List Link) (file : Path) (c : Conf) (o : Path)
    (ho : c.output = .path o) (hn : o.abs = true → Named o) (l : Link)
    (hl : l ∈ links own (resolveConf sys file c)) :
    ∃ out, (resolveConf sys file c).output = .path out ∧
      ((∃ p ps, Src.proto (.path p) ps ∈ c.inputs ∧ LeadsTo sl out l (meant sl cwd file p)) ∨
        (∃ u ps, Src.proto (.url u) ps ∈ c.inputs ∧ readLoc (parent out) l.src = .url u) ∨
        (∃ s, Src.config s ∈ c.inputs ∧ l ∈ own (resolveLoc sys (parent file) s))) := by
  obtain ⟨out, ho1, ho2, ho3, ho4, ho5⟩ := resolveLoc_place hs file o (.inr (.inr hpl))
  have hnamed : Named out := by
    cases h : o.abs with
    | true => rw [ho3 h]; exact hn h
    | false => exact ho4 h
  have hout : (resolveConf sys file c).output = .path out := by simp [resolveConf, ho, ho1]
  refine ⟨out, hout, ?_⟩
  unfold links at hl
  rw [hout] at hl
  obtain ⟨s', hs', hl'⟩ := List.mem_flatMap.mp hl
  obtain ⟨s, hsm, rfl⟩ := List.mem_map.mp hs'
  cases s with
  | curl a b => simp [resolveSrc, linksOf] at hl'
  | config a => exact .inr (.inr ⟨a, hsm, by simpa [resolveSrc, linksOf] using hl'⟩)
  | proto a ps =>
    cases a with
    | url u =>
      refine .inr (.inl ⟨u, ps, hsm, ?_⟩)
      have : l = ⟨.url u, none⟩ := by simpa [resolveSrc, resolveLoc, linksOf, linkTo] using hl'
      rw [this]
      rfl
    | path p =>
      refine .inl ⟨p, ps, hsm, ?_⟩
      obtain ⟨q, hq1, hq2, _, _, hq5⟩ := resolveLoc_place hs file p (.inr (.inr hpl))
      obtain ⟨r, hr, hra, hrp⟩ := diff_place hpl hq2 (parent_named hnamed)
      have : l = ⟨.path r, none⟩ := by
        simpa [resolveSrc, hq1, linksOf, linkTo, outputDir, hr] using hl'
      rw [this]
      exact ⟨_, rfl, join_abs_of (parent_named hnamed).1, by rw [hrp, hq5]⟩

/-- A proto file at a URL is linked by that URL. -/
theorem C149_urls (sys : Sys) (own : Loc → List Link) (file : Path) (c : Conf) (u : Text) (ps : Option (List Loc))
    (hp : Src.proto (.url u) ps ∈ c.inputs) :
    ∃ l ∈ links own (resolveConf sys file c), ∀ dir, readLoc dir l.src = .url u := by
  refine ⟨⟨.url u, none⟩, ?_, fun _ => rfl⟩
  refine List.mem_flatMap.mpr ⟨_, List.mem_map.mpr ⟨_, hp, rfl⟩, ?_⟩
  simp [resolveSrc, resolveLoc, linksOf, linkTo]

/-- Every link of a configuration among the inputs is a link of the generated one. -/
theorem C149_configs (sys : Sys) (own : Loc → List Link) (file : Path) (c : Conf) (s : Loc)
    (hp : Src.config s ∈ c.inputs) (l : Link) (hl : l ∈ own (resolveLoc sys (parent file) s)) :
    l ∈ links own (resolveConf sys file c) := by
  refine List.mem_flatMap.mpr ⟨_, List.mem_map.mpr ⟨_, hp, rfl⟩, ?_⟩
  simpa [resolveSrc, linksOf] using hl

/-! ### Counterexamples -/

/-- Names as components. -/
private def named (l : List String) : List Comp := l.map (fun s => .name s.toList)

/-- An absolute path of names. -/
private def root (l : List String) : Path := ⟨true, named l⟩

/-- A relative path of names. -/
private def rel (l : List String) : Path := ⟨false, named l⟩

/-- The directory `out` of the project is a symbolic link to a directory elsewhere. -/
private def sl1 : Symlinks := fun at_ =>
  if at_ = ["app".toList, "out".toList] then some ["data".toList, "v1".toList] else none

/-- A computer where no file exists, started in `/app`. -/
private def sys1 : Sys := ⟨fun _ => none, some (root ["app"])⟩

/-- An output in a directory. -/
private def conf1 : Conf := ⟨[.proto (.path (root ["app", "news.proto"])) none], .path (rel ["out", "a.graphql"]), none⟩

/-- When the output directory is a symbolic link and the output does not exist yet, the link leads elsewhere. -/
theorem C149_violated_by_symlink :
    Honest sl1 (root ["app"]) sys1 ∧
      ∃ out l, (resolveConf sys1 (rel ["gen.yml"]) conf1).output = .path out ∧
        links (fun _ => []) (resolveConf sys1 (rel ["gen.yml"]) conf1) = [l] ∧
        ¬ LeadsTo sl1 out l (meant sl1 (root ["app"]) (rel ["gen.yml"]) (root ["app", "news.proto"])) := by
  refine ⟨⟨rfl, rfl, fun p a h => by cases h⟩, root ["app", "out", "a.graphql"],
    ⟨.path ⟨false, [.up, .name "news.proto".toList]⟩, none⟩, by decide +kernel, by decide +kernel, ?_⟩
  rintro ⟨q, hq, _, hp⟩
  cases hq
  revert hp
  decide +kernel

/-- A computer where no file exists, started in `/q`. -/
private def sys2 : Sys := ⟨fun _ => none, some (root ["q"])⟩

/-- An output with dots. -/
private def out2 : Path := ⟨true, [.name "q".toList, .name "x".toList, .up, .name "out".toList, .name "a.graphql".toList]⟩

/-- A configuration with that output. -/
private def conf2 : Conf := ⟨[.proto (.path (root ["q", "y", "f.proto"])) none], .path out2, none⟩

/-- When the output is an absolute path with `..`, the link climbs once more than it should for each. -/
theorem C149_violated_by_dots :
    ∃ out l, (resolveConf sys2 (rel ["gen.yml"]) conf2).output = .path out ∧
      links (fun _ => []) (resolveConf sys2 (rel ["gen.yml"]) conf2) = [l] ∧
      ¬ LeadsTo (fun _ => none) out l
        (meant (fun _ => none) (root ["q"]) (rel ["gen.yml"]) (root ["q", "y", "f.proto"])) := by
  refine ⟨out2, ⟨.path ⟨false, [.up, .up, .up, .name "y".toList, .name "f.proto".toList]⟩, none⟩,
    by decide +kernel, by decide +kernel, ?_⟩
  rintro ⟨q, hq, _, hp⟩
  cases hq
  revert hp
  decide +kernel

/-- A proto file with an import path. -/
private def conf3 : Conf :=
  ⟨[.proto (.path (rel ["news.proto"])) (some [.path (rel ["include"])])], .path (rel ["a.graphql"]), none⟩

/-- The import paths with which a proto file was read are not in its link. -/
theorem C149_violated_by_import_paths :
    Src.proto (.path (rel ["news.proto"])) (some [.path (rel ["include"])]) ∈ conf3.inputs ∧
      ∀ l ∈ links (fun _ => []) (resolveConf sys1 (rel ["gen.yml"]) conf3), l.paths = none := by
  decide +kernel

/-- A configuration among the inputs. -/
private def conf4 : Conf := ⟨[.config (.path (rel ["in", "b.graphql"]))], .path (rel ["a.graphql"]), none⟩

/-- Its links. -/
private def own4 : Loc → List Link := fun s =>
  if s = .path (root ["app", "in", "b.graphql"]) then [⟨.path (rel ["ops.graphql"]), none⟩] else []

/-- A link of a configuration is relative to that configuration; in the output, in another directory, it
leads to another file. -/
theorem C149_violated_by_config :
    ∃ out l, (resolveConf sys1 (rel ["gen.yml"]) conf4).output = .path out ∧
      links own4 (resolveConf sys1 (rel ["gen.yml"]) conf4) = [l] ∧
      LeadsTo (fun _ => none) (root ["app", "in", "b.graphql"]) l ["app".toList, "in".toList, "ops.graphql".toList] ∧
      ¬ LeadsTo (fun _ => none) out l ["app".toList, "in".toList, "ops.graphql".toList] := by
  refine ⟨root ["app", "a.graphql"], ⟨.path (rel ["ops.graphql"]), none⟩, by decide +kernel, by decide +kernel,
    ⟨_, rfl, rfl, by decide +kernel⟩, ?_⟩
  rintro ⟨q, hq, _, hp⟩
  cases hq
  revert hp
  decide +kernel

/-! ## C150 -/

/-- A run that gets to writing. -/
theorem generate_cases (env : Env) (file : Path) :
    (∃ e, (generate env file).written = [] ∧ (generate env file).asked = false ∧
        (generate env file).result = .error e) ∨
      ∃ c ts sdl, readConf env file = some c ∧ presetOk c = true ∧ (resolveIo env c.inputs).2 = .ok ts ∧
        env.render ts = some sdl ∧ generate env file = write env (resolveIo env c.inputs).1 c.output sdl := by
  unfold generate
  cases hr : readConf env file with
  | none => exact .inl ⟨_, rfl, rfl, rfl⟩
  | some c =>
    simp only
    cases hp : presetOk c with
    | false => exact .inl ⟨_, rfl, rfl, rfl⟩
    | true =>
      simp only [if_true]
      generalize hi : resolveIo env c.inputs = io
      obtain ⟨sent, r⟩ := io
      cases r with
      | error e => exact .inl ⟨_, rfl, rfl, rfl⟩
      | ok ts =>
        simp only
        cases hsd : env.render ts with
        | none => exact .inl ⟨_, rfl, rfl, rfl⟩
        | some sdl => exact .inr ⟨c, ts, sdl, rfl, hp, by rw [hi], hsd, by rw [hi]⟩

/-- The only file that a run can change is the output, which it then replaces as a whole with the
generated text, without an error; its name is that of a GraphQL file, all inputs have been read, and when
the file existed the answer to the question was yes. -/
theorem C150_files (env : Env) (file : Path) (l : Loc) (h : after env (generate env file) l ≠ env.disk l) :
    ∃ c ts sdl, readConf env file = some c ∧ l = c.output ∧ (resolveIo env c.inputs).2 = .ok ts ∧
      env.render ts = some sdl ∧ after env (generate env file) l = some sdl ∧
      (generate env file).result = .ok () ∧ (∃ n, LastName l n ∧ GraphqlName n) ∧
      ((env.disk l).isSome → env.confirm = some true ∧ (generate env file).asked = true) := by
  rcases generate_cases env file with ⟨e, hw, _, _⟩ | ⟨c, ts, sdl, hc, hp, hi, hs, hg⟩
  · simp [after, hw] at h
  · rw [hg] at h ⊢
    rcases write_written env (resolveIo env c.inputs).1 c.output sdl with hw | ⟨hw, hr, hd, hq⟩
    · simp [after, hw] at h
    · by_cases hl : c.output = l
      · subst hl
        exact ⟨c, ts, sdl, hc, rfl, hi, hs, by simp [after, hw], hr, detect_graphql hd, hq⟩
      · have : after env (write env (resolveIo env c.inputs).1 c.output sdl) l = env.disk l := by
          simp [after, hw, hl]
        exact absurd this h

/-- A run without an error has written the output, or the answer was no. -/
theorem C150_done (env : Env) (file : Path) (h : (generate env file).result = .ok ()) :
    ∃ c ts sdl, readConf env file = some c ∧ (resolveIo env c.inputs).2 = .ok ts ∧ env.render ts = some sdl ∧
      (after env (generate env file) c.output = some sdl ∨
        ((env.disk c.output).isSome ∧ env.confirm = some false ∧ (generate env file).asked = true)) := by
  rcases generate_cases env file with ⟨e, _, _, he⟩ | ⟨c, ts, sdl, hc, hp, hi, hs, hg⟩
  · rw [he] at h; cases h
  · rw [hg] at h ⊢
    refine ⟨c, ts, sdl, hc, hi, hs, ?_⟩
    rcases write_ok env _ c.output sdl h with hw | hd
    · exact .inl (by simp [after, hw])
    · exact .inr hd

/-- The generated text is written when all inputs can be read, the output has the name of a GraphQL file, can
be written and, when it exists, the answer is yes. -/
theorem C150_writes (env : Env) (file : Path) (c : Conf) (hc : readConf env file = some c)
    (ht : ∀ t, c.mergeType = some t → 0 ≤ t ∧ t ≤ 100) (ts : List Text) (sdl : Text)
    (hi : (resolveIo env c.inputs).2 = .ok ts) (hs : env.render ts = some sdl) (o : Path) (ho : c.output = .path o)
    (n : Text) (hl : LastName c.output n) (hn : GraphqlName n) (hw : env.writable c.output = true)
    (hq : env.disk c.output = none ∨ env.confirm = some true) :
    (generate env file).result = .ok () ∧ after env (generate env file) c.output = some sdl := by
  have hp : presetOk c = true := by
    unfold presetOk
    cases hm : c.mergeType with
    | none => decide
    | some t => simpa using ht t hm
  have hd : detect c.output = some .graphql := by
    rw [ho] at hl ⊢
    obtain ⟨before, hb⟩ := hl
    simp [detect, hb, detect_name hn]
  unfold generate
  simp only [hc, hp, if_true]
  generalize resolveIo env c.inputs = io at hi
  obtain ⟨sent, r⟩ := io
  simp only at hi
  subst hi
  simp only [hs, write, hd]
  rcases hq with hq | hq
  · simp [hq, hw, after]
  · cases hx : (env.disk c.output).isSome <;> simp [hq, hw, after]

/-- The question is only asked about a file that exists. -/
theorem C150_asked (env : Env) (file : Path) (h : (generate env file).asked = true) :
    ∃ c, readConf env file = some c ∧ (env.disk c.output).isSome := by
  rcases generate_cases env file with ⟨e, _, ha, _⟩ | ⟨c, ts, sdl, hc, hp, hi, hs, hg⟩
  · rw [ha] at h; cases h
  · rw [hg] at h
    exact ⟨c, hc, write_asked env _ _ _ h⟩

/-- The requests are those of the inputs, in order, each at most once, and all of them when the run ends
without an error. -/
theorem C150_requests (env : Env) (file : Path) (c : Conf) (hc : readConf env file = some c) :
    (generate env file).sent <+: c.inputs.flatMap sample ∧
      ((generate env file).result = .ok () → (generate env file).sent = c.inputs.flatMap sample) := by
  have hio := resolveIo_sent env c.inputs
  unfold generate
  simp only [hc]
  split
  · generalize hi : resolveIo env c.inputs = io at hio
    obtain ⟨sent, r⟩ := io
    cases r with
    | error e => exact ⟨hio.1, fun h => by simp [failed] at h⟩
    | ok ts =>
      simp only
      split
      · exact ⟨hio.1, fun h => by simp [failed] at h⟩
      · rw [write_sent]
        exact ⟨hio.1, fun _ => hio.2 ts rfl⟩
  · exact ⟨List.nil_prefix, fun h => by simp [failed] at h⟩

/-- A threshold outside of [0, 1] is an error before any request. -/
theorem C150_preset (env : Env) (file : Path) (c : Conf) (hc : readConf env file = some c) (t : Int)
    (ht : c.mergeType = some t) (hr : t < 0 ∨ 100 < t) :
    (generate env file).result = .error .badPreset ∧ (generate env file).sent = [] ∧
      ∀ l, after env (generate env file) l = env.disk l := by
  have hp : presetOk c = false := by
    simp only [presetOk, ht, Option.getD_some, Bool.and_eq_false_iff, decide_eq_false_iff_not]
    omega
  unfold generate
  simp [hc, hp, failed, after]

/-- Without a terminal an existing output stays as it is, and the run ends with an error. -/
theorem C150_no_terminal (env : Env) (file : Path) (c : Conf) (hc : readConf env file = some c)
    (hn : env.confirm = none) (he : (env.disk c.output).isSome) :
    (∀ l, after env (generate env file) l = env.disk l) ∧ (generate env file).result ≠ .ok () := by
  refine ⟨?_, ?_⟩
  · intro l
    refine Classical.byContradiction fun h => ?_
    obtain ⟨c', _, _, hc', rfl, _, _, _, _, _, hq⟩ := C150_files env file l h
    rw [hc] at hc'
    cases hc'
    rw [hn] at hq
    simpa using (hq he).1
  · intro h
    obtain ⟨c', _, sdl, hc', _, _, hd⟩ := C150_done env file h
    rw [hc] at hc'
    cases hc'
    rcases hd with hd | ⟨_, hd, _⟩
    · rcases generate_cases env file with ⟨e, _, _, he'⟩ | ⟨c'', _, sdl', hc'', _, _, _, hg⟩
      · rw [he'] at h; cases h
      · rw [hc] at hc''
        cases hc''
        rw [hg] at h
        rcases write_ok env _ c.output sdl' h with hw | ⟨_, hf, _⟩
        · rcases write_written env (resolveIo env c.inputs).1 c.output sdl' with hw' | ⟨_, _, _, hq⟩
          · rw [hw] at hw'; cases hw'
          · rw [hn] at hq
            simpa using (hq he).1
        · rw [hn] at hf; cases hf
    · rw [hn] at hd; cases hd

/-- A computer where the network answers, and an output in YAML. -/
private def env5 : Env where
  sys := sys1
  disk l := if l = .path (rel ["gen.json"]) then some [] else none
  web _ := some "{}".toList
  parse _ _ := some ⟨[.curl (.url "http://a/order".toList) true], .path (rel ["a.yml"]), none⟩
  render _ := some "schema".toList
  confirm := none
  writable _ := true

/-- Whether the output can be written in its format is looked at last: the requests have been sent by then, also
those that change something. -/
theorem C150_violated_by_format :
    (generate env5 (rel ["gen.json"])).sent = [(.url "http://a/order".toList, true)] ∧
      (generate env5 (rel ["gen.json"])).written = [] ∧
      (match (generate env5 (rel ["gen.json"])).result with
        | .error e => decide (e = .format)
        | .ok _ => false) = true := by
  decide +kernel

end Verif.GenCmd
