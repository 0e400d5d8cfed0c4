import Verif.Load.Lemmas
import Verif.Transform.Ambig

/-!
# C120, C121: the proto files that are read
-/

set_option linter.unusedSimpArgs false

namespace Verif.Load

open Verif.Mustache (Text)
open Verif.Transform (get insert At Lacks get_some get_none)

/-- All texts that can be read. -/
def contents {β : Type} (io : Io β) : List Text := (io.disk ++ io.web ++ io.google).map (·.2)

/-- All imports that the texts mention. -/
def mentions {β : Type} (io : Io β) : List Text := (contents io).flatMap (fun c => ((io.proto c).map (·.deps)).getD [])

theorem mem_of_get {α : Type} : ∀ {l : List (Text × α)} {k : Text} {x : α}, get l k = some x → (k, x) ∈ l
  | [], k, x, h => by simp [Verif.Transform.get] at h
  | p :: r, k, x, h => by
    rw [Verif.Transform.get] at h
    split at h
    · rename_i e
      have : p = (k, x) := by
        cases p
        simp_all
      rw [this]; exact List.mem_cons_self ..
    · exact List.mem_cons_of_mem _ (mem_of_get h)

theorem readProto_ok {β : Type} {io : Io β} {i : Text} {dir : Option Text} {paths : Option (List Text)} {f : PFile} :
    readProto io i dir paths = .ok f ↔
      f.name = i ∧ ∃ c, io.proto c = some f.src ∧
        (get io.google i = some c ∨ get io.google i = none ∧ readFile io (resolvePath io i dir paths) = .ok c) := by
  rw [readProto, bind_ok]
  constructor
  · rintro ⟨c, hc, h⟩
    rw [bind_ok] at h
    obtain ⟨s, hs, h⟩ := h
    rw [orErr_ok] at hs
    cases Res.ok.inj h
    refine ⟨rfl, c, hs, ?_⟩
    cases hg : get io.google i with
    | some c' => rw [hg] at hc; exact .inl (by rw [Res.ok.inj hc])
    | none => rw [hg] at hc; exact .inr ⟨rfl, hc⟩
  · rintro ⟨hn, c, hs, hc⟩
    refine ⟨c, ?_, ?_⟩
    · rcases hc with hc | ⟨hg, hc⟩
      · rw [hc]
      · rw [hg]; exact hc
    · rw [hs, ← hn]; rfl

theorem readProto_named {β : Type} {io : Io β} {dir : Option Text} {paths : Option (List Text)} :
    Named (fun i => readProto io i dir paths) := fun _ _ h => (readProto_ok.1 h).1

theorem readFile_not_more {β : Type} {io : Io β} {p : Text} : readFile io p ≠ .more := orErr_more

theorem readProto_not_more {β : Type} {io : Io β} {i : Text} {dir : Option Text} {paths : Option (List Text)} :
    readProto io i dir paths ≠ .more := by
  rw [readProto]
  intro h
  rw [bind_more] at h
  rcases h with h | ⟨c, _, h⟩
  · cases hg : get io.google i with
    | some c => rw [hg] at h; exact absurd h (by simp)
    | none => rw [hg] at h; exact readFile_not_more h
  · rw [bind_more] at h
    rcases h with h | ⟨s, _, h⟩
    · exact orErr_more h
    · exact absurd h (by simp)

theorem mem_contents {β : Type} {io : Io β} {c : Text} :
    (∃ k, (k, c) ∈ io.disk ∨ (k, c) ∈ io.web ∨ (k, c) ∈ io.google) → c ∈ contents io := by
  rintro ⟨k, h⟩
  simp only [contents, List.mem_map, List.mem_append]
  rcases h with h | h | h
  · exact ⟨(k, c), .inl (.inl h), rfl⟩
  · exact ⟨(k, c), .inl (.inr h), rfl⟩
  · exact ⟨(k, c), .inr h, rfl⟩

theorem readFile_contents {β : Type} {io : Io β} {p c : Text} (h : readFile io p = .ok c) : c ∈ contents io := by
  rw [readFile, orErr_ok] at h
  split at h
  · exact mem_contents ⟨p, .inr (.inl (mem_of_get h))⟩
  · exact mem_contents ⟨p, .inl (mem_of_get h)⟩

theorem readProto_mentions {β : Type} {io : Io β} {i j : Text} {dir : Option Text} {paths : Option (List Text)} {f : PFile}
    (h : readProto io i dir paths = .ok f) (hj : j ∈ f.src.deps) : j ∈ mentions io := by
  obtain ⟨-, c, hs, hc⟩ := readProto_ok.1 h
  have hm : c ∈ contents io := by
    rcases hc with hc | ⟨_, hc⟩
    · exact mem_contents ⟨i, .inr (.inr (mem_of_get hc))⟩
    · exact readFile_contents hc
  simp only [mentions, List.mem_flatMap]
  exact ⟨c, hm, by rw [hs]; exact hj⟩

theorem imported_mentions {β : Type} {io : Io β} {path : Text} {dir : Option Text} {paths : Option (List Text)} {root f : PFile}
    (hroot : readProto io path none none = .ok root) (h : Imported (fun i => readProto io i dir paths) root f) :
    f.name ∈ mentions io := by
  cases h with
  | direct hi e => rw [readProto_named _ _ e]; exact readProto_mentions hroot hi
  | step hf hi e =>
    obtain ⟨k, hk⟩ := imported_read hf
    rw [readProto_named _ _ e]; exact readProto_mentions hk hi

theorem checkPackage_ok {f : PFile} {u : Unit} : checkPackage f = .ok u ↔ f.src.package ≠ none := by
  cases hp : f.src.package <;> simp [checkPackage, hp]

theorem read_ok {β : Type} {io : Io β} {n : Nat} {path : Text} {paths : Option (List Text)} {l : List PFile} :
    read io n path paths = .ok l ↔ ∃ root, readProto io path none none = .ok root ∧ root.src.package ≠ none ∧
      resolveDependencies (fun i => readProto io i (some (parent path)) paths) n root = .ok l := by
  rw [read, bind_ok]
  constructor
  · rintro ⟨root, hr, h⟩
    rw [bind_ok] at h
    obtain ⟨u, hu, h⟩ := h
    exact ⟨root, hr, checkPackage_ok.1 hu, h⟩
  · rintro ⟨root, hr, hp, h⟩
    exact ⟨root, hr, by rw [bind_ok]; exact ⟨(), checkPackage_ok.2 hp, h⟩⟩

/-- **C120**: what is read for a proto file is the file, which has a package, and exactly the files that it
imports directly or through others, each of these once. -/
theorem C120_imports {β : Type} {io : Io β} {n : Nat} {path : Text} {paths : Option (List Text)} {l : List PFile}
    (h : read io n path paths = .ok l) :
    ∃ root, readProto io path none none = .ok root ∧ root.name = path ∧ root.src.package ≠ none ∧
      Whole (fun i => readProto io i (some (parent path)) paths) root l := by
  obtain ⟨root, hr, hp, hw⟩ := read_ok.1 h
  exact ⟨root, hr, readProto_named _ _ hr, hp, (whole_of_walk readProto_named hw).1⟩

/-- **C120**: no import of what has been read is missing. -/
theorem C120_closed {β : Type} {io : Io β} {n : Nat} {path : Text} {paths : Option (List Text)} {l : List PFile}
    (h : read io n path paths = .ok l) {f : PFile} (hf : f ∈ l) {i : Text} (hi : i ∈ f.src.deps) :
    ∃ g ∈ l, g.name = i := by
  obtain ⟨root, hr, hp, hw⟩ := read_ok.1 h
  obtain ⟨⟨d, rfl, hn, hd⟩, hro⟩ := whole_of_walk readProto_named hw
  have hf' : f = root ∨ Imported (fun i => readProto io i (some (parent path)) paths) root f := by
    rcases List.mem_append.1 hf with hf | hf
    · exact .inr ((hd f).1 hf)
    · exact .inl (List.mem_singleton.1 hf)
  obtain ⟨g, hg⟩ := hro f hf' i hi
  refine ⟨g, List.mem_append_left _ ((hd g).2 ?_), readProto_named _ _ hg⟩
  rcases hf' with e | hf'
  · subst e; exact .direct hi hg
  · exact .step hf' hi hg

/-- **C120**: reading ends, whatever imports what; the number of steps is at most the number of imports in
all files. -/
theorem C120_ends {β : Type} (io : Io β) {n : Nat} (hn : (mentions io).length + 1 ≤ n) (path : Text)
    (paths : Option (List Text)) : read io n path paths ≠ .more := by
  intro h
  rw [read, bind_more] at h
  rcases h with h | ⟨root, hr, h⟩
  · exact readProto_not_more h
  · rw [bind_more] at h
    rcases h with h | ⟨u, hu, h⟩
    · rw [checkPackage] at h
      split at h <;> simp at h
    · rw [resolveDependencies, bind_more] at h
      rcases h with h | ⟨d, _, h⟩
      · exact walk_ends (fun i => readProto_not_more) (fun f hf => imported_mentions hr hf) inv_start (by simpa using hn) h
      · simp at h

/-- **C120**: reading succeeds exactly if the file can be read and has a package, and everything that is
imported by it, directly or through others, can be read. -/
theorem C120_succeeds_iff {β : Type} (io : Io β) {n : Nat} (hn : (mentions io).length + 1 ≤ n) (path : Text)
    (paths : Option (List Text)) :
    (∃ l, read io n path paths = .ok l) ↔
      ∃ root, readProto io path none none = .ok root ∧ root.src.package ≠ none ∧
        Readable (fun i => readProto io i (some (parent path)) paths) root := by
  constructor
  · rintro ⟨l, h⟩
    obtain ⟨root, hr, hp, hw⟩ := read_ok.1 h
    exact ⟨root, hr, hp, (whole_of_walk readProto_named hw).2⟩
  · rintro ⟨root, hr, hp, hro⟩
    obtain ⟨l, hl⟩ := (resolve_ok_iff readProto_named (fun i => readProto_not_more) (fun f hf => imported_mentions hr hf) hn).2 hro
    exact ⟨l, read_ok.2 ⟨root, hr, hp, hl⟩⟩

theorem byFile_ok {β : Type} {io : Io β} {url i : Text} {f : PFile} :
    orErr (.missing i) (io.byFile url i) = .ok f ↔ io.byFile url i = some f := orErr_ok

theorem fetchOne_whole {β : Type} {io : Io β} {n : Nat} {url s : Text} {l : List PFile}
    (hn : ∀ i f, io.byFile url i = some f → f.name = i) (h : fetchOne io n url s = .ok l) :
    ∃ root, io.byService url s = some root ∧ root.src.package ≠ none ∧
      Whole (fun i => orErr (.missing i) (io.byFile url i)) root l := by
  rw [fetchOne, bind_ok] at h
  obtain ⟨root, hr, h⟩ := h
  rw [orErr_ok] at hr
  rw [bind_ok] at h
  obtain ⟨u, hu, h⟩ := h
  exact ⟨root, hr, checkPackage_ok.1 hu, (whole_of_walk (fun i f hf => hn i f (byFile_ok.1 hf)) h).1⟩

theorem fetchAll_each {β : Type} {io : Io β} {n : Nat} {url : Text} (hn : ∀ i f, io.byFile url i = some f → f.name = i) :
    ∀ {ss : List Text} {ls : List (List PFile)}, fetchAll io n url ss = .ok ls →
      Each (fun s l => ∃ root, io.byService url s = some root ∧ root.src.package ≠ none ∧
        Whole (fun i => orErr (.missing i) (io.byFile url i)) root l)
        (ss.filter (fun s => s ≠ reflectionName)) ls
  | [], ls, h => by
    rw [fetchAll] at h
    cases Res.ok.inj h
    exact .nil
  | s :: r, ls, h => by
    rw [fetchAll] at h
    split at h
    · rename_i e
      rw [List.filter_cons_of_neg (by simp [e])]
      exact fetchAll_each hn h
    · rename_i e
      rw [List.filter_cons_of_pos (by simpa using e)]
      rw [bind_ok] at h
      obtain ⟨l, hl, h⟩ := h
      rw [bind_ok] at h
      obtain ⟨ls', hls, h⟩ := h
      cases Res.ok.inj h
      exact .cons (fetchOne_whole hn hl) (fetchAll_each hn hls)

/-- **C120** for a server with reflection that answers by the names it is asked for: for each service but
the first version of reflection the file of the service and exactly what it imports.  Missing: servers that
answer by other names (`C120_violated_by_reflection_names`). -/
theorem C120_reflection_partial {β : Type} {io : Io β} {n : Nat} {url : Text} {ls : List (List PFile)}
    (hn : ∀ i f, io.byFile url i = some f → f.name = i) (h : fetch io n url = .ok ls) :
    ∃ ss, io.services url = some ss ∧
      Each (fun s l => ∃ root, io.byService url s = some root ∧ root.src.package ≠ none ∧
        Whole (fun i => orErr (.missing i) (io.byFile url i)) root l)
        (ss.filter (fun s => s ≠ "grpc.reflection.v1alpha.ServerReflection".toList)) ls := by
  rw [fetch, bind_ok] at h
  obtain ⟨ss, hs, h⟩ := h
  rw [orErr_ok] at hs
  exact ⟨ss, hs, fetchAll_each hn h⟩

/-! ## C121: where imports are found -/

theorem httpUrl_prefix {p : Text} (h : isUrl p = true) : "http".toList.isPrefixOf p = true := by
  rw [isUrl, Bool.or_eq_true] at h
  rcases h with h | h
  all_goals
    rw [List.isPrefixOf_iff_prefix] at h ⊢
    obtain ⟨t, rfl⟩ := h
  · exact ⟨"://".toList ++ t, by rw [← List.append_assoc]; congr 1⟩
  · exact ⟨"s://".toList ++ t, by rw [← List.append_assoc]; congr 1⟩

/-- Names in directories of the disk are no URLs. -/
theorem join_not_url {d i : Text} (hd : isUrl d = false) (hi : "http".toList.isPrefixOf i = false) (ha : isAbsolute i = false) :
    isUrl (join d i) = false := by
  have hni : isUrl i = false := by
    cases h : isUrl i with
    | false => rfl
    | true => rw [httpUrl_prefix h] at hi; exact hi
  rw [join]
  split
  · exact hni
  · rename_i hc
    have hslash : ∀ {r : Text}, i = '/' :: r → False := by
      intro r e; rw [e] at ha; simp [isAbsolute] at ha
    have hh : "http://".toList = ['h', 't', 't', 'p', ':', '/', '/'] := by decide
    have hs : "https://".toList = ['h', 't', 't', 'p', 's', ':', '/', '/'] := by decide
    rw [isUrl, hh, hs, Bool.or_eq_false_iff] at hd ⊢
    obtain ⟨hd1, hd2⟩ := hd
    have key : ∀ (p t : Text), p.isPrefixOf d = false → p.isPrefixOf (d ++ t) = true → ∃ r s, d ++ r = p ∧ t = r ++ s ∧ r ≠ [] := by
      intro p t h1 h2
      rw [List.isPrefixOf_iff_prefix] at h2
      obtain ⟨s, hs⟩ := h2
      rcases List.append_eq_append_iff.1 hs with ⟨r, e1, e2⟩ | ⟨r, e1, e2⟩
      · exact absurd (List.isPrefixOf_iff_prefix.2 ⟨r, e1.symm⟩) (by rw [h1]; simp)
      · refine ⟨r, s, e1.symm, e2, ?_⟩
        intro e
        subst e
        rw [List.append_nil] at e1
        have : p.isPrefixOf d = true := List.isPrefixOf_iff_prefix.2 ⟨[], by rw [List.append_nil, e1]⟩
        rw [h1] at this
        exact absurd this (by simp)
    have hne : d ≠ [] := by
      intro e; rw [e] at hc; simp at hc
    split
    · rename_i hl
      have go : ∀ p : Text, p.isPrefixOf d = false →
          (∀ r, d ++ r = p → r ≠ [] → ∃ r', r = '/' :: r') → p.isPrefixOf (d ++ i) = false := by
        intro p h1 h3
        cases h2 : p.isPrefixOf (d ++ i) with
        | false => rfl
        | true =>
          obtain ⟨r, s, e1, e2, e3⟩ := key p i h1 h2
          obtain ⟨r', e4⟩ := h3 r e1 e3
          exact (hslash (e2.trans (by rw [e4]; rfl))).elim
      refine ⟨go _ hd1 ?_, go _ hd2 ?_⟩
      all_goals
        intro r e hr
        rcases d with _ | ⟨a, _ | ⟨b, _ | ⟨c, _ | ⟨x, _ | ⟨y, _ | ⟨z, _ | ⟨u, _ | ⟨v, d⟩⟩⟩⟩⟩⟩⟩⟩
        all_goals (clear key go hslash hni hi ha hd1 hd2 hh hs; simp_all)
    · rename_i hl
      have go : ∀ p : Text, p.isPrefixOf d = false →
          (∀ r, d ++ r = p → r ≠ [] → (∀ r', r = '/' :: r' → ∃ r'', r' = '/' :: r'')) → p.isPrefixOf (d ++ '/' :: i) = false := by
        intro p h1 h3
        cases h2 : p.isPrefixOf (d ++ '/' :: i) with
        | false => rfl
        | true =>
          obtain ⟨r, s, e1, e2, e3⟩ := key p _ h1 h2
          cases r with
          | nil => exact absurd rfl e3
          | cons c r' =>
            rw [List.cons_append, List.cons.injEq] at e2
            obtain ⟨rfl, e2⟩ := e2
            obtain ⟨r'', e4⟩ := h3 _ e1 e3 r' rfl
            exact (hslash (e2.trans (by rw [e4]; rfl))).elim
      refine ⟨go _ hd1 ?_, go _ hd2 ?_⟩
      all_goals
        intro r e hr r' er
        rcases d with _ | ⟨a, _ | ⟨b, _ | ⟨c, _ | ⟨x, _ | ⟨y, _ | ⟨z, _ | ⟨u, _ | ⟨v, d⟩⟩⟩⟩⟩⟩⟩⟩
        all_goals (clear key go hslash hni hi ha hd1 hd2 hh hs; simp_all)

theorem isSome_false {α : Type} {l : List (Text × α)} {k : Text} : (get l k).isSome = false ↔ Lacks l k := by
  rw [← get_none]
  cases get l k <;> simp

/-- The first directory that has a file. -/
theorem find_first {disk : List (Text × Text)} {i c : Text} : ∀ {dirs : List Text},
    FirstDir disk dirs i c ↔ ∃ d, dirs.find? (fun d => (get disk (join d i)).isSome) = some d ∧ get disk (join d i) = some c := by
  intro dirs
  constructor
  · rintro ⟨b, d, a, rfl, hb, hc⟩
    refine ⟨d, ?_, get_some.2 hc⟩
    rw [List.find?_append, List.find?_eq_none.2 (fun e he => by rw [isSome_false.2 (hb e he)]; simp), Option.none_or,
      List.find?_cons_of_pos (by rw [get_some.2 hc]; rfl)]
  · rintro ⟨d, hf, hc⟩
    obtain ⟨-, b, a, rfl, hb⟩ := List.find?_eq_some_iff_append.1 hf
    exact ⟨b, d, a, rfl, fun e he => isSome_false.1 (by simpa using hb e he), get_some.1 hc⟩

theorem firstDir_append {disk : List (Text × Text)} {i c d : Text} {dirs : List Text} :
    FirstDir disk (dirs ++ [d]) i c ↔
      match dirs.find? (fun d => (get disk (join d i)).isSome) with
      | some e => get disk (join e i) = some c
      | none => get disk (join d i) = some c := by
  rw [find_first, List.find?_append]
  cases hf : dirs.find? (fun d => (get disk (join d i)).isSome) with
  | some e => simp
  | none =>
    simp only [Option.none_or, List.find?_cons, List.find?_nil]
    cases hg : get disk (join d i) with
    | none => simp
    | some c' => simp [hg]

/-- **C121** for directories on the disk: an import is the first file of its name, in the directories of
`protoPaths` in their order and then in that of the file that was asked for.  Missing: imports of which the
name starts with `http`, copies of well-known files, directories that are URLs
(`C121_violated_by_http_names`, `C121_violated_by_copies`, `C121_violated_by_urls`). -/
theorem C121_search_partial {β : Type} {io : Io β} {i dir : Text} {paths : List Text} {f : PFile}
    (hi : "http".toList.isPrefixOf i = false) (ha : isAbsolute i = false) (hg : Lacks io.google i)
    (hdir : isUrl dir = false) (hpaths : ∀ d ∈ paths, isUrl d = false) :
    readProto io i (some dir) (some paths) = .ok f ↔
      f.name = i ∧ ∃ c, FirstDir io.disk (paths ++ [dir]) i c ∧ io.proto c = some f.src := by
  rw [readProto_ok]
  have hres : ∀ c, readFile io (resolvePath io i (some dir) (some paths)) = .ok c ↔ FirstDir io.disk (paths ++ [dir]) i c := by
    intro c
    rw [firstDir_append, resolvePath, hi, ha, readFile, orErr_ok]
    simp only [Bool.false_eq_true, if_false, Option.getD_some]
    cases hf : paths.find? (fun d => (get io.disk (join d i)).isSome) with
    | some e =>
      rw [join_not_url (hpaths e (List.mem_of_find?_eq_some hf)) hi ha]
      simp
    | none =>
      rw [join_not_url hdir hi ha]
      simp
  constructor
  · rintro ⟨hn, c, hs, hc⟩
    refine ⟨hn, c, ?_, hs⟩
    rcases hc with hc | ⟨_, hc⟩
    · rw [get_none.2 hg] at hc; exact absurd hc (by simp)
    · exact (hres c).1 hc
  · rintro ⟨hn, c, hc, hs⟩
    exact ⟨hn, c, hs, .inr ⟨get_none.2 hg, (hres c).2 hc⟩⟩

/-- **C121** without `protoPaths`: an import is the file of its name beside the file that was asked for, on
the disk or on the web. -/
theorem C121_beside {β : Type} {io : Io β} {i dir : Text} {f : PFile}
    (hi : "http".toList.isPrefixOf i = false) (ha : isAbsolute i = false) (hg : Lacks io.google i) :
    readProto io i (some dir) none = .ok f ↔
      f.name = i ∧ ∃ c, (if isUrl (join dir i) then At io.web (join dir i) c else At io.disk (join dir i) c) ∧ io.proto c = some f.src := by
  rw [readProto_ok]
  have hres : ∀ c, readFile io (resolvePath io i (some dir) none) = .ok c ↔
      (if isUrl (join dir i) then At io.web (join dir i) c else At io.disk (join dir i) c) := by
    intro c
    rw [resolvePath, hi, ha, readFile, orErr_ok]
    simp only [Bool.false_eq_true, if_false, Option.getD_none, List.find?_nil]
    split
    · exact get_some
    · exact get_some
  constructor
  · rintro ⟨hn, c, hs, hc⟩
    refine ⟨hn, c, ?_, hs⟩
    rcases hc with hc | ⟨_, hc⟩
    · rw [get_none.2 hg] at hc; exact absurd hc (by simp)
    · exact (hres c).1 hc
  · rintro ⟨hn, c, hc, hs⟩
    exact ⟨hn, c, hs, .inr ⟨get_none.2 hg, (hres c).2 hc⟩⟩

/-- **C121**: well-known files are always there, whatever the directories. -/
theorem C121_well_known {β : Type} {io : Io β} {i c : Text} {s : Src} (hg : At io.google i c) (hs : io.proto c = some s)
    (dir : Option Text) (paths : Option (List Text)) : readProto io i dir paths = .ok ⟨i, s⟩ :=
  readProto_ok.2 ⟨rfl, c, hs, .inl (get_some.2 hg)⟩

/-- **C121**: URLs are read from the web. -/
theorem C121_url {β : Type} {io : Io β} {i c : Text} {s : Src} (hu : isUrl i = true) (hg : Lacks io.google i) (hc : At io.web i c)
    (hs : io.proto c = some s) (dir : Option Text) (paths : Option (List Text)) : readProto io i dir paths = .ok ⟨i, s⟩ := by
  refine readProto_ok.2 ⟨rfl, c, hs, .inr ⟨get_none.2 hg, ?_⟩⟩
  unfold resolvePath
  rw [if_pos (httpUrl_prefix hu), readFile, orErr_ok, if_pos hu]
  exact get_some.2 hc

/-- **C121**: absolute paths are read from the disk. -/
theorem C121_absolute {β : Type} {io : Io β} {i c : Text} {s : Src} (hu : isAbsolute i = true) (hg : Lacks io.google i) (hc : At io.disk i c)
    (hs : io.proto c = some s) (dir : Option Text) (paths : Option (List Text)) : readProto io i dir paths = .ok ⟨i, s⟩ := by
  refine readProto_ok.2 ⟨rfl, c, hs, .inr ⟨get_none.2 hg, ?_⟩⟩
  have hh : "http".toList.isPrefixOf i = false := by
    have e : "http".toList = ['h', 't', 't', 'p'] := by decide
    rw [e]
    cases i with
    | nil => simp [isAbsolute] at hu
    | cons a r =>
      by_cases ea : a = '/'
      · subst ea; simp [List.isPrefixOf]
      · simp [isAbsolute, ea] at hu
  have hnu : isUrl i = false := by
    cases h : isUrl i with
    | false => rfl
    | true => rw [httpUrl_prefix h] at hh; exact hh
  unfold resolvePath
  rw [hh, hu, readFile, orErr_ok]
  simp only [Bool.false_eq_true, if_false, if_true, hnu]
  exact get_some.2 hc

end Verif.Load
