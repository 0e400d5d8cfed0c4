import Verif.Cli.Lemmas

/-!
# Properties of `init` and of tracking

C151: `init` leaves what is there alone unless it is told otherwise.
C152: the program reports its use only when it may.
-/

set_option linter.unusedSimpArgs false

namespace Verif.Cli

/-! ## C151 -/

/-- A file is changed only with a yes if it was there, and only in a folder that exists by then.
Missing: a `.graphqlrc.yml` that cannot be read (`C151_violated_by_unreadable`). -/
theorem C151_files_partial (env : Env) (disk : Disk) (n : Name) (hr : disk .graphqlrc ≠ some .other)
    (h : (init env disk).1.disk n ≠ disk n) :
    (init env disk).1.folder = true ∧ Wanted env n ∧
      ((disk n).isSome → env.confirm n = some true ∧ n ∈ (init env disk).1.asked) := by
  by_cases hn : n = .graphqlrc
  · subst hn
    rcases init_rc env disk with ⟨h1, _⟩ | ⟨h1, _⟩ | ⟨hf, ⟨t, y, h1, _, _, h4, h5⟩ | ⟨h1, _⟩⟩
    · exact absurd h1 h
    · exact absurd h1 h
    · exact ⟨hf, trivial, fun _ => ⟨h4, h5⟩⟩
    · refine ⟨hf, trivial, fun hs => ?_⟩
      cases hd : disk .graphqlrc with
      | none => simp [hd] at hs
      | some x =>
        cases x with
        | text t => exact absurd hd (h1 t)
        | other => exact absurd hd hr
  · by_cases hw : n = mainName (env.json.getD true) ∨ n = .rc ∨ n = .rcSchema ∨ n = .mainSchema
    · rcases init_file env disk n hn hw with ⟨h1, _⟩ | ⟨h1, _⟩ | ⟨_, hf, h2⟩
      · exact absurd h1 h
      · exact absurd h1 h
      · refine ⟨hf, ?_, h2⟩
        rcases hw with rfl | rfl | rfl | rfl
        · cases hj : env.json with
          | none =>
            exfalso
            refine h ?_
            have hi : init env disk = match createFolder env ⟨env.folder, disk, []⟩ with
                | (s, .error e) => (s, .error e)
                | (s, .ok ()) => (s, .error .prompt) := by
              unfold init
              rw [steps]
              generalize createFolder env ⟨env.folder, disk, []⟩ = r
              obtain ⟨s, r⟩ := r
              cases r with
              | error e => rfl
              | ok u => simp [steps, hj]
            have hc := (createFolder_apart env (mainName (env.json.getD true)) ⟨env.folder, disk, []⟩).1
            rw [hi]
            generalize createFolder env ⟨env.folder, disk, []⟩ = r at hc
            obtain ⟨s, r⟩ := r
            cases r <;> exact hc
          | some b => cases b <;> simp [mainName, Wanted, hj]
        · trivial
        · trivial
        · trivial
    · simp only [not_or] at hw
      exact absurd (init_other env disk n hn hw.1 hw.2.1 hw.2.2.1 hw.2.2.2) h

/-- After a run without an error, each file has the text that it should, or was kept with a no. -/
theorem C151_done (env : Env) (disk : Disk) (h : (init env disk).2 = .ok ()) (n : Name) (hn : n ≠ .graphqlrc)
    (hw : n = mainName (env.json.getD true) ∨ n = .rc ∨ n = .rcSchema ∨ n = .mainSchema) :
    (init env disk).1.disk n = some (.text (env.texts n)) ∨
      ((init env disk).1.disk n = disk n ∧ (disk n).isSome ∧ env.confirm n = some false) := by
  rcases init_file env disk n hn hw with ⟨_, e, h2⟩ | ⟨h1, h2, h3, _⟩ | ⟨h1, _⟩
  · rw [h] at h2; cases h2
  · exact .inr ⟨h1, h2, h3⟩
  · exact .inl h1

/-- The settings in `.graphqlrc.yml` survive: after a run without an error the file has, unless it was kept with a
no, all settings that it had, and the schemas are those that it had and those of Tailcall.
Missing: a schema that is not a list or a mapping (`C151_violated_by_single`). -/
theorem C151_settings_partial (env : Env) (disk : Disk) (hrt : RoundTrip env) (h : (init env disk).2 = .ok ())
    (t : Text) (m : Kvs) (ht : disk .graphqlrc = some (.text t)) (hp : env.parse t = some (.map m))
    (hs : Structured (m.get "schema".toList)) :
    ((init env disk).1.disk .graphqlrc = disk .graphqlrc ∧ env.confirm .graphqlrc = some false) ∨
      ∃ t' m', (init env disk).1.disk .graphqlrc = some (.text t') ∧ env.parse t' = some (.map m') ∧
        (∀ k, k ≠ "schema".toList → m'.get k = m.get k) ∧
        ∀ i, i ∈ items (m'.get "schema".toList) ↔ i ∈ items (m.get "schema".toList) ∨ i ∈ patterns := by
  rcases init_rc env disk with ⟨_, e, h2⟩ | ⟨h1, _, h3, _⟩ | ⟨_, ⟨t', y, h1, h2, h3, _⟩ | ⟨h1, _⟩⟩
  · rw [h] at h2; cases h2
  · exact .inl ⟨h1, h3⟩
  · rw [ht] at h1
    cases h1
    rw [hp] at h2
    cases h2
    obtain ⟨m', hm, hk, hi, _⟩ := merged m
    exact .inr ⟨_, m', h3, by rw [hrt, hm], hk, hi hs⟩
  · exact absurd ht (h1 t)

/-- A new `.graphqlrc.yml` has the schemas of Tailcall and nothing else. -/
theorem C151_new (env : Env) (disk : Disk) (hrt : RoundTrip env) (h : (init env disk).2 = .ok ())
    (ht : disk .graphqlrc = none) :
    ∃ t m, (init env disk).1.disk .graphqlrc = some (.text t) ∧ env.parse t = some (.map m) ∧
      items (m.get "schema".toList) = patterns ∧ ∀ k, k ≠ "schema".toList → m.get k = none := by
  rcases init_rc env disk with ⟨_, e, h2⟩ | ⟨_, h2, _⟩ | ⟨_, ⟨t', y, h1, _⟩ | ⟨_, h2⟩⟩
  · rw [h] at h2; cases h2
  · rw [ht] at h2; cases h2
  · rw [ht] at h1; cases h1
  · refine ⟨_, _, h2, hrt _, rfl, ?_⟩
    intro k hk
    exact if_neg hk

/-- A `.graphqlrc.yml` that is not YAML is an error, and stays. -/
theorem C151_invalid (env : Env) (disk : Disk) (t : Text) (ht : disk .graphqlrc = some (.text t))
    (hp : env.parse t = none) :
    (init env disk).1.disk .graphqlrc = disk .graphqlrc ∧ (init env disk).2 ≠ .ok () := by
  rcases init_rc env disk with ⟨h1, e, h2⟩ | ⟨h1, _, h3, _⟩ | ⟨_, ⟨t', y, h1, h2, _⟩ | ⟨h1, _⟩⟩
  · exact ⟨h1, by rw [h2]; simp⟩
  · refine ⟨h1, fun hok => ?_⟩
    -- the step itself is an error, so the run cannot be a success
    have hmid := steps_mid .graphqlrc
      [createFolder env, fun s => if env.json.isSome then (s, .ok ()) else (s, .error .prompt),
        fun s => confirmWrite env s .rc (env.texts .rc)]
      [fun s => confirmWrite env s .rcSchema (env.texts .rcSchema),
        fun s => confirmWrite env s (mainName (env.json.getD true)) (env.texts (mainName (env.json.getD true))),
        fun s => confirmWrite env s .mainSchema (env.texts .mainSchema)] (writeRc env)
      (by
        simp only [List.mem_cons, List.not_mem_nil, or_false]
        rintro g (rfl | rfl | rfl)
        · exact createFolder_apart env _
        · exact choice_apart _ _
        · exact confirmWrite_apart env _ (by simp))
      (by
        simp only [List.mem_cons, List.not_mem_nil, or_false]
        rintro g (rfl | rfl | rfl)
        · exact confirmWrite_apart env _ (by simp)
        · exact confirmWrite_apart env _ (by unfold mainName; split <;> simp)
        · exact confirmWrite_apart env _ (by simp))
      ⟨env.folder, disk, []⟩
    simp only [List.cons_append, List.nil_append] at hmid
    rw [← init_eq] at hmid
    rcases hmid with ⟨_, e, he⟩ | ⟨s1, hd, _, _, h4, _⟩
    · rw [hok] at he; cases he
    · have hd' : s1.disk .graphqlrc = disk .graphqlrc := hd
      have hw : writeRc env s1 = (s1, .error .yaml) := by unfold writeRc; rw [hd', ht]; simp only [hp]
      have := h4 hok
      rw [hw] at this
      cases this
  · rw [ht] at h1
    cases h1
    rw [hp] at h2
    cases h2
  · exact absurd ht (h1 t)

/-- Without the folder, and without a yes to its creation, nothing is written and the folder is not created. -/
theorem C151_folder (env : Env) (disk : Disk) (hf : env.folder = false) (hc : env.create ≠ some true) :
    (init env disk).1.disk = disk ∧ (init env disk).1.folder = false := by
  have hfw : ∀ (s : St) (n : Name) (t : Text), s.folder = false → (fileWrite env s n t).1 = s := by
    intro s n t h
    simp [fileWrite, h]
  have hcw : ∀ (s : St) (n : Name) (t : Text), s.disk = disk ∧ s.folder = false →
      (confirmWrite env s n t).1.disk = disk ∧ (confirmWrite env s n t).1.folder = false := by
    intro s n t h
    unfold confirmWrite
    split
    · simp only
      split
      · exact h
      · exact h
      · have := hfw { s with asked := s.asked ++ [n] } n t h.2
        rw [this]
        exact h
    · rw [hfw s n t h.2]
      exact h
  refine steps_inv (fun s => s.disk = disk ∧ s.folder = false) _ ?_ _ ⟨rfl, hf⟩
  simp only [List.mem_cons, List.not_mem_nil, or_false]
  rintro g (rfl | rfl | rfl | rfl | rfl | rfl | rfl) s hs
  · unfold createFolder
    simp only [hs.2, Bool.false_eq_true, if_false]
    split
    · exact hs
    · rename_i h; exact absurd h hc
    · exact hs
  · simp only
    split <;> exact hs
  · exact hcw s _ _ hs
  · unfold writeRc
    split
    · split
      · exact hs
      · exact hcw s _ _ hs
    · rw [hfw s _ _ hs.2]
      exact hs
  · exact hcw s _ _ hs
  · exact hcw s _ _ hs
  · exact hcw s _ _ hs

/-! ### Counterexamples -/

/-- An environment of which the writer of YAML does not matter; nobody is at the terminal to confirm. -/
private def env1 : Env where
  folder := true
  create := none
  json := some true
  confirm _ := none
  writable _ := true
  parse _ := none
  print _ := "new".toList
  texts _ := "text".toList

/-- A folder with a file that is not UTF-8. -/
private def disk1 : Disk := fun n => if n = .graphqlrc then some .other else none

/-- A `.graphqlrc.yml` that is not UTF-8 is replaced without a question. -/
theorem C151_violated_by_unreadable :
    (init env1 disk1).1.disk .graphqlrc ≠ disk1 .graphqlrc ∧ (disk1 .graphqlrc).isSome ∧
      env1.confirm .graphqlrc = none ∧ (init env1 disk1).1.asked = [] := by
  decide +kernel

/-- Settings with a single schema. -/
private def single : Kvs := .cons "schema".toList (.str "./api.graphql".toList) .nil

/-- A schema that is a single text, as is usual, is dropped when the default is merged in. -/
theorem C151_violated_by_single :
    ∃ m', mergeY defaultRc (.map single) = .map m' ∧
      Y.str "./api.graphql".toList ∈ items (single.get "schema".toList) ∧
      Y.str "./api.graphql".toList ∉ items (m'.get "schema".toList) := by
  refine ⟨.cons "schema".toList (.seq (.cons (.str "./.tailcallrc.graphql".toList)
    (.cons (.str "./*.graphql".toList) .nil))) .nil, rfl, ?_, ?_⟩
  · have : items (single.get "schema".toList) = [Y.str "./api.graphql".toList] := rfl
    rw [this]
    simp
  · show Y.str "./api.graphql".toList ∉ [Y.str "./.tailcallrc.graphql".toList, Y.str "./*.graphql".toList]
    intro h
    rcases List.mem_cons.mp h with h | h
    · injection h with h
      revert h
      decide
    · rcases List.mem_cons.mp h with h | h
      · injection h with h
        revert h
        decide
      · cases h

/-- A second run adds the schemas a second time. -/
theorem C151_violated_by_twice :
    ∃ m m', mergeY defaultRc (.map .nil) = .map m ∧ mergeY defaultRc (.map m) = .map m' ∧
      items (m.get "schema".toList) = patterns ∧ items (m'.get "schema".toList) = patterns ++ patterns :=
  ⟨_, _, rfl, rfl, rfl, rfl⟩

/-- A folder that does not exist, and a no. -/
private def env2 : Env := { env1 with folder := false, create := some false }

/-- A no to the creation of the folder does not end the command: it goes on, and fails at the first file. -/
theorem C151_violated_by_no :
    (match (init env2 (fun _ => none)).2 with
      | .error e => decide (e = .write .rc)
      | .ok _ => false) = true := by
  decide +kernel

/-! ## C152 -/

/-- Who has opted out is not tracked: nothing is sent, and nobody looks for addresses. -/
theorem C152_out (version : Text) (v : Vars) (h : OptedOut v) (l : List (Kind × List Text × (Collector → Bool))) :
    ((Tracker.new version v).run l).sent = [] ∧ ((Tracker.new version v).run l).looked = 0 := by
  obtain ⟨t, ht, hf⟩ := h
  have : canTrack version v = false := by
    unfold canTrack
    rcases ht with ht | ⟨h1, ht⟩ <;> simp [*, isFalse, canTrackInner]
  rw [run_off (by simpa [Tracker.new] using this)]
  exact ⟨rfl, rfl⟩

/-- A version for development does not track either, unless someone has opted in. -/
theorem C152_dev (version : Text) (v : Vars) (hd : Dev version) (h : v.long = none ∧ v.short = none)
    (l : List (Kind × List Text × (Collector → Bool))) :
    ((Tracker.new version v).run l).sent = [] ∧ ((Tracker.new version v).run l).looked = 0 := by
  have : canTrack version v = false := by
    simp [canTrack, h, canTrackInner, (isDev_iff version).mpr hd]
  rw [run_off (by simpa [Tracker.new] using this)]
  exact ⟨rfl, rfl⟩

/-- Whether a program tracks is told by the variables, or by its version when there are none. -/
theorem C152_when (version : Text) (v : Vars) :
    (Tracker.new version v).can = true ↔ OptedIn v ∨ (v.long = none ∧ v.short = none ∧ ¬ Dev version) := by
  show canTrack version v = true ↔ _
  have hdev := isDev_iff version
  obtain ⟨long, short⟩ := v
  unfold canTrack OptedIn
  cases long with
  | some a => simp [canTrackInner, isFalse]
  | none =>
    cases short with
    | some b => simp [canTrackInner, isFalse]
    | none =>
      simp only [Option.or_none, Option.map_none, canTrackInner, Bool.not_eq_true']
      rw [← Bool.not_eq_true, hdev]
      simp

theorem run_on {t : Tracker} (h : t.can = true) (l : List (Kind × List Text × (Collector → Bool)))
    (hup : ∀ x ∈ l, ∀ c, x.2.2 c = true) (c : Collector) :
    (got (t.run l) c).map (·.kind) = (got t c).map (·.kind) ++ l.map (·.1) := by
  induction l generalizing t with
  | nil => simp [Tracker.run]
  | cons x rest ih =>
    obtain ⟨k, found, up⟩ := x
    rw [Tracker.run, ih (by rw [dispatch_on h]; exact h) (fun y hy => hup y (by simp [hy]))]
    have hu := hup (k, found, up) (by simp)
    rw [dispatch_on h]
    simp only at hu
    cases c <;> simp [got, sendAll, hu, List.filter_cons]

/-- Who is tracked: when the collectors can be reached each gets each event once, in order. -/
theorem C152_each (version : Text) (v : Vars) (h : (Tracker.new version v).can = true)
    (l : List (Kind × List Text × (Collector → Bool))) (hup : ∀ x ∈ l, ∀ c, x.2.2 c = true) (c : Collector) :
    (got ((Tracker.new version v).run l) c).map (·.kind) = l.map (·.1) := by
  rw [run_on h l hup c]
  rfl

theorem run_looked (t : Tracker) (l : List (Kind × List Text × (Collector → Bool))) :
    (t.run l).looked ≤ t.looked + (if t.emails.isSome then 0 else 1) := by
  induction l generalizing t with
  | nil => simp [Tracker.run]
  | cons x rest ih =>
    obtain ⟨k, found, up⟩ := x
    rw [Tracker.run]
    cases hc : t.can with
    | false => rw [dispatch_off hc]; exact ih t
    | true =>
      refine Nat.le_trans (ih _) ?_
      rw [dispatch_on hc]
      simp

/-- Addresses are looked for at most once in a run. -/
theorem C152_once (version : Text) (v : Vars) (l : List (Kind × List Text × (Collector → Bool))) :
    ((Tracker.new version v).run l).looked ≤ 1 := by
  simpa [Tracker.new] using run_looked (Tracker.new version v) l

theorem run_sublist {t : Tracker} (l : List (Kind × List Text × (Collector → Bool))) (c : Collector) :
    ∃ s, List.Sublist s (l.map (·.1)) ∧ (got (t.run l) c).map (·.kind) = (got t c).map (·.kind) ++ s := by
  induction l generalizing t with
  | nil => exact ⟨[], by simp, by simp [Tracker.run]⟩
  | cons x rest ih =>
    obtain ⟨k, found, up⟩ := x
    rw [Tracker.run]
    cases hc : t.can with
    | false =>
      rw [dispatch_off hc]
      obtain ⟨s, hs, he⟩ := ih (t := t)
      exact ⟨s, by simpa using hs.cons k, he⟩
    | true =>
      obtain ⟨s, hs, he⟩ := ih (t := t.dispatch found up k)
      rw [he, dispatch_on hc]
      have : got { t with emails := some (t.emails.getD found), looked := t.looked + (if t.emails.isSome then 0 else 1), sent := t.sent ++ sendAll up ⟨k, t.emails.getD found⟩ [.ga, .posthog] } c =
          got t c ∨ got { t with emails := some (t.emails.getD found), looked := t.looked + (if t.emails.isSome then 0 else 1), sent := t.sent ++ sendAll up ⟨k, t.emails.getD found⟩ [.ga, .posthog] } c =
          got t c ++ [⟨k, t.emails.getD found⟩] := by
        cases hg : up .ga <;> cases hp : up .posthog <;> cases c <;>
          simp [got, sendAll, hg, hp, List.filter_cons]
      rcases this with h | h <;> rw [h]
      · exact ⟨s, by simpa using hs.cons k, rfl⟩
      · exact ⟨k :: s, by simpa using hs.cons_cons k, by simp⟩

/-- Whatever the network does, no collector gets an event twice, out of order, or one that did not happen. -/
theorem C152_most (version : Text) (v : Vars) (l : List (Kind × List Text × (Collector → Bool))) (c : Collector) :
    List.Sublist ((got ((Tracker.new version v).run l) c).map (·.kind)) (l.map (·.1)) := by
  obtain ⟨s, hs, he⟩ := run_sublist (t := Tracker.new version v) l c
  rw [he]
  simpa [got, Tracker.new] using hs

/-- When the first collector cannot be reached the second gets nothing. -/
theorem C152_violated_by_first :
    ∃ l, (∀ x ∈ l, x.2.2 Collector.posthog = true) ∧ l.map (·.1) = [Kind.command "start".toList] ∧
      (Tracker.new "1.0.0".toList ⟨none, none⟩).can = true ∧
      got ((Tracker.new "1.0.0".toList ⟨none, none⟩).run l) .posthog = [] :=
  ⟨[(.command "start".toList, [], fun c => c == .posthog)], by decide +kernel, by decide +kernel, by decide +kernel,
    by decide +kernel⟩

/-- The short variable does not count when the long one is set, though it says false. -/
theorem C152_violated_by_both :
    (Tracker.new "1.0.0".toList ⟨some "true".toList, some "false".toList⟩).can = true := by
  decide +kernel

end Verif.Cli
