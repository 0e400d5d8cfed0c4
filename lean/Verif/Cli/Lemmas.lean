import Verif.Cli.Spec

/-!
# Lemmas on `init` and on tracking
-/

set_option linter.unusedSimpArgs false

namespace Verif.Cli

/-! ## YAML -/

theorem get_push (k : Text) (v : Y) : ∀ (m : Kvs) (j : Text),
    (m.push k v).get j = match m.get j with
      | some w => some w
      | none => if j = k then some v else none
  | .nil, j => by simp [Kvs.push, Kvs.get]
  | .cons k' v' rest, j => by
    simp only [Kvs.push, Kvs.get]
    split
    · rfl
    · exact get_push k v rest j

theorem get_remove (k : Text) : ∀ (m : Kvs) (j : Text),
    (m.remove k).get j = if j = k then none else m.get j
  | .nil, j => by simp [Kvs.remove, Kvs.get]
  | .cons k' v' rest, j => by
    have ih := get_remove k rest j
    simp only [Kvs.remove]
    by_cases hk : k = k'
    · subst hk
      simp only [if_true, ih, Kvs.get]
      by_cases hj : j = k <;> simp [hj]
    · simp only [hk, if_false, Kvs.get, ih]
      by_cases hj : j = k'
      · subst hj
        have : ¬ j = k := fun h => hk h.symm
        simp [this]
      · simp [hj]

theorem toList_append : ∀ a b : Ys, (a.append b).toList = a.toList ++ b.toList
  | .nil, b => by simp [Ys.append, Ys.toList]
  | .cons v rest, b => by simp [Ys.append, Ys.toList, toList_append rest b]

/-- Settings after the default has been merged into a mapping. -/
theorem merged (m : Kvs) : ∃ m', mergeY defaultRc (.map m) = .map m' ∧
    (∀ k, k ≠ "schema".toList → m'.get k = m.get k) ∧
    (Structured (m.get "schema".toList) →
      ∀ i, i ∈ items (m'.get "schema".toList) ↔ i ∈ items (m.get "schema".toList) ∨ i ∈ patterns) ∧
    (∃ l, m'.get "schema".toList = some (.seq l)) := by
  unfold defaultRc
  simp only [mergeY, mergeKvs]
  refine ⟨_, rfl, ?_⟩
  cases hg : m.get "schema".toList with
  | none =>
    refine ⟨?_, ?_, ?_⟩
    · intro k hk
      rw [get_push]
      simp only [hk, if_false]
      cases m.get k <;> rfl
    · intro _ i
      rw [get_push, hg]
      simp [items, Ys.toList, patterns]
    · rw [get_push, hg]
      simp
  | some w =>
    simp only
    refine ⟨?_, ?_, ?_⟩
    · intro k hk
      rw [get_push, get_remove]
      simp only [hk, if_false]
      cases m.get k <;> rfl
    · intro hs i
      rw [get_push, get_remove]
      cases w with
      | seq l => simp [items, toList_append, Ys.toList, patterns]
      | map x =>
        simp [items, toList_append, Ys.toList, patterns, Ys.append]
        constructor
        · rintro (h | h | h)
          · exact .inr (.inl h)
          · exact .inr (.inr h)
          · exact .inl h
        · rintro (h | h | h)
          · exact .inr (.inr h)
          · exact .inl h
          · exact .inr (.inl h)
      | _ => simp [Structured] at hs
    · rw [get_push, get_remove]
      cases w <;> simp

/-! ## Steps -/

theorem steps_append (a b : List (St → St × Except Err Unit)) : ∀ s,
    steps s (a ++ b) =
      match (steps s a).2 with
      | .error _ => steps s a
      | .ok () => steps (steps s a).1 b := by
  induction a with
  | nil => intro s; simp [steps]
  | cons f rest ih =>
    intro s
    rw [List.cons_append, steps, steps]
    generalize f s = r
    obtain ⟨s', r⟩ := r
    cases r with
    | error e => rfl
    | ok u => exact ih s'

theorem steps_inv (P : St → Prop) (fs : List (St → St × Except Err Unit)) (h : ∀ f ∈ fs, ∀ s, P s → P (f s).1) :
    ∀ s, P s → P (steps s fs).1 := by
  induction fs with
  | nil => intro s hs; exact hs
  | cons f rest ih =>
    intro s hs
    have h1 := h f (by simp) s hs
    rw [steps]
    generalize f s = r at h1 ⊢
    obtain ⟨s', r⟩ := r
    cases r with
    | error e => exact h1
    | ok u => exact ih (fun g hg => h g (by simp [hg])) s' h1

/-- A step that leaves a file alone and forgets no question. -/
def Apart (n : Name) (f : St → St × Except Err Unit) : Prop :=
  ∀ s, (f s).1.disk n = s.disk n ∧ (∀ m ∈ s.asked, m ∈ (f s).1.asked) ∧ (s.folder = true → (f s).1.folder = true)

theorem apart_steps {n : Name} {fs : List (St → St × Except Err Unit)} (h : ∀ f ∈ fs, Apart n f) :
    Apart n (fun s => steps s fs) := by
  intro s
  exact steps_inv (fun s' => s'.disk n = s.disk n ∧ (∀ m ∈ s.asked, m ∈ s'.asked) ∧
      (s.folder = true → s'.folder = true)) fs
    (fun f hf s' hs => by
      have := h f hf s'
      exact ⟨this.1.trans hs.1, fun m hm => this.2.1 m (hs.2.1 m hm), fun hm => this.2.2 (hs.2.2 hm)⟩)
    s ⟨rfl, fun _ h => h, fun h => h⟩

/-- What a file is after a list of steps of which one is about it. -/
theorem steps_mid (n : Name) (before after_ : List (St → St × Except Err Unit)) (f : St → St × Except Err Unit)
    (hb : ∀ g ∈ before, Apart n g) (ha : ∀ g ∈ after_, Apart n g) (s : St) :
    ((steps s (before ++ f :: after_)).1.disk n = s.disk n ∧ ∃ e, (steps s (before ++ f :: after_)).2 = .error e) ∨
      ∃ s1, s1.disk n = s.disk n ∧ (steps s (before ++ f :: after_)).1.disk n = (f s1).1.disk n ∧
        (∀ m ∈ (f s1).1.asked, m ∈ (steps s (before ++ f :: after_)).1.asked) ∧
        ((steps s (before ++ f :: after_)).2 = .ok () → (f s1).2 = .ok ()) ∧
        ((f s1).1.folder = true → (steps s (before ++ f :: after_)).1.folder = true) := by
  have hb' := apart_steps hb s
  simp only at hb'
  rw [steps_append]
  generalize hr : steps s before = r at hb'
  obtain ⟨s1, r⟩ := r
  cases r with
  | error e => exact .inl ⟨hb'.1, e, rfl⟩
  | ok u =>
    refine .inr ⟨s1, hb'.1, ?_⟩
    simp only [steps]
    generalize hf : f s1 = q
    obtain ⟨s2, q⟩ := q
    cases q with
    | error e => exact ⟨rfl, fun _ h => h, fun h => h, fun h => h⟩
    | ok u' =>
      have ha' := apart_steps ha s2
      exact ⟨ha'.1, ha'.2.1, fun _ => rfl, ha'.2.2⟩

/-! ## Single steps -/

theorem fileWrite_apart (env : Env) {n m : Name} (t : Text) (h : n ≠ m) : Apart n (fun s => fileWrite env s m t) := by
  intro s
  show (fileWrite env s m t).1.disk n = s.disk n ∧ (∀ x ∈ s.asked, x ∈ (fileWrite env s m t).1.asked) ∧
    (s.folder = true → (fileWrite env s m t).1.folder = true)
  unfold fileWrite
  split
  · exact ⟨by simp [Disk.put, h], fun _ h => h, fun h => h⟩
  · exact ⟨rfl, fun _ h => h, fun h => h⟩

theorem confirmWrite_apart (env : Env) {n m : Name} (t : Text) (h : n ≠ m) :
    Apart n (fun s => confirmWrite env s m t) := by
  intro s
  show (confirmWrite env s m t).1.disk n = s.disk n ∧ (∀ x ∈ s.asked, x ∈ (confirmWrite env s m t).1.asked) ∧
    (s.folder = true → (confirmWrite env s m t).1.folder = true)
  unfold confirmWrite
  split
  · simp only
    split
    · exact ⟨rfl, fun x hx => by simp [hx], fun h => h⟩
    · exact ⟨rfl, fun x hx => by simp [hx], fun h => h⟩
    · have := fileWrite_apart env t h { s with asked := s.asked ++ [m] }
      exact ⟨this.1, fun x hx => this.2.1 x (by simp [hx]), this.2.2⟩
  · exact fileWrite_apart env t h s

theorem writeRc_apart (env : Env) {n : Name} (h : n ≠ .graphqlrc) : Apart n (writeRc env) := by
  intro s
  unfold writeRc
  split
  · split
    · exact ⟨rfl, fun _ h => h, fun h => h⟩
    · exact confirmWrite_apart env _ h s
  · exact fileWrite_apart env _ h s

theorem createFolder_apart (env : Env) (n : Name) : Apart n (createFolder env) := by
  intro s
  unfold createFolder
  split
  · exact ⟨rfl, fun _ h => h, fun h => h⟩
  · split
    · exact ⟨rfl, fun _ h => h, fun h => h⟩
    · exact ⟨rfl, fun _ h => h, fun _ => rfl⟩
    · exact ⟨rfl, fun _ h => h, fun h => h⟩

theorem choice_apart (b : Bool) (n : Name) :
    Apart n (fun s => if b then (s, .ok ()) else (s, .error .prompt)) := by
  intro s
  cases b <;> exact ⟨rfl, fun _ h => h, fun h => h⟩

theorem fileWrite_file (env : Env) (s : St) (n : Name) (t : Text) :
    ((fileWrite env s n t).1.disk n = s.disk n ∧ (fileWrite env s n t).2 = .error (.write n)) ∨
      ((fileWrite env s n t).1.disk n = some (.text t) ∧ s.folder = true ∧ (fileWrite env s n t).2 = .ok () ∧
        (fileWrite env s n t).1.folder = true) := by
  unfold fileWrite
  split
  · rename_i h
    simp only [Bool.and_eq_true] at h
    exact .inr ⟨by simp [Disk.put], h.1, rfl, h.1⟩
  · exact .inl ⟨rfl, rfl⟩

theorem fileWrite_asked (env : Env) (s : St) (n : Name) (t : Text) : (fileWrite env s n t).1.asked = s.asked := by
  unfold fileWrite
  split <;> rfl

/-- What becomes of a file that is written after a question. -/
theorem confirmWrite_file (env : Env) (s : St) (n : Name) (t : Text) :
    ((confirmWrite env s n t).1.disk n = s.disk n ∧ ∃ e, (confirmWrite env s n t).2 = .error e) ∨
      ((confirmWrite env s n t).1.disk n = s.disk n ∧ (confirmWrite env s n t).2 = .ok () ∧ (s.disk n).isSome ∧
        env.confirm n = some false ∧ n ∈ (confirmWrite env s n t).1.asked) ∨
      ((confirmWrite env s n t).1.disk n = some (.text t) ∧ (confirmWrite env s n t).2 = .ok () ∧
        (confirmWrite env s n t).1.folder = true ∧
        ((s.disk n).isSome → env.confirm n = some true ∧ n ∈ (confirmWrite env s n t).1.asked)) := by
  unfold confirmWrite
  by_cases h : (s.disk n).isSome
  · simp only [h, if_true]
    cases hc : env.confirm n with
    | none => exact .inl ⟨rfl, _, rfl⟩
    | some b =>
      cases b with
      | false => exact .inr (.inl ⟨rfl, rfl, trivial, rfl, by simp⟩)
      | true =>
        simp only
        rcases fileWrite_file env { s with asked := s.asked ++ [n] } n t with ⟨h1, h2⟩ | ⟨h1, h2, h3, h4⟩
        · exact .inl ⟨h1, _, h2⟩
        · refine .inr (.inr ⟨h1, h3, h4, fun _ => ⟨trivial, ?_⟩⟩)
          rw [fileWrite_asked]
          simp
  · simp only [h, if_false]
    rcases fileWrite_file env s n t with ⟨h1, h2⟩ | ⟨h1, h2, h3, h4⟩
    · exact .inl ⟨h1, _, h2⟩
    · exact .inr (.inr ⟨h1, h3, h4, fun h' => by simp at h'⟩)

/-- The list of steps, cut at one. -/
theorem init_eq (env : Env) (disk : Disk) : init env disk = steps ⟨env.folder, disk, []⟩
    [createFolder env, fun s => if env.json.isSome then (s, .ok ()) else (s, .error .prompt),
     fun s => confirmWrite env s .rc (env.texts .rc), writeRc env,
     fun s => confirmWrite env s .rcSchema (env.texts .rcSchema),
     fun s => confirmWrite env s (mainName (env.json.getD true)) (env.texts (mainName (env.json.getD true))),
     fun s => confirmWrite env s .mainSchema (env.texts .mainSchema)] := rfl

/-- The state of a file after a run, for files other than `.graphqlrc.yml`: as it was, with an error; as it was after
a no; or written, after a yes if it was there. -/
theorem init_file (env : Env) (disk : Disk) (n : Name) (hn : n ≠ .graphqlrc) (hw : n = mainName (env.json.getD true) ∨
    n = .rc ∨ n = .rcSchema ∨ n = .mainSchema) :
    ((init env disk).1.disk n = disk n ∧ ∃ e, (init env disk).2 = .error e) ∨
      ((init env disk).1.disk n = disk n ∧ (disk n).isSome ∧ env.confirm n = some false ∧
        n ∈ (init env disk).1.asked) ∨
      ((init env disk).1.disk n = some (.text (env.texts n)) ∧ (init env disk).1.folder = true ∧
        ((disk n).isSome → env.confirm n = some true ∧ n ∈ (init env disk).1.asked)) := by
  have key : ∀ before after_, (∀ g ∈ before, Apart n g) → (∀ g ∈ after_, Apart n g) →
      init env disk = steps ⟨env.folder, disk, []⟩
        (before ++ (fun s => confirmWrite env s n (env.texts n)) :: after_) →
      ((init env disk).1.disk n = disk n ∧ ∃ e, (init env disk).2 = .error e) ∨
      ((init env disk).1.disk n = disk n ∧ (disk n).isSome ∧ env.confirm n = some false ∧
        n ∈ (init env disk).1.asked) ∨
      ((init env disk).1.disk n = some (.text (env.texts n)) ∧ (init env disk).1.folder = true ∧
        ((disk n).isSome → env.confirm n = some true ∧ n ∈ (init env disk).1.asked)) := by
    intro before after_ hb ha he
    have := steps_mid n before after_ (fun s => confirmWrite env s n (env.texts n)) hb ha ⟨env.folder, disk, []⟩
    rw [← he] at this
    rcases this with h | ⟨s1, h1, h2, h3, h4, h5⟩
    · exact .inl h
    · have hd : s1.disk n = disk n := h1
      rcases confirmWrite_file env s1 n (env.texts n) with ⟨c1, e, c2⟩ | ⟨c1, c2, c3, c4, c5⟩ | ⟨c1, c2, c3, c4⟩
      · refine .inl ⟨by rw [h2, c1, hd], ?_⟩
        cases hr : (init env disk).2 with
        | error e' => exact ⟨e', rfl⟩
        | ok u => rw [h4 hr] at c2; cases c2
      · exact .inr (.inl ⟨by rw [h2, c1, hd], by rw [← hd]; exact c3, c4, h3 n c5⟩)
      · refine .inr (.inr ⟨by rw [h2, c1], h5 c3, fun h => ?_⟩)
        rw [← hd] at h
        exact ⟨(c4 h).1, h3 n (c4 h).2⟩
  have hmain : ∀ m : Name, m = .rc ∨ m = .rcSchema ∨ m = .mainSchema → m ≠ mainName (env.json.getD true) := by
    intro m hm
    unfold mainName
    rcases hm with rfl | rfl | rfl <;> split <;> simp
  rcases hw with rfl | rfl | rfl | rfl
  · refine key [createFolder env, fun s => if env.json.isSome then (s, .ok ()) else (s, .error .prompt),
      fun s => confirmWrite env s .rc (env.texts .rc), writeRc env,
      fun s => confirmWrite env s .rcSchema (env.texts .rcSchema)] _ ?_ ?_ rfl
    · simp only [List.mem_cons, List.not_mem_nil, or_false]
      rintro g (rfl | rfl | rfl | rfl | rfl)
      · exact createFolder_apart env _
      · exact choice_apart _ _
      · exact confirmWrite_apart env _ (hmain .rc (by simp)).symm
      · exact writeRc_apart env hn
      · exact confirmWrite_apart env _ (hmain .rcSchema (by simp)).symm
    · simp only [List.mem_cons, List.not_mem_nil, or_false]
      rintro g rfl
      exact confirmWrite_apart env _ (hmain .mainSchema (by simp)).symm
  · refine key [createFolder env, fun s => if env.json.isSome then (s, .ok ()) else (s, .error .prompt)] _ ?_ ?_ rfl
    · simp only [List.mem_cons, List.not_mem_nil, or_false]
      rintro g (rfl | rfl)
      · exact createFolder_apart env _
      · exact choice_apart _ _
    · simp only [List.mem_cons, List.not_mem_nil, or_false]
      rintro g (rfl | rfl | rfl | rfl)
      · exact writeRc_apart env hn
      · exact confirmWrite_apart env _ (by simp)
      · exact confirmWrite_apart env _ (hmain .rc (by simp))
      · exact confirmWrite_apart env _ (by simp)
  · refine key [createFolder env, fun s => if env.json.isSome then (s, .ok ()) else (s, .error .prompt),
      fun s => confirmWrite env s .rc (env.texts .rc), writeRc env] _ ?_ ?_ rfl
    · simp only [List.mem_cons, List.not_mem_nil, or_false]
      rintro g (rfl | rfl | rfl | rfl)
      · exact createFolder_apart env _
      · exact choice_apart _ _
      · exact confirmWrite_apart env _ (by simp)
      · exact writeRc_apart env hn
    · simp only [List.mem_cons, List.not_mem_nil, or_false]
      rintro g (rfl | rfl)
      · exact confirmWrite_apart env _ (hmain .rcSchema (by simp))
      · exact confirmWrite_apart env _ (by simp)
  · refine key [createFolder env, fun s => if env.json.isSome then (s, .ok ()) else (s, .error .prompt),
      fun s => confirmWrite env s .rc (env.texts .rc), writeRc env,
      fun s => confirmWrite env s .rcSchema (env.texts .rcSchema),
      fun s => confirmWrite env s (mainName (env.json.getD true)) (env.texts (mainName (env.json.getD true)))]
      [] ?_ (by simp) rfl
    simp only [List.mem_cons, List.not_mem_nil, or_false]
    rintro g (rfl | rfl | rfl | rfl | rfl | rfl)
    · exact createFolder_apart env _
    · exact choice_apart _ _
    · exact confirmWrite_apart env _ (by simp)
    · exact writeRc_apart env hn
    · exact confirmWrite_apart env _ (by simp)
    · exact confirmWrite_apart env _ (hmain .mainSchema (by simp))

/-- A file that is not wanted stays. -/
theorem init_other (env : Env) (disk : Disk) (n : Name) (hn : n ≠ .graphqlrc) (hw : n ≠ mainName (env.json.getD true))
    (h1 : n ≠ .rc) (h2 : n ≠ .rcSchema) (h3 : n ≠ .mainSchema) : (init env disk).1.disk n = disk n := by
  refine (apart_steps (n := n) (fs := _) ?_ ⟨env.folder, disk, []⟩).1
  simp only [List.mem_cons, List.not_mem_nil, or_false]
  rintro g (rfl | rfl | rfl | rfl | rfl | rfl | rfl)
  · exact createFolder_apart env _
  · exact choice_apart _ _
  · exact confirmWrite_apart env _ h1
  · exact writeRc_apart env hn
  · exact confirmWrite_apart env _ h2
  · exact confirmWrite_apart env _ hw
  · exact confirmWrite_apart env _ h3

/-- The state of `.graphqlrc.yml` after a run. -/
theorem init_rc (env : Env) (disk : Disk) :
    ((init env disk).1.disk .graphqlrc = disk .graphqlrc ∧ ∃ e, (init env disk).2 = .error e) ∨
      ((init env disk).1.disk .graphqlrc = disk .graphqlrc ∧ (disk .graphqlrc).isSome ∧
        env.confirm .graphqlrc = some false ∧ Name.graphqlrc ∈ (init env disk).1.asked) ∨
      ((init env disk).1.folder = true ∧
        ((∃ t y, disk .graphqlrc = some (.text t) ∧ env.parse t = some y ∧
            (init env disk).1.disk .graphqlrc = some (.text (env.print (mergeY defaultRc y))) ∧
            env.confirm .graphqlrc = some true ∧ Name.graphqlrc ∈ (init env disk).1.asked) ∨
          ((∀ t, disk .graphqlrc ≠ some (.text t)) ∧
            (init env disk).1.disk .graphqlrc = some (.text (env.print defaultRc))))) := by
  have hmain : Name.graphqlrc ≠ mainName (env.json.getD true) := by
    unfold mainName
    split <;> simp
  have := steps_mid .graphqlrc
    [createFolder env, fun s => if env.json.isSome then (s, .ok ()) else (s, .error .prompt),
      fun s => confirmWrite env s .rc (env.texts .rc)]
    [fun s => confirmWrite env s .rcSchema (env.texts .rcSchema),
      fun s => confirmWrite env s (mainName (env.json.getD true)) (env.texts (mainName (env.json.getD true))),
      fun s => confirmWrite env s .mainSchema (env.texts .mainSchema)] (writeRc env)
    (by
      simp only [List.mem_cons, List.not_mem_nil, or_false]
      rintro g (rfl | rfl | rfl)
      · exact createFolder_apart env _
      · exact choice_apart _ _
      · exact confirmWrite_apart env _ (by simp))
    (by
      simp only [List.mem_cons, List.not_mem_nil, or_false]
      rintro g (rfl | rfl | rfl)
      · exact confirmWrite_apart env _ (by simp)
      · exact confirmWrite_apart env _ hmain
      · exact confirmWrite_apart env _ (by simp))
    ⟨env.folder, disk, []⟩
  simp only [List.cons_append, List.nil_append] at this
  rw [← init_eq] at this
  rcases this with h | ⟨s1, h1, h2, h3, h4, h5⟩
  · exact .inl h
  · have hd : s1.disk .graphqlrc = disk .graphqlrc := h1
    have herr : ∀ e, (writeRc env s1).2 = .error e → ∃ e, (init env disk).2 = .error e := by
      intro e he
      cases hr : (init env disk).2 with
      | error e' => exact ⟨e', rfl⟩
      | ok u => rw [h4 hr] at he; cases he
    cases hf : disk .graphqlrc with
    | none =>
      have hw : writeRc env s1 = fileWrite env s1 .graphqlrc (env.print defaultRc) := by
        unfold writeRc; rw [hd, hf]
      rw [hw] at h2 h3 h5 herr
      rcases fileWrite_file env s1 .graphqlrc (env.print defaultRc) with ⟨c1, c2⟩ | ⟨c1, _, _, c4⟩
      · exact .inl ⟨by rw [h2, c1, hd, hf], herr _ c2⟩
      · exact .inr (.inr ⟨h5 c4, .inr ⟨fun t h => by simp at h, by rw [h2, c1]⟩⟩)
    | some x =>
      cases x with
      | other =>
        have hw : writeRc env s1 = fileWrite env s1 .graphqlrc (env.print defaultRc) := by
          unfold writeRc; rw [hd, hf]
        rw [hw] at h2 h3 h5 herr
        rcases fileWrite_file env s1 .graphqlrc (env.print defaultRc) with ⟨c1, c2⟩ | ⟨c1, _, _, c4⟩
        · exact .inl ⟨by rw [h2, c1, hd, hf], herr _ c2⟩
        · exact .inr (.inr ⟨h5 c4, .inr ⟨fun t h => by simp at h, by rw [h2, c1]⟩⟩)
      | text t =>
        cases hp : env.parse t with
        | none =>
          have hw : writeRc env s1 = (s1, .error .yaml) := by unfold writeRc; rw [hd, hf]; simp only [hp]
          rw [hw] at h2
          exact .inl ⟨by rw [h2, hd, hf], herr .yaml (by rw [hw])⟩
        | some y =>
          have hw : writeRc env s1 = confirmWrite env s1 .graphqlrc (env.print (mergeY defaultRc y)) := by
            unfold writeRc; rw [hd, hf]; simp only [hp]
          rw [hw] at h2 h3 h5 herr
          rcases confirmWrite_file env s1 .graphqlrc (env.print (mergeY defaultRc y)) with
            ⟨c1, e, c2⟩ | ⟨c1, c2, c3, c4, c5⟩ | ⟨c1, c2, c3, c4⟩
          · exact .inl ⟨by rw [h2, c1, hd, hf], herr e c2⟩
          · exact .inr (.inl ⟨by rw [h2, c1, hd, hf], by simp, c4, h3 _ c5⟩)
          · have := c4 (by rw [hd, hf]; rfl)
            exact .inr (.inr ⟨h5 c3, .inl ⟨t, y, rfl, hp, by rw [h2, c1], this.1, h3 _ this.2⟩⟩)

/-! ## Tracking -/

theorem isDev_iff (v : Text) : isDev v = true ↔ Dev v := by
  induction v with
  | nil =>
    simp only [isDev, Dev]
    constructor
    · intro h; cases h
    · rintro ⟨a, b, h⟩
      have := congrArg List.length h
      simp at this
  | cons c rest ih =>
    rw [isDev, Bool.or_eq_true, ih]
    constructor
    · rintro (h | ⟨a, b, h⟩)
      · obtain ⟨b, hb⟩ := List.isPrefixOf_iff_prefix.mp h
        exact ⟨[], b, by simpa using hb.symm⟩
      · exact ⟨c :: a, b, by simp [h]⟩
    · rintro ⟨a, b, h⟩
      cases a with
      | nil => exact .inl (List.isPrefixOf_iff_prefix.mpr ⟨b, by simpa using h.symm⟩)
      | cons x a =>
        simp only [List.cons_append, List.cons.injEq] at h
        exact .inr ⟨a, b, h.2⟩

theorem dispatch_off {t : Tracker} (h : t.can = false) (found : List Text) (up : Collector → Bool) (k : Kind) :
    t.dispatch found up k = t := by
  simp [Tracker.dispatch, h]

theorem run_off {t : Tracker} (h : t.can = false) (l : List (Kind × List Text × (Collector → Bool))) : t.run l = t := by
  induction l with
  | nil => rfl
  | cons x rest ih =>
    obtain ⟨k, found, up⟩ := x
    rw [Tracker.run, dispatch_off h, ih]

theorem dispatch_on {t : Tracker} (h : t.can = true) (found : List Text) (up : Collector → Bool) (k : Kind) :
    t.dispatch found up k =
      { t with
        emails := some (t.emails.getD found)
        looked := t.looked + (if t.emails.isSome then 0 else 1)
        sent := t.sent ++ sendAll up ⟨k, t.emails.getD found⟩ [.ga, .posthog] } := by
  obtain ⟨can, emails, looked, sent⟩ := t
  simp only at h
  subst h
  cases emails <;> simp [Tracker.dispatch, Tracker.look]

end Verif.Cli
