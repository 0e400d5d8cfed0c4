import Verif.GenCmd.Spec

/-!
# Lemmas on the `gen` command
-/

set_option linter.unusedSimpArgs false

namespace Verif.GenCmd

/-! ## Walking -/

theorem walk_append (sl : Symlinks) (xs ys : List Comp) :
    ∀ at_, walk sl at_ (xs ++ ys) = walk sl (walk sl at_ xs) ys := by
  induction xs with
  | nil => intro at_; rfl
  | cons c rest ih =>
    intro at_
    cases c <;> simp [walk, ih]

theorem walk_name {sl : Symlinks} (h : Plain sl) (at_ : List Text) (n : Text) (rest : List Comp) :
    walk sl at_ (.name n :: rest) = walk sl (at_ ++ [n]) rest := by
  simp [walk, h (at_ ++ [n])]

theorem walk_names {sl : Symlinks} (h : Plain sl) (ns : List Text) :
    ∀ at_, walk sl at_ (ns.map Comp.name) = at_ ++ ns := by
  induction ns with
  | nil => intro at_; simp [walk]
  | cons n rest ih =>
    intro at_
    rw [List.map_cons, walk_name h, ih]
    simp

theorem walk_ups (sl : Symlinks) (rest : List Comp) (k : Nat) :
    ∀ at_ ns : List Text, ns.length = k →
      walk sl (at_ ++ ns) (List.replicate k Comp.up ++ rest) = walk sl at_ rest := by
  induction k with
  | zero =>
    intro at_ ns h
    rw [List.length_eq_zero_iff.mp h]
    simp
  | succ k ih =>
    intro at_ ns h
    rw [List.replicate_succ, List.cons_append, walk]
    have hne : ns ≠ [] := by intro e; simp [e] at h
    rw [List.dropLast_append_of_ne_nil hne]
    exact ih at_ ns.dropLast (by simp [h])

theorem named_map {cs : List Comp} (h : ∀ c ∈ cs, ∃ n, c = Comp.name n) : ∃ ns : List Text, cs = ns.map Comp.name := by
  induction cs with
  | nil => exact ⟨[], rfl⟩
  | cons c rest ih =>
    obtain ⟨n, rfl⟩ := h c (by simp)
    obtain ⟨ns, hns⟩ := ih (fun c hc => h c (by simp [hc]))
    exact ⟨n :: ns, by simp [hns]⟩

/-! ## Cleaning -/

theorem cleanStep_walk {sl : Symlinks} (h : Plain sl) (cs : List Comp) :
    ∀ at_ : List Text, cs.foldl (cleanStep true) ((at_.map Comp.name).reverse) =
      ((walk sl at_ cs).map Comp.name).reverse := by
  induction cs with
  | nil => intro at_; rfl
  | cons c rest ih =>
    intro at_
    cases c with
    | cur => simpa [cleanStep, walk] using ih at_
    | name n =>
      rw [walk_name h, ← ih]
      simp [cleanStep]
    | up =>
      rw [walk, ← ih, List.foldl_cons]
      congr 1
      rcases List.eq_nil_or_concat at_ with rfl | ⟨l, n, rfl⟩
      · simp [cleanStep]
      · simp [cleanStep]

theorem clean_abs {sl : Symlinks} (h : Plain sl) {p : Path} (ha : p.abs = true) :
    clean p = ⟨true, (place sl p).map Comp.name⟩ := by
  have := cleanStep_walk h p.comps []
  simp only [List.map_nil, List.reverse_nil] at this
  unfold clean
  rw [ha, this]
  simp [place]

theorem clean_named {p : Path} (ha : p.abs = true) : Named (clean p) := by
  rw [clean_abs (sl := fun _ => none) (fun _ => rfl) ha]
  refine ⟨rfl, ?_⟩
  intro c hc
  obtain ⟨n, _, rfl⟩ := List.mem_map.mp hc
  exact ⟨n, rfl⟩

theorem clean_place {sl : Symlinks} (h : Plain sl) {p : Path} (ha : p.abs = true) :
    place sl (clean p) = place sl p := by
  rw [clean_abs h ha]
  simp [place, walk_names h]

/-! ## Relative paths -/

theorem diffLoop_nil (bs : List Comp) :
    ∀ acc, diffLoop [] bs acc = some (acc ++ List.replicate bs.length Comp.up) := by
  induction bs with
  | nil => intro acc; simp [diffLoop]
  | cons b rest ih =>
    intro acc
    rw [diffLoop, ih]
    simp [List.replicate_succ]

theorem diffLoop_walk {sl : Symlinks} (h : Plain sl) (ns : List Text) :
    ∀ (as : List Comp) (at_ : List Text),
      ∃ r, diffLoop as (ns.map Comp.name) [] = some r ∧
        walk sl at_ (ns.map Comp.name ++ r) = walk sl at_ as := by
  induction ns with
  | nil =>
    intro as at_
    cases as with
    | nil => exact ⟨[], by simp [diffLoop], rfl⟩
    | cons a as => exact ⟨a :: as, by simp [diffLoop], rfl⟩
  | cons n rest ih =>
    intro as at_
    cases as with
    | nil =>
      refine ⟨_, by rw [List.map_cons, diffLoop, diffLoop_nil], ?_⟩
      rw [walk_append, walk_names h]
      have := walk_ups sl [] (n :: rest).length at_ (n :: rest) rfl
      simpa [List.replicate_succ] using this
    | cons a as =>
      rw [List.map_cons, diffLoop]
      by_cases he : a = .name n
      · subst he
        obtain ⟨r, hr, hw⟩ := ih as (at_ ++ [n])
        refine ⟨r, by simpa using hr, ?_⟩
        rw [List.cons_append, walk_name h, hw, walk_name h]
      · refine ⟨Comp.up :: (rest.map Comp.name).map (fun _ => Comp.up) ++ a :: as, by simp [he], ?_⟩
        rw [walk_append, ← List.map_cons (f := Comp.name), walk_names h]
        have hk : (rest.map Comp.name).map (fun _ => Comp.up) = List.replicate rest.length Comp.up := by
          simp [List.map_map, Function.comp_def, List.map_const']
        have := walk_ups sl (a :: as) (n :: rest).length at_ (n :: rest) rfl
        rw [hk]
        simpa [List.replicate_succ] using this

theorem diff_place {sl : Symlinks} (h : Plain sl) {p out : Path} (hp : p.abs = true) (ho : Named out) :
    ∃ r, diff p out = some r ∧ r.abs = false ∧ place sl (join out r) = place sl p := by
  obtain ⟨ns, hns⟩ := named_map ho.2
  obtain ⟨r, hr, hw⟩ := diffLoop_walk h ns p.comps []
  refine ⟨⟨false, r⟩, ?_, rfl, ?_⟩
  · simp [diff, hp, ho.1, hns, hr]
  · simp only [join, place]
    simpa [hns] using hw

theorem parent_named {p : Path} (h : Named p) : Named (parent p) := by
  refine ⟨h.1, ?_⟩
  intro c hc
  exact h.2 c (List.dropLast_subset _ hc)

/-! ## Resolved locations -/

theorem join_abs_of {d p : Path} (h : d.abs = true) : (join d p).abs = true := by
  unfold join
  split <;> simp_all

theorem resolveLoc_place {sl : Symlinks} {cwd : Path} {sys : Sys} (hs : Honest sl cwd sys) (file p : Path)
    (hl : (sys.canonicalize (join (parent file) p)).isSome ∨ p.abs = true ∨ Plain sl) :
    ∃ q, resolveLoc sys (parent file) (.path p) = .path q ∧ q.abs = true ∧
      (p.abs = true → q = p) ∧ (p.abs = false → Named q) ∧ place sl q = meant sl cwd file p := by
  obtain ⟨hc, hca, hcan⟩ := hs
  unfold resolveLoc
  by_cases ha : p.abs = true
  · refine ⟨p, by simp [ha], ha, fun _ => rfl, by simp [ha], ?_⟩
    simp [meant, join, ha]
  · have ha' : p.abs = false := by simpa using ha
    simp only [ha', Bool.false_eq_true, if_false]
    cases hk : sys.canonicalize (join (parent file) p) with
    | some a =>
      have := hcan _ _ hk
      exact ⟨a, rfl, this.1.1, by simp, fun _ => this.1, this.2⟩
    | none =>
      have hpl : Plain sl := by
        rcases hl with h | h | h
        · simp [hk] at h
        · exact absurd h ha
        · exact h
      simp only [hc]
      have hj := join_abs_of (p := join (parent file) p) hca
      exact ⟨_, rfl, (clean_named hj).1, by simp, fun _ => clean_named hj, clean_place hpl hj⟩

/-! ## Formats -/

theorem takeWhile_dropWhile (f : Char → Bool) (l : Text) : l.takeWhile f ++ l.dropWhile f = l :=
  List.takeWhile_append_dropWhile

theorem extension_some {n e : Text} (h : extension n = some e) :
    ∃ base, n = base ++ '.' :: e ∧ base ≠ [] := by
  unfold extension at h
  simp only at h
  have hsplit := takeWhile_dropWhile (· != '.') n.reverse
  have hhead : ∀ c rest, n.reverse.dropWhile (· != '.') = c :: rest → c = '.' := by
    intro c rest hcr
    have := List.head?_dropWhile_not (fun x => x != '.') n.reverse
    rw [hcr] at this
    simpa using this
  split at h
  · cases h
  · rename_i c before hd
    split at h
    · cases h
    · rename_i hb
      have hc := hhead _ _ hd
      subst hc
      cases h
      refine ⟨before.reverse, ?_, by simpa using hb⟩
      rw [hd] at hsplit
      have := congrArg List.reverse hsplit
      simpa using this.symm

theorem formatOf_graphql {e : Text} (h : formatOf e = some .graphql) :
    e.map Char.toLower = "graphql".toList ∨ e.map Char.toLower = "gql".toList := by
  unfold formatOf at h
  simp only at h
  split at h
  · cases h
  · split at h
    · cases h
    · split at h
      · rename_i hg
        rcases hg with hg | hg
        · left; rw [← hg]; simp
        · right; rw [← hg]; simp
      · cases h

theorem detect_graphql {l : Loc} (h : detect l = some .graphql) : ∃ n, LastName l n ∧ GraphqlName n := by
  cases l with
  | url u =>
    simp only [detect] at h
    obtain ⟨e, he, hf⟩ := Option.bind_eq_some_iff.mp h
    obtain ⟨base, hb, hne⟩ := extension_some he
    refine ⟨(u.reverse.takeWhile (· != '/')).reverse, ?_, base, e, hb, hne, formatOf_graphql hf⟩
    refine ⟨(u.reverse.dropWhile (· != '/')).reverse, ?_, ?_⟩
    · rw [← List.reverse_append, takeWhile_dropWhile, List.reverse_reverse]
    · rw [List.getLast?_reverse]
      have := List.head?_dropWhile_not (fun x => x != '/') u.reverse
      cases hd : u.reverse.dropWhile (· != '/') with
      | nil => left; rfl
      | cons c rest =>
        right
        rw [hd] at this
        simpa using this
  | path p =>
    simp only [detect] at h
    split at h
    · rename_i n hn
      obtain ⟨e, he, hf⟩ := Option.bind_eq_some_iff.mp h
      obtain ⟨base, hb, hne⟩ := extension_some he
      refine ⟨n, ?_, base, e, hb, hne, formatOf_graphql hf⟩
      obtain ⟨ys, hys⟩ := List.getLast?_eq_some_iff.mp hn
      exact ⟨ys, hys⟩
    · cases h

theorem formatOf_of {e : Text} (h : e.map Char.toLower = "graphql".toList ∨ e.map Char.toLower = "gql".toList) :
    formatOf e = some .graphql := by
  unfold formatOf
  rcases h with h | h <;> rw [h] <;> decide

theorem toLower_dot : Char.toLower '.' = '.' := by decide

theorem dot_not_mem {e : Text} (h : e.map Char.toLower = "graphql".toList ∨ e.map Char.toLower = "gql".toList) :
    '.' ∉ e := by
  intro hm
  have : '.' ∈ e.map Char.toLower := List.mem_map.mpr ⟨'.', hm, toLower_dot⟩
  rcases h with h | h <;> rw [h] at this <;> revert this <;> decide

theorem extension_of {base e : Text} (hb : base ≠ []) (he : '.' ∉ e) : extension (base ++ '.' :: e) = some e := by
  have hall : ∀ c ∈ e.reverse, (c != '.') = true := by
    intro c hc
    have : c ≠ '.' := fun h => he (by rw [← h]; simpa using hc)
    simpa using this
  have hr : (base ++ '.' :: e).reverse = e.reverse ++ '.' :: base.reverse := by simp
  unfold extension
  simp only [hr]
  rw [List.takeWhile_append_of_pos hall, List.dropWhile_append_of_pos hall]
  simp [hb]

theorem detect_name {n : Text} (h : GraphqlName n) : (extension n).bind formatOf = some .graphql := by
  obtain ⟨base, e, rfl, hb, he⟩ := h
  rw [extension_of hb (dot_not_mem he)]
  exact formatOf_of he

/-! ## Requests -/

theorem asks_sample (l : Loc) (ps : Option (List Loc)) : asks l = sample (.proto l ps) ∧ asks l = sample (.config l) := by
  cases l <;> exact ⟨rfl, rfl⟩

theorem ioOf_sent (env : Env) (s : Src) : (ioOf env s).1 <+: sample s ∧
    (∀ t, (ioOf env s).2 = .ok t → (ioOf env s).1 = sample s) := by
  cases s with
  | curl l post =>
    cases l with
    | url u => exact ⟨List.prefix_refl _, fun _ _ => rfl⟩
    | path p => exact ⟨List.nil_prefix, fun t h => by simp [ioOf] at h⟩
  | proto l ps =>
    rw [ioOf, (asks_sample l ps).1]
    exact ⟨List.prefix_refl _, fun _ _ => rfl⟩
  | config l =>
    simp only [ioOf]
    split
    · rw [(asks_sample l none).2]
      exact ⟨List.prefix_refl _, fun _ _ => rfl⟩
    · exact ⟨List.nil_prefix, fun t h => by simp at h⟩

theorem resolveIo_sent (env : Env) (l : List Src) : (resolveIo env l).1 <+: l.flatMap sample ∧
    (∀ ts, (resolveIo env l).2 = .ok ts → (resolveIo env l).1 = l.flatMap sample) := by
  induction l with
  | nil => exact ⟨List.prefix_refl _, fun _ _ => rfl⟩
  | cons s rest ih =>
    have hs := ioOf_sent env s
    rw [resolveIo, List.flatMap_cons]
    generalize hi : ioOf env s = io at hs ⊢
    obtain ⟨sent, r⟩ := io
    cases r with
    | error e =>
      exact ⟨hs.1.trans (List.prefix_append _ _), fun ts h => by simp at h⟩
    | ok t =>
      have he := hs.2 t rfl
      simp only at he
      generalize hr : resolveIo env rest = rr at ih ⊢
      obtain ⟨more, r'⟩ := rr
      subst he
      cases r' with
      | error e => exact ⟨(List.prefix_append_right_inj _).mpr ih.1, fun ts h => by simp at h⟩
      | ok ts =>
        have := ih.2 ts rfl
        simp only at this
        subst this
        exact ⟨List.prefix_refl _, fun _ _ => rfl⟩

/-! ## Writing -/

theorem write_written (env : Env) (sent : List (Loc × Bool)) (out : Loc) (sdl : Text) :
    (write env sent out sdl).written = [] ∨
      ((write env sent out sdl).written = [(out, sdl)] ∧ (write env sent out sdl).result = .ok () ∧
        detect out = some .graphql ∧
        ((env.disk out).isSome → env.confirm = some true ∧ (write env sent out sdl).asked = true)) := by
  unfold write failed
  split
  · rename_i hd
    split
    · split
      · left; rfl
      · left; rfl
      · rename_i hcf
        split
        · right; exact ⟨rfl, rfl, hd, fun _ => ⟨hcf, rfl⟩⟩
        · left; rfl
    · rename_i hn
      split
      · right; exact ⟨rfl, rfl, hd, fun h => absurd h hn⟩
      · left; rfl
  · left; rfl

theorem write_sent (env : Env) (sent : List (Loc × Bool)) (out : Loc) (sdl : Text) :
    (write env sent out sdl).sent = sent := by
  unfold write failed
  repeat' split
  all_goals rfl

theorem write_asked (env : Env) (sent : List (Loc × Bool)) (out : Loc) (sdl : Text)
    (h : (write env sent out sdl).asked = true) : (env.disk out).isSome := by
  unfold write failed at h
  split at h
  · split at h
    · assumption
    · split at h <;> simp at h
  · simp at h

theorem write_ok (env : Env) (sent : List (Loc × Bool)) (out : Loc) (sdl : Text)
    (h : (write env sent out sdl).result = .ok ()) :
    (write env sent out sdl).written = [(out, sdl)] ∨
      ((env.disk out).isSome ∧ env.confirm = some false ∧ (write env sent out sdl).asked = true) := by
  unfold write failed at h ⊢
  split at h
  · split at h
    · rename_i he
      split at h
      · simp at h
      · rename_i hc
        right
        refine ⟨he, hc, ?_⟩
        simp [*]
      · split at h
        · left; simp [*]
        · simp at h
    · split at h
      · left; simp [*]
      · simp at h
  · simp at h

end Verif.GenCmd
