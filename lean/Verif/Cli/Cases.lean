import Verif.Cli.Props

/-!
# Cases of `init` and of tracking

For each theorem a case that meets its hypotheses.
-/

namespace Verif.Cli.Cases

open Verif.Cli

/-! ## C151 -/

mutual
/-- A writer of values for the cases: a letter for each constructor, texts between quotes. -/
def print : Y → Text
  | .null => ['n']
  | .bool true => ['t']
  | .bool false => ['f']
  | .num n => '#' :: quote n
  | .str s => 's' :: quote s
  | .seq l => '[' :: printAll l
  | .map m => '{' :: printKvs m
  | .tagged t v => '!' :: quote t ++ print v

/-- The items of a list. -/
def printAll : Ys → Text
  | .nil => [']']
  | .cons v rest => ',' :: print v ++ printAll rest

/-- The entries of a mapping. -/
def printKvs : Kvs → Text
  | .nil => ['}']
  | .cons k v rest => ',' :: quote k ++ print v ++ printKvs rest

/-- A text between quotes. -/
def quote : Text → Text
  | [] => ['"']
  | c :: rest => '\\' :: c :: quote rest
end

theorem quote_inj : ∀ (a b r q : Text), quote a ++ r = quote b ++ q → a = b ∧ r = q
  | [], [], r, q, h => by simpa [quote] using h
  | [], c :: b, r, q, h => by simp [quote] at h
  | c :: a, [], r, q, h => by simp [quote] at h
  | c :: a, d :: b, r, q, h => by
    simp only [quote, List.cons_append, List.cons.injEq, true_and] at h
    obtain ⟨h1, h2⟩ := quote_inj a b r q h.2
    exact ⟨by rw [h.1, h1], h2⟩

mutual
theorem print_inj : ∀ (a b : Y) (r q : Text), print a ++ r = print b ++ q → a = b ∧ r = q
  | .null, b, r, q, h => by
    cases b with
    | null => simpa [print] using h
    | bool x => cases x <;> simp [print] at h
    | _ => simp [print] at h
  | .bool x, b, r, q, h => by
    cases b with
    | bool y => cases x <;> cases y <;> simp [print] at h ⊢ <;> exact h
    | _ => cases x <;> simp [print] at h
  | .num n, b, r, q, h => by
    cases b with
    | num m =>
      simp only [print, List.cons_append, List.cons.injEq, true_and] at h
      obtain ⟨h1, h2⟩ := quote_inj n m r q h
      exact ⟨by rw [h1], h2⟩
    | bool x => cases x <;> simp [print] at h
    | _ => simp [print] at h
  | .str n, b, r, q, h => by
    cases b with
    | str m =>
      simp only [print, List.cons_append, List.cons.injEq, true_and] at h
      obtain ⟨h1, h2⟩ := quote_inj n m r q h
      exact ⟨by rw [h1], h2⟩
    | bool x => cases x <;> simp [print] at h
    | _ => simp [print] at h
  | .seq l, b, r, q, h => by
    cases b with
    | seq m =>
      simp only [print, List.cons_append, List.cons.injEq, true_and] at h
      obtain ⟨h1, h2⟩ := printAll_inj l m r q h
      exact ⟨by rw [h1], h2⟩
    | bool x => cases x <;> simp [print] at h
    | _ => simp [print] at h
  | .map l, b, r, q, h => by
    cases b with
    | map m =>
      simp only [print, List.cons_append, List.cons.injEq, true_and] at h
      obtain ⟨h1, h2⟩ := printKvs_inj l m r q h
      exact ⟨by rw [h1], h2⟩
    | bool x => cases x <;> simp [print] at h
    | _ => simp [print] at h
  | .tagged t v, b, r, q, h => by
    cases b with
    | tagged t' v' =>
      simp only [print, List.cons_append, List.append_assoc, List.cons.injEq, true_and] at h
      obtain ⟨h1, h2⟩ := quote_inj t t' _ _ h
      obtain ⟨h3, h4⟩ := print_inj v v' r q h2
      exact ⟨by rw [h1, h3], h4⟩
    | bool x => cases x <;> simp [print] at h
    | _ => simp [print] at h

theorem printAll_inj : ∀ (a b : Ys) (r q : Text), printAll a ++ r = printAll b ++ q → a = b ∧ r = q
  | .nil, b, r, q, h => by
    cases b with
    | nil => simpa [printAll] using h
    | cons v rest => simp [printAll] at h
  | .cons v rest, b, r, q, h => by
    cases b with
    | nil => simp [printAll] at h
    | cons v' rest' =>
      simp only [printAll, List.cons_append, List.append_assoc, List.cons.injEq, true_and] at h
      obtain ⟨h1, h2⟩ := print_inj v v' _ _ h
      obtain ⟨h3, h4⟩ := printAll_inj rest rest' r q h2
      exact ⟨by rw [h1, h3], h4⟩

theorem printKvs_inj : ∀ (a b : Kvs) (r q : Text), printKvs a ++ r = printKvs b ++ q → a = b ∧ r = q
  | .nil, b, r, q, h => by
    cases b with
    | nil => simpa [printKvs] using h
    | cons k v rest => simp [printKvs] at h
  | .cons k v rest, b, r, q, h => by
    cases b with
    | nil => simp [printKvs] at h
    | cons k' v' rest' =>
      simp only [printKvs, List.cons_append, List.append_assoc, List.cons.injEq, true_and] at h
      obtain ⟨h0, h'⟩ := quote_inj k k' _ _ h
      obtain ⟨h1, h2⟩ := print_inj v v' _ _ h'
      obtain ⟨h3, h4⟩ := printKvs_inj rest rest' r q h2
      exact ⟨by rw [h0, h1, h3], h4⟩
end

/-- A setting besides the schema, and a schema in a list. -/
def old : Kvs :=
  .cons "documents".toList (.str "src".toList)
    (.cons "schema".toList (.seq (.cons (.str "a.graphql".toList) .nil)) .nil)

open Classical in
/-- The reader that inverts the writer, where it can be inverted. -/
noncomputable def parse (t : Text) : Option Y := if h : ∃ y, print y = t then some h.choose else none

theorem parse_print (y : Y) : parse (print y) = some y := by
  unfold parse
  have h : ∃ z, print z = print y := ⟨y, rfl⟩
  rw [dif_pos h]
  have := print_inj h.choose y [] [] (by simpa using h.choose_spec)
  rw [this.1]

/-- A folder in which all questions are answered with yes, except that about `main.graphql`. -/
noncomputable def env : Env where
  folder := true
  create := none
  json := some false
  confirm n := if n = .mainSchema then some false else some true
  writable _ := true
  parse := parse
  print := print
  texts n := if n = .rc then "rc".toList else "other".toList

theorem roundTrip : RoundTrip env := parse_print

/-- A folder with three files. -/
def disk : Disk := fun n =>
  match n with
  | .graphqlrc => some (.text (print (.map old)))
  | .mainSchema => some (.text "mine".toList)
  | .rcSchema => some .other
  | _ => none

theorem parse_old : env.parse (print (.map old)) = some (.map old) := parse_print _

theorem ok : (init env disk).2 = .ok () := by
  simp [init, steps, createFolder, confirmWrite, writeRc, fileWrite, env, disk, Disk.put, mainName, parse_print]

theorem okNew : (init env (fun _ => none)).2 = .ok () := by
  simp [init, steps, createFolder, confirmWrite, writeRc, fileWrite, env, Disk.put, mainName]

theorem rcSchemaChanged : (init env disk).1.disk .rcSchema ≠ disk .rcSchema := by
  simp [init, steps, createFolder, confirmWrite, writeRc, fileWrite, env, disk, Disk.put, mainName, parse_print]

example := C151_files_partial env disk .rcSchema (by simp [disk]) rcSchemaChanged

example := C151_done env disk ok .mainSchema (by simp) (by simp)

example : (init env disk).1.disk .mainYml = some (.text (env.texts .mainYml)) := by
  simpa [disk] using C151_done env disk ok .mainYml (by simp) (by simp [env, mainName])

example := C151_settings_partial env disk roundTrip ok (print (.map old)) old rfl parse_old trivial

example : Y.str "a.graphql".toList ∈ items (old.get "schema".toList) := List.mem_cons_self

example := C151_new env (fun _ => none) roundTrip okNew rfl

/-- A text that nothing is written as. -/
theorem parse_bad : parse ['x'] = none := by
  unfold parse
  refine dif_neg ?_
  rintro ⟨y, hy⟩
  cases y with
  | bool b => cases b <;> simp [print] at hy
  | _ => simp [print] at hy

example := C151_invalid env (fun _ => some (.text ['x'])) ['x'] rfl parse_bad

example := C151_folder { env with folder := false, create := some false } (fun _ => none) rfl (by simp)

/-! ## C152 -/

/-- A run with three events. -/
def events : List (Kind × List Text × (Collector → Bool)) :=
  [(.ping, ["a@b.cd".toList], fun _ => true), (.command "start".toList, [], fun _ => true),
    (.ping, [], fun _ => true)]

example : ((Tracker.new "1.0.0".toList ⟨some "FALSE".toList, none⟩).run events).sent = [] :=
  (C152_out "1.0.0".toList ⟨some "FALSE".toList, none⟩ ⟨"FALSE".toList, .inl rfl, by decide⟩ events).1

example : ((Tracker.new "0.1.0-dev".toList ⟨none, none⟩).run events).looked = 0 :=
  (C152_dev "0.1.0-dev".toList ⟨none, none⟩ ⟨"0.1.0-".toList, [], by decide⟩ ⟨rfl, rfl⟩ events).2

example : (Tracker.new "0.1.0-dev".toList ⟨none, some "yes".toList⟩).can = true :=
  (C152_when _ _).mpr (.inl ⟨"yes".toList, .inr ⟨rfl, rfl⟩, by decide⟩)

example : (got ((Tracker.new "1.0.0".toList ⟨none, none⟩).run events) .posthog).map (·.kind) =
    [.ping, .command "start".toList, .ping] :=
  C152_each "1.0.0".toList ⟨none, none⟩ (by decide +kernel) events (by simp [events]) .posthog

example : ((Tracker.new "1.0.0".toList ⟨none, none⟩).run events).looked = 1 := by decide +kernel

example : (got ((Tracker.new "1.0.0".toList ⟨none, none⟩).run events) .ga).map (·.emails) =
    [["a@b.cd".toList], ["a@b.cd".toList], ["a@b.cd".toList]] := by decide +kernel

example := C152_once "1.0.0".toList ⟨none, none⟩ events

example := C152_most "1.0.0".toList ⟨none, none⟩ [(.ping, [], fun _ => false), (.ping, [], fun c => c == .ga)] .ga

end Verif.Cli.Cases
