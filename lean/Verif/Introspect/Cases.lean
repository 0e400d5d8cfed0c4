import Verif.Introspect.Props

/-!
# Cases that meet the hypotheses of C129 to C131
-/

namespace Verif.Introspect

open Verif.Mustache (Text)
open Verif.Exec (Ty)
open Verif.HttpUrl (GVal)
open Verif.Transform (get)

/-- A query with a described field that has an argument with a default value. -/
def userQuery : Def :=
  .object "Query".toList [⟨"user".toList, [⟨"id".toList, .named "Int".toList true, some (.int 1), some "which".toList⟩],
    .list (.named "User".toList true) false, some "a user".toList⟩] none []

/-- A user, who is a node and has an address for mails. -/
def user : Def :=
  .object "User".toList [⟨"id".toList, [], .named "ID".toList true, none⟩, ⟨"email".toList, [], .named "Email".toList false, none⟩]
    (some "someone".toList) ["Node".toList]

/-- An interface with a description. -/
def node : Def := .interface "Node".toList [⟨"id".toList, [], .named "ID".toList true, some "unique".toList⟩] (some "anything".toList) []

/-- A schema of the three. -/
def users : List Def := [userQuery, user, node]

theorem users_nodup : (users.map Def.name).Nodup := by decide +kernel

example : Shown (toSchema users) (.field "Query".toList "user".toList "[User!]".toList) :=
  C129_told_partial users users_nodup userQuery (by simp [users]) _ (.objectField List.mem_cons_self .field) (fun h => h)

example : Shown (toSchema users) (.argDefault "Query".toList "user".toList "id".toList (.int 1)) :=
  C129_told_partial users users_nodup userQuery (by simp [users]) _
    (.objectField List.mem_cons_self (.argDefault (a := ⟨"id".toList, .named "Int".toList true, some (.int 1), some "which".toList⟩)
      List.mem_cons_self rfl)) (fun h => h)

example : Says userQuery (.argDescr "Query".toList "user".toList "id".toList "which".toList) ∧
    ¬ Shown (toSchema users) (.argDescr "Query".toList "user".toList "id".toList "which".toList) :=
  ⟨.objectField List.mem_cons_self (.argDescr (a := ⟨"id".toList, .named "Int".toList true, some (.int 1), some "which".toList⟩)
      List.mem_cons_self rfl),
    C129_violated_by_loss users users_nodup userQuery (by simp [users]) _ rfl trivial⟩

example : Says node (.descr "Node".toList "anything".toList) ∧ ¬ Shown (toSchema users) (.descr "Node".toList "anything".toList) :=
  ⟨.interfaceDescr, C129_violated_by_loss users users_nodup node (by simp [users]) _ rfl trivial⟩

example : Says user (.implements "User".toList "Node".toList) :=
  C129_true users users_nodup user (by simp [users]) _ rfl
    ⟨"User".toList, toType user, get_toSchema (d := user) users_nodup (by simp [users]), .objectImplements List.mem_cons_self⟩

example : Shown (toSchema users) (.kind "Email".toList .scalar) := by
  refine (C129_others users (.kind "Email".toList .scalar) ?_).2 ⟨by decide +kernel, rfl, user, by simp [users], by decide +kernel⟩
  intro d hd
  simp only [users, List.mem_cons, List.not_mem_nil, or_false] at hd
  rcases hd with rfl | rfl | rfl <;> decide +kernel

example : finishes (toSchema users) = true := by
  refine C130_accepted_partial users users_nodup ?_ ?_
  · intro d hd n hn
    simp only [users, List.mem_cons, List.not_mem_nil, or_false] at hd
    rcases hd with rfl | rfl | rfl
    · simp only [userQuery, Def.names, List.flatMap_cons, List.flatMap_nil, List.map_cons, List.map_nil, List.append_nil,
        List.mem_cons, List.not_mem_nil, or_false, Ty.name] at hn
      rcases hn with rfl | rfl
      · exact Or.inr (Or.inr ⟨user, by simp [users], rfl⟩)
      · exact Or.inl (by decide +kernel)
    · simp only [user, Def.names, List.flatMap_cons, List.flatMap_nil, List.map_nil, List.append_nil, List.cons_append,
        List.nil_append, List.mem_cons, List.not_mem_nil, or_false, Ty.name] at hn
      rcases hn with rfl | rfl | rfl
      · exact Or.inl (by decide +kernel)
      · exact Or.inr (Or.inl (by decide +kernel))
      · exact Or.inr (Or.inr ⟨node, by simp [users], rfl⟩)
    · simp only [node, Def.names, List.flatMap_cons, List.flatMap_nil, List.map_nil, List.append_nil,
        List.mem_cons, List.not_mem_nil, or_false, Ty.name] at hn
      subst hn
      exact Or.inl (by decide +kernel)
  · intro d hd n hn hc
    simp only [users, List.mem_cons, List.not_mem_nil, or_false] at hd
    have he : n = "Email".toList := by
      rcases hd with rfl | rfl | rfl
      · simp only [userQuery, Def.names, List.flatMap_cons, List.flatMap_nil, List.map_cons, List.map_nil, List.append_nil,
          List.mem_cons, List.not_mem_nil, or_false, Ty.name] at hn
        rcases hn with rfl | rfl
        · exact absurd hc (by decide +kernel)
        · exact absurd hc (by decide +kernel)
      · simp only [user, Def.names, List.flatMap_cons, List.flatMap_nil, List.map_nil, List.append_nil, List.cons_append,
          List.nil_append, List.mem_cons, List.not_mem_nil, or_false, Ty.name] at hn
        rcases hn with rfl | rfl | rfl
        · exact absurd hc (by decide +kernel)
        · rfl
        · exact absurd hc (by decide +kernel)
      · simp only [node, Def.names, List.flatMap_cons, List.flatMap_nil, List.map_nil, List.append_nil,
          List.mem_cons, List.not_mem_nil, or_false, Ty.name] at hn
        subst hn
        exact absurd hc (by decide +kernel)
    exact ⟨user, by simp [users], Or.inr (by rw [he]; decide +kernel)⟩

/-- Without the interface the user cannot be a node. -/
example : finishes (toSchema [userQuery, user]) = false := by
  refine C130_refused_partial _ (by decide +kernel) user (by simp) (by intro _ _ _ _; simp [user]) "Node".toList ?_ ?_
  · simp [user, Def.names]
  · rintro (h | h | ⟨d, hd, h⟩)
    · exact absurd h (by decide +kernel)
    · exact absurd h (by decide +kernel)
    · simp only [List.mem_cons, List.not_mem_nil, or_false] at hd
      rcases hd with rfl | rfl <;> exact absurd h (by decide +kernel)

example : ∃ l, (answer true [.field "user".toList, .field "__schema".toList] ⟨.obj [("user".toList, .int 1)], [], []⟩
    ⟨.obj [("user".toList, .null), ("__schema".toList, .str "s".toList)], [], []⟩).data = .obj l ∧
    get l "user".toList = some (.int 1) ∧ get l "__schema".toList = some (.str "s".toList) := by
  obtain ⟨⟨l, h1, h2, h3⟩, _⟩ := C131_merged_partial [.field "user".toList, .field "__schema".toList] "__schema".toList
    (by simp) (Or.inl rfl) ⟨.obj [("user".toList, .int 1)], [], []⟩
    ⟨.obj [("user".toList, .null), ("__schema".toList, .str "s".toList)], [], []⟩ _ _ rfl rfl
  exact ⟨l, h1, h2 _ _ rfl, (h3 "__schema".toList rfl).trans rfl⟩

example (own intro : Resp) : answer true [.field "user".toList, .spread "F".toList] own intro = own := by
  refine C131_others true _ ?_ own intro
  intro n hn
  have : n = "user".toList := by
    rcases List.mem_cons.mp hn with h | h
    · injection h
    · rcases List.mem_cons.mp h with h | h
      · cases h
      · cases h
  subst this
  exact ⟨by decide +kernel, by decide +kernel⟩

end Verif.Introspect
