import Verif.Report.Props

/-! Concrete cases for the theorems of this area. -/

namespace Verif.Report

open Verif.Mustache (Text)

/-- An error with causes at two depths, one of them with two lines. -/
def deep : Errata :=
  .mk "Invalid Configuration".toList none []
    [.mk "Base URL needs to be specified".toList none ["User".toList, "posts".toList, "@http".toList] [],
     .mk "Type is not found".toList (some "two\nlines".toList) ["Query".toList]
       [.mk "No such file".toList none [] []]]

example : deep.show = some ("Invalid Configuration\nCaused by:\n  • Base URL needs to be specified [at User.posts.@http]"
    ++ "\n  • Type is not found: two\n    lines [at Query]\n    Caused by:\n      • No such file").toList := by decide +kernel

/-- Causes are in order if the direct ones are and theirs are. -/
theorem direct (l : List Errata) (h : ∀ c ∈ l, Tidy c.head ∧ TidyCauses c) (m : Text) (d : Option Text) (t : List Text) :
    TidyCauses (.mk m d t l) := by
  intro n x hu
  cases hu with
  | down hc hu =>
    cases hu with
    | here => exact (h _ hc).1
    | down hc' hu' => exact (h _ hc).2 _ x (.down hc' hu')

theorem deep_tidy : TidyCauses deep := by
  apply direct
  intro c hc
  simp only [List.mem_cons, List.not_mem_nil, or_false] at hc
  rcases hc with rfl | rfl
  · exact ⟨⟨']', by decide, by decide⟩, direct [] (by simp) _ _ _⟩
  · refine ⟨⟨']', by decide, by decide⟩, direct _ ?_ _ _ _⟩
    intro c hc
    simp only [List.mem_cons, List.not_mem_nil, or_false] at hc
    subst hc
    exact ⟨⟨'e', by decide, by decide⟩, direct [] (by simp) _ _ _⟩

-- C145
example : ∃ s, deep.show = some s ∧ linesOf s = report deep := C145_shown_partial deep deep_tidy
example : report deep = ["Invalid Configuration".toList, "Caused by:".toList,
    "  • Base URL needs to be specified [at User.posts.@http]".toList, "  • Type is not found: two".toList,
    "    lines [at Query]".toList, "    Caused by:".toList, "      • No such file".toList] := by decide +kernel
example : ∃ s, deep.show = some s ∧ "      • No such file".toList ∈ linesOf s :=
  C145_depth_partial deep (.mk "No such file".toList none [] []) 1 deep_tidy
    (.down (c := .mk "Type is not found".toList (some "two\nlines".toList) ["Query".toList]
       [.mk "No such file".toList none [] []]) (by simp [deep, Errata.why]) (.down (by simp [Errata.why]) (.here _)))
    "No such file".toList (by decide)
example : ∃ s, deep.show = some s := (C145_answered deep).mpr (fun n x hu hb => (deep_tidy n x hu).ne hb.1)
example : (Errata.mk "a".toList (some "b".toList) ["x".toList, "y".toList] []).show = some "a: b [at x.y]".toList :=
  C145_single _ _ _

-- C146
/-- Two causes of a validation error. -/
def two : List Cause :=
  [⟨"Type is not found".toList, some "Usr".toList, ["Query".toList, "user".toList]⟩, ⟨"No query".toList, none, []⟩]

theorem two_tidy : ∀ c ∈ two, Tidy c.text := by
  intro c hc
  simp only [two, List.mem_cons, List.not_mem_nil, or_false] at hc
  rcases hc with rfl | rfl
  · exact ⟨']', by decide, by decide⟩
  · exact ⟨'y', by decide, by decide⟩

example : Says (ofBlueprint two) "Type is not found: Usr [at Query.user]".toList :=
  C146_blueprint_partial two two_tidy _ (by simp [two]; left; rfl) _ (by decide)
example : Says (ofStatic two) "No query".toList :=
  C146_static_partial two two_tidy _ (by simp [two]; right; rfl) _ (by decide)
example : Says (ofAnyhow (.validation [⟨"No query".toList, none, ["schema".toList]⟩])) "No query [at schema]".toList :=
  C146_config_partial _ (by
    intro c hc
    simp only [List.mem_cons, List.not_mem_nil, or_false] at hc
    subst hc
    exact ⟨⟨']', by decide, by decide⟩, rfl⟩) _ (List.mem_cons_self ..) _ (by decide)
example : Says (ofAnyhow (.other "request failed".toList ["timeout".toList])) "timeout".toList :=
  (C146_other_partial _ ["timeout".toList] (by
    intro s hs
    simp only [List.mem_cons, List.not_mem_nil, or_false] at hs
    subst hs
    exact ⟨'t', by decide, by decide⟩) (by decide)).2 _ (List.mem_cons_self ..) _ (by decide)
example : ∃ k : Text, k ≠ [] ∧ (ofIr (.io "refused".toList)).show = some (k ++ ": ".toList ++ "refused".toList) :=
  C146_evaluation _ _ (by simp)
example : (ofIr (.grpc "5".toList "not found".toList "no user".toList)).show
    = some "gRPC Error: status: 5, description: `not found`, message: `no user`".toList := by
  rw [C146_grpc]; decide +kernel
example : Says (ofIr (.apiValidation ["no id".toList, "no name".toList])) "no name".toList :=
  C146_validation_partial _ (by
    intro s hs
    simp only [List.mem_cons, List.not_mem_nil, or_false] at hs
    rcases hs with rfl | rfl
    · exact ⟨'d', by decide, by decide⟩
    · exact ⟨'e', by decide, by decide⟩) "no name".toList (by simp) _ (by decide)
example : Says (ofHyper true "Address in use (os error 48)".toList) "Address in use (os error 48)".toList :=
  C146_server _ ⟨')', by decide, by decide⟩ true (by decide)

end Verif.Report
