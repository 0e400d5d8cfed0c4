import Verif.Report.Lemmas

/-!
# Properties of the reports of errors

C145: a report shows every error and all its causes, each at its place.
C146: an error that is turned into a report keeps what it says.
-/

set_option linter.unusedSimpArgs false

namespace Verif.Report

open Verif.Mustache (Text)
open Verif.HttpUrl (joinWith)

/-! ## C145: what is shown -/

/-- C145 (partial: causes have a text, and the text does not end in a new line).  The lines of a report are the lines of
the error and then, under `Caused by:`, those of each of its causes, further in. -/
theorem C145_shown_partial (e : Errata) (h : TidyCauses e) : ∃ s, e.show = some s ∧ linesOf s = report e := by
  obtain ⟨s, h1, h2, _⟩ := show_lines e h
  exact ⟨s, h1, h2⟩

/-- C145: there is a report exactly if no cause, at whatever depth, is blank. -/
theorem C145_answered (e : Errata) : (∃ s, e.show = some s) ↔ ∀ n x, Under e (n + 1) x → ¬ Blank x := by
  constructor
  · rintro ⟨s, hs⟩ n x hu hb
    rw [under_none hu hb n rfl] at hs
    cases hs
  · exact show_some e

/-- C145 (partial as above).  Each cause has a line of its own, which starts with its bullet at the place that its depth
gives it. -/
theorem C145_depth_partial (e x : Errata) (n : Nat) (h : TidyCauses e) (hx : Under e (n + 1) x) (l : Text)
    (hl : (linesOf x.head).head? = some l) :
    ∃ s, e.show = some s ∧ (List.replicate (4 * n) ' ' ++ ("  • ".toList ++ l)) ∈ linesOf s := by
  obtain ⟨s, h1, h2, _⟩ := show_lines e h
  obtain ⟨p, ps, h3, h4⟩ := (under_line hx l hl).2 n rfl
  exact ⟨s, h1, by rw [h2, h3]; exact List.mem_cons_of_mem _ h4⟩

/-- C145: an error without causes is shown as it is. -/
theorem C145_single (m : Text) (d : Option Text) (t : List Text) :
    (Errata.mk m d t []).show = some (headSpec m d t) := by
  rw [show_mk, headText_eq]; rfl

/-- C145 does not hold for a cause without a text: instead of a report there is a panic. -/
theorem C145_violated_by_blank :
    ((Errata.new "Invalid Configuration".toList).causes [Errata.new "No query".toList, Errata.new []]).show = none := by
  decide +kernel

/-- C145 does not hold for a cause that ends in a new line: the report has a line that is in no error and at no depth. -/
theorem C145_violated_by_newline :
    let e := (Errata.new "a".toList).causes [Errata.new "b\n".toList, Errata.new "c".toList]
    ∃ s, e.show = some s ∧ linesOf s ≠ report e ∧ [] ∈ linesOf s := by
  refine ⟨"a\nCaused by:\n  • b\n\n  • c".toList, ?_, ?_, ?_⟩ <;> decide +kernel

/-! ## C146: what is kept -/

theorem under_leaf {e x : Errata} {n : Nat} (h : Under e (n + 1) x) (hl : ∀ c ∈ e.why, c.why = []) : n = 0 ∧ x ∈ e.why := by
  cases h with
  | down hc hu =>
    cases hu with
    | here => exact ⟨rfl, hc⟩
    | down hc' _ => rw [hl _ hc] at hc'; cases hc'

theorem mem_item {l : Text} {ls : List Text} (h : l ∈ ls) : ∃ p, p ++ l ∈ item ls := by
  cases ls with
  | nil => cases h
  | cons a ls =>
    rcases List.mem_cons.mp h with rfl | h
    · exact ⟨_, List.mem_cons_self ..⟩
    · exact ⟨_, List.mem_cons_of_mem _ (List.mem_map.mpr ⟨l, h, rfl⟩)⟩

/-- Each of several causes that have no causes is shown in full. -/
theorem says_cause (m : Text) (cs : List Errata) (hw : ∀ c ∈ cs, c.why = []) (ht : ∀ c ∈ cs, Tidy c.head) (c : Errata)
    (hc : c ∈ cs) (l : Text) (hl : l ∈ linesOf c.head) : Says ((Errata.new m).causes cs) l := by
  have h : TidyCauses ((Errata.new m).causes cs) := by
    intro n x hu
    exact ht x (under_leaf hu hw).2
  obtain ⟨s, h1, h2, _⟩ := show_lines _ h
  refine ⟨s, h1, ?_⟩
  have hr : l ∈ report c := by
    cases c
    rw [report]
    exact List.mem_append_left _ hl
  obtain ⟨p, hp⟩ := mem_item hr
  obtain ⟨a, b, h3, _, h4⟩ := report_head ((Errata.new m).causes cs)
  refine ⟨p ++ l, ?_, p, [], by simp⟩
  rw [h2, h3]
  exact List.mem_cons_of_mem _ (h4 c hc _ hp)

/-- C146: what a cause of a validation error says: its message, its description and its place. -/
def Cause.text (c : Cause) : Text := headSpec c.message c.description c.trace

/-- C146 (partial: the causes have texts that do not end in a new line).  The report of an error in a blueprint has every
line of every cause: messages, descriptions and places. -/
theorem C146_blueprint_partial (cs : List Cause) (h : ∀ c ∈ cs, Tidy c.text) (c : Cause) (hc : c ∈ cs) (l : Text)
    (hl : l ∈ linesOf c.text) : Says (ofBlueprint cs) l := by
  refine says_cause _ _ ?_ ?_ (.mk c.message c.description c.trace []) ?_ l hl
  · intro x hx
    obtain ⟨y, _, rfl⟩ := List.mem_map.mp hx
    cases y.description <;> rfl
  · intro x hx
    obtain ⟨y, hy, rfl⟩ := List.mem_map.mp hx
    have := h y hy
    revert this
    unfold Cause.text
    cases y.description <;> exact id
  · refine List.mem_map.mpr ⟨c, hc, ?_⟩
    cases hd : c.description <;> rfl

/-- C146 (partial as above).  The same for validation errors with fixed messages. -/
theorem C146_static_partial (cs : List Cause) (h : ∀ c ∈ cs, Tidy c.text) (c : Cause) (hc : c ∈ cs) (l : Text)
    (hl : l ∈ linesOf c.text) : Says (ofStatic cs) l := by
  refine says_cause _ _ ?_ ?_ (.mk c.message c.description c.trace []) ?_ l hl
  · intro x hx
    obtain ⟨y, _, rfl⟩ := List.mem_map.mp hx
    cases y.description <;> rfl
  · intro x hx
    obtain ⟨y, hy, rfl⟩ := List.mem_map.mp hx
    have := h y hy
    revert this
    unfold Cause.text
    cases y.description <;> exact id
  · refine List.mem_map.mpr ⟨c, hc, ?_⟩
    cases hd : c.description <;> rfl

/-- C146 (partial: the causes have no descriptions).  The report of other validation errors has every line of every
cause. -/
theorem C146_config_partial (cs : List Cause) (h : ∀ c ∈ cs, Tidy c.text ∧ c.description = none) (c : Cause) (hc : c ∈ cs)
    (l : Text) (hl : l ∈ linesOf c.text) : Says (ofAnyhow (.validation cs)) l := by
  refine says_cause _ _ ?_ ?_ (.mk c.message c.description c.trace []) ?_ l hl
  · intro x hx
    obtain ⟨y, _, rfl⟩ := List.mem_map.mp hx
    rfl
  · intro x hx
    obtain ⟨y, hy, rfl⟩ := List.mem_map.mp hx
    have h1 := (h y hy).1
    unfold Cause.text at h1
    rw [(h y hy).2] at h1
    exact h1
  · refine List.mem_map.mpr ⟨c, hc, ?_⟩
    rw [(h c hc).2]
    rfl

/-- C146 (partial: at most one source).  The report of any other error says what the error says and what its source
says. -/
theorem C146_other_partial (m : Text) (ss : List Text) (h : ∀ s ∈ ss, Tidy s) (h1 : ss.length ≤ 1) :
    (∀ l ∈ linesOf m, Says (ofAnyhow (.other m ss)) l) ∧ ∀ s ∈ ss, ∀ l ∈ linesOf s, Says (ofAnyhow (.other m ss)) l := by
  have hw : ∀ c ∈ (ss.take 1).map Errata.new, c.why = [] := by
    intro x hx
    obtain ⟨y, _, rfl⟩ := List.mem_map.mp hx
    rfl
  have ht : ∀ c ∈ (ss.take 1).map Errata.new, Tidy c.head := by
    intro x hx
    obtain ⟨y, hy, rfl⟩ := List.mem_map.mp hx
    exact h y (List.mem_of_mem_take hy)
  constructor
  · intro l hl
    have h : TidyCauses ((Errata.new m).causes ((ss.take 1).map Errata.new)) := by
      intro n x hu
      exact ht x (under_leaf hu hw).2
    obtain ⟨s, s1, s2, _⟩ := show_lines _ h
    refine ⟨s, s1, l, ?_, [], [], by simp⟩
    rw [s2]
    show l ∈ report (.mk m none [] _)
    rw [report]
    exact List.mem_append_left _ hl
  · intro s hs l hl
    refine says_cause _ _ hw ht (Errata.new s) ?_ l hl
    rw [List.take_of_length_le h1]
    exact List.mem_map_of_mem hs

/-- C146: the errors of the evaluation say in their one line what went wrong, apart from failed validations. -/
theorem C146_evaluation (m : Text) : ∀ e ∈ [IrError.io m, .exprEval m, .deserialize m, .auth m, .worker m, .cache m,
    .entity m], ∃ k : Text, k ≠ [] ∧ (ofIr e).show = some (k ++ ": ".toList ++ m) := by
  intro e he
  simp only [List.mem_cons, List.not_mem_nil, or_false] at he
  rcases he with rfl | rfl | rfl | rfl | rfl | rfl | rfl <;> exact ⟨_, by simp, C145_single _ _ _⟩

/-- C146: an error of a gRPC service is shown with its code, its description and its message. -/
theorem C146_grpc (c d m : Text) : (ofIr (.grpc c d m)).show = some ("gRPC Error: status: ".toList ++ c
    ++ ", description: `".toList ++ d ++ "`, message: `".toList ++ m ++ "`".toList) := by
  have := C145_single "gRPC Error".toList
    (some ("status: ".toList ++ c ++ ", description: `".toList ++ d ++ "`, message: `".toList ++ m ++ ['`'])) []
  refine this.trans ?_
  simp [headSpec]

/-- C146 (partial: messages that are not empty and do not end in a new line).  A failed validation is shown with all its
messages. -/
theorem C146_validation_partial (ms : List Text) (h : ∀ m ∈ ms, Tidy m) (m : Text) (hm : m ∈ ms) (l : Text)
    (hl : l ∈ linesOf m) : Says (ofIr (.apiValidation ms)) l := by
  refine says_cause _ _ ?_ ?_ (Errata.new m) (List.mem_map_of_mem hm) l hl
  · intro x hx
    obtain ⟨y, _, rfl⟩ := List.mem_map.mp hx
    rfl
  · intro x hx
    obtain ⟨y, hy, rfl⟩ := List.mem_map.mp hx
    exact h y hy

/-- C146: a server that cannot start says why, whatever the reason. -/
theorem C146_server (m : Text) (h : Tidy m) (p : Bool) (hn : '\n' ∉ m) : Says (ofHyper p m) m := by
  cases p with
  | false =>
    refine ⟨_, C145_single _ _ _, "Server Failed: ".toList ++ m, ?_, "Server Failed: ".toList, [], by simp⟩
    rw [linesOf_flat]
    · simp [headSpec]
    · simp [headSpec, hn]
  | true =>
    have ht : TidyCauses (ofHyper true m) := by
      intro n x hu
      have := (under_leaf hu (by intro c hc; simp [ofHyper, Errata.causes, Errata.why, Errata.describe, Errata.new] at hc; subst hc; rfl)).2
      simp [ofHyper, Errata.causes, Errata.why, Errata.describe, Errata.new] at this
      subst this
      exact h
    obtain ⟨s, h1, h2⟩ := C145_depth_partial (ofHyper true m) (Errata.new m) 0 ht
      (.down (by simp [ofHyper, Errata.causes, Errata.why, Errata.describe, Errata.new]) (.here _)) m
      (by simp [Errata.head, Errata.new, headSpec, linesOf_flat m hn])
    exact ⟨s, h1, _, h2, "  • ".toList, [], by simp⟩

/-- C146 does not hold for descriptions of validation errors: the report of a configuration leaves them out. -/
theorem C146_violated_by_description :
    let c : Cause := ⟨"Parsing failed".toList, some "expected a name".toList, ["schema".toList]⟩
    (ofAnyhow (.validation [c])).show = some "Invalid Configuration\nCaused by:\n  • Parsing failed [at schema]".toList
      ∧ (ofStatic [c]).show
        = some "Invalid Configuration\nCaused by:\n  • Parsing failed: expected a name [at schema]".toList := by
  constructor <;> decide +kernel

/-- C146 does not hold for chains of sources: only the first one is shown. -/
theorem C146_violated_by_chain :
    (ofAnyhow (.other "request failed".toList ["connection failed".toList, "unknown host".toList])).show
      = some "request failed\nCaused by:\n  • connection failed".toList := by decide +kernel

/-- C146 does not hold for validations during the evaluation: places and descriptions are left out, so that two
different errors have the same report. -/
theorem C146_violated_by_place :
    ∃ a b : List Cause, a ≠ b ∧ ofIr (irOfStatic a) = ofIr (irOfStatic b) :=
  ⟨[⟨"no value".toList, none, ["a".toList]⟩], [⟨"no value".toList, some "at all".toList, ["b".toList]⟩], by decide, rfl⟩

end Verif.Report
