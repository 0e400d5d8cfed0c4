import Verif.Proto.Props

/-!
# Cases: files that meet the hypotheses, and files on which the properties fail
-/

namespace Verif.Proto

open Verif.Mustache (Text)
open Verif.Exec (Ty)
open Verif.Transform (At Lacks get insert get_some get_none get_insert)

set_option linter.unusedSimpArgs false

/-- A check for proper names. -/
def properB (t : Text) : Bool :=
  !t.isEmpty && t.all (fun c => c ≠ '.' && !c.isWhitespace && c ≠ '_') && t.head? ≠ some 'V' && t.head? ≠ some 'I'

theorem proper_of {t : Text} (h : properB t = true) : Proper t := by
  simp only [properB, Bool.and_eq_true, Bool.not_eq_true', List.all_eq_true, decide_eq_true_eq] at h
  obtain ⟨⟨⟨h1, h2⟩, h3⟩, h4⟩ := h
  refine ⟨⟨?_, fun c hc => ⟨(h2 c hc).1.1, (h2 c hc).1.2⟩⟩, no_underscore (fun hu => (h2 _ hu).2 rfl), ?_⟩
  · intro e; rw [e] at h1; cases h1
  · intro hr
    cases hr with
    | interface => exact h4 rfl
    | var => exact h3 rfl
    | index n => exact h3 rfl

theorem word_of {t : Text} (h : properB t = true) : Word t := (proper_of h).word

/-- A field. -/
def fieldD (name : String) (label : Label) (ref : Option String) (prim : Prim) (oneof : Option Nat) : FieldD :=
  ⟨name.toList, label, ref.map String.toList, prim, oneof⟩

/-- The entry of a map. -/
def demoEntry : MsgD := .mk "LabelsEntry".toList [fieldD "key" .optional none .string none] [] [] 0 true

/-- A nested message. -/
def demoTag : MsgD := .mk "Tag".toList [fieldD "name" .optional none .string none] [] [] 0 false

/-- A message with a nested message, an enum and a map. -/
def demoNews : MsgD := .mk "News".toList
  [fieldD "id" .required none .int32 none, fieldD "labels" .repeated (some ".news.x.News.LabelsEntry") .message none,
    fieldD "tags" .repeated (some ".news.x.News.Tag") .message none, fieldD "kind" .optional (some ".news.x.News.Kind") .enum none]
  [⟨"Kind".toList, ["A".toList, "B".toList]⟩] [demoEntry, demoTag] 0 false

/-- A message with two oneofs. -/
def demoAnswer : MsgD := .mk "Answer".toList
  [fieldD "id" .optional none .int32 none, fieldD "text" .optional none .string (some 0),
    fieldD "news" .optional (some ".news.x.News") .message (some 0), fieldD "extra" .optional none .bool (some 1)]
  [] [] 2 false

/-- A message with an optional field. -/
def demoOption : MsgD := .mk "Option".toList [fieldD "size" .optional none .uint64 (some 0)] [] [] 1 false

/-- Comments of the file. -/
def demoComments : Comments := fun p =>
  if p = [4, 0] then some "news".toList else if p = [4, 0, 2, 0] then some "number".toList else if p = [4, 0, 4, 0] then some "kind".toList
  else if p = [6, 0, 2, 0] then some "ask".toList else none

/-- A file. -/
def demoFile : FileD :=
  ⟨"news.x".toList, some demoComments, [⟨"Color".toList, ["RED".toList]⟩], [demoNews, demoAnswer, demoOption],
    [⟨"Desk".toList, [⟨"ask".toList, ".news.x.Answer".toList, ".news.x.News".toList⟩, ⟨"ping".toList, ".google.protobuf.Empty".toList,
      ".google.protobuf.Empty".toList⟩]⟩]⟩

/-- The file with its package. -/
def demo : List (List Text × FileD) := [(["news".toList, "x".toList], demoFile)]

theorem demo_messages : messages demo = [(["news".toList, "x".toList, "News".toList], demoEntry),
    (["news".toList, "x".toList, "News".toList], demoTag), (["news".toList, "x".toList], demoNews), (["news".toList, "x".toList], demoAnswer),
    (["news".toList, "x".toList], demoOption)] := by
  simp [messages, demo, demoFile, msgsDefs, msgDefs, demoNews, demoAnswer, demoOption, demoEntry, demoTag]

theorem demo_enums : enums demo = [(["news".toList, "x".toList], ⟨"Color".toList, ["RED".toList]⟩),
    (["news".toList, "x".toList, "News".toList], ⟨"Kind".toList, ["A".toList, "B".toList]⟩)] := by
  simp [enums, demo, demoFile, msgsEnums, msgEnums, demoNews, demoAnswer, demoOption, demoEntry, demoTag]

theorem demo_methods : methods demo = [(["news".toList, "x".toList], "Desk".toList, ⟨"ask".toList, ".news.x.Answer".toList, ".news.x.News".toList⟩),
    (["news".toList, "x".toList], "Desk".toList, ⟨"ping".toList, ".google.protobuf.Empty".toList, ".google.protobuf.Empty".toList⟩)] := rfl

theorem demo_proper : (∀ t ∈ ["news".toList, "x".toList], Proper t) ∧ Proper "News".toList := by
  refine ⟨fun t ht => ?_, proper_of (by decide)⟩
  rcases List.mem_cons.1 ht with rfl | ht
  · exact proper_of (by decide)
  · rw [List.mem_singleton.1 ht]; exact proper_of (by decide)

theorem demo_files : Files demo := by
  have h3 : ∀ t ∈ ["news".toList, "x".toList, "News".toList], Proper t := by
    intro t ht
    rcases List.mem_cons.1 ht with rfl | ht
    · exact proper_of (by decide)
    · rcases List.mem_cons.1 ht with rfl | ht
      · exact proper_of (by decide)
      · rw [List.mem_singleton.1 ht]; exact proper_of (by decide)
  refine ⟨?_, ?_, ?_, ?_, ?_, ?_, ?_, ?_, ?_⟩
  · intro x hx
    rw [List.mem_singleton.1 hx]
    exact ⟨by decide, demo_proper.1⟩
  · rw [demo_messages]
    intro x hx
    simp only [List.mem_cons, List.not_mem_nil, or_false] at hx
    rcases hx with rfl | rfl | rfl | rfl | rfl
    · exact ⟨h3, proper_of (by decide)⟩
    · exact ⟨h3, proper_of (by decide)⟩
    · exact ⟨demo_proper.1, proper_of (by decide)⟩
    · exact ⟨demo_proper.1, proper_of (by decide)⟩
    · exact ⟨demo_proper.1, proper_of (by decide)⟩
  · rw [demo_messages]; decide
  · rw [demo_enums]
    intro x hx
    simp only [List.mem_cons, List.not_mem_nil, or_false] at hx
    rcases hx with rfl | rfl
    · exact ⟨demo_proper.1, proper_of (by decide)⟩
    · exact ⟨h3, proper_of (by decide)⟩
  · rw [demo_enums]; decide
  · rw [demo_methods]
    intro x hx
    simp only [List.mem_cons, List.not_mem_nil, or_false] at hx
    rcases hx with rfl | rfl
    · exact ⟨demo_proper.1, proper_of (by decide), proper_of (by decide)⟩
    · exact ⟨demo_proper.1, proper_of (by decide), proper_of (by decide)⟩
  · rw [demo_messages, demo_enums]; decide
  · rw [demo_methods]; decide
  · rw [demo_messages]
    intro x hx hme y hy hye f hf hft
    simp only [List.mem_cons, List.not_mem_nil, or_false] at hx
    rcases hx with rfl | rfl | rfl | rfl | rfl
    · simp only [List.mem_cons, List.not_mem_nil, or_false] at hy
      rcases hy with rfl | rfl | rfl | rfl | rfl
      · cases hye
      · exfalso; revert hft; revert hf; revert f; decide
      · exact ⟨by simp [demoNews, MsgD.nested], rfl⟩
      · exfalso; revert hft; revert hf; revert f; decide
      · exfalso; revert hft; revert hf; revert f; decide
    · cases hme
    · cases hme
    · cases hme
    · cases hme

theorem demo_qualified : Qualified demo := by
  constructor
  · rw [demo_messages]
    intro x hx f hf
    simp only [List.mem_cons, List.not_mem_nil, or_false] at hx
    have key : ∀ (f : FieldD) (n : Nat), (f.typeName.all (fun t => t.head? = some '.') = true ∧ f.oneof.all (· < n) = true) →
        (∀ t, f.typeName = some t → ∃ r, t = '.' :: r) ∧ ∀ o, f.oneof = some o → o < n := by
      intro f n h
      refine ⟨fun t ht => ?_, fun o ho => ?_⟩
      · rw [ht] at h
        cases t with
        | nil => exact absurd h.1 (by simp)
        | cons c r => exact ⟨r, by have := h.1; simp at this; rw [this]⟩
      · rw [ho] at h; simpa using h.2
    refine key f _ ?_
    rcases hx with rfl | rfl | rfl | rfl | rfl
    · revert hf; revert f; decide
    · revert hf; revert f; decide
    · revert hf; revert f; decide
    · revert hf; revert f; decide
    · revert hf; revert f; decide
  · rw [demo_methods]
    intro x hx
    simp only [List.mem_cons, List.not_mem_nil, or_false] at hx
    rcases hx with rfl | rfl
    · exact ⟨.inr ⟨_, rfl⟩, _, rfl⟩
    · exact ⟨.inr ⟨_, rfl⟩, _, rfl⟩

/-- The file is converted. -/
theorem demo_ok : ∃ cfg, fromProto id "Query".toList "http://x".toList (demo.map (·.2)) = .ok cfg :=
  C109_total id _ _ (fun x hx => (demo_files.package x hx).1) demo_qualified

theorem query_simple : Simple "Query".toList := no_underscore (by decide)

theorem query_free : Verif.Tmpl.predefined "Query".toList = false := by decide

theorem names_of {m : MsgD} (h : m.fields.all (fun f => properB f.name) = true) (hd : (m.fields.map (fun f => f.name)).Nodup) : FieldNames id m :=
  ⟨fun f hf => word_of (List.all_eq_true.1 h f hf), hd⟩

/-! ## The theorems on the file -/

/-- C108_reference. -/
example : ∃ u, fromRef ".news.x.News.Tag".toList = .ok u ∧ (parse u).object = "GEN__news__x__News__Tag".toList := by
  obtain ⟨u, h1, h2, _⟩ := C108_reference (P := ["news".toList, "x".toList]) (N := ["News".toList]) (n := "Tag".toList)
    (by intro t ht; simp only [List.mem_append, List.mem_cons, List.not_mem_nil, or_false] at ht
        rcases ht with (rfl | rfl) | rfl <;> exact word_of (by decide)) (word_of (by decide))
  exact ⟨u, h1, by rw [h2]; decide⟩

/-- C108_distinct. -/
example : typeName ["news".toList, "x".toList] "News".toList ≠ typeName ["news".toList] "News".toList := by
  intro e
  have := C108_distinct demo_proper.1 demo_proper.2 (fun t ht => demo_proper.1 t (by rw [List.mem_singleton.1 ht]; simp)) demo_proper.2 e
  revert this; decide

/-- C108_defined_partial: the nested message and the enum in a message. -/
example : ∃ cfg, fromProto id "Query".toList "http://x".toList (demo.map (·.2)) = .ok cfg ∧ Defined cfg "GEN__news__x__News__Tag".toList ∧
    Defined cfg "GEN__news__x__News__Kind".toList := by
  obtain ⟨cfg, h⟩ := demo_ok
  obtain ⟨h1, h2⟩ := C108_defined_partial demo_files query_simple query_free h
  refine ⟨cfg, h, ?_, ?_⟩
  · have := h1 ["news".toList, "x".toList, "News".toList] demoTag (by rw [demo_messages]; simp) rfl
    have e : typeName ["news".toList, "x".toList, "News".toList] demoTag.name = "GEN__news__x__News__Tag".toList := by decide
    rw [e] at this; exact this
  · have := h2 ["news".toList, "x".toList, "News".toList] ⟨"Kind".toList, ["A".toList, "B".toList]⟩ (by rw [demo_enums]; simp)
    have e : typeName ["news".toList, "x".toList, "News".toList] "Kind".toList = "GEN__news__x__News__Kind".toList := by decide
    rw [e] at this; exact this

theorem demo_kind : EnumAt (["news".toList, "x".toList], demoFile) [4, 0, 4, 0] ["news".toList, "x".toList, "News".toList]
    ⟨"Kind".toList, ["A".toList, "B".toList]⟩ :=
  .inside (p := [4, 0]) (m := demoNews) (i := 0) (.here (p := []) (i := 0) rfl) rfl rfl

/-- C108_enum_partial and C112_others_partial. -/
example : ∃ cfg E, fromProto id "Query".toList "http://x".toList (demo.map (·.2)) = .ok cfg ∧
    At cfg.enums (typeName ["news".toList, "x".toList, "News".toList] "Kind".toList) E ∧ E.variants = ["A".toList, "B".toList] ∧
    E.doc = some "kind".toList := by
  obtain ⟨cfg, h⟩ := demo_ok
  obtain ⟨E, h1, h2, h3⟩ := C108_enum_partial demo_files (List.mem_singleton.2 rfl) demo_kind
    (fun v hv => by simp only [List.mem_cons, List.not_mem_nil, or_false] at hv; rcases hv with rfl | rfl <;> exact word_of (by decide))
    (c := demoComments) rfl (fun j => rfl) h
  exact ⟨cfg, E, h, h1, h2, by rw [h3]; rfl⟩

/-- C109_fields_partial: a map, and a list of nested messages. -/
example : ∃ cfg T fd fd', fromProto id "Query".toList "http://x".toList (demo.map (·.2)) = .ok cfg ∧
    At cfg.types (typeName ["news".toList, "x".toList] "News".toList) T ∧ At T.fields "labels".toList fd ∧ fd.ty = .named "JSON".toList false ∧
    At T.fields "tags".toList fd' ∧ fd'.ty = .list (.named (typeName ["news".toList, "x".toList, "News".toList] "Tag".toList) false) false := by
  obtain ⟨cfg, h⟩ := demo_ok
  obtain ⟨T, h1, _, _, h4⟩ := C109_fields_partial demo_files query_simple query_free (ns := ["news".toList, "x".toList]) (m := demoNews)
    (by rw [demo_messages]; simp) rfl rfl (names_of (by decide) (by decide)) h
  obtain ⟨fd, k1, k2⟩ := h4 (fieldD "labels" .repeated (some ".news.x.News.LabelsEntry") .message none) (by simp [demoNews, MsgD.fields])
  obtain ⟨fd', k3, k4⟩ := h4 (fieldD "tags" .repeated (some ".news.x.News.Tag") .message none) (by simp [demoNews, MsgD.fields])
  refine ⟨cfg, T, fd, fd', h, h1, k1, ?_, k3, ?_⟩
  · exact k2 _ (.map (ns := ["news".toList, "x".toList, "News".toList]) (m := demoEntry) (by rw [demo_messages]; simp) rfl (by decide))
  · exact k4 _ (.message (ns := ["news".toList, "x".toList, "News".toList]) (m := demoTag) (by rw [demo_messages]; simp) rfl (by decide))

/-- C109_closed_partial. -/
example : ∃ cfg, fromProto id "Query".toList "http://x".toList (demo.map (·.2)) = .ok cfg ∧
    (Defined cfg (typeName ["news".toList, "x".toList] "News".toList) ∨
      Verif.Tmpl.predefined (typeName ["news".toList, "x".toList] "News".toList) = true) := by
  obtain ⟨cfg, h⟩ := demo_ok
  exact ⟨cfg, h, C109_closed_partial demo_files query_simple query_free
    (f := fieldD "news" .optional (some ".news.x.News") .message (some 0)) (t := .named (typeName ["news".toList, "x".toList] "News".toList) false)
    (.message (ns := ["news".toList, "x".toList]) (m := demoNews) (by rw [demo_messages]; simp) rfl (by decide)) h⟩

/-- C109_scalar_partial. -/
example : admits (primitive .uint32) 4294967295 := C109_scalar_partial (by simp [inRange]) (by decide) (by decide)

/-- C110_union_partial: the choice of the text. -/
example : ∃ cfg members, fromProto id "Query".toList "http://x".toList (demo.map (·.2)) = .ok cfg ∧
    At cfg.unions (typeName ["news".toList, "x".toList] "Answer".toList) members ∧ ∃ n ∈ members, ∃ T fd, At cfg.types n T ∧
      At T.fields "text".toList fd ∧ fd.ty = .named "String".toList true ∧ ¬ (∃ fd, At T.fields "news".toList fd) := by
  obtain ⟨cfg, h⟩ := demo_ok
  obtain ⟨members, h1, _, _, h4, _⟩ := C110_union_partial demo_files query_simple query_free (ns := ["news".toList, "x".toList]) (m := demoAnswer)
    (by rw [demo_messages]; simp) rfl (names_of (by decide) (by decide)) ⟨0, by decide⟩ h
  have hf1 : fieldD "text" .optional none .string (some 0) ∈ demoAnswer.fields := by simp [demoAnswer, MsgD.fields]
  have hf2 : fieldD "news" .optional (some ".news.x.News") .message (some 0) ∈ demoAnswer.fields := by simp [demoAnswer, MsgD.fields]
  obtain ⟨n, hn, T, k1, k2⟩ := h4 (fun o => if o = 0 then some "text".toList else none) (by
    intro o k hk
    simp only at hk
    split at hk
    · next ho =>
      cases hk
      exact ⟨_, hf1, by rw [ho]; rfl, rfl⟩
    · cases hk)
  have hna : ¬ Alone demoAnswer 0 := by rw [Alone]; decide
  obtain ⟨fd, k3⟩ := (k2.present _ hf1).2 (fun o ho => .inr (by cases ho; rfl))
  refine ⟨cfg, members, h, h1, n, hn, T, fd, k1, k3, k2.chosen _ hf1 0 fd (.named "String".toList false) rfl hna k3 (.scalar rfl rfl), ?_⟩
  intro hh
  rcases (k2.present _ hf2).1 hh 0 rfl with k | k
  · exact hna k
  · revert k; decide

/-- C110_plain_partial. -/
example : ∃ cfg T fd, fromProto id "Query".toList "http://x".toList (demo.map (·.2)) = .ok cfg ∧
    At cfg.types (typeName ["news".toList, "x".toList] "Option".toList) T ∧ At T.fields "size".toList fd ∧ fd.ty = .named "UInt64".toList false := by
  obtain ⟨cfg, h⟩ := demo_ok
  obtain ⟨T, h1, _, h3⟩ := C110_plain_partial demo_files query_simple query_free (ns := ["news".toList, "x".toList]) (m := demoOption)
    (by rw [demo_messages]; simp) rfl (names_of (by decide) (by decide)) (by decide) (fun o => by
      refine Nat.le_trans (List.length_filter_le _ _) ?_
      decide) h
  obtain ⟨fd, k1, k2⟩ := h3 (fieldD "size" .optional none .uint64 (some 0)) (by simp [demoOption, MsgD.fields])
  exact ⟨cfg, T, fd, h, h1, k1, k2 _ (.scalar rfl rfl)⟩

/-- C111_method_partial. -/
example : ∃ cfg T f, fromProto id "Query".toList "http://x".toList (demo.map (·.2)) = .ok cfg ∧ At cfg.types "Query".toList T ∧
    At T.fields (methodName ["news".toList, "x".toList] "Desk".toList "ask".toList) f ∧
    f.grpc = some ⟨"http://x".toList, some "{{.args.Answer}}".toList, "news.x.Desk.ask".toList⟩ := by
  obtain ⟨cfg, h⟩ := demo_ok
  obtain ⟨T, f, h1, h2, _, _, h5⟩ := C111_method_partial demo_files query_simple query_free (x := (["news".toList, "x".toList], demoFile))
    (List.mem_singleton.2 rfl) (p := [6, 0, 2, 0]) (v := "Desk".toList)
    (m := ⟨"ask".toList, ".news.x.Answer".toList, ".news.x.News".toList⟩) ⟨0, 0, _, rfl, rfl, rfl, rfl⟩
    (ins := ["news".toList, "x".toList]) (outs := ["news".toList, "x".toList]) (inn := "Answer".toList) (outn := "News".toList) (by decide) (by decide)
    (words_snoc demo_proper.1 (proper_of (by decide))) (words_snoc demo_proper.1 demo_proper.2) (by decide) (by decide) h
  refine ⟨cfg, T, f, h, h1, h2, ?_⟩
  rw [h5]
  decide

/-- C111_empty_partial. -/
example : ∃ cfg T f, fromProto id "Query".toList "http://x".toList (demo.map (·.2)) = .ok cfg ∧ At cfg.types "Query".toList T ∧
    At T.fields (methodName ["news".toList, "x".toList] "Desk".toList "ping".toList) f ∧ f.args = [] ∧ f.ty = .named "Empty".toList false := by
  obtain ⟨cfg, h⟩ := demo_ok
  obtain ⟨T, f, h1, h2, h3, h4⟩ := C111_empty_partial demo_files query_simple query_free (x := (["news".toList, "x".toList], demoFile))
    (List.mem_singleton.2 rfl) (p := [6, 0, 2, 1]) (v := "Desk".toList)
    (m := ⟨"ping".toList, ".google.protobuf.Empty".toList, ".google.protobuf.Empty".toList⟩) ⟨0, 1, _, rfl, rfl, rfl, rfl⟩ h
  exact ⟨cfg, T, f, h, h1, h2, (h3 rfl).1, h4 rfl⟩

/-- C111_called_partial. -/
example : grpcMethod "news.x.Desk.ask".toList = some ⟨"news.x".toList, "Desk".toList, "ask".toList⟩ := by
  have := C111_called_partial (ns := ["news".toList, "x".toList]) (v := "Desk".toList) (n := "ask".toList) (by simp) (word_of (by decide))
    (word_of (by decide))
  have e : dotted (["news".toList, "x".toList] ++ ["Desk".toList, "ask".toList]) = "news.x.Desk.ask".toList := by decide
  have e' : dotted ["news".toList, "x".toList] = "news.x".toList := by decide
  rw [e, e'] at this
  exact this

/-- C111_violated_by_no_package. -/
example : grpcMethod "Desk.ask".toList = none := C111_violated_by_no_package (v := "Desk".toList) (n := "ask".toList) (word_of (by decide)) (word_of (by decide))

/-- C111_body. -/
example : Verif.Mustache.parse "{{.args.newsId}}".toList = [.expr ["args".toList, "newsId".toList]] :=
  C111_body (k := "newsId".toList) ⟨'n', "ewsId".toList, rfl, by decide, by decide⟩

/-- C111_connect. -/
example : (connect ⟨"http://x".toList, none, "news.x.Desk.ask".toList⟩ []).url = "http://x/news.x.Desk/ask".toList :=
  (C111_connect "http://x".toList none (ns := ["news".toList, "x".toList]) (v := "Desk".toList) (n := "ask".toList)
    (fun t ht => (demo_proper.1 t ht).word) (word_of (by decide)) (word_of (by decide)) []).1

/-- C112_message_partial. -/
example : ∃ cfg T fd, fromProto id "Query".toList "http://x".toList (demo.map (·.2)) = .ok cfg ∧
    At cfg.types (typeName ["news".toList, "x".toList] "News".toList) T ∧ T.doc = some "news".toList ∧ At T.fields "id".toList fd ∧
    fd.doc = some "number".toList := by
  obtain ⟨cfg, h⟩ := demo_ok
  obtain ⟨T, h1, h2, h3⟩ := C112_message_partial demo_files query_simple query_free (x := (["news".toList, "x".toList], demoFile))
    (List.mem_singleton.2 rfl) (c := demoComments) rfl (p := [4, 0]) (ns := ["news".toList, "x".toList]) (m := demoNews)
    (.here (p := []) (i := 0) rfl) rfl rfl (names_of (by decide) (by decide)) h
  obtain ⟨fd, k1, k2⟩ := h3 0 _ rfl
  exact ⟨cfg, T, fd, h, h1, h2, k1, k2⟩

/-- C112_others_partial: the comment of a method. -/
example : ∃ cfg T f, fromProto id "Query".toList "http://x".toList (demo.map (·.2)) = .ok cfg ∧ At cfg.types "Query".toList T ∧
    At T.fields (methodName ["news".toList, "x".toList] "Desk".toList "ask".toList) f ∧ f.doc = some "ask".toList := by
  obtain ⟨cfg, h⟩ := demo_ok
  obtain ⟨_, h2⟩ := C112_others_partial demo_files query_simple query_free (x := (["news".toList, "x".toList], demoFile))
    (List.mem_singleton.2 rfl) (c := demoComments) rfl h
  obtain ⟨T, f, k1, k2, k3⟩ := h2 [6, 0, 2, 0] "Desk".toList ⟨"ask".toList, ".news.x.Answer".toList, ".news.x.News".toList⟩
    ⟨0, 0, _, rfl, rfl, rfl, rfl⟩
  exact ⟨cfg, T, f, h, k1, k2, k3⟩

/-! ## Where the properties fail -/

/-- **C108 is violated** by names with two underscores: two messages get one name. -/
theorem C108_violated_by_underscores : typeName ["a".toList] "b__c".toList = typeName ["a".toList, "b".toList] "c".toList := by decide

/-- **C108 is violated** by a message with the name of a scalar in a file without a package: it has the name of the scalar. -/
theorem C108_violated_by_scalar : typeName [] "Date".toList = "Date".toList ∧ Verif.Tmpl.predefined "Date".toList = true := by decide

/-- A message that has a oneof and a nested message with a name as the members of the union have. -/
def varFile : FileD :=
  ⟨"p".toList, none, [], [.mk "M".toList [fieldD "a" .optional none .string (some 0), fieldD "b" .optional none .string (some 0)] []
    [.mk "Var0".toList [fieldD "own" .optional none .string none] [] [] 0 false] 1 false], []⟩

/-- **C108 is violated** by a nested message with a reserved name: what is stored under its name has none of its fields. -/
theorem C108_violated_by_reserved : ∃ cfg T, fromProto id "Query".toList [] [varFile] = .ok cfg ∧
    At cfg.types (typeName ["p".toList, "M".toList] "Var0".toList) T ∧ Lacks T.fields "own".toList := by
  refine ⟨_, _, rfl, get_some.1 rfl, ?_⟩
  rw [← get_none]
  rfl

/-- A file with comments and one without. -/
def twoFiles : List FileD :=
  [⟨"p".toList, some (fun p => if p = [4, 0] then some "about A".toList else none), [], [.mk "A".toList [] [] [] 0 false], []⟩,
    ⟨"q".toList, none, [], [.mk "B".toList [] [] [] 0 false], []⟩]

/-- **C112 is violated** by a file without source information: it is given the comments of the file before. -/
theorem C112_violated_by_missing_info : ∃ cfg T, fromProto id "Query".toList [] twoFiles = .ok cfg ∧
    At cfg.types (typeName ["q".toList] "B".toList) T ∧ T.doc = some "about A".toList :=
  ⟨_, _, rfl, get_some.1 rfl, rfl⟩

/-- A file with an enum that has a comment on a value. -/
def enumFile : FileD :=
  ⟨"p".toList, some (fun p => if p = [5, 0, 2, 0] then some "first".toList else none), [⟨"E".toList, ["ONE".toList]⟩], [], []⟩

/-- **C108 is violated** by a comment on the value of an enum: it becomes a part of the name of the variant. -/
theorem C108_violated_by_comment : ∃ cfg E, fromProto id "Query".toList [] [enumFile] = .ok cfg ∧
    At cfg.enums (typeName ["p".toList] "E".toList) E ∧ "ONE".toList ∉ E.variants := by
  refine ⟨_, _, rfl, get_some.1 rfl, ?_⟩
  decide

end Verif.Proto
