import Verif.Grpc.Batch
import Verif.Grpc.KeyModel
import Verif.Schema.Lemmas

/-!
# C127 and C128: the names of methods, and the check of batch keys
-/

set_option linter.unusedSimpArgs false

namespace Verif.Grpc

open Verif.Mustache (Text)
open Verif.Exec (Ty)
open Verif.Schema (JS Pool PField PMsg look toSchema msgSchema kindSchema wrapField isA)

/-! ## C127: the method that is named is the one that is called -/

theorem takeWhile_dots {a b : Text} (h : '.' ∉ a) : (a ++ '.' :: b).takeWhile (· != '.') = a := by
  rw [List.takeWhile_append_of_pos (by
    intro c hc
    simp only [bne_iff_ne, ne_eq]
    rintro rfl
    exact h hc)]
  simp

theorem dropWhile_dots {a b : Text} (h : '.' ∉ a) : (a ++ '.' :: b).dropWhile (· != '.') = '.' :: b := by
  rw [List.dropWhile_append_of_pos (by
    intro c hc
    simp only [bne_iff_ne, ne_eq]
    rintro rfl
    exact h hc)]
  simp

/-- **C127 (printing and reading).** A method that is printed is read again. -/
theorem C127_read (m : Method) (hs : '.' ∉ m.service) (hn : '.' ∉ m.name) : parseMethod (printMethod m) = some m := by
  have h1 : (printMethod m).reverse = m.name.reverse ++ '.' :: (m.service.reverse ++ '.' :: m.package.reverse) := by
    simp [printMethod]
  have hn' : '.' ∉ m.name.reverse := by simpa using hn
  have hs' : '.' ∉ m.service.reverse := by simpa using hs
  simp only [parseMethod, h1, dropWhile_dots hn', takeWhile_dots hn', dropWhile_dots hs', takeWhile_dots hs',
    List.reverse_reverse]

theorem split_dot (r : Text) : (r.dropWhile (· != '.') = [] ∧ '.' ∉ r) ∨
    ∃ x, r = r.takeWhile (· != '.') ++ '.' :: x ∧ r.dropWhile (· != '.') = '.' :: x ∧ '.' ∉ r.takeWhile (· != '.') := by
  induction r with
  | nil => left; simp
  | cons c r ih =>
    by_cases hc : c = '.'
    · right
      subst hc
      exact ⟨r, by simp, by simp, by simp⟩
    · have hb : (c != '.') = true := by simpa using hc
      simp only [List.dropWhile_cons, List.takeWhile_cons, hb, if_true]
      rcases ih with ⟨h1, h2⟩ | ⟨x, h1, h2, h3⟩
      · exact Or.inl ⟨h1, by simp [h2, Ne.symm hc]⟩
      · exact Or.inr ⟨x, by rw [List.cons_append, ← h1], h2, by simp only [List.mem_cons, not_or]; exact ⟨Ne.symm hc, h3⟩⟩

/-- **C127 (reading).** A text is read as a method exactly if it has two dots, and then it is the text of that
method: the last two parts are the service and the method. -/
theorem C127_text (t : Text) :
    (∀ m, parseMethod t = some m → printMethod m = t ∧ '.' ∉ m.service ∧ '.' ∉ m.name) ∧
    (parseMethod t = none ↔ t.count '.' < 2) := by
  have key : (parseMethod t = none ∧ t.count '.' < 2) ∨
      ∃ m, parseMethod t = some m ∧ printMethod m = t ∧ '.' ∉ m.service ∧ '.' ∉ m.name ∧ 2 ≤ t.count '.' := by
    rcases split_dot t.reverse with ⟨h1, h2⟩ | ⟨x, h1, h2, h3⟩
    · left
      refine ⟨by simp only [parseMethod, h1], ?_⟩
      rw [← List.count_reverse, List.count_eq_zero.mpr h2]
      omega
    · rcases split_dot x with ⟨k1, k2⟩ | ⟨y, k1, k2, k3⟩
      · left
        refine ⟨by simp only [parseMethod, h2, k1], ?_⟩
        rw [← List.count_reverse, h1, List.count_append, List.count_cons, List.count_eq_zero.mpr h3,
          List.count_eq_zero.mpr k2]
        simp
      · right
        refine ⟨_, by simp only [parseMethod, h2, k2]; rfl, ?_, ?_, ?_, ?_⟩
        · have ht := congrArg List.reverse h1
          rw [List.reverse_reverse] at ht
          have hx : x.reverse = y.reverse ++ '.' :: (x.takeWhile (· != '.')).reverse := by
            have := congrArg List.reverse k1
            simpa using this
          simp only [printMethod, List.reverse_append, List.reverse_cons, List.append_assoc, List.singleton_append]
          conv => rhs; rw [ht]
          simp [hx]
        · simpa using k3
        · simpa using h3
        · rw [← List.count_reverse, h1, List.count_append, List.count_cons]
          rw [k1, List.count_append, List.count_cons]
          simp only [beq_self_eq_true, if_true]
          omega
  constructor
  · intro m hm
    rcases key with ⟨h, _⟩ | ⟨m', h, h1, h2, h3, _⟩
    · rw [h] at hm; cases hm
    · rw [h] at hm
      injection hm with hm
      subst hm
      exact ⟨h1, h2, h3⟩
  · rcases key with ⟨h, hc⟩ | ⟨m', h, _, _, _, hc⟩
    · simp [h, hc]
    · simp only [h, reduceCtorEq, false_iff]
      omega

/-- **C127 (calling).** The operation of a field is that of the named service and method, and its URL is the
address, the full name of the service and the name of the method, with one slash between them. -/
theorem C127_called (pool : List Service) (t base : Text) (m : Method) (op : Op) (h : parseMethod t = some m)
    (hf : findOperation pool m = some op) :
    ∃ s ∈ pool, (m.name, op) ∈ s.methods ∧ t = s.name ++ '.' :: m.name ∧
      ∃ b k, base = b ++ List.replicate k '/' ∧ b.getLast? ≠ some '/' ∧
        toUrl base m = b ++ '/' :: (s.name ++ '/' :: m.name) := by
  unfold findOperation at hf
  split at hf
  · cases hf
  · rename_i s hs
    have hname : s.name = m.package ++ '.' :: m.service := by simpa using List.find?_some hs
    rw [Option.map_eq_some_iff] at hf
    obtain ⟨x, hx, rfl⟩ := hf
    have hxn : x.1 = m.name := by simpa using List.find?_some hx
    refine ⟨s, List.mem_of_find?_eq_some hs, ?_, ?_, ?_⟩
    · rw [← hxn]; exact List.mem_of_find?_eq_some hx
    · rw [hname, ← ((C127_text t).1 m h).1]
      simp [printMethod]
    · refine ⟨(base.reverse.dropWhile (· = '/')).reverse, (base.reverse.takeWhile (· = '/')).length, ?_, ?_, ?_⟩
      · have h1 := List.takeWhile_append_dropWhile (p := (fun c => decide (c = '/'))) (l := base.reverse)
        have h2 := congrArg List.reverse h1
        rw [List.reverse_append, List.reverse_reverse] at h2
        have h3 : (base.reverse.takeWhile (fun c => decide (c = '/'))).reverse =
            List.replicate (base.reverse.takeWhile (fun c => decide (c = '/'))).length '/' := by
          rw [List.eq_replicate_iff]
          refine ⟨by simp, ?_⟩
          intro c hc
          have := List.all_takeWhile (p := (fun c => decide (c = '/'))) (l := base.reverse)
          rw [List.all_eq_true] at this
          simpa using this c (by simpa using hc)
        rw [← h3]
        exact h2.symm
      · rw [List.getLast?_reverse]
        intro hh
        have := List.head?_dropWhile_not (fun c => decide (c = '/')) base.reverse
        rw [hh] at this
        simp at this
      · simp [toUrl, hname]

/-- **C127 (finding).** Every method of a service that is in a package can be named. -/
theorem C127_found (pool : List Service) (s : Service) (hs : s ∈ pool)
    (hu : ∀ s' ∈ pool, s'.name = s.name → s' = s) (pkg sv name : Text) (hn : s.name = pkg ++ '.' :: sv)
    (hsv : '.' ∉ sv) (hname : '.' ∉ name) (op : Op) (ho : (name, op) ∈ s.methods)
    (hou : ∀ o, (name, o) ∈ s.methods → o = op) :
    ∃ m, parseMethod (s.name ++ '.' :: name) = some m ∧ findOperation pool m = some op := by
  refine ⟨⟨pkg, sv, name⟩, ?_, ?_⟩
  · have := C127_read ⟨pkg, sv, name⟩ hsv hname
    simp only [printMethod] at this
    rw [hn, List.append_assoc, List.cons_append]
    exact this
  · unfold findOperation
    cases hp : pool.find? (fun s => s.name = pkg ++ '.' :: sv) with
    | none =>
      rw [List.find?_eq_none] at hp
      exact absurd (hp s hs) (by simp [hn])
    | some s' =>
      have h1 : s'.name = pkg ++ '.' :: sv := by simpa using List.find?_some hp
      have h2 := hu s' (List.mem_of_find?_eq_some hp) (by rw [h1, hn])
      subst h2
      simp only
      cases hq : s'.methods.find? (fun x => x.1 = name) with
      | none =>
        rw [List.find?_eq_none] at hq
        exact absurd (hq _ ho) (by simp)
      | some x =>
        have h3 : x.1 = name := by simpa using List.find?_some hq
        have h4 := hou x.2 (by rw [← h3]; exact List.mem_of_find?_eq_some hq)
        simp [h4]

/-- **C127 (violated by packages).** A service that is in no package cannot be named. -/
theorem C127_violated_by_packages : parseMethod "News.Get".toList = none ∧
    ∀ pool m, parseMethod ".News.Get".toList = some m → (∀ s ∈ pool, s.name = "News".toList) →
      findOperation pool m = none := by
  refine ⟨by decide +kernel, ?_⟩
  intro pool m hm hp
  have : parseMethod ".News.Get".toList = some ⟨[], "News".toList, "Get".toList⟩ := by decide +kernel
  rw [this] at hm
  injection hm with hm
  subst hm
  unfold findOperation
  rw [List.find?_eq_none.mpr]
  intro s hs
  rw [hp s hs]
  decide +kernel

/-! ## C128: a batch key is accepted if it leads to a list of what the field is -/

/-- The field at the end of a path of JSON names, through messages. -/
def endOf (p : Pool) : Text → List Text → Option PField
  | _, [] => none
  | m, [j] => (look p.msgs m).bind (fun d => d.fields.find? (fun f => f.name = j))
  | m, j :: r =>
    match (look p.msgs m).bind (fun d => d.fields.find? (fun f => f.name = j)) with
    | some f =>
      match f.kind with
      | .message m' => endOf p m' r
      | _ => none
    | none => none

theorem kind_shape {p : Pool} {n : Nat} {k : Verif.Schema.Kind} {s : JS} (h : kindSchema p (msgSchema p n) k = some s) :
    (∀ x, s ≠ .arr x) ∧ ∀ x, s ≠ .opt x := by
  cases k with
  | message m =>
    simp only [kindSchema] at h
    cases n with
    | zero => simp [msgSchema] at h
    | succ n =>
      simp only [msgSchema] at h
      split at h
      · injection h with h; subst h; simp
      · split at h
        · injection h with h; subst h; simp
        · rw [Option.map_eq_some_iff] at h
          obtain ⟨l, _, rfl⟩ := h
          unfold Verif.Schema.objOrEmpty
          split <;> simp
  | _ => simp only [kindSchema, Option.some.injEq] at h; subst h; simp

/-- **C128 (lists, partial).** A batch key of two parts is accepted only if the answer has a field of the first
name that is a list (or has any shape, as maps), and every value of the field's type is one of its elements.

Missing from the full statement: the elements need not be values of the type (`C128_violated_by_direction`),
nor have the key (`C128_violated_by_keys`), and other paths are refused or misread
(`C128_violated_by_single`, `C128_violated_by_depth`). -/
theorem C128_lists_partial (c : Verif.Schema.Cfg) (p : Pool) (n : Nat) (t : Ty) (input output l key : Text)
    (h : validateGroupBy c p n t input output [l, key] = some []) :
    ∃ f, endOf p output [l] = some f ∧ ∃ k s, kindSchema p (msgSchema p n) f.kind = some k ∧
      toSchema c n t = some s ∧ ((f.isList = true ∧ (f.card ≠ .optional → ∀ name, isA s k name = [])) ∨ k = .any) := by
  unfold validateGroupBy at h
  split at h
  · rename_i s _ hs _
    unfold batchField at h
    simp only [List.dropLast, List.getLast?_singleton] at h
    split at h
    · simp at h
    · rename_i f hf
      split at hf
      · rename_i f' hf'
        injection hf with hf
        subst hf
        split at h
        · rename_i k hk
          refine ⟨f', hf', k, s, hk, hs, ?_⟩
          obtain ⟨ha, ho⟩ := kind_shape hk
          simp only [Option.some.injEq, List.map_eq_nil_iff] at h
          cases hl : f'.isList with
          | true =>
            left
            refine ⟨rfl, ?_⟩
            intro hcard name
            simp only [wrapField, if_neg hcard, hl, if_true, isA] at h
            exact (Verif.Schema.isA_name _ _ _ _).1 h
          | false =>
            right
            unfold wrapField at h
            simp only [hl, Bool.false_eq_true, if_false] at h
            by_cases hcard : f'.card = .optional
            · simp only [if_pos hcard, isA] at h
              cases k <;> first | rfl | (simp [isA, Verif.Schema.ifail] at h) | skip
              · exact absurd rfl (ha _)
              · exact absurd rfl (ho _)
            · simp only [if_neg hcard] at h
              cases k <;> first | rfl | (simp [isA, Verif.Schema.ifail] at h) | skip
              exact absurd rfl (ho _)
        · cases h
      · cases hf
  · cases h

/-- **C128 (violated by nullable fields).** A field that may be null has no batch key that is accepted for a
list of messages, although null is what it gets when its key is missing. -/
theorem C128_violated_by_nullable (c : Verif.Schema.Cfg) (p : Pool) (n : Nat) (t : Ty) (ht : t.isNullable = true)
    (input output l key : Text) (f : PField) (hf : endOf p output [l] = some f)
    (hc : f.card = .repeated) (m : Text) (hk : f.kind = .message m) (d : PMsg) (hd : look p.msgs m = some d)
    (hm : d.mapEntry = false) : validateGroupBy c p n t input output [l, key] ≠ some [] := by
  intro h
  obtain ⟨f', hf', k, s, hks, hs, hor⟩ := C128_lists_partial c p n t input output l key h
  rw [hf] at hf'
  injection hf' with hf'
  subst hf'
  rw [hk] at hks
  have hkobj : (∃ l, k = .obj l) ∨ k = .empty := by
    simp only [kindSchema] at hks
    cases n with
    | zero => simp [msgSchema] at hks
    | succ n =>
      simp only [msgSchema, hd, hm, Bool.false_eq_true, if_false] at hks
      rw [Option.map_eq_some_iff] at hks
      obtain ⟨l, _, rfl⟩ := hks
      unfold Verif.Schema.objOrEmpty
      split
      · exact Or.inr rfl
      · exact Or.inl ⟨l, rfl⟩
  have hopt : ∃ x, s = .opt x := by
    cases n with
    | zero => simp [toSchema] at hs
    | succ n =>
      cases t with
      | named nm nn =>
        simp only [toSchema] at hs
        rw [Option.map_eq_some_iff] at hs
        obtain ⟨x, _, rfl⟩ := hs
        exact ⟨x, by simp [Verif.Schema.optional, ht]⟩
      | list t' nn =>
        simp only [toSchema] at hs
        rw [Option.map_eq_some_iff] at hs
        obtain ⟨x, _, rfl⟩ := hs
        exact ⟨x, by simp [Verif.Schema.optional, ht]⟩
  obtain ⟨x, rfl⟩ := hopt
  rcases hor with ⟨_, hi⟩ | rfl
  · have := hi (by rw [hc]; decide) []
    rcases hkobj with ⟨l, rfl⟩ | rfl
    · simp [isA, Verif.Schema.ifail] at this
    · simp [isA, Verif.Schema.ifail] at this
  · rcases hkobj with ⟨l, h⟩ | h <;> cases h

/-- **C128 (violated by single names).** No batch key of one part is accepted, although the answer may be
grouped by it. -/
theorem C128_violated_by_single (c : Verif.Schema.Cfg) (p : Pool) (n : Nat) (t : Ty) (input output key : Text) :
    validateGroupBy c p n t input output [key] ≠ some [] := by
  unfold validateGroupBy
  split
  · simp [batchField]
  · simp

/-! ## Cases -/

/-- A message with a list of news, and with another message around it. -/
def keyPool : Pool :=
  ⟨[("In".toList, ⟨false, []⟩),
    ("News".toList, ⟨false, [⟨"id".toList, .number, .optional, false⟩]⟩),
    ("List".toList, ⟨false, [⟨"news".toList, .message "News".toList, .repeated, true⟩]⟩),
    ("Deep".toList, ⟨false, [⟨"data".toList, .message "List".toList, .optional, false⟩]⟩),
    ("Odd".toList, ⟨false, [⟨"data".toList, .string, .optional, false⟩,
      ⟨"news".toList, .message "News".toList, .repeated, true⟩]⟩)], []⟩

/-- Types of news: one as in the proto file, one with a field more that is never null. -/
def keyCfg : Verif.Schema.Cfg :=
  ⟨[("News".toList, [("id".toList, ⟨.named "Int".toList false, false⟩)]),
    ("More".toList, [("id".toList, ⟨.named "Int".toList false, false⟩),
      ("extra".toList, ⟨.named "String".toList true, false⟩)])], [], []⟩

/-- How many errors there are. -/
def errors (t : Text) (output : Text) (path : List Text) : Option Nat :=
  (validateGroupBy keyCfg keyPool 5 (.named t true) "In".toList output path).map List.length

example : errors "News".toList "List".toList ["news".toList, "id".toList] = some 0 := by decide +kernel

/-- **C128 (violated by direction).** A type with a field that is never null and that no message has is
accepted. -/
theorem C128_violated_by_direction : errors "More".toList "List".toList ["news".toList, "id".toList] = some 0 := by
  decide +kernel

/-- **C128 (violated by keys).** The last part is not checked. -/
theorem C128_violated_by_keys : errors "News".toList "List".toList ["news".toList, "nothing".toList] = some 0 ∧
    endOf keyPool "News".toList ["nothing".toList] = none := by
  refine ⟨by decide +kernel, rfl⟩

/-- **C128 (violated by depth).** A path through a message is refused, and one that leads nowhere is accepted,
because every part is looked for in the answer itself. -/
theorem C128_violated_by_depth :
    (∃ f, endOf keyPool "Deep".toList ["data".toList, "news".toList] = some f ∧ f.isList = true) ∧
    errors "News".toList "Deep".toList ["data".toList, "news".toList, "id".toList] = some 1 ∧
    endOf keyPool "Odd".toList ["data".toList, "news".toList] = none ∧
    errors "News".toList "Odd".toList ["data".toList, "news".toList, "id".toList] = some 0 := by
  refine ⟨⟨_, rfl, rfl⟩, by decide +kernel, rfl, by decide +kernel⟩

end Verif.Grpc
