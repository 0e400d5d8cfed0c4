import Verif.Proto.Names

/-!
# The generator as a sequence of steps
-/

namespace Verif.Proto

open Verif.Mustache (Text)
open Verif.Exec (Ty)
open Verif.Transform (At Lacks get insert)

set_option linter.unusedSimpArgs false

/-- A step of the generator: the comments of a file, an enum, a message, a method; with the package, what it is in, and its
path. -/
inductive Ev where
  | comments (c : Comments)
  | enum (P N : List Text) (path : List Nat) (e : EnumD)
  | msg (P N : List Text) (path : List Nat) (m : MsgD)
  | method (P : List Text) (path : List Nat) (service : Text) (m : MethodD)

/-- What a step does. -/
def apply (camel : Text → Text) (q url : Text) : Ev → St → Except Err St
  | .comments c, s => .ok { s with comments := c }
  | .enum P N path e, s => .ok (appendEnum (dotted P :: N) path e s)
  | .msg P N path m, s =>
    if m.mapEntry then .ok { s with maps := (parse ⟨m.name, dotted P :: N⟩).id :: s.maps } else putMsg camel (dotted P :: N) path m s
  | .method P path v m, s => appendMethod camel q url [dotted P] path v m s

/-- All steps. -/
def run (camel : Text → Text) (q url : Text) : List Ev → St → Except Err St
  | [], s => .ok s
  | e :: r, s =>
    match apply camel q url e s with
    | .error x => .error x
    | .ok s => run camel q url r s

theorem run_append (camel : Text → Text) (q url : Text) (a b : List Ev) (s : St) :
    run camel q url (a ++ b) s = match run camel q url a s with
      | .error x => .error x
      | .ok s => run camel q url b s := by
  induction a generalizing s with
  | nil => rfl
  | cons e r ih =>
    rw [List.cons_append, run, run]
    cases apply camel q url e s with
    | error x => rfl
    | ok s' => exact ih s'

theorem run_split {camel : Text → Text} {q url : Text} {a b : List Ev} {e : Ev} {s s' : St} (h : run camel q url (a ++ e :: b) s = .ok s') :
    ∃ s1 s2, run camel q url a s = .ok s1 ∧ apply camel q url e s1 = .ok s2 ∧ run camel q url b s2 = .ok s' := by
  rw [run_append] at h
  cases h1 : run camel q url a s with
  | error x => rw [h1] at h; cases h
  | ok s1 =>
    rw [h1] at h
    simp only [run] at h
    cases h2 : apply camel q url e s1 with
    | error x => rw [h2] at h; cases h
    | ok s2 => rw [h2] at h; exact ⟨s1, s2, rfl, h2, h⟩

/-! ## The steps of files -/

/-- The steps for enums (from_proto.rs:161-215). -/
def enumEvs (P N : List Text) (path : List Nat) (tag : Nat) : Nat → List EnumD → List Ev
  | _, [] => []
  | i, e :: r => .enum P N (path ++ [tag, i]) e :: enumEvs P N path tag (i + 1) r

mutual
/-- The steps for a message (from_proto.rs:223-317). -/
def msgEvs (P N : List Text) (path : List Nat) : MsgD → List Ev
  | .mk name fields enums nested oneofs mapEntry =>
    (if mapEntry then [] else enumEvs P (N ++ [name]) path 4 0 enums ++ msgsEvs P (N ++ [name]) path 3 0 nested) ++
      [.msg P N path (.mk name fields enums nested oneofs mapEntry)]

/-- The steps for messages (from_proto.rs:217-320). -/
def msgsEvs (P N : List Text) (path : List Nat) (tag : Nat) : Nat → List MsgD → List Ev
  | _, [] => []
  | i, m :: r => msgEvs P N (path ++ [tag, i]) m ++ msgsEvs P N path tag (i + 1) r
end

/-- The steps for the methods of a service (from_proto.rs:336-391). -/
def methodEvs (P : List Text) (path : List Nat) (v : Text) : Nat → List MethodD → List Ev
  | _, [] => []
  | i, m :: r => .method P (path ++ [2, i]) v m :: methodEvs P path v (i + 1) r

/-- The steps for services (from_proto.rs:322-396). -/
def serviceEvs (P : List Text) : Nat → List ServiceD → List Ev
  | _, [] => []
  | i, v :: r => methodEvs P [6, i] v.name 0 v.methods ++ serviceEvs P (i + 1) r

/-- The step for the comments of a file (from_proto.rs:462-469). -/
def commentEvs : Option Comments → List Ev
  | some c => [.comments c]
  | none => []

/-- The steps for the definitions of a file (from_proto.rs:462-477). -/
def bodyEvs (x : List Text × FileD) : List Ev :=
  enumEvs x.1 [] [] 5 0 x.2.enums ++ (msgsEvs x.1 [] [] 4 0 x.2.messages ++ serviceEvs x.1 0 x.2.services)

/-- The steps for a file (from_proto.rs:462-477). -/
def fileEvs (x : List Text × FileD) : List Ev := commentEvs x.2.comments ++ bodyEvs x

theorem run_enums (camel : Text → Text) (q url : Text) (P N : List Text) (path : List Nat) (tag i : Nat) (l : List EnumD) (s : St) :
    run camel q url (enumEvs P N path tag i l) s = .ok (appendEnums (dotted P :: N) path tag i l s) := by
  induction l generalizing i s with
  | nil => rfl
  | cons e r ih =>
    rw [enumEvs, run, apply]
    exact ih (i + 1) _

mutual
theorem run_msg (camel : Text → Text) (q url : Text) (P N : List Text) (path : List Nat) (s : St) : (m : MsgD) →
    run camel q url (msgEvs P N path m) s = appendMsg camel (dotted P :: N) path m s
  | .mk name fields enums nested oneofs mapEntry => by
    rw [msgEvs, appendMsg]
    cases mapEntry with
    | true =>
      rw [if_pos rfl, if_pos rfl]
      show run camel q url [_] s = _
      rfl
    | false =>
      rw [if_neg (by simp), if_neg (by simp), run_append, run_append, run_enums]
      simp only []
      have h := run_msgs camel q url P (N ++ [name]) path 3 0 (appendEnums (dotted P :: (N ++ [name])) path 4 0 enums s) nested
      rw [h, List.cons_append]
      cases appendMsgs camel (dotted P :: (N ++ [name])) path 3 0 nested (appendEnums (dotted P :: (N ++ [name])) path 4 0 enums s) with
      | error x => rfl
      | ok s1 =>
        simp only [run, apply]
        rw [if_neg (by simp [MsgD.mapEntry])]
        cases putMsg camel (dotted P :: N) path (.mk name fields enums nested oneofs false) s1 <;> rfl

theorem run_msgs (camel : Text → Text) (q url : Text) (P N : List Text) (path : List Nat) (tag i : Nat) (s : St) : (l : List MsgD) →
    run camel q url (msgsEvs P N path tag i l) s = appendMsgs camel (dotted P :: N) path tag i l s
  | [] => by rw [msgsEvs, appendMsgs]; rfl
  | m :: r => by
    rw [msgsEvs, run_append, run_msg camel q url P N (path ++ [tag, i]) s m, appendMsgs]
    cases appendMsg camel (dotted P :: N) (path ++ [tag, i]) m s with
    | error x => rfl
    | ok s1 => exact run_msgs camel q url P N path tag (i + 1) s1 r
end

theorem run_methods (camel : Text → Text) (q url : Text) (P : List Text) (path : List Nat) (v : Text) (i : Nat) (l : List MethodD) (s : St) :
    run camel q url (methodEvs P path v i l) s = appendMethods camel q url [dotted P] path v i l s := by
  induction l generalizing i s with
  | nil => rfl
  | cons e r ih =>
    rw [methodEvs, run, apply, appendMethods]
    cases appendMethod camel q url [dotted P] (path ++ [2, i]) v e s with
    | error x => rfl
    | ok s1 => exact ih (i + 1) s1

theorem run_services (camel : Text → Text) (q url : Text) (P : List Text) (i : Nat) (l : List ServiceD) (s : St) :
    run camel q url (serviceEvs P i l) s = appendServices camel q url [dotted P] i l s := by
  induction l generalizing i s with
  | nil => rfl
  | cons e r ih =>
    rw [serviceEvs, run_append, run_methods, appendServices]
    cases appendMethods camel q url [dotted P] [6, i] e.name 0 e.methods s with
    | error x => rfl
    | ok s1 => exact ih (i + 1) s1

theorem run_file (camel : Text → Text) (q url : Text) (x : List Text × FileD) (h : x.2.package = dotted x.1) (s : St) :
    run camel q url (fileEvs x) s = appendFile camel q url x.2 s := by
  have hb : ∀ s, run camel q url (bodyEvs x) s =
      match appendMsgs camel [x.2.package] [] 4 0 x.2.messages (appendEnums [x.2.package] [] 5 0 x.2.enums s) with
      | .error e => .error e
      | .ok s => appendServices camel q url [x.2.package] 0 x.2.services s := by
    intro s
    rw [bodyEvs, run_append, run_enums, h]
    simp only []
    rw [run_append, run_msgs]
    cases appendMsgs camel [dotted x.1] [] 4 0 x.2.messages (appendEnums [dotted x.1] [] 5 0 x.2.enums s) with
    | error e => rfl
    | ok s1 => exact run_services camel q url x.1 0 x.2.services s1
  rw [fileEvs, run_append, appendFile]
  cases x.2.comments with
  | none => exact hb s
  | some c => exact hb _

theorem run_files (camel : Text → Text) (q url : Text) (l : List (List Text × FileD)) (h : ∀ x ∈ l, x.2.package = dotted x.1) (s : St) :
    run camel q url (l.flatMap fileEvs) s = appendFiles camel q url (l.map (·.2)) s := by
  induction l generalizing s with
  | nil => rfl
  | cons x r ih =>
    rw [List.flatMap_cons, run_append, run_file camel q url x (h x (by simp)), List.map_cons, appendFiles]
    cases appendFile camel q url x.2 s with
    | error e => rfl
    | ok s1 => exact ih (fun y hy => h y (List.mem_cons_of_mem _ hy)) s1

/-! ## What the steps are -/

/-- The message of a step, if it is one for a message. -/
def asMsg : Ev → Option (List Text × MsgD)
  | .msg P N _ m => some (P ++ N, m)
  | _ => none

/-- The enum of a step, if it is one for an enum. -/
def asEnum : Ev → Option (List Text × EnumD)
  | .enum P N _ e => some (P ++ N, e)
  | _ => none

/-- The method of a step, if it is one for a method. -/
def asMethod : Ev → Option (List Text × Text × MethodD)
  | .method P _ v m => some (P, v, m)
  | _ => none

theorem enums_asMsg (P N : List Text) (path : List Nat) (tag i : Nat) (l : List EnumD) : (enumEvs P N path tag i l).filterMap asMsg = [] := by
  induction l generalizing i with
  | nil => rfl
  | cons e r ih => rw [enumEvs, List.filterMap_cons]; exact ih (i + 1)

theorem methods_asMsg (P : List Text) (path : List Nat) (v : Text) (i : Nat) (l : List MethodD) : (methodEvs P path v i l).filterMap asMsg = [] := by
  induction l generalizing i with
  | nil => rfl
  | cons e r ih => rw [methodEvs, List.filterMap_cons]; exact ih (i + 1)

theorem services_asMsg (P : List Text) (i : Nat) (l : List ServiceD) : (serviceEvs P i l).filterMap asMsg = [] := by
  induction l generalizing i with
  | nil => rfl
  | cons e r ih => rw [serviceEvs, List.filterMap_append, methods_asMsg, ih]; rfl

mutual
theorem msg_asMsg (P N : List Text) (path : List Nat) : (m : MsgD) → (msgEvs P N path m).filterMap asMsg = msgDefs (P ++ N) m
  | .mk name fields enums nested oneofs mapEntry => by
    rw [msgEvs, msgDefs, List.filterMap_append]
    cases mapEntry with
    | true => rfl
    | false =>
      rw [if_neg (by simp), if_neg (by simp), List.filterMap_append, enums_asMsg, msgs_asMsg P (N ++ [name]) path 3 0 nested,
        ← List.append_assoc]
      rfl

theorem msgs_asMsg (P N : List Text) (path : List Nat) (tag i : Nat) : (l : List MsgD) →
    (msgsEvs P N path tag i l).filterMap asMsg = msgsDefs (P ++ N) l
  | [] => by rw [msgsEvs, msgsDefs]; rfl
  | m :: r => by
    rw [msgsEvs, List.filterMap_append, msg_asMsg P N (path ++ [tag, i]) m, msgs_asMsg P N path tag (i + 1) r, msgsDefs]
end

theorem comment_asMsg (c : Option Comments) : (commentEvs c).filterMap asMsg = [] := by cases c <;> rfl

theorem files_asMsg (l : List (List Text × FileD)) : (l.flatMap fileEvs).filterMap asMsg = messages l := by
  induction l with
  | nil => rfl
  | cons x r ih =>
    rw [List.flatMap_cons, List.filterMap_append, ih, fileEvs, List.filterMap_append, comment_asMsg, bodyEvs, List.filterMap_append,
      List.filterMap_append, enums_asMsg, services_asMsg, msgs_asMsg, List.append_nil, List.append_nil]
    rfl

theorem enums_asEnum (P N : List Text) (path : List Nat) (tag i : Nat) (l : List EnumD) :
    (enumEvs P N path tag i l).filterMap asEnum = l.map (fun e => (P ++ N, e)) := by
  induction l generalizing i with
  | nil => rfl
  | cons e r ih => rw [enumEvs, List.filterMap_cons, ih]; rfl

theorem methods_asEnum (P : List Text) (path : List Nat) (v : Text) (i : Nat) (l : List MethodD) : (methodEvs P path v i l).filterMap asEnum = [] := by
  induction l generalizing i with
  | nil => rfl
  | cons e r ih => rw [methodEvs, List.filterMap_cons]; exact ih (i + 1)

theorem services_asEnum (P : List Text) (i : Nat) (l : List ServiceD) : (serviceEvs P i l).filterMap asEnum = [] := by
  induction l generalizing i with
  | nil => rfl
  | cons e r ih => rw [serviceEvs, List.filterMap_append, methods_asEnum, ih]; rfl

mutual
theorem msg_asEnum (P N : List Text) (path : List Nat) : (m : MsgD) → (msgEvs P N path m).filterMap asEnum = msgEnums (P ++ N) m
  | .mk name fields enums nested oneofs mapEntry => by
    rw [msgEvs, msgEnums, List.filterMap_append]
    cases mapEntry with
    | true => rfl
    | false =>
      rw [if_neg (by simp), if_neg (by simp), List.filterMap_append, enums_asEnum, msgs_asEnum P (N ++ [name]) path 3 0 nested,
        ← List.append_assoc]
      exact List.append_nil _

theorem msgs_asEnum (P N : List Text) (path : List Nat) (tag i : Nat) : (l : List MsgD) →
    (msgsEvs P N path tag i l).filterMap asEnum = msgsEnums (P ++ N) l
  | [] => by rw [msgsEvs, msgsEnums]; rfl
  | m :: r => by
    rw [msgsEvs, List.filterMap_append, msg_asEnum P N (path ++ [tag, i]) m, msgs_asEnum P N path tag (i + 1) r, msgsEnums]
end

theorem comment_asEnum (c : Option Comments) : (commentEvs c).filterMap asEnum = [] := by cases c <;> rfl

theorem files_asEnum (l : List (List Text × FileD)) : (l.flatMap fileEvs).filterMap asEnum = enums l := by
  induction l with
  | nil => rfl
  | cons x r ih =>
    rw [List.flatMap_cons, List.filterMap_append, ih, fileEvs, List.filterMap_append, comment_asEnum, bodyEvs, List.filterMap_append,
      List.filterMap_append, enums_asEnum, services_asEnum, msgs_asEnum, List.append_nil, List.append_nil]
    rfl

theorem enums_asMethod (P N : List Text) (path : List Nat) (tag i : Nat) (l : List EnumD) :
    (enumEvs P N path tag i l).filterMap asMethod = [] := by
  induction l generalizing i with
  | nil => rfl
  | cons e r ih => rw [enumEvs, List.filterMap_cons]; exact ih (i + 1)

mutual
theorem msg_asMethod (P N : List Text) (path : List Nat) : (m : MsgD) → (msgEvs P N path m).filterMap asMethod = []
  | .mk name fields enums nested oneofs mapEntry => by
    rw [msgEvs, List.filterMap_append]
    cases mapEntry with
    | true => rfl
    | false => rw [if_neg (by simp), List.filterMap_append, enums_asMethod, msgs_asMethod P (N ++ [name]) path 3 0 nested]; rfl

theorem msgs_asMethod (P N : List Text) (path : List Nat) (tag i : Nat) : (l : List MsgD) →
    (msgsEvs P N path tag i l).filterMap asMethod = []
  | [] => by rw [msgsEvs]; rfl
  | m :: r => by
    rw [msgsEvs, List.filterMap_append, msg_asMethod P N (path ++ [tag, i]) m, msgs_asMethod P N path tag (i + 1) r]; rfl
end

theorem methods_asMethod (P : List Text) (path : List Nat) (v : Text) (i : Nat) (l : List MethodD) :
    (methodEvs P path v i l).filterMap asMethod = l.map (fun m => (P, v, m)) := by
  induction l generalizing i with
  | nil => rfl
  | cons e r ih => rw [methodEvs, List.filterMap_cons, ih]; rfl

theorem services_asMethod (P : List Text) (i : Nat) (l : List ServiceD) :
    (serviceEvs P i l).filterMap asMethod = l.flatMap (fun s => s.methods.map (fun m => (P, s.name, m))) := by
  induction l generalizing i with
  | nil => rfl
  | cons e r ih => rw [serviceEvs, List.filterMap_append, methods_asMethod, ih]; rfl

theorem comment_asMethod (c : Option Comments) : (commentEvs c).filterMap asMethod = [] := by cases c <;> rfl

theorem files_asMethod (l : List (List Text × FileD)) : (l.flatMap fileEvs).filterMap asMethod = methods l := by
  induction l with
  | nil => rfl
  | cons x r ih =>
    rw [List.flatMap_cons, List.filterMap_append, ih, fileEvs, List.filterMap_append, comment_asMethod, bodyEvs, List.filterMap_append,
      List.filterMap_append, enums_asMethod, services_asMethod, msgs_asMethod]
    rfl

/-- Only the first step of a file is about comments. -/
def isComments : Ev → Bool
  | .comments _ => true
  | _ => false

theorem enums_quiet (P N : List Text) (path : List Nat) (tag i : Nat) (l : List EnumD) : ∀ e ∈ enumEvs P N path tag i l, isComments e = false := by
  induction l generalizing i with
  | nil => intro e h; cases h
  | cons x r ih =>
    intro e h
    rw [enumEvs] at h
    rcases List.mem_cons.1 h with rfl | h
    · rfl
    · exact ih (i + 1) e h

mutual
theorem msg_quiet (P N : List Text) (path : List Nat) : (m : MsgD) → ∀ e ∈ msgEvs P N path m, isComments e = false
  | .mk name fields enums nested oneofs mapEntry => by
    intro e h
    rw [msgEvs] at h
    rcases List.mem_append.1 h with h | h
    · split at h
      · cases h
      · rcases List.mem_append.1 h with h | h
        · exact enums_quiet _ _ _ _ _ _ e h
        · exact msgs_quiet P (N ++ [name]) path 3 0 nested e h
    · rw [List.mem_singleton.1 h]; rfl

theorem msgs_quiet (P N : List Text) (path : List Nat) (tag i : Nat) : (l : List MsgD) → ∀ e ∈ msgsEvs P N path tag i l, isComments e = false
  | [] => by intro e h; rw [msgsEvs] at h; cases h
  | m :: r => by
    intro e h
    rw [msgsEvs] at h
    rcases List.mem_append.1 h with h | h
    · exact msg_quiet P N (path ++ [tag, i]) m e h
    · exact msgs_quiet P N path tag (i + 1) r e h
end

theorem methods_quiet (P : List Text) (path : List Nat) (v : Text) (i : Nat) (l : List MethodD) :
    ∀ e ∈ methodEvs P path v i l, isComments e = false := by
  induction l generalizing i with
  | nil => intro e h; cases h
  | cons x r ih =>
    intro e h
    rw [methodEvs] at h
    rcases List.mem_cons.1 h with rfl | h
    · rfl
    · exact ih (i + 1) e h

theorem services_quiet (P : List Text) (i : Nat) (l : List ServiceD) : ∀ e ∈ serviceEvs P i l, isComments e = false := by
  induction l generalizing i with
  | nil => intro e h; cases h
  | cons x r ih =>
    intro e h
    rw [serviceEvs] at h
    rcases List.mem_append.1 h with h | h
    · exact methods_quiet _ _ _ _ _ e h
    · exact ih (i + 1) e h

theorem body_quiet (x : List Text × FileD) : ∀ e ∈ bodyEvs x, isComments e = false := by
  intro e h
  rw [bodyEvs] at h
  rcases List.mem_append.1 h with h | h
  · exact enums_quiet _ _ _ _ _ _ e h
  · rcases List.mem_append.1 h with h | h
    · exact msgs_quiet _ _ _ _ _ _ e h
    · exact services_quiet _ _ _ e h

/-! ## Where a step is -/

theorem msgs_index (P N : List Text) (path : List Nat) (tag : Nat) {l : List MsgD} {j : Nat} {m : MsgD} (h : l[j]? = some m) (i : Nat) :
    ∃ a b, msgsEvs P N path tag i l = a ++ (msgEvs P N (path ++ [tag, i + j]) m ++ b) := by
  induction l generalizing i j with
  | nil => cases h
  | cons x r ih =>
    cases j with
    | zero =>
      simp only [List.getElem?_cons_zero, Option.some.injEq] at h
      subst h
      exact ⟨[], _, by rw [msgsEvs]; rfl⟩
    | succ j =>
      rw [List.getElem?_cons_succ] at h
      obtain ⟨a, b, e⟩ := ih h (i + 1)
      refine ⟨msgEvs P N (path ++ [tag, i]) x ++ a, b, ?_⟩
      rw [msgsEvs, e, List.append_assoc]
      have : i + 1 + j = i + (j + 1) := by omega
      rw [this]

/-- The step of a message comes after those for what is nested in it. -/
theorem inside_step {p : List Nat} {tag : Nat} {ns : List Text} {l : List MsgD} {p' : List Nat} {ns' : List Text} {m : MsgD}
    (h : Inside p tag ns l p' ns' m) {P N : List Text} (hns : ns = P ++ N) :
    ∃ N' a b, ns' = P ++ N' ∧ msgsEvs P N p tag 0 l = a ++ Ev.msg P N' p' m :: b ∧
      (m.mapEntry = false → ∀ n ∈ m.nested, ∃ p'', Ev.msg P (N' ++ [m.name]) p'' n ∈ a) ∧
      (m.mapEntry = false → ∃ a1 a2, a = a1 ++ (enumEvs P (N' ++ [m.name]) p' 4 0 m.enums ++ a2)) := by
  induction h generalizing N with
  | @here p tag i ns l m h =>
    obtain ⟨a, b, e⟩ := msgs_index P N p tag h 0
    rw [Nat.zero_add] at e
    cases m with
    | mk name fields enums nested oneofs mapEntry =>
      rw [msgEvs] at e
      refine ⟨N, a ++ (if mapEntry = true then [] else enumEvs P (N ++ [name]) (p ++ [tag, i]) 4 0 enums ++
        msgsEvs P (N ++ [name]) (p ++ [tag, i]) 3 0 nested), b, hns, by rw [e]; simp [List.append_assoc], ?_, ?_⟩
      · intro hm n hn
        simp only [MsgD.mapEntry] at hm
        simp only [MsgD.nested] at hn
        obtain ⟨j, hj⟩ := List.mem_iff_getElem?.1 hn
        obtain ⟨a', b', e'⟩ := msgs_index P (N ++ [name]) (p ++ [tag, i]) 3 hj 0
        refine ⟨p ++ [tag, i] ++ [3, 0 + j], ?_⟩
        rw [if_neg (by simp [hm]), e']
        cases n with
        | mk n1 n2 n3 n4 n5 n6 => rw [msgEvs]; simp [MsgD.name]
      · intro hm
        simp only [MsgD.mapEntry] at hm
        refine ⟨a, msgsEvs P (N ++ [name]) (p ++ [tag, i]) 3 0 nested, ?_⟩
        rw [if_neg (by simp [hm])]
        rfl
  | @inside p tag i ns l m p' ns' m' h hm hi ih =>
    obtain ⟨a, b, e⟩ := msgs_index P N p tag h 0
    rw [Nat.zero_add] at e
    obtain ⟨N', a', b', e1, e2, e3, e4⟩ := ih (N := N ++ [m.name]) (by rw [hns, List.append_assoc])
    cases m with
    | mk name fields enums nested oneofs mapEntry =>
      simp only [MsgD.mapEntry] at hm
      simp only [MsgD.name, MsgD.nested] at e2
      rw [msgEvs, if_neg (by simp [hm]), e2] at e
      refine ⟨N', a ++ (enumEvs P (N ++ [name]) (p ++ [tag, i]) 4 0 enums ++ a'), b' ++ ([Ev.msg P N (p ++ [tag, i])
        (.mk name fields enums nested oneofs mapEntry)] ++ b), e1, by rw [e]; simp [List.append_assoc], ?_, ?_⟩
      · intro hm' n hn
        obtain ⟨p'', hp⟩ := e3 hm' n hn
        exact ⟨p'', List.mem_append_right _ (List.mem_append_right _ hp)⟩
      · intro hm'
        obtain ⟨a1, a2, e5⟩ := e4 hm'
        exact ⟨a ++ (enumEvs P (N ++ [name]) (p ++ [tag, i]) 4 0 enums ++ a1), a2, by rw [e5]; simp [List.append_assoc]⟩

theorem enums_index (P N : List Text) (path : List Nat) (tag : Nat) {l : List EnumD} {j : Nat} {e : EnumD} (h : l[j]? = some e) (i : Nat) :
    ∃ a b, enumEvs P N path tag i l = a ++ Ev.enum P N (path ++ [tag, i + j]) e :: b := by
  induction l generalizing i j with
  | nil => cases h
  | cons x r ih =>
    cases j with
    | zero =>
      simp only [List.getElem?_cons_zero, Option.some.injEq] at h
      subst h
      exact ⟨[], _, by rw [enumEvs]; rfl⟩
    | succ j =>
      rw [List.getElem?_cons_succ] at h
      obtain ⟨a, b, e⟩ := ih h (i + 1)
      refine ⟨Ev.enum P N (path ++ [tag, i]) x :: a, b, ?_⟩
      rw [enumEvs, e]
      have : i + 1 + j = i + (j + 1) := by omega
      rw [this]
      rfl

theorem methods_index (P : List Text) (path : List Nat) (v : Text) {l : List MethodD} {j : Nat} {m : MethodD} (h : l[j]? = some m) (i : Nat) :
    ∃ a b, methodEvs P path v i l = a ++ Ev.method P (path ++ [2, i + j]) v m :: b := by
  induction l generalizing i j with
  | nil => cases h
  | cons x r ih =>
    cases j with
    | zero =>
      simp only [List.getElem?_cons_zero, Option.some.injEq] at h
      subst h
      exact ⟨[], _, by rw [methodEvs]; rfl⟩
    | succ j =>
      rw [List.getElem?_cons_succ] at h
      obtain ⟨a, b, e⟩ := ih h (i + 1)
      refine ⟨Ev.method P (path ++ [2, i]) v x :: a, b, ?_⟩
      rw [methodEvs, e]
      have : i + 1 + j = i + (j + 1) := by omega
      rw [this]
      rfl

theorem services_index (P : List Text) {l : List ServiceD} {j k : Nat} {v : ServiceD} {m : MethodD} (h : l[j]? = some v)
    (hm : v.methods[k]? = some m) (i : Nat) : ∃ a b, serviceEvs P i l = a ++ Ev.method P [6, i + j, 2, k] v.name m :: b := by
  induction l generalizing i j with
  | nil => cases h
  | cons x r ih =>
    cases j with
    | zero =>
      simp only [List.getElem?_cons_zero, Option.some.injEq] at h
      subst h
      obtain ⟨a, b, e⟩ := methods_index P [6, i] x.name hm 0
      rw [Nat.zero_add] at e
      exact ⟨a, b ++ serviceEvs P (i + 1) r, by rw [serviceEvs, e]; simp⟩
    | succ j =>
      rw [List.getElem?_cons_succ] at h
      obtain ⟨a, b, e⟩ := ih h (i + 1)
      refine ⟨methodEvs P [6, i] x.name 0 x.methods ++ a, b, ?_⟩
      rw [serviceEvs, e, List.append_assoc]
      have : i + 1 + j = i + (j + 1) := by omega
      rw [this]

/-- The step of a message in its file. -/
theorem msg_step {x : List Text × FileD} {p : List Nat} {ns : List Text} {m : MsgD} (h : MsgAt x p ns m) :
    ∃ N a b, ns = x.1 ++ N ∧ bodyEvs x = a ++ Ev.msg x.1 N p m :: b ∧
      (m.mapEntry = false → ∀ n ∈ m.nested, ∃ p', Ev.msg x.1 (N ++ [m.name]) p' n ∈ a) := by
  obtain ⟨N, a, b, e1, e2, e3, _⟩ := inside_step h (P := x.1) (N := []) (List.append_nil _).symm
  refine ⟨N, enumEvs x.1 [] [] 5 0 x.2.enums ++ a, b ++ serviceEvs x.1 0 x.2.services, e1, ?_, ?_⟩
  · rw [bodyEvs, e2]; simp [List.append_assoc]
  · intro hm n hn
    obtain ⟨p', hp⟩ := e3 hm n hn
    exact ⟨p', List.mem_append_right _ hp⟩

theorem enum_step {x : List Text × FileD} {p : List Nat} {ns : List Text} {e : EnumD} (h : EnumAt x p ns e) :
    ∃ N a b, ns = x.1 ++ N ∧ bodyEvs x = a ++ Ev.enum x.1 N p e :: b := by
  cases h with
  | @top i _ h =>
    obtain ⟨a, b, e⟩ := enums_index x.1 [] [] 5 h 0
    rw [Nat.zero_add] at e
    exact ⟨[], a, b ++ (msgsEvs x.1 [] [] 4 0 x.2.messages ++ serviceEvs x.1 0 x.2.services), (List.append_nil _).symm,
      by rw [bodyEvs, e]; simp⟩
  | @inside p ns m i _ h hm hi =>
    obtain ⟨N, a, b, e1, e2, _, e4⟩ := inside_step h (P := x.1) (N := []) (List.append_nil _).symm
    obtain ⟨a1, a2, e5⟩ := e4 hm
    obtain ⟨a3, a4, e6⟩ := enums_index x.1 (N ++ [m.name]) p 4 hi 0
    rw [Nat.zero_add] at e6
    refine ⟨N ++ [m.name], enumEvs x.1 [] [] 5 0 x.2.enums ++ (a1 ++ a3), a4 ++ (a2 ++ (Ev.msg x.1 N p m :: b) ++ serviceEvs x.1 0 x.2.services),
      by rw [e1, List.append_assoc], ?_⟩
    rw [bodyEvs, e2, e5, e6]; simp [List.append_assoc]

theorem method_step {x : List Text × FileD} {p : List Nat} {v : Text} {m : MethodD} (h : MethodAt x p v m) :
    ∃ a b, bodyEvs x = a ++ Ev.method x.1 p v m :: b := by
  obtain ⟨i, j, s, h1, h2, rfl, rfl⟩ := h
  obtain ⟨a, b, e⟩ := services_index x.1 h1 h2 0
  rw [Nat.zero_add] at e
  exact ⟨enumEvs x.1 [] [] 5 0 x.2.enums ++ (msgsEvs x.1 [] [] 4 0 x.2.messages ++ a), b, by rw [bodyEvs, e]; simp [List.append_assoc]⟩

/-! ## Both ways of listing messages -/

theorem msgDefs_self (ns : List Text) (m : MsgD) : (ns, m) ∈ msgDefs ns m := by
  cases m with
  | mk a b c d e f => rw [msgDefs]; simp

theorem msgsDefs_mem {ns : List Text} {l : List MsgD} {m : MsgD} (h : m ∈ l) : ∀ x ∈ msgDefs ns m, x ∈ msgsDefs ns l := by
  induction l with
  | nil => cases h
  | cons a r ih =>
    intro x hx
    rw [msgsDefs]
    rcases List.mem_cons.1 h with rfl | h
    · exact List.mem_append_left _ hx
    · exact List.mem_append_right _ (ih h x hx)

theorem inside_mem {p : List Nat} {tag : Nat} {ns : List Text} {l : List MsgD} {p' : List Nat} {ns' : List Text} {m : MsgD}
    (h : Inside p tag ns l p' ns' m) : (ns', m) ∈ msgsDefs ns l := by
  induction h with
  | here h => exact msgsDefs_mem (List.mem_of_getElem? h) _ (msgDefs_self _ _)
  | @inside p tag i ns l m p' ns' m' h hm hi ih =>
    refine msgsDefs_mem (List.mem_of_getElem? h) _ ?_
    cases m with
    | mk a b c d e f =>
      simp only [MsgD.mapEntry] at hm
      rw [msgDefs, if_neg (by simp [hm])]
      exact List.mem_append_left _ ih

mutual
theorem defs_inside (p : List Nat) (tag : Nat) (ns : List Text) (l : List MsgD) (i : Nat) : (m : MsgD) → l[i]? = some m →
    ∀ x ∈ msgDefs ns m, ∃ p', Inside p tag ns l p' x.1 x.2
  | .mk a b c d e f, h => by
    intro x hx
    rw [msgDefs] at hx
    rcases List.mem_append.1 hx with hx | hx
    · split at hx
      · cases hx
      · next hf =>
        obtain ⟨p', k⟩ := all_inside (p ++ [tag, i]) 3 (ns ++ [a]) d [] d rfl x hx
        exact ⟨p', .inside h (by simpa [MsgD.mapEntry] using hf) k⟩
    · rw [List.mem_singleton.1 hx]
      exact ⟨_, .here h⟩

theorem all_inside (p : List Nat) (tag : Nat) (ns : List Text) (l : List MsgD) : (pre r : List MsgD) → pre ++ r = l →
    ∀ x ∈ msgsDefs ns r, ∃ p', Inside p tag ns l p' x.1 x.2
  | pre, [], _ => by intro x hx; rw [msgsDefs] at hx; cases hx
  | pre, m :: r, e => by
    intro x hx
    rw [msgsDefs] at hx
    rcases List.mem_append.1 hx with hx | hx
    · exact defs_inside p tag ns l pre.length m (by rw [← e]; simp) x hx
    · exact all_inside p tag ns l (pre ++ [m]) r (by rw [← e]; simp) x hx
end

theorem messages_iff {files : List (List Text × FileD)} {ns : List Text} {m : MsgD} :
    (ns, m) ∈ messages files ↔ ∃ x ∈ files, ∃ p, MsgAt x p ns m := by
  rw [messages, List.mem_flatMap]
  constructor
  · rintro ⟨x, hx, h⟩
    obtain ⟨p, k⟩ := all_inside [] 4 x.1 x.2.messages [] x.2.messages rfl _ h
    exact ⟨x, hx, p, k⟩
  · rintro ⟨x, hx, p, h⟩
    exact ⟨x, hx, inside_mem h⟩

end Verif.Proto
