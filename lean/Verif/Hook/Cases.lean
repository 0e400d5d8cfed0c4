import Verif.Hook.Props

/-!
# Cases: scripts, and where requests are not what they were
-/

namespace Verif.Hook

open Verif.Mustache (Text)
open Verif.HttpUrl (QC encodeQuery)

set_option linter.unusedSimpArgs false

/-! ## A small world -/

/-- Results can be compared in examples. -/
local instance {ε α : Type} [DecidableEq ε] [DecidableEq α] : DecidableEq (Except ε α)
  | .ok a, .ok b => if h : a = b then .isTrue (by rw [h]) else .isFalse (fun e => h (by cases e; rfl))
  | .error a, .error b => if h : a = b then .isTrue (by rw [h]) else .isFalse (fun e => h (by cases e; rfl))
  | .ok _, .error _ => .isFalse (fun e => by cases e)
  | .error _, .ok _ => .isFalse (fun e => by cases e)

/-- The name of the hook. -/
abbrev hookName : Text := "onRequest".toList

/-- A parser that changes nothing. -/
def plainUrls : Urls := ⟨fun _ h p path => some (some h, p, path), id⟩

/-- JSON whose values are texts; `bad` is no JSON, and neither is the empty text. -/
def plainJson : Json Text := ⟨id, fun t => if t = [] ∨ t = "bad".toList then none else some t, "null".toList⟩

/-- An upstream that answers with the path. -/
def echo : List Dyn → Dyn → Except Err (Resp Text) := fun _ d => .ok ⟨200, [], d.req.url.path⟩

/-- A script with one function, whose state counts the calls. -/
def script (name : Text) (f : Nat → Js → Option Js) : Engine Nat := ⟨some 0, fun w n => if n = name then some (fun a => (w + 1, f w a)) else none⟩

/-- The world of a script. -/
def world (name : Text) (f : Nat → Js → Option Js) : Env Nat Text := ⟨script name f, plainUrls, plainJson, echo⟩

/-- A URL on a host. -/
def url (query : Option Text) : Url := ⟨"http".toList, none, some "a.com".toList, none, "/p".toList, query.map encodeQuery, none⟩

/-- A request. -/
def demoReq : Req := ⟨"POST".toList, url (some "a=1&b=2".toList), [("accept".toList, "x".toList), ("a".toList, "y".toList)], some (.text "{}".toList)⟩

/-- The state before. -/
def fresh : St Nat := ⟨none, none, []⟩

/-- Hooks. -/
def reqHook : Hooks := ⟨some hookName, none⟩

/-- The requests sent, if the evaluation ends. -/
def sentBy (X : Env Nat Text) (h : Hooks) (d : Dyn) : Option (List Dyn) := (evalHttp X true (some h) 5 d fresh).map (fun x => x.1.sent)

/-- The value, if the evaluation ends. -/
def valueBy (X : Env Nat Text) (h : Hooks) (d : Dyn) : Option (Except Err Text) := (evalHttp X true (some h) 5 d fresh).map (·.2)

/-- The script that returns what it is given. -/
def same : Env Nat Text := world hookName (fun _ a => some a)

theorem plain_demo : PlainReq plainUrls demoReq where
  method := ⟨by decide, by decide⟩
  url :=
    { scheme := .inl rfl
      user := rfl
      frag := rfl
      host := ⟨"a.com".toList, rfl, rfl⟩
      path := ⟨by decide, by decide⟩
      port := fun p h => by cases h
      query := PlainQuery.some (pairs := [("a".toList, "1".toList), ("b".toList, "2".toList)]) (by decide) (by decide) (by decide) }
  headers := ⟨by decide, by decide, by decide⟩
  body := .inr ⟨_, rfl⟩

/-- The argument for the request. -/
theorem given_demo : ∃ arg, Given demoReq arg := by
  obtain ⟨a, _, h, _⟩ := req_back plain_demo
  exact ⟨_, a, h, rfl⟩

/-! ## C113 -/

/-- The hypotheses of **C113** are met by a request with a query, headers and a body. -/
example : ∃ arg, reqHook.onRequest = some hookName ∧ Ready same.engine fresh.req 0 ∧ Given demoReq arg ∧ PlainReq same.urls demoReq ∧
    Calls same.engine 0 hookName arg 1 (some arg) := by
  obtain ⟨arg, h⟩ := given_demo
  exact ⟨arg, rfl, .inr ⟨rfl, rfl⟩, h, plain_demo, _, rfl, rfl⟩

example : valueBy same reqHook ⟨demoReq, none⟩ = some (.ok "/p".toList) := by decide +kernel

/-- **C113** fails for a parameter that is given twice: one of the values is not sent. -/
theorem C113_violated_by_repeated_parameter :
    sentBy same reqHook ⟨⟨"GET".toList, url (some "a=1&a=2".toList), [], none⟩, none⟩ =
      some [⟨⟨"GET".toList, url (some "a=2".toList), [], none⟩, none⟩] := by decide +kernel

/-- **C113** fails for the order of parameters. -/
theorem C113_violated_by_order :
    sentBy same reqHook ⟨⟨"GET".toList, url (some "b=1&a=2".toList), [], none⟩, none⟩ =
      some [⟨⟨"GET".toList, url (some "a=2&b=1".toList), [], none⟩, none⟩] := by decide +kernel

/-- **C113** fails for values with an encoded `&`: the value is cut, and a parameter appears that was not there. -/
theorem C113_violated_by_encoded :
    sentBy same reqHook ⟨⟨"GET".toList, url (some "q=x%26admin=1".toList), [], none⟩, none⟩ =
      some [⟨⟨"GET".toList, url (some "q=x&admin=1".toList), [], none⟩, none⟩] := by decide +kernel

/-- **C113** fails for headers that are given twice. -/
theorem C113_violated_by_repeated_header :
    sentBy same reqHook ⟨⟨"GET".toList, url none, [("a".toList, "1".toList), ("a".toList, "2".toList)], none⟩, none⟩ =
      some [⟨⟨"GET".toList, url none, [("a".toList, "2".toList)], none⟩, none⟩] := by decide +kernel

/-- **C113** fails for URLs with credentials. -/
theorem C113_violated_by_credentials :
    sentBy same reqHook ⟨⟨"GET".toList, { url none with user := some "me:secret".toList }, [], none⟩, none⟩ =
      some [⟨⟨"GET".toList, url none, [], none⟩, none⟩] := by decide +kernel

/-- **C113** fails for bodies that are no text. -/
theorem C113_violated_by_binary :
    sentBy same reqHook ⟨⟨"POST".toList, url none, [], some (.binary "�".toList)⟩, none⟩ =
      some [⟨⟨"POST".toList, url none, [], some (.text "�".toList)⟩, none⟩] := by decide +kernel

/-- **C113** fails for batching by a value in the body: it is lost. -/
theorem C113_violated_by_batching :
    sentBy same reqHook ⟨⟨"POST".toList, url none, [], some (.text "1".toList)⟩, some "1".toList⟩ =
      some [⟨⟨"POST".toList, url none, [], some (.text "1".toList)⟩, none⟩] := by decide +kernel

/-! ## C114 -/

/-- A response in JavaScript. -/
def answer (status : Int) (headers : List (Text × Js)) (body : Js) : Js :=
  .obj [("response".toList, .obj [("status".toList, .num status), ("headers".toList, .obj headers), ("body".toList, body)])]

/-- The script that answers. -/
def answering : Env Nat Text := world hookName (fun _ _ => some (answer 200 [] (.str "v".toList)))

/-- The hypotheses of **C114** for responses are met. -/
example : ∃ arg v o, reqHook.onRequest = some hookName ∧ demoReq.body ≠ some .stream ∧ Ready answering.engine fresh.req 0 ∧ Given demoReq arg ∧
    IsResponse v 200 "v".toList ∧ "request".toList ∉ o.map (fun x : Text × Js => x.1) ∧
    o.find? (fun x => x.1 = "response".toList) = some ("response".toList, v) ∧ Calls answering.engine 0 hookName arg 1 (some (.obj o)) := by
  obtain ⟨arg, h⟩ := given_demo
  exact ⟨arg, _, [("response".toList, _)], rfl, by decide, .inr ⟨rfl, rfl⟩, h, ⟨⟨_, rfl, rfl, rfl, rfl⟩, by decide, by decide⟩, by decide, rfl, _, rfl, rfl⟩

example : sentBy answering reqHook ⟨demoReq, none⟩ = some [] ∧ valueBy answering reqHook ⟨demoReq, none⟩ = some (.ok "v".toList) := by decide +kernel

/-- The hypotheses of **C114** for requests are met, with another request than the first. -/
example : ∃ X : Env Nat Text, ∃ arg o a, reqHook.onRequest = some hookName ∧ Ready X.engine fresh.req 0 ∧
    Given ⟨"GET".toList, url none, [], none⟩ arg ∧ PlainReq X.urls demoReq ∧ reqToJs demoReq = .ok a ∧
    o.find? (fun x : Text × Js => x.1 = "request".toList) = some ("request".toList, a) ∧ Calls X.engine 0 hookName arg 1 (some (.obj o)) := by
  obtain ⟨a, _, h, _⟩ := req_back plain_demo
  exact ⟨world hookName (fun _ _ => some (.obj [("request".toList, a)])), _, _, a, rfl, .inr ⟨rfl, rfl⟩, ⟨_, rfl, rfl⟩, plain_demo, h, rfl, _, rfl, rfl⟩

/-- The hypotheses of **C114** for errors are met: by a script without the function, and by one that answers with text. -/
example : Refuses (script "other".toList (fun _ a => some a)) hookName demoReq none (some 0) ∧
    Refuses (script hookName (fun _ _ => some (.str "x".toList))) hookName demoReq none (some 1) := by
  obtain ⟨arg, h⟩ := given_demo
  exact ⟨.missing (.inr ⟨rfl, rfl⟩) rfl, .answer (.inr ⟨rfl, rfl⟩) h ⟨_, rfl, rfl⟩ (fun o e => by cases e)⟩

/-- The script that redirects its first call. -/
def redirecting (location : Text) : Env Nat Text :=
  world hookName (fun w a => if w = 0 then some (answer 302 [("location".toList, .str location)] (.str [])) else some a)

/-- The hypotheses of **C114** for redirects are met. -/
example : ∃ arg v o, Ready (redirecting "/q".toList).engine fresh.req 0 ∧ Given demoReq arg ∧ IsRedirect v 302 "/q".toList ∧
    "request".toList ∉ o.map (fun x : Text × Js => x.1) ∧ o.find? (fun x => x.1 = "response".toList) = some ("response".toList, v) ∧
    Calls (redirecting "/q".toList).engine 0 hookName arg 1 (some (.obj o)) := by
  obtain ⟨arg, h⟩ := given_demo
  exact ⟨arg, _, [("response".toList, _)], .inr ⟨rfl, rfl⟩, h, ⟨⟨_, _, rfl, rfl, rfl, rfl⟩, by decide, by decide⟩, by decide, rfl, _, rfl, rfl⟩

example : valueBy (redirecting "/q".toList) reqHook ⟨demoReq, none⟩ = some (.ok "/q".toList) := by decide +kernel

/-- **C114** fails for exceptions: a script that throws to keep a request from being sent does not. -/
theorem C114_violated_by_exception {X : Env W V} {h : Hooks} {name : Text} {n : Nat} {d : Dyn} {s : St W} {w w' : W} {arg : Js}
    (hn : h.onRequest = some name) (hb : d.req.body ≠ some .stream) (h1 : Ready X.engine s.req w) (h2 : Given d.req arg)
    (h3 : Calls X.engine w name arg w' none) : ∃ s' out, evalHttp X true (some h) (n + 1) d s = some (s', out) ∧ s'.sent = s.sent ++ [d] := by
  obtain ⟨s', out, e, hf⟩ := exception_sent (n := n) hn hb h1 h2 h3
  exact ⟨s', out, e, (final_sent hf).1⟩

example : sentBy (world hookName (fun _ _ => none)) reqHook ⟨demoReq, none⟩ = some [⟨demoReq, none⟩] := by decide +kernel

/-- **C114** fails without a script: hooks are ignored. -/
theorem C114_violated_by_no_script {X : Env W V} {h : Hooks} {n : Nat} {d : Dyn} {s : St W} :
    evalHttp X false (some h) n d s = evalHttp X false none n d s ∧ ∃ s' out, evalHttp X false (some h) n d s = some (s', out) ∧ s'.sent = s.sent ++ [d] :=
  ⟨rfl, _, _, rfl, rfl⟩

/-- **C114** fails for redirects to another host: the request is sent to the first one, with the location as its path. -/
theorem C114_violated_by_other_host :
    (sentBy (redirecting "http://b.com/q".toList) reqHook ⟨⟨"GET".toList, url none, [], none⟩, none⟩).map (List.map (fun d => (d.req.url.host, d.req.url.path))) =
      some [(some "a.com".toList, "http://b.com/q".toList)] := by decide +kernel

/-- The script that always redirects. -/
def looping : Env Nat Text := world hookName (fun _ _ => some (answer 302 [("location".toList, .str "/q".toList)] (.str [])))

theorem loop_ask (r : Req) (hh : r.headers = []) (hb : r.body = none) (w : Nat) (c : Option Nat) (sent : List Dyn) :
    onRequest looping reqHook r ⟨some w, c, sent⟩ =
      (⟨some (w + 1), c, sent⟩, .ok (some (.response ⟨302, [("location".toList, "/q".toList)], []⟩))) := by
  have hg : ∃ arg, Given r arg := ⟨_, _, by rw [reqToJs, hh]; rfl, rfl⟩
  obtain ⟨arg, hg⟩ := hg
  rw [on_request (X := looping) (h := reqHook) (name := hookName) (s := ⟨some w, c, sent⟩) (w := w) (w' := w + 1)
    (out := some (answer 302 [("location".toList, .str "/q".toList)] (.str []))) rfl (by rw [hb]; simp) (.inl rfl) hg ⟨_, rfl, rfl⟩]
  rfl

/-- **C114** fails for scripts that always redirect: there is no answer, however long it takes. -/
theorem C114_violated_by_endless_redirect : ∀ (n : Nat) (u : Url) (w : Nat) (c : Option Nat) (sent : List Dyn),
    withWorker looping reqHook n ⟨⟨"GET".toList, u, [], none⟩, none⟩ ⟨some w, c, sent⟩ = none
  | 0, _, _, _, _ => rfl
  | n + 1, u, w, c, sent => by
    rw [withWorker, loop_ask _ rfl rfl]
    have hr : redirect ⟨302, [("location".toList, "/q".toList)], []⟩ = .ok (some "/q".toList) := by decide +kernel
    simp only
    rw [hr]
    simp only [Option.map_eq_none_iff]
    exact C114_violated_by_endless_redirect n _ (w + 1) c sent

/-- **C114** fails for responses without a body: the value is an error. -/
theorem C114_violated_by_empty_response :
    valueBy (world hookName (fun _ _ => some (answer 204 [] .undef))) reqHook ⟨demoReq, none⟩ = some (.error .json) := by decide +kernel

/-- **C114** fails for redirects with letters outside of ASCII in a header: there is a panic. -/
theorem C114_violated_by_header_of_redirect :
    valueBy (world hookName (fun _ _ => some (answer 302 [("location".toList, .str "/é".toList)] (.str [])))) reqHook ⟨demoReq, none⟩ =
      some (.error .panic) := by decide +kernel

/-! ## C115 -/

/-- The script for responses that adds an `!`; `first` is done with requests. -/
def adding (first : Nat → Js → Option Js) : Env Nat Text :=
  { world hookName first with
    engine := ⟨some 0, fun w n => if n = hookName then some (fun a => (w + 1, first w a)) else
      if n = "onResponse".toList then some (fun a => (w + 1, match a with | .str t => some (.str (t ++ ['!'])) | _ => none)) else none⟩ }

/-- Both hooks. -/
def bothHooks : Hooks := ⟨some hookName, some "onResponse".toList⟩

/-- The hypothesis of **C115** is met by a script that returns what it is given. -/
example : ∀ s1 p, onRequest (adding (fun _ a => some a)) bothHooks demoReq fresh = (s1, .ok (some (.response p))) → p.status ≠ 301 ∧ p.status ≠ 302 := by
  intro s1 p h
  obtain ⟨a, r', h1, h2, _⟩ := req_back plain_demo
  rw [on_request (X := adding (fun _ a => some a)) (h := bothHooks) (name := hookName) (s := fresh) (w := 0) (w' := 1)
    (out := some (.obj [("request".toList, a)])) rfl (by decide) (.inr ⟨rfl, rfl⟩) ⟨a, h1, rfl⟩ ⟨_, rfl, rfl⟩] at h
  have hc : commandFromJs (adding (fun _ a => some a)).urls (.obj [("request".toList, a)]) = .ok (.request r') := command_request rfl h2
  rw [meaning, hc] at h
  cases h

example : valueBy (adding (fun _ a => some a)) bothHooks ⟨demoReq, none⟩ = some (.ok "/p!".toList) := by decide +kernel

/-- The hypotheses of **C115** for the upstream are met. -/
example : (⟨none, some "onResponse".toList⟩ : Hooks).onRequest = none ∧ (adding (fun _ a => some a)).up [] ⟨demoReq, none⟩ = .ok ⟨200, [], "/p".toList⟩ :=
  ⟨rfl, rfl⟩

/-- **C115** fails for redirects: the response hook is run on what it has made itself. -/
theorem C115_violated_by_redirect :
    valueBy (adding (fun w a => if w = 0 then some (answer 302 [("location".toList, .str "/q".toList)] (.str [])) else some a)) bothHooks ⟨demoReq, none⟩ =
      some (.ok "/q!!".toList) := by decide +kernel

/-! ## C116 -/

/-- The hypotheses of **C116** are met, and the script has state: it redirects the first call only. -/
example : (evalHttp (redirecting "/q".toList) true (some reqHook) 5 ⟨demoReq, none⟩ ⟨some 1, some 0, []⟩).map (fun x => (x.1.req, x.2)) =
    some (some 2, .ok "/p".toList) := by decide +kernel

/-- The workers are separate: of two calls each has seen one. -/
example : (evalHttp (adding (fun _ a => some a)) true (some bothHooks) 5 ⟨demoReq, none⟩ fresh).map (fun x => (x.1.req, x.1.res)) =
    some (some 1, some 1) := by decide +kernel

/-! ## C117 -/

/-- A field. -/
def field (h : Option Hooks) : Io Unit := ⟨(), h, true⟩

/-- The evaluation of fields with one template. -/
def evalField (h : Option Hooks) (x : List (Nat × Except Err Text) × St Nat) : Option ((List (Nat × Except Err Text) × St Nat) × Except Err Text) :=
  evalIo (adding (fun _ a => some a)) (fun _ => ⟨demoReq, none⟩) (fun _ => some 7) true true 5 (field h) x

/-- The hypothesis of **C117** is met by the first field with a key. -/
example : (evalField (some bothHooks) ([], fresh)).map (·.2) = some (.ok "/p!".toList) := by decide +kernel

/-- **C117** fails for fields with the same template and different hooks: the second field is given what the hooks of the first have
made, though its own hooks make something else. -/
theorem C117_violated_by_same_template :
    ((evalField none ([], fresh)).bind (fun x => evalField (some bothHooks) x.1)).map (·.2) = some (.ok "/p".toList) ∧
      (evalField (some bothHooks) ([], fresh)).map (·.2) = some (.ok "/p!".toList) := by decide +kernel

end Verif.Hook
