import Verif.Hook.Lemmas

/-!
# Properties of hooks
-/

namespace Verif.Hook

open Verif.Mustache (Text)

set_option linter.unusedSimpArgs false

variable {W V : Type}

/-! ## Steps -/

theorem init_ready {E : Engine W} {c : Option W} {w : W} (h : Ready E c w) : initRt E c = some w := by
  rcases h with rfl | ⟨rfl, h⟩
  · rfl
  · exact h

theorem ready_init {E : Engine W} {c : Option W} {w : W} (h : initRt E c = some w) : Ready E c w := by
  cases c with
  | none => exact .inr ⟨rfl, h⟩
  | some x => exact .inl h

/-- What a result of a function means. -/
def meaning (U : Urls) : Option Js → Except Err (Option Command)
  | none => .ok none
  | some v => (commandFromJs U v).map some

theorem call_event {E : Engine W} {U : Urls} {name : Text} {r : Req} {c : Option W} {w w' : W} {arg : Js} {out : Option Js} (h1 : Ready E c w)
    (h2 : Given r arg) (h3 : Calls E w name arg w' out) :
    callEvent E U name r c = (some w', meaning U out) := by
  obtain ⟨a, e, rfl⟩ := h2
  obtain ⟨f, hf, hc⟩ := h3
  rw [callEvent, init_ready h1]
  simp only
  rw [hf]
  simp only
  rw [e]
  simp only
  rw [hc]
  cases out <;> rfl

theorem processed {E : Engine W} {J : Json V} (name : Text) (v : V) (c : Option W) :
    Processed E J (some name) c v (callValue E J name v c).1 (callValue E J name v c).2 := by
  rw [callValue]
  split
  · next h =>
    cases c with
    | none => exact .start h
    | some w => cases h
  · next w h =>
    have hr := ready_init h
    split
    · next hf => exact .missing hr hf
    · next f hf =>
      split
      · next w' t hc =>
        split
        · next v' hp => exact .value hr ⟨f, hf, hc⟩ hp
        · next hp => exact .json hr ⟨f, hf, hc⟩ hp
      · next w' r hc hr' => exact .noString hr ⟨f, hf, hr'⟩ (fun t e => hc t e)

theorem finished (X : Env W V) (h : Hooks) (s : St W) (p : Except Err (Resp V)) :
    Final X h s (p.map (·.body)) (finish X h (s, p)).1 ((finish X h (s, p)).2.map (·.body)) := by
  cases p with
  | error e => exact .error
  | ok p =>
    rw [finish, onResponse]
    cases e : h.onResponse with
    | none => exact .ok (c := s.res) (by rw [e]; exact .none)
    | some name =>
      have hp := processed (E := X.engine) (J := X.json) name p.body s.res
      have hm : ∀ z : Except Err V, (z.map (fun v => { p with body := v })).map (·.body) = z := by
        intro z; cases z <;> rfl
      simp only [hm]
      exact .ok (by rw [e]; exact hp)

theorem final_sent {X : Env W V} {h : Hooks} {s s' : St W} {p out : Except Err V} (hf : Final X h s p s' out) : s'.sent = s.sent ∧ s'.req = s.req := by
  cases hf <;> exact ⟨rfl, rfl⟩

theorem on_request {X : Env W V} {h : Hooks} {name : Text} {r : Req} {s : St W} {w w' : W} {arg : Js} {out : Option Js} (hn : h.onRequest = some name)
    (hb : r.body ≠ some .stream) (h1 : Ready X.engine s.req w) (h2 : Given r arg) (h3 : Calls X.engine w name arg w' out) :
    onRequest X h r s = ({ s with req := some w' }, meaning X.urls out) := by
  rw [onRequest, hn]
  simp only
  rw [if_neg hb, call_event h1 h2 h3]

/-- **C116**, state.  A call of the function for requests leaves the worker in the state that the function has left, and the next call
starts from there, whatever the two requests and answers are. -/
theorem C116_state {X : Env W V} {h : Hooks} {name : Text} {r r2 : Req} {s : St W} {w w' w'' : W} {arg arg2 : Js} {out out2 : Option Js}
    (hn : h.onRequest = some name) (hb : r.body ≠ some .stream) (hb2 : r2.body ≠ some .stream) (h1 : Ready X.engine s.req w) (h2 : Given r arg)
    (h3 : Calls X.engine w name arg w' out) (h4 : Given r2 arg2) (h5 : Calls X.engine w' name arg2 w'' out2) :
    (onRequest X h r s).1 = { s with req := some w' } ∧ (onRequest X h r2 (onRequest X h r s).1).1 = { s with req := some w'' } := by
  rw [on_request hn hb h1 h2 h3]
  refine ⟨rfl, ?_⟩
  rw [on_request hn hb2 (show Ready X.engine (some w') w' from .inl rfl) h4 h5]

/-! ## What is sent -/

theorem sends_request {X : Env W V} {h : Hooks} {n : Nat} {d : Dyn} {s s1 : St W} {r : Req} (ho : onRequest X h d.req s = (s1, .ok (some (.request r)))) :
    ∃ s' out, evalHttp X true (some h) (n + 1) d s = some (s', out) ∧
      Final X h { s1 with sent := s1.sent ++ [⟨r, none⟩] } ((X.up s1.sent ⟨r, none⟩).map (·.body)) s' out := by
  refine ⟨_, _, ?_, finished X h { s1 with sent := s1.sent ++ [⟨r, none⟩] } (X.up s1.sent ⟨r, none⟩)⟩
  rw [evalHttp, withWorker, ho]
  rfl

theorem sends_same {X : Env W V} {h : Hooks} {n : Nat} {d : Dyn} {s s1 : St W} (ho : onRequest X h d.req s = (s1, .ok none)) :
    ∃ s' out, evalHttp X true (some h) (n + 1) d s = some (s', out) ∧
      Final X h { s1 with sent := s1.sent ++ [d] } ((X.up s1.sent d).map (·.body)) s' out := by
  refine ⟨_, _, ?_, finished X h { s1 with sent := s1.sent ++ [d] } (X.up s1.sent d)⟩
  rw [evalHttp, withWorker, ho]
  rfl

theorem command_obj (U : Urls) (o : List (Text × Js)) : commandFromJs U (.obj o) =
    if has o "request".toList then (reqFromJs U (prop o "request".toList)).map Command.request
    else if has o "response".toList then (respFromJs (prop o "response".toList)).map Command.response else .error .convert := by
  show (if has o "request".toList then ((reqFromJs U (prop o "request".toList)) >>= fun x => pure (Command.request x))
    else if has o "response".toList then ((respFromJs (prop o "response".toList)) >>= fun x => pure (Command.response x)) else .error .convert) = _
  split
  · cases reqFromJs U (prop o "request".toList) <;> rfl
  · split
    · cases respFromJs (prop o "response".toList) <;> rfl
    · rfl

theorem command_request {U : Urls} {o : List (Text × Js)} {v : Js} {r : Req} (h : o.find? (fun x => x.1 = "request".toList) = some ("request".toList, v))
    (hr : reqFromJs U v = .ok r) : commandFromJs U (.obj o) = .ok (.request r) := by
  have h1 : has o "request".toList = true := List.any_eq_true.2 ⟨_, List.mem_of_find?_eq_some h, by simp⟩
  have h2 : prop o "request".toList = v := by rw [prop, h]
  rw [command_obj]
  rw [if_pos h1, h2, hr]; rfl

theorem command_response {U : Urls} {o : List (Text × Js)} {v : Js} {p : Resp Text} (h0 : "request".toList ∉ o.map (·.1))
    (h : o.find? (fun x => x.1 = "response".toList) = some ("response".toList, v)) (hr : respFromJs v = .ok p) :
    commandFromJs U (.obj o) = .ok (.response p) := by
  have h1 : has o "response".toList = true := List.any_eq_true.2 ⟨_, List.mem_of_find?_eq_some h, by simp⟩
  have h2 : prop o "response".toList = v := by rw [prop, h]
  have h3 : has o "request".toList = false := by
    rw [has, List.any_eq_false]
    intro x hx e
    exact h0 (List.mem_map.2 ⟨x, hx, by simpa using e⟩)
  rw [command_obj]
  rw [h3, if_neg (by simp), if_pos h1, h2, hr]; rfl

/-- **C114**, a request.  If the function answers with a request, this request is sent, once and alone, whatever the first one was. -/
theorem C114_request_partial {X : Env W V} {h : Hooks} {name : Text} {n : Nat} {d : Dyn} {s : St W} {w w' : W} {arg : Js} {r : Req}
    {o : List (Text × Js)} {a : Js} (hn : h.onRequest = some name) (hb : d.req.body ≠ some .stream) (h1 : Ready X.engine s.req w) (h2 : Given d.req arg)
    (hr : PlainReq X.urls r) (ha : reqToJs r = .ok a) (hf : o.find? (fun x => x.1 = "request".toList) = some ("request".toList, a))
    (h3 : Calls X.engine w name arg w' (some (.obj o))) :
    ∃ r' s' out, Same r r' ∧ evalHttp X true (some h) (n + 1) d s = some (s', out) ∧
      Final X h ⟨some w', s.res, s.sent ++ [⟨r', none⟩]⟩ ((X.up s.sent ⟨r', none⟩).map (·.body)) s' out := by
  obtain ⟨a', r', e1, e2, e3⟩ := req_back hr
  rw [ha] at e1; cases e1
  have ho := on_request hn hb h1 h2 h3
  simp only [meaning, command_request hf e2, Except.map] at ho
  obtain ⟨s', out, e, hfin⟩ := sends_request (n := n) ho
  exact ⟨r', s', out, e3, e, hfin⟩

/-- **C113**.  A request hook that returns what it is given sends the same request. -/
theorem C113_identity_partial {X : Env W V} {h : Hooks} {name : Text} {n : Nat} {d : Dyn} {s : St W} {w w' : W} {arg : Js}
    (hn : h.onRequest = some name) (h1 : Ready X.engine s.req w) (h2 : Given d.req arg) (hr : PlainReq X.urls d.req)
    (h3 : Calls X.engine w name arg w' (some arg)) :
    ∃ r' s' out, Same d.req r' ∧ evalHttp X true (some h) (n + 1) d s = some (s', out) ∧ s'.sent = s.sent ++ [⟨r', none⟩] ∧
      Final X h ⟨some w', s.res, s.sent ++ [⟨r', none⟩]⟩ ((X.up s.sent ⟨r', none⟩).map (·.body)) s' out := by
  have hb : d.req.body ≠ some .stream := by
    rcases hr.body with e | ⟨t, e⟩ <;> rw [e] <;> simp
  obtain ⟨a, ha, rfl⟩ := h2
  obtain ⟨r', s', out, e1, e2, e3⟩ := C114_request_partial (n := n) hn hb h1 ⟨a, ha, rfl⟩ hr ha rfl h3
  exact ⟨r', s', out, e1, e2, (final_sent e3).1, e3⟩

/-- **C113**, seen by the client.  If the upstream does not tell the same requests apart, the hook that returns what it is given
does not change the value. -/
theorem C113_value_partial {X : Env W V} {h : Hooks} {name : Text} {n : Nat} {d : Dyn} {s : St W} {w w' : W} {arg : Js}
    (hup : ∀ sent r r', Same r r' → X.up sent ⟨r', none⟩ = X.up sent ⟨r, none⟩)
    (hn : h.onRequest = some name) (hp : h.onResponse = none) (h1 : Ready X.engine s.req w) (h2 : Given d.req arg) (hr : PlainReq X.urls d.req)
    (hd : d.batch = none) (h3 : Calls X.engine w name arg w' (some arg)) :
    (evalHttp X true (some h) (n + 1) d s).map (·.2) = (evalHttp X false (some h) (n + 1) d s).map (·.2) := by
  obtain ⟨r', s', out, e1, e2, _, e4⟩ := C113_identity_partial (n := n) hn h1 h2 hr h3
  rw [e2]
  have hX := hup s.sent _ _ e1
  have hd' : d = ⟨d.req, none⟩ := by cases d; simp only at hd; rw [hd]
  show some out = some ((X.up s.sent d).map (·.body))
  rw [hd', ← hX]
  generalize X.up s.sent ⟨r', none⟩ = z at e4
  cases z with
  | error e => cases e4; rfl
  | ok p =>
    cases e4 with
    | ok hproc => rw [hp] at hproc; cases hproc; rfl

/-- **C114**, no command.  Without a request hook the request is sent as it is. -/
theorem C114_no_hook {X : Env W V} {h : Hooks} {n : Nat} {d : Dyn} {s : St W} (hn : h.onRequest = none) :
    ∃ s' out, evalHttp X true (some h) (n + 1) d s = some (s', out) ∧
      Final X h ⟨s.req, s.res, s.sent ++ [d]⟩ ((X.up s.sent d).map (·.body)) s' out := by
  have ho : onRequest X h d.req s = (s, .ok none) := by rw [onRequest, hn]
  exact sends_same (n := n) ho

theorem exception_sent {X : Env W V} {h : Hooks} {name : Text} {n : Nat} {d : Dyn} {s : St W} {w w' : W} {arg : Js} (hn : h.onRequest = some name)
    (hb : d.req.body ≠ some .stream) (h1 : Ready X.engine s.req w) (h2 : Given d.req arg) (h3 : Calls X.engine w name arg w' none) :
    ∃ s' out, evalHttp X true (some h) (n + 1) d s = some (s', out) ∧
      Final X h ⟨some w', s.res, s.sent ++ [d]⟩ ((X.up s.sent d).map (·.body)) s' out := by
  have ho := on_request hn hb h1 h2 h3
  exact sends_same (n := n) ho

theorem resp_of {v : Js} {st : Nat} {b : Text} (h : IsResponse v st b) : respFromJs v = .ok ⟨st, [], b⟩ := by
  obtain ⟨⟨o, rfl, e1, e2, e3⟩, hr⟩ := h
  have hst : asU16 (.num st) = .ok st := by rw [asU16, if_pos ⟨by omega, by omega⟩]; simp
  show (do
    let status ← asU16 (prop o "status".toList)
    let headers ← asMap (prop o "headers".toList)
    let body ← asOptStr (prop o "body".toList)
    if 100 ≤ status ∧ status < 1000 then
      let hs ← headersFrom headers []
      return (⟨status, hs, body.getD []⟩ : Resp Text)
    else .error .convert) = _
  rw [e1, e2, e3, hst]
  show (if 100 ≤ st ∧ st < 1000 then (do
      let hs ← headersFrom (toMap []) []
      return (⟨st, hs, b⟩ : Resp Text)) else .error .convert) = _
  rw [if_pos hr]
  rfl

theorem redirect_of {v : Js} {st : Nat} {l : Text} (h : IsRedirect v st l) :
    ∃ b, respFromJs v = .ok ⟨st, [("location".toList, l)], b⟩ ∧ redirect ⟨st, [("location".toList, l)], b⟩ = .ok (some l) := by
  obtain ⟨⟨o, b, rfl, e1, e2, e3⟩, hst, hv⟩ := h
  have hu : asU16 (.num st) = .ok st := by rw [asU16, if_pos ⟨by omega, by omega⟩]; simp
  refine ⟨b, ?_, ?_⟩
  · show (do
      let status ← asU16 (prop o "status".toList)
      let headers ← asMap (prop o "headers".toList)
      let body ← asOptStr (prop o "body".toList)
      if 100 ≤ status ∧ status < 1000 then
        let hs ← headersFrom headers []
        return (⟨status, hs, body.getD []⟩ : Resp Text)
      else .error .convert) = _
    rw [e1, e2, e3, hu]
    show (if 100 ≤ st ∧ st < 1000 then (do
        let hs ← headersFrom [("location".toList, l)] []
        return (⟨st, hs, b⟩ : Resp Text)) else .error .convert) = _
    rw [if_pos (by omega), headers_ok _ _ (fun x hx => ?_)]
    · rfl
    · rw [List.mem_singleton.1 hx]
      exact ⟨show headerName "location".toList = some "location".toList by decide, visible_valid hv⟩
  · rw [redirect, if_pos hst, if_pos (by simpa using hv)]
    rfl

/-- **C114**, a response.  If the function answers with a response that is no redirect, nothing is sent, and the value is its body. -/
theorem C114_response {X : Env W V} {h : Hooks} {name : Text} {n : Nat} {d : Dyn} {s : St W} {w w' : W} {arg : Js} {st : Nat} {b : Text}
    {o : List (Text × Js)} {v : Js} (hn : h.onRequest = some name) (hb : d.req.body ≠ some .stream) (h1 : Ready X.engine s.req w) (h2 : Given d.req arg)
    (hv : IsResponse v st b) (h0 : "request".toList ∉ o.map (·.1)) (hf : o.find? (fun x => x.1 = "response".toList) = some ("response".toList, v))
    (h3 : Calls X.engine w name arg w' (some (.obj o))) :
    ∃ s' out, evalHttp X true (some h) (n + 1) d s = some (s', out) ∧ s'.sent = s.sent ∧
      Final X h ⟨some w', s.res, s.sent⟩ (match X.json.parse b with | some x => .ok x | none => .error .json) s' out := by
  have ho := on_request hn hb h1 h2 h3
  simp only [meaning, command_response h0 hf (resp_of hv), Except.map] at ho
  have hred : redirect ⟨st, [], b⟩ = .ok none := by
    rw [redirect]
    split
    · rfl
    · rfl
  have hfin := finished X h { s with req := some w' } (respValue X.json ⟨st, [], b⟩)
  have hm : (respValue X.json ⟨st, [], b⟩).map (·.body) = (match X.json.parse b with | some x => .ok x | none => .error .json) := by
    rw [respValue]
    cases X.json.parse b <;> rfl
  rw [hm] at hfin
  refine ⟨_, _, ?_, (final_sent hfin).1, hfin⟩
  rw [evalHttp, withWorker, ho]
  simp only
  rw [hred]
  rfl

/-- **C114**, errors.  If the function cannot be asked or does not answer with a command, the value is an error, and nothing is
sent. -/
theorem C114_refused {X : Env W V} {h : Hooks} {name : Text} {n : Nat} {d : Dyn} {s : St W} {c : Option W} (hn : h.onRequest = some name)
    (hb : d.req.body ≠ some .stream) (hr : Refuses X.engine name d.req s.req c) :
    ∃ e, evalHttp X true (some h) (n + 1) d s = some (⟨c, s.res, s.sent⟩, .error e) := by
  have hc : ∃ e, callEvent X.engine X.urls name d.req s.req = (c, .error e) := by
    cases hr with
    | start h1 h2 => exact ⟨.start, by rw [callEvent, h1]; simp only [initRt]; rw [h2]⟩
    | missing h1 h2 => exact ⟨.missing name, by rw [callEvent, init_ready h1]; simp only; rw [h2]⟩
    | @header w h1 h2 =>
      obtain ⟨x, hx, hv⟩ := h2
      rw [callEvent, init_ready h1]
      simp only
      cases X.engine.fn w name with
      | none => exact ⟨_, rfl⟩
      | some f =>
        have : reqToJs d.req = .error .convert := by
          rw [reqToJs, if_neg]
          intro ha
          have := List.all_eq_true.1 ha x hx
          simp only [hv] at this
          cases this
        simp only
        rw [this]
        exact ⟨_, rfl⟩
    | @answer w w' arg v h1 h2 h3 h4 =>
      rw [call_event h1 h2 h3]
      have : ∃ e, commandFromJs X.urls v = .error e := by
        cases v with
        | obj o =>
          obtain ⟨h5, h6⟩ := h4 o rfl
          rw [command_obj, h5, h6]
          split
          · exact ⟨_, rfl⟩
          · split
            · exact ⟨_, rfl⟩
            · exact ⟨_, rfl⟩
        | _ => exact ⟨_, rfl⟩
      obtain ⟨e, he⟩ := this
      exact ⟨e, by rw [meaning, he]; rfl⟩
  obtain ⟨e, he⟩ := hc
  refine ⟨e, ?_⟩
  have ho : onRequest X h d.req s = (⟨c, s.res, s.sent⟩, .error e) := by
    rw [onRequest, hn]
    simp only
    rw [if_neg hb, he]
  rw [evalHttp, withWorker, ho]
  rfl

/-- **C114**, redirects.  A redirect starts again with the same request, whose path alone is replaced. -/
theorem C114_redirect_partial {X : Env W V} {h : Hooks} {name : Text} {n : Nat} {d : Dyn} {s : St W} {w w' : W} {arg : Js} {st : Nat} {l : Text}
    {o : List (Text × Js)} {v : Js} (hn : h.onRequest = some name) (hp : h.onResponse = none) (hb : d.req.body ≠ some .stream)
    (h1 : Ready X.engine s.req w) (h2 : Given d.req arg)
    (hv : IsRedirect v st l) (h0 : "request".toList ∉ o.map (·.1)) (hf : o.find? (fun x => x.1 = "response".toList) = some ("response".toList, v))
    (h3 : Calls X.engine w name arg w' (some (.obj o))) :
    ∃ d', d'.batch = d.batch ∧ d'.req.method = d.req.method ∧ d'.req.headers = d.req.headers ∧ d'.req.body = d.req.body ∧
      d'.req.url.host = d.req.url.host ∧ d'.req.url.query = d.req.url.query ∧ d'.req.url.path = X.urls.setPath l ∧
      evalHttp X true (some h) (n + 1) d s = evalHttp X true (some h) n d' ⟨some w', s.res, s.sent⟩ := by
  obtain ⟨b, e1, e2⟩ := redirect_of hv
  have ho := on_request hn hb h1 h2 h3
  simp only [meaning, command_response h0 hf e1, Except.map] at ho
  refine ⟨d.setPath X.urls l, rfl, rfl, rfl, rfl, rfl, rfl, rfl, ?_⟩
  have hfin : ∀ x, finish X h x = x := by
    rintro ⟨a, c | c⟩
    · rfl
    · rw [finish, onResponse, hp]
  rw [evalHttp, withWorker, ho]
  simp only
  rw [e2]
  simp only
  rw [evalHttp]
  generalize withWorker X h n (d.setPath X.urls l) ⟨some w', s.res, s.sent⟩ = z
  cases z with
  | none => rfl
  | some z => simp only [Option.map_some]; rw [hfin]

/-! ## The response hook -/

/-- **C115**.  Whatever the request hook does, short of a redirect, there is one answer, and the response hook is run on it once. -/
theorem C115_once_partial {X : Env W V} {h : Hooks} {n : Nat} {d : Dyn} {s : St W}
    (hno : ∀ s1 p, onRequest X h d.req s = (s1, .ok (some (.response p))) → p.status ≠ 301 ∧ p.status ≠ 302) :
    ∃ (c : Option W) (sent : List Dyn) (answer : Except Err V) (s' : St W) (out : Except Err V), evalHttp X true (some h) (n + 1) d s = some (s', out) ∧
      sent.length ≤ 1 ∧ Final X h ⟨c, s.res, s.sent ++ sent⟩ answer s' out := by
  have hkeep : (onRequest X h d.req s).1.res = s.res ∧ (onRequest X h d.req s).1.sent = s.sent := by
    rw [onRequest]
    split
    · exact ⟨rfl, rfl⟩
    · split <;> exact ⟨rfl, rfl⟩
  cases ho : onRequest X h d.req s with
  | mk s1 z =>
    rw [ho] at hkeep
    obtain ⟨c, rs, sn⟩ := s1
    obtain ⟨e1, e2⟩ := hkeep
    simp only at e1 e2
    subst e1 e2
    cases z with
    | error e =>
      refine ⟨c, [], .error e, _, _, ?_, by simp, .error⟩
      rw [evalHttp, withWorker, ho]
      simp [Except.map]
    | ok z =>
      cases z with
      | none =>
        obtain ⟨s', out, e, hf⟩ := sends_same (n := n) ho
        exact ⟨c, [d], _, s', out, e, by simp, hf⟩
      | some z =>
        cases z with
        | request r =>
          obtain ⟨s', out, e, hf⟩ := sends_request (n := n) ho
          exact ⟨c, [⟨r, none⟩], _, s', out, e, by simp, hf⟩
        | response p =>
          obtain ⟨n1, n2⟩ := hno _ p ho
          have hr : redirect p = .ok none := by rw [redirect, if_neg (by simp [n1, n2])]
          have hfin := finished X h ⟨c, s.res, s.sent⟩ (respValue X.json p)
          refine ⟨c, [], _, _, _, ?_, by simp, by rw [List.append_nil]; exact hfin⟩
          rw [evalHttp, withWorker, ho]
          simp only
          rw [hr]
          rfl

/-- **C115**, without a script for requests: the hook is run on the body that the upstream gave. -/
theorem C115_upstream {X : Env W V} {h : Hooks} {n : Nat} {d : Dyn} {s : St W} {p : Resp V} (hn : h.onRequest = none) (hu : X.up s.sent d = .ok p) :
    ∃ c out, evalHttp X true (some h) (n + 1) d s = some (⟨s.req, c, s.sent ++ [d]⟩, out) ∧
      Processed X.engine X.json h.onResponse s.res p.body c out := by
  obtain ⟨s', out, e, hf⟩ := C114_no_hook (X := X) (n := n) (d := d) (s := s) hn
  rw [hu] at hf
  cases hf with
  | @ok v c out hp => exact ⟨c, _, e, hp⟩

/-! ## Workers -/

theorem callEvent_start {E E' : Engine W} {U : Urls} {name : Text} {r : Req} {w : W} (h : E'.fn = E.fn) :
    callEvent E' U name r (some w) = callEvent E U name r (some w) := by
  simp only [callEvent, initRt, h]

theorem callValue_start {E E' : Engine W} {J : Json V} {name : Text} {v : V} {w : W} (h : E'.fn = E.fn) :
    callValue E' J name v (some w) = callValue E J name v (some w) := by
  simp only [callValue, initRt, h]

theorem callEvent_some (E : Engine W) (U : Urls) (name : Text) (r : Req) (w : W) : ∃ w', (callEvent E U name r (some w)).1 = some w' := by
  simp only [callEvent, initRt]
  split
  · exact ⟨_, rfl⟩
  · split
    · exact ⟨_, rfl⟩
    · split <;> exact ⟨_, rfl⟩

theorem callValue_some (E : Engine W) (J : Json V) (name : Text) (v : V) (w : W) : ∃ w', (callValue E J name v (some w)).1 = some w' := by
  simp only [callValue, initRt]
  split
  · exact ⟨_, rfl⟩
  · split
    · split <;> exact ⟨_, rfl⟩
    · exact ⟨_, rfl⟩

/-- The same with another start of the script. -/
def Env.restart (X : Env W V) (b : Option W) : Env W V := { X with engine := ⟨b, X.engine.fn⟩ }

theorem onRequest_start {X : Env W V} {b : Option W} {h : Hooks} {r : Req} {s : St W} {w : W} (hs : s.req = some w) :
    onRequest (X.restart b) h r s = onRequest X h r s ∧ ∃ w', (onRequest X h r s).1.req = some w' := by
  rw [onRequest, onRequest]
  cases h.onRequest with
  | none => exact ⟨rfl, w, hs⟩
  | some name =>
    simp only
    split
    · exact ⟨rfl, w, hs⟩
    · rw [hs]
      refine ⟨?_, callEvent_some X.engine X.urls name r w⟩
      rw [show callEvent (X.restart b).engine (X.restart b).urls name r (some w) = callEvent X.engine X.urls name r (some w) from callEvent_start rfl]

theorem finish_start {X : Env W V} {b : Option W} {h : Hooks} {s : St W} {w : W} (hs : s.res = some w) (p : Except Err (Resp V)) :
    finish (X.restart b) h (s, p) = finish X h (s, p) ∧ ∃ w', (finish X h (s, p)).1.res = some w' := by
  cases p with
  | error e => exact ⟨rfl, w, hs⟩
  | ok p =>
    rw [finish, finish, onResponse, onResponse]
    cases h.onResponse with
    | none => exact ⟨rfl, w, hs⟩
    | some name =>
      simp only
      rw [hs]
      refine ⟨?_, callValue_some X.engine X.json name p.body w⟩
      rw [show callValue (X.restart b).engine (X.restart b).json name p.body (some w) = callValue X.engine X.json name p.body (some w) from
        callValue_start rfl]

theorem onRequest_res (X : Env W V) (h : Hooks) (r : Req) (s : St W) : (onRequest X h r s).1.res = s.res ∧ (onRequest X h r s).1.sent = s.sent := by
  rw [onRequest]
  split
  · exact ⟨rfl, rfl⟩
  · split <;> exact ⟨rfl, rfl⟩

theorem finish_req (X : Env W V) (h : Hooks) (x : St W × Except Err (Resp V)) : (finish X h x).1.req = x.1.req ∧ (finish X h x).1.sent = x.1.sent := by
  obtain ⟨s, p⟩ := x
  cases p with
  | error e => exact ⟨rfl, rfl⟩
  | ok p =>
    rw [finish, onResponse]
    split <;> exact ⟨rfl, rfl⟩

theorem worker_start {X : Env W V} {b : Option W} {h : Hooks} : ∀ (n : Nat) (d : Dyn) (s : St W) {w w' : W}, s.req = some w → s.res = some w' →
    withWorker (X.restart b) h n d s = withWorker X h n d s ∧ ∀ x, withWorker X h n d s = some x → (∃ w, x.1.req = some w) ∧ ∃ w, x.1.res = some w
  | 0, _, _, _, _, _, _ => ⟨rfl, fun x h => by cases h⟩
  | n + 1, d, s, w, w', h1, h2 => by
    obtain ⟨e, w2, e2⟩ := onRequest_start (X := X) (b := b) (h := h) (r := d.req) h1
    have hr := (onRequest_res X h d.req s).1
    rw [withWorker, withWorker, e]
    cases ho : onRequest X h d.req s with
    | mk s1 z =>
      rw [ho] at e2 hr
      simp only at e2 hr
      rw [h2] at hr
      have fin : ∀ (s2 : St W) (p : Except Err (Resp V)), s2.req = some w2 → s2.res = some w' →
          finish (X.restart b) h (s2, p) = finish X h (s2, p) ∧ ∀ x, some (finish X h (s2, p)) = some x →
            (∃ w, x.1.req = some w) ∧ ∃ w, x.1.res = some w := by
        intro s2 p g1 g2
        obtain ⟨k1, k2⟩ := finish_start (X := X) (b := b) (h := h) g2 p
        refine ⟨k1, fun x hx => ?_⟩
        cases hx
        exact ⟨⟨w2, by rw [(finish_req X h _).1]; exact g1⟩, k2⟩
      cases z with
      | error e => exact ⟨rfl, fun x hx => by cases hx; exact ⟨⟨_, e2⟩, ⟨_, hr⟩⟩⟩
      | ok z =>
        cases z with
        | none =>
          obtain ⟨k1, k2⟩ := fin { s1 with sent := s1.sent ++ [d] } (X.up s1.sent d) e2 hr
          exact ⟨congrArg some k1, k2⟩
        | some z =>
          cases z with
          | request r =>
            obtain ⟨k1, k2⟩ := fin { s1 with sent := s1.sent ++ [⟨r, none⟩] } (X.up s1.sent ⟨r, none⟩) e2 hr
            exact ⟨congrArg some k1, k2⟩
          | response p =>
            simp only
            cases redirect p with
            | error e => exact ⟨rfl, fun x hx => by cases hx; exact ⟨⟨_, e2⟩, ⟨_, hr⟩⟩⟩
            | ok l =>
              cases l with
              | none =>
                obtain ⟨k1, k2⟩ := fin s1 (respValue X.json p) e2 hr
                exact ⟨congrArg some k1, k2⟩
              | some l =>
                obtain ⟨k1, k2⟩ := worker_start (X := X) (b := b) (h := h) n (d.setPath X.urls l) s1 e2 hr
                simp only
                rw [show (X.restart b).urls = X.urls from rfl, k1]
                cases hz : withWorker X h n (d.setPath X.urls l) s1 with
                | none => exact ⟨rfl, fun x hx => by cases hx⟩
                | some y =>
                  obtain ⟨⟨a1, b1⟩, a2, b2⟩ := k2 y hz
                  obtain ⟨m1, m2⟩ := finish_start (X := X) (b := b) (h := h) (s := y.1) b2 y.2
                  refine ⟨congrArg some m1, fun x hx => ?_⟩
                  cases hx
                  exact ⟨⟨a1, by rw [(finish_req X h y).1]; exact b1⟩, m2⟩

/-- **C116**, once.  In workers where the script has been evaluated it is not evaluated again: nothing depends on what its
evaluation would give now, and it stays evaluated. -/
theorem C116_once {X : Env W V} {b : Option W} {script : Bool} {h : Option Hooks} {n : Nat} {d : Dyn} {s : St W} {w w' : W} (h1 : s.req = some w)
    (h2 : s.res = some w') :
    evalHttp (X.restart b) script h n d s = evalHttp X script h n d s ∧
      ∀ s' out, evalHttp X script h n d s = some (s', out) → (∃ w, s'.req = some w) ∧ ∃ w, s'.res = some w := by
  rcases script with _ | _ <;> rcases h with _ | hk
  case true.some =>
    rw [evalHttp, evalHttp]
    obtain ⟨k1, k2⟩ := worker_start (X := X) (b := b) (h := hk) n d s h1 h2
    rw [k1]
    refine ⟨rfl, fun s' out e => ?_⟩
    cases hz : withWorker X hk n d s with
    | none => rw [hz] at e; cases e
    | some x =>
      rw [hz] at e
      cases e
      exact k2 x hz
  all_goals
    refine ⟨rfl, fun s' out e => ?_⟩
    cases e
    exact ⟨⟨w, h1⟩, ⟨w', h2⟩⟩

theorem worker_sep {X : Env W V} {h : Hooks} (c : Option W) : ∀ (n : Nat) (d : Dyn) (s : St W),
    (withWorker X h n d { s with res := c }).map (fun x => (x.1.req, x.1.sent)) = (withWorker X h n d s).map (fun x => (x.1.req, x.1.sent))
  | 0, _, _ => rfl
  | n + 1, d, s => by
    have ho : onRequest X h d.req { s with res := c } = ({ (onRequest X h d.req s).1 with res := c }, (onRequest X h d.req s).2) := by
      rw [onRequest, onRequest]
      cases h.onRequest with
      | none => rfl
      | some name => simp only; split <;> rfl
    have hf : ∀ x : St W × Except Err (Resp V), ((finish X h x).1.req, (finish X h x).1.sent) = (x.1.req, x.1.sent) := fun x => by
      rw [(finish_req X h x).1, (finish_req X h x).2]
    rw [withWorker, withWorker, ho]
    cases onRequest X h d.req s with
    | mk s1 z =>
      simp only
      cases z with
      | error e => rfl
      | ok z =>
        cases z with
        | none => simp only [Option.map_some]; rw [hf, hf]; rfl
        | some z =>
          cases z with
          | request r => simp only [Option.map_some]; rw [hf, hf]; rfl
          | response p =>
            simp only
            cases redirect p with
            | error e => rfl
            | ok l =>
              cases l with
              | none => simp only [Option.map_some]; rw [hf, hf]
              | some l =>
                simp only
                have ih := worker_sep (X := X) (h := h) c n (d.setPath X.urls l) s1
                rw [Option.map_map, Option.map_map]
                rw [show ((fun x : St W × Except Err (Resp V) => (x.1.req, x.1.sent)) ∘ finish X h) = (fun x => (x.1.req, x.1.sent)) from funext hf]
                exact ih

/-- **C116**, separate.  What is sent, and the state of the script for requests, do not depend on the state of the script for
responses. -/
theorem C116_separate {X : Env W V} {script : Bool} {h : Option Hooks} {n : Nat} {d : Dyn} {s : St W} (c : Option W) :
    (evalHttp X script h n d { s with res := c }).map (fun x => (x.1.req, x.1.sent)) = (evalHttp X script h n d s).map (fun x => (x.1.req, x.1.sent)) := by
  rcases script with _ | _ <;> rcases h with _ | hk
  case true.some =>
    rw [evalHttp, evalHttp, Option.map_map, Option.map_map]
    exact worker_sep (X := X) (h := hk) c n d s
  all_goals rfl

/-- **C116**, values of `@js`.  The function is called on the text of the value, in the worker for responses; nothing is sent. -/
theorem C116_js {X : Env W V} {name : Text} {v : V} {s : St W} :
    ∃ c out, evalJs X true name (some v) s = (⟨s.req, c, s.sent⟩, out) ∧ Processed X.engine X.json (some name) s.res v c out :=
  ⟨_, _, rfl, processed name v s.res⟩

/-! ## Fields -/

/-- **C117**.  A field whose key has no result yet, or that has no key, gets what its own hooks make of its own request. -/
theorem C117_own_partial {T K : Type} [DecidableEq K] {X : Env W V} {render : T → Dyn} {key : T → Option K} {script query : Bool} {n : Nat} {io : Io T}
    {cache : List (K × Except Err V)} {s : St W}
    (hk : io.dedupe = true → query = true → ∀ k, key io.template = some k → k ∉ cache.map (·.1)) :
    (evalIo X render key script query n io (cache, s)).map (fun y => (y.1.2, y.2)) = evalHttp X script io.hooks n (render io.template) s := by
  have hm : ∀ (z : Option (St W × Except Err V)) (f : St W × Except Err V → List (K × Except Err V)),
      (z.map (fun y => ((f y, y.1), y.2))).map (fun y => (y.1.2, y.2)) = z := by
    intro z f; cases z <;> rfl
  rw [evalIo]
  split
  · next hd =>
    rw [Bool.and_eq_true] at hd
    cases e : key io.template with
    | none => exact hm _ (fun _ => cache)
    | some k =>
      have hn : cache.find? (fun x => x.1 = k) = none := by
        rw [List.find?_eq_none]
        intro x hx he
        exact hk hd.1 hd.2 k e (List.mem_map.2 ⟨x, hx, by simpa using he⟩)
      simp only
      rw [hn]
      exact hm _ (fun y => (k, y.2) :: cache)
  · exact hm _ (fun _ => cache)

/-- **C117**, sharing.  The next field with the key gets this result, and nothing is sent or run for it. -/
theorem C117_shared {T K : Type} [DecidableEq K] {X : Env W V} {render : T → Dyn} {key : T → Option K} {script : Bool} {n m : Nat} {io io' : Io T}
    {cache cache' : List (K × Except Err V)} {s s' : St W} {out : Except Err V} {k : K} (h1 : io.dedupe = true) (h2 : io'.dedupe = true)
    (hk : key io.template = some k) (hk' : key io'.template = some k) (he : evalIo X render key script true n io (cache, s) = some ((cache', s'), out)) :
    evalIo X render key script true m io' (cache', s') = some ((cache', s'), out) := by
  have hc : cache'.find? (fun x => x.1 = k) = some (k, out) := by
    rw [evalIo, h1, hk] at he
    simp only [Bool.and_self, if_true] at he
    cases hf : cache.find? (fun x => x.1 = k) with
    | some e =>
      rw [hf] at he
      simp only [Option.some.injEq, Prod.mk.injEq] at he
      obtain ⟨⟨rfl, _⟩, rfl⟩ := he
      have := List.find?_some hf
      simp only [decide_eq_true_eq] at this
      rw [hf, ← this]
    | none =>
      rw [hf] at he
      simp only at he
      cases hz : evalHttp X script io.hooks n (render io.template) s with
      | none => rw [hz] at he; cases he
      | some y => rw [hz] at he; cases he; simp
  rw [evalIo, h2, hk']
  simp only [Bool.and_self, if_true]
  rw [hc]

end Verif.Hook
