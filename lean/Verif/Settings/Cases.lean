import Verif.Settings.Props

/-! Concrete cases for the theorems of this area. -/

namespace Verif.Settings

open Verif.Mustache (Text)

/-- Validations can be compared. -/
instance {α : Type} [DecidableEq α] : DecidableEq (V α)
  | .ok a, .ok b => if h : a = b then .isTrue (by rw [h]) else .isFalse (by intro e; cases e; exact h rfl)
  | .error a, .error b => if h : a = b then .isTrue (by rw [h]) else .isFalse (by intro e; cases e; exact h rfl)
  | .ok _, .error _ => .isFalse (by intro e; cases e)
  | .error _, .ok _ => .isFalse (by intro e; cases e)

/-- Two addresses. -/
def ip2 (t : Text) : Option Nat :=
  if t = "127.0.0.1".toList then some 1 else if t = "10.0.0.5".toList then some 2 else none

/-- Headers, some of them twice. -/
def hs2 : Headers :=
  ⟨some true, [("X-Id".toList, "a".toList), ("x-id".toList, "b".toList), ("Server".toList, "t".toList)],
    some ["X-Trace".toList], none, none⟩

/-- A configuration that is accepted. -/
def good : Conf :=
  { hostname := some "10.0.0.5".toList, port := some 9000, headers := some hs2, version := some .http2,
    vars := [("a".toList, "1".toList), ("b".toList, "2".toList), ("a".toList, "3".toList)],
    globalResponseTimeout := some 50, introspection := some false }

/-- What it is linked to. -/
def goodExt : Ext := ⟨["cert".toList], ["key".toList, "other".toList], some "js".toList⟩

/-- The server of it. -/
def goodServer : Server Nat :=
  make 8 good goodExt 2 (.http2 ["cert".toList] "key".toList)
    [("x-id".toList, "a".toList), ("x-id".toList, "b".toList), ("server".toList, "t".toList)] ["x-trace".toList] none

theorem good_ok : settings ip2 1 8 good goodExt = .ok goodServer := by
  rw [settings_http ip2 1 (p := .http2 ["cert".toList] "key".toList) rfl]
  have h1 : hostnameV ip2 1 ((good.hostname.getD "127.0.0.1".toList).map Char.toLower) = .ok 2 := by decide +kernel
  have h2 : headersV (customOf good)
      = .ok [("x-id".toList, "a".toList), ("x-id".toList, "b".toList), ("server".toList, "t".toList)] := by decide +kernel
  have h3 : experimentalV (experimentalOf good) = .ok ["x-trace".toList] := by decide +kernel
  have h4 : corsV (good.headers.bind Headers.cors) = .ok none := rfl
  unfold parts
  rw [h1, h2, h3, h4]
  rfl

/-- A configuration with three things wrong. -/
def bad : Conf :=
  { hostname := some "Some Host".toList,
    headers := some ⟨none, [("a b".toList, "1".toList)], some ["Trace".toList], none, none⟩ }

-- C147
example : ∀ e, ¬ Wrong ip2 good goodExt e := (C147_accepted ip2 1 (by decide) 8 good goodExt).mp ⟨_, good_ok⟩
example : settings ip2 1 8 bad ⟨[], [], none⟩ = .error
    [⟨.hostname, ["schema".toList, "@server".toList, "hostname".toList]⟩,
     ⟨.headerName "a b".toList, ["schema".toList, "@server".toList, "headers".toList, "custom".toList]⟩,
     ⟨.experimental "Trace".toList, ["schema".toList, "@server".toList, "headers".toList, "experimental".toList]⟩] := by
  rw [settings_http ip2 1 (p := .http1) rfl]
  have h1 : hostnameV ip2 1 ((bad.hostname.getD "127.0.0.1".toList).map Char.toLower)
      = .error [⟨.hostname, ["schema".toList, "@server".toList, "hostname".toList]⟩] := by decide +kernel
  have h2 : headersV (customOf bad)
      = .error [⟨.headerName "a b".toList, ["schema".toList, "@server".toList, "headers".toList, "custom".toList]⟩] := by
    decide +kernel
  have h3 : experimentalV (experimentalOf bad) = .error [⟨.experimental "Trace".toList,
      ["schema".toList, "@server".toList, "headers".toList, "experimental".toList]⟩] := by decide +kernel
  have h4 : corsV (bad.headers.bind Headers.cors) = .ok none := rfl
  unfold parts
  rw [h1, h2, h3, h4]
  rfl
example (es : List Err) (h : settings ip2 1 8 bad ⟨[], [], none⟩ = .error es) :
    ⟨.hostname, ["schema".toList, "@server".toList, "hostname".toList]⟩ ∈ es :=
  C147_all_partial ip2 1 (by decide) 8 bad _ (by intro h; cases h) es h _ (.hostname _ rfl (by decide +kernel) (by decide +kernel))
example (es : List Err) (h : settings ip2 1 8 bad ⟨[], [], none⟩ = .error es) : es ≠ [] :=
  (C147_reported ip2 1 (by decide) 8 bad _ es h).1
example : goodServer.port = 9000 ∧ goodServer.workers = 8 :=
  ⟨(C147_given ip2 1 8 good goodExt _ good_ok).1, (C147_given ip2 1 8 good goodExt _ good_ok).2.1⟩
example : ip2 "10.0.0.5".toList = some goodServer.hostname := by
  have := (C147_address ip2 1 8 good goodExt _ good_ok "10.0.0.5".toList rfl).2 (by decide +kernel)
  rwa [show small "10.0.0.5".toList = "10.0.0.5".toList by decide +kernel] at this
example : (goodServer.responseHeaders.filter (fun kv => kv.1 = "x-id".toList)).map (·.2) = ["a".toList, "b".toList] := by
  rw [(C147_headers ip2 1 8 good goodExt _ good_ok _).1]
  decide +kernel
example : (goodServer.vars.find? (fun v => v.1 = "a".toList)).map (·.2) = some "3".toList := by
  rw [C147_vars ip2 1 8 good goodExt _ good_ok]
  decide +kernel
example : goodServer.script.map Script.source = some "js".toList := (C147_script ip2 1 8 good goodExt _ good_ok).1
example : ∃ k, goodServer.http = .http2 ["cert".toList] k ∧ goodExt.keys.head? = some k :=
  (C147_http2 ip2 1 8 good goodExt _ good_ok).mpr rfl
example : goodServer.cors = none := C147_cors ip2 1 8 good goodExt _ good_ok
example : limit goodServer .rest = some 50 := C147_rest_limit ip2 1 8 good goodExt _ good_ok 50 rfl (by decide)
example : forkStart 8 { workers := some 3 } = .running 3 := C147_workers 8 (by decide) _ (by simp)
example : settings ip2 1 8 { hostname := some "not a host".toList, version := some .http2 } ⟨[], [], none⟩
    = .error [⟨.certificate, []⟩] := (C147_violated_by_http2 ip2 1 _ _ rfl rfl rfl (by decide +kernel) 8).2

-- C148
example : isRef "my-graph@v_1".toList = true :=
  (C148_reference _).mpr ⟨"my-graph".toList, "v_1".toList, ⟨by decide, by decide +kernel⟩, ⟨by decide, by decide +kernel⟩, by decide +kernel⟩
example : isRef "gr@ph@v".toList = false := by decide +kernel
example : ∃ a b, Word a ∧ Word b ∧ "g@v".toList = a ++ '@' :: b
    ∧ tracing (some (.apollo "g@v".toList "k".toList) : Option (Export Nat)) = some (some (a, b)) :=
  (C148_traces (fun _ => some 0) _ [] (some (.apollo "g@v".toList "k".toList), [])
    (C148_others (fun _ => some 0) [] true [] "g@v".toList "k".toList (by decide +kernel)).2.2).2 _ _ rfl
example : telemetry (fun _ => some 7) (some (.otlp "u".toList [("Api-Key".toList, "s".toList)])) ["x".toList]
    = .ok (some (.otlp 7 [("api-key".toList, "s".toList)]), ["x".toList]) := by
  have h : each headerV [("Api-Key".toList, "s".toList)] = .ok [("api-key".toList, "s".toList)] := by decide +kernel
  unfold telemetry
  simp only [h]
  rfl
example : ⟨.url, ["@telemetry".toList, "otlp".toList, "url".toList]⟩
    ∈ errs (telemetry (fun _ => (none : Option Nat)) (some (.otlp "u".toList [("a b".toList, "s".toList)])) []) :=
  (C148_reported _ _ _ _ _).mpr (.inl ⟨rfl, rfl⟩)

end Verif.Settings
