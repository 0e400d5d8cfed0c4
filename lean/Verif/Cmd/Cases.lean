import Verif.Cmd.Props

/-!
# Cases for C155 and C156, and where the code fails them
-/

namespace Verif.Cmd

open Verif.Mustache (Text)

/-- A configuration of the examples: threads, whether its endpoints fit, and the key for TLS. -/
structure Demo where
  threads : Nat
  fits : Bool
  key : Option Bool
  deriving DecidableEq

/-- A place for the examples: all can be read but `missing.graphql`, and the address is free. -/
def demo (d : Demo) : World Demo Demo where
  read := fun ps => if "missing.graphql".toList ∈ ps then .error "not found".toList else .ok d
  blueprint := .ok
  endpoints := fun _ => [("POST".toList, "/users".toList), ("GET".toList, "/users".toList), ("GET".toList, "/posts".toList)]
  checkEndpoints := fun d _ => if d.fits then .ok () else .error "no such field".toList
  workers := Demo.threads
  graphOk := fun _ => true
  telemetry := fun _ => .ok ()
  bind := fun _ => .ok ()
  tls := fun d => d.key.map (fun k => if k then .ok () else .error "bad key".toList)

/-- The files of the examples (no code). -/
def main : List Text := ["main.graphql".toList]

/-- `C155_check` on a right configuration, and on one that cannot be read. -/
example : (check (demo ⟨4, true, none⟩) main false true).2 = .done ∧
    ∃ m b, Right (demo ⟨4, true, none⟩) main m b :=
  have h : (check (demo ⟨4, true, none⟩) main false true).2 = .done := by decide +kernel
  ⟨h, (C155_check _ _ _ _).1.1 h⟩

example : Wrong (demo ⟨4, true, none⟩) ["missing.graphql".toList] "not found".toList :=
  ((C155_check _ _ false false).2 _).1 (by decide +kernel)

/-- `C155_serves_partial` on a server with TLS. -/
example : ∃ m b, Right (demo ⟨4, true, some true⟩) main m b ∧ Able (demo ⟨4, true, some true⟩) m b :=
  (C155_serves_partial _ _).1 (by decide +kernel)

/-- `C155_same_error` on endpoints that do not fit. -/
example : (start (demo ⟨4, false, none⟩) main).2 = .fails "no such field".toList := by
  refine C155_same_error false false (fun m h => ?_) (fun _ _ _ _ => rfl) (by decide +kernel)
  have h' : (demo ⟨4, false, none⟩).read main = .ok ⟨4, false, none⟩ := by
    show (if "missing.graphql".toList ∈ main then Except.error "not found".toList else _) = _
    exact if_neg (by decide +kernel)
  rw [h'] at h
  cases h
  exact (by decide : (4 : Nat) ≠ 0)

/-- `C155_launch` and `C155_schema` on a right configuration. -/
example : .launched ∈ (start (demo ⟨4, true, none⟩) main).1 :=
  (C155_launch _ _ false false).2.2 (by decide +kernel)

example : .schema ∈ (check (demo ⟨4, true, none⟩) main false true).1 :=
  (C155_schema _ _ _ _).2 ⟨rfl, (C155_check _ _ false true).1.1 (by decide +kernel)⟩

/-- `C155_ok_partial` and `C155_npo` on a right configuration. -/
example : .config main ∈ (check (demo ⟨4, true, none⟩) main true false).1 :=
  (C155_ok_partial _ _ _ _ _).2 ⟨rfl, _, _,
    if_neg (c := "missing.graphql".toList ∈ main) (t := .error "not found".toList) (by decide +kernel), rfl⟩

example : .npo true ∈ (check (demo ⟨4, true, none⟩) main true false).1 :=
  (C155_npo _ _ _ _ true).2.2.1 (by decide +kernel)

/-- `C155_endpoints` on three endpoints. -/
example : (told (start (demo ⟨4, true, none⟩) main).1).Perm ((demo ⟨4, true, none⟩).endpoints ⟨4, true, none⟩) ∧
    told (start (demo ⟨4, true, none⟩) main).1 =
      [("GET".toList, "/posts".toList), ("GET".toList, "/users".toList), ("POST".toList, "/users".toList)] :=
  ⟨(C155_endpoints false false
    (if_neg (c := "missing.graphql".toList ∈ main) (t := .error "not found".toList) (by decide +kernel))).2.1,
    by decide +kernel⟩

/-- **C155 fails**: a configuration with no threads passes `check`, and `start` panics. -/
theorem C155_violated_by_workers :
    (check (demo ⟨0, true, none⟩) main false false).2 = .done ∧ (start (demo ⟨0, true, none⟩) main).2 = .panics := by
  decide +kernel

/-- **C155 fails**: a key that does not fit its certificate passes `check`, and `start` fails. -/
theorem C155_violated_by_key :
    (check (demo ⟨4, true, some false⟩) main false false).2 = .done ∧
    (start (demo ⟨4, true, some false⟩) main).2 = .fails "bad key".toList := by
  decide +kernel

/-- **C155 fails**: the lines that say that an endpoint and the configuration are "ok" are written before the
endpoints are checked, also when the check then fails for them. -/
theorem C155_violated_by_ok :
    Line.endpoint ("GET".toList, "/users".toList) ∈ (check (demo ⟨4, false, none⟩) main false false).1 ∧
    Line.config main ∈ (check (demo ⟨4, false, none⟩) main false false).1 ∧
    (check (demo ⟨4, false, none⟩) main false false).2 = .fails "no such field".toList := by
  decide +kernel

/-! ## C156 -/

/-- A folder with one outdated file, and one that is as it should be. -/
def folder : Text → Option Found := fun p =>
  if p = "app/.tailcallrc.graphql".toList then some (.text "old".toList)
  else if p = "app/.tailcallrc.schema.json".toList then some (.text "{}".toList)
  else none

/-- What the program would write, and the paths of two configurations (no code). -/
def new : Text := "new".toList
/-- See `new`. -/
def braces : Text := "{}".toList
/-- See `new`. -/
def mainPath : Text := "app/main.graphql".toList
/-- See `new`. -/
def userPath : Text := "app/user.graphql".toList

/-- `C156_warned` on the folder. -/
example : ∃ x ∈ warnings folder new braces [mainPath], ".tailcallrc.graphql".toList ∈ x.names :=
  (C156_warned _ (by decide +kernel)).1.2
    ⟨mainPath, List.mem_singleton.2 rfl, .inl ⟨rfl, .text "old".toList, by decide +kernel, by decide +kernel⟩⟩

example : ∀ x ∈ warnings folder new braces [mainPath], ".tailcallrc.schema.json".toList ∉ x.names := by decide +kernel

/-- `C156_once_partial` on the folder: there is a warning to speak of. -/
example : (warnings folder new braces [mainPath]).length = 1 ∧
    (warnings folder new braces [mainPath]).length ≤ [mainPath].length :=
  ⟨by decide +kernel, (C156_once_partial _ _ _ _).1⟩

/-- **C156 fails**: a file is warned of once for each configuration beside it, and as if it were many. -/
theorem C156_violated_by_two :
    warnings folder new braces [mainPath, userPath] =
      [⟨[".tailcallrc.graphql".toList], true⟩, ⟨[".tailcallrc.graphql".toList], true⟩] := by
  decide +kernel

end Verif.Cmd
