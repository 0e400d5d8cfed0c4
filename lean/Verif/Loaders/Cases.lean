import Verif.Loaders.Props

/-!
# Cases for C137 and C138
-/

namespace Verif.Loaders

open Mustache (Text)

/-- An HTTP call without a batch key. -/
def h1 : Io := ⟨.http, 1, none, true, none⟩
/-- An HTTP call with a batch key. -/
def h2 : Io := ⟨.http, 2, some "id".toList, true, none⟩
/-- A GraphQL query. -/
def g1 : Io := ⟨.graphql, 3, none, true, none⟩
/-- A gRPC call. -/
def r1 : Io := ⟨.grpc, 4, none, true, none⟩

/-- Calls in all kinds of places: below a pipe, in a merge, cached, and for entities. -/
def demoDefs : List Def :=
  [.object "Query".toList
     [⟨"a".toList, some (.pipe (.io h1) (.protect 0 (.path (.io g1) ["x".toList])))⟩,
      ⟨"b".toList, none⟩,
      ⟨"_entities".toList, some (.entity [("U".toList, .cache 5 h2), ("V".toList, .merge [.io r1, .io h1])])⟩],
   .interface "Node".toList [⟨"n".toList, some (.io h1)⟩],
   .other "E".toList,
   .object "U".toList [⟨"posts".toList, some (.discriminate 1 (.map (.io h2) []))⟩]]

/-- The numbers: four HTTP loaders, one each of the others. -/
example : (objectCalls (appContext demoDefs).1).map (fun i => (i.kind, i.what, i.dl)) =
    [(.http, 1, some 0), (.graphql, 3, some 0), (.http, 2, some 1), (.grpc, 4, some 0), (.http, 1, some 2),
     (.http, 2, some 3)] := rfl

example : ((objectCalls (appContext demoDefs).1).filter (fun i => i.kind == .http)).map (·.dl) =
    (List.range 4).map some := C137_own_partial demoDefs .http (by decide)

example : ∃ n, ({ r1 with dl := some 0 } : Io).dl = some n ∧
    ((appContext demoDefs).2.of .grpc)[n]? = some (ownLoader { r1 with dl := some 0 }) :=
  C137_loader_partial demoDefs { r1 with dl := some 0 } (by decide +kernel) (by decide)

example : (appContext demoDefs).1.map plainDef = demoDefs.map plainDef := C137_same demoDefs

/-- Settings with a delay of ten. -/
def demoBatch : Option Batch := some ⟨10, none⟩

theorem demoBatch_on : BatchingOn demoBatch := ⟨⟨10, none⟩, rfl, by decide⟩

example : mode (effectiveBatch demoDefs demoBatch) (appContext demoDefs).2 { h2 with dl := some 3 } =
    .through ⟨2, some "id".toList⟩ :=
  C138_on_partial demoDefs demoBatch demoBatch_on { h2 with dl := some 3 } (by decide +kernel) (by decide)
    (by intro h; exact absurd rfl h)

example : mode (effectiveBatch demoDefs demoBatch) (appContext demoDefs).2 { g1 with dl := some 0 } =
    .through ⟨3, none⟩ :=
  C138_on_partial demoDefs demoBatch demoBatch_on { g1 with dl := some 0 } (by decide +kernel) (by decide)
    (by intro _; rfl)

example : mode (effectiveBatch (demoDefs.drop 1) none) .empty h1 = .alone := C138_off (demoDefs.drop 1) .empty h1 rfl

example : mode (effectiveBatch demoDefs (some ⟨0, none⟩)) (appContext demoDefs).2 { h1 with dl := some 0 } = .alone :=
  C138_zero_partial demoDefs _ (by rintro ⟨b, hb, hd⟩; cases hb; exact hd rfl) _ _ rfl

example : mode demoBatch (appContext demoDefs).2 { g1 with query := false } = .alone :=
  C138_mutation_partial _ _ _ (by decide) rfl

example : mode demoBatch (appContext demoDefs).2 { g1 with dl := some 0 } ≠ .panics :=
  C138_safe_partial demoDefs _ _ (by decide +kernel)

example : keyAccepted demoBatch h2 = true :=
  (C138_keys demoBatch h2 rfl rfl).mpr ⟨demoBatch_on, by intro b hb; cases hb; decide⟩

example : keyAccepted none h2 = false := rfl
example : keyAccepted (some ⟨10, some 0⟩) h2 = false := rfl

theorem demo_accepted : KeysAccepted demoDefs demoBatch := by
  intro i hi
  have h : ∀ j ∈ objectCalls demoDefs, keyAccepted demoBatch j = true := by decide +kernel
  exact h i hi

example : effectiveBatch demoDefs demoBatch = some ⟨10, some 100⟩ := C138_settings demoDefs demoBatch demo_accepted

example : mode (effectiveBatch demoDefs (some .default)) (appContext demoDefs).2 { g1 with dl := some 0 } =
    .through ⟨3, none⟩ :=
  (C138_violated_by_zero_delay demoDefs { g1 with dl := some 0 } (by decide +kernel) rfl rfl).2

example : keyAccepted none { r1 with key := some "id".toList } = true :=
  (C138_violated_by_grpc_key [] .empty { r1 with key := some "id".toList } rfl rfl).1

end Verif.Loaders
