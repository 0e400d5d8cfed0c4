import Verif.Service.Props
import Verif.Doc.Cases

/-!
# Concrete cases
-/

namespace Verif.Service

open Verif.Mustache (Text)
open Verif.Exec (Ty)
open Verif.Doc (chars chars_whole)
open Verif.Sdl (J V GTy Dir InDef FieldDef ValDef Kind TypeDef SchemaDef Def Directive)

instance decFineTy : (t : Ty) → Decidable (FineTy t)
  | .named n _ => inferInstanceAs (Decidable (Verif.Gql.isName n = true))
  | .list t _ => decFineTy t
instance (d : Directive) : Decidable (FineDir d) := by unfold FineDir; infer_instance
instance (a : BIn) : Decidable (FineIn a) := by unfold FineIn; infer_instance
instance (f : BField) : Decidable (FineField f) := by unfold FineField; infer_instance
instance (d : BDef) : Decidable (Fine d) := by cases d <;> (unfold Fine; infer_instance)
instance (b : Blueprint) : Decidable (FineBlueprint b) := by unfold FineBlueprint; infer_instance

/-- A type that may be null. -/
def nm (s : String) : Ty := .named s.toList false

/-- A type that may not be null. -/
def nn (s : String) : Ty := .named s.toList true

/-- A field without anything else. -/
def plainField (n : String) (t : Ty) : BField := ⟨n.toList, [], t, none, [], none, none⟩

/-- A directive without arguments. -/
def dir (n : String) : Directive := ⟨n.toList, []⟩

/-- The query type of a shop. -/
def queryFields : List BField :=
  [{ plainField "items" (.list (nn "Item") true) with
      args := [⟨"limit".toList, nm "Int", some (.int 10), none⟩], res := some (.plain 1), dirs := [dir "shareable"] },
    ⟨"_entities".toList, [⟨"representations".toList, .list (nn "_Any") true, none, none⟩], .list (nm "_Entity") true, none, [], none, none⟩,
    plainField "_service" (nn "_Service")]

/-- The blueprint of a shop that is a subgraph. -/
def shop : Blueprint :=
  { query := "Query".toList, mutation := none,
    defs := [
      .object "Item".toList [plainField "id" (nn "ID"), plainField "kind" (nm "Kind")] none ["Node".toList]
        [⟨"key".toList, [("fields".toList, .str "id".toList), ("resolvable".toList, .null)]⟩],
      .iface "Node".toList [plainField "id" (nn "ID")] none [] [],
      .object "Query".toList queryFields none [] [],
      .scalar "_Any".toList none [],
      .union "_Entity".toList ["Item".toList] none [],
      .object "_Service".toList [plainField "sdl" (nm "String")] none [] [],
      .enum "Kind".toList [("BOOK".toList, none), ("GAME".toList, none)] none [],
      .input "Filter".toList [⟨"kinds".toList, .list (nn "Kind") false, none, none⟩] none []] }

/-- Its configuration. -/
def shopConfig : Config :=
  { federation := true,
    types := [("Query".toList, [("items".toList, [.plain 0]), ("_entities".toList, [.entity [("Item".toList, .plain 3)]]),
      ("_service".toList, [.service])])] }

/-- Resolvers are compiled to the next number. -/
def next : Text → Nat → Except (List Err) (Option Nat) := fun _ i => .ok (some (i + 1))

/-- What the shop becomes. -/
def shopDone : Except (List Err) Blueprint := update chars next shopConfig shop

theorem shop_fine : FineBlueprint shop := by decide +kernel

example : Publishes (Verif.Doc.print chars (docOf shop) ++ extension) shop := publishes chars chars_whole shop shop_fine

theorem shop_ok : ∀ d ∈ shop.defs, DefOk next shopConfig shop.query d := by
  intro d hd
  simp only [shop, List.mem_cons, List.not_mem_nil, or_false] at hd
  rcases hd with rfl | rfl | rfl | rfl | rfl | rfl | rfl | rfl
  case inr.inr.inl =>
    intro _
    refine ⟨_, _, _, _, _, _, rfl, rfl, ?_⟩
    intro f hf
    simp only [queryFields, List.mem_cons, List.not_mem_nil, or_false] at hf
    rcases hf with rfl | rfl | rfl
    · exact ⟨_, rfl, fun l h => by cases h⟩
    · exact ⟨_, rfl, fun l h => by cases h; exact ⟨_, .cons (.plain rfl) .nil⟩⟩
    · exact ⟨_, rfl, fun l h => by cases h⟩
  all_goals exact fun e => absurd e (by decide)

example : ∃ b', update chars next shopConfig shop = .ok b' ∧ ∃ fs' f' t, .object shop.query fs' none [] [] ∈ b'.defs ∧ f' ∈ fs' ∧
    f'.name = "_service".toList ∧ f'.res = some (.service t) ∧ Publishes t shop := by
  obtain ⟨b', h⟩ := (C140_accepts_partial chars next shopConfig shop rfl).mpr shop_ok
  refine ⟨b', h, ?_⟩
  refine C139_service_partial chars chars_whole next shopConfig shop b' rfl shop_fine (f := plainField "_service" (nn "_Service"))
    (pre := shop.defs.take 2) (post := shop.defs.drop 3) (fpre := queryFields.take 2) (fpost := []) rfl ?_ rfl
    ⟨_, rfl, rfl⟩ ?_ h
  · intro d hd
    simp only [shop, List.take_succ_cons, List.take_zero, List.mem_cons, List.not_mem_nil, or_false] at hd
    rcases hd with rfl | rfl <;> decide
  · intro g hg
    simp only [queryFields, List.take_succ_cons, List.take_zero, List.mem_cons, List.not_mem_nil, or_false] at hg
    rcases hg with rfl | rfl <;> (rintro ⟨rs, h1, h2⟩; cases h1; cases h2)

example : ∃ b', update chars next shopConfig shop = .ok b' ∧ b'.query = shop.query ∧
    Each (KeepsDef shopConfig shop.query) shop.defs b'.defs := by
  obtain ⟨b', h⟩ := (C140_accepts_partial chars next shopConfig shop rfl).mpr shop_ok
  exact ⟨b', h, (C140_kept chars next shopConfig shop b' rfl h).1, (C140_kept chars next shopConfig shop b' rfl h).2.2⟩

example : compileAll next [("Item".toList, .plain 3), ("A".toList, .entity [("B".toList, .plain 7)])] =
    .ok [("Item".toList, .plain 4), ("A".toList, .entity [("B".toList, .plain 8)])] :=
  (C140_entities next _ _).mpr (.cons (.plain rfl) (.cons (.entity (.cons (.plain rfl) .nil)) .nil))

example : update chars next { shopConfig with federation := false } shop = .ok shop := C140_off _ _ _ _ rfl

/-- The published text of a blueprint. -/
def published (b : Blueprint) : Text := Verif.Doc.print chars (docOf b) ++ extension

/-- A blueprint with one more definition than a query type. -/
def with1 (d : BDef) (f : BField) : Blueprint :=
  { query := "Query".toList, mutation := none, defs := [.object "Query".toList [f] none [] [], d] }

/-- **C139, negation.**  Descriptions are not published: neither those of types nor those of fields and arguments. -/
theorem C139_violated_by_descriptions :
    let b := with1 (.object "Item".toList [{ plainField "id" (nn "ID") with descr := some "Unique".toList }]
      (some "A thing to buy".toList) [] []) { plainField "item" (nm "Item") with descr := some "Any item".toList }
    (readSubgraph (published b)).map (fun q => q.1.any described) = some false := by
  decide +kernel

/-- **C139, negation.**  A directive of an interface is not published: what was to be `@inaccessible` is accessible. -/
theorem C139_violated_by_interface :
    let d := toInterface (.object "Node".toList [plainField "id" (nn "ID")] none [] [dir "inaccessible"])
    (readSubgraph (published (with1 d (plainField "node" (nm "Node"))))).map (fun q => directivesOf "Node".toList q.1) =
      some [[]] := by
  decide +kernel

/-- **C139, negation.**  A directive of an input field is not published. -/
theorem C139_violated_by_input :
    let d := toInput (.object "Filter".toList [{ plainField "name" (nm "String") with dirs := [dir "inaccessible"] }] none [] [])
    let b := with1 d { plainField "item" (nm "Int") with args := [⟨"by".toList, nm "Filter", none, none⟩] }
    (readSubgraph (published b)).map (fun q => inputDirectives "Filter".toList q.1) = some [("name".toList, [])] := by
  decide +kernel

/-- **C139, negation.**  The default of an argument whose type is an enum is published as a string, which is no value of an
enum. -/
theorem C139_violated_by_enum_default :
    let b := with1 (.enum "Kind".toList [("BOOK".toList, none), ("GAME".toList, none)] none [])
      { plainField "item" (nm "Int") with args := [⟨"kind".toList, nm "Kind", some (.str "BOOK".toList), none⟩] }
    (readSubgraph (published b)).map (fun q => (enumDefaults q.1).map enumValue) = some [false] := by
  decide +kernel

/-- A blueprint with a query type only. -/
def onlyQuery (fs : List BField) : Blueprint := ⟨[.object "Query".toList fs none [] []], "Query".toList, none⟩

/-- The fields of a query type: one renamed, one for `_service`. -/
def renamedFields : List CField :=
  [⟨"items".toList, some "things".toList, false, [.plain 0]⟩, ⟨"old".toList, none, true, []⟩,
    ⟨"_service".toList, none, false, [.service]⟩]

/-- **C140, negation.**  A query field that is renamed by `@modify(name: ..)` makes federation refuse the configuration. -/
theorem C140_violated_by_rename :
    let b : Blueprint := onlyQuery [{ plainField "things" (nm "Int") with res := some (.plain 0) }, plainField "_service" (nn "_Service")]
    let c : Config := ⟨true, [("Query".toList, seenFields renamedFields)]⟩
    (∃ es, update chars next c b = .error es ∧ Err.fieldNotFound "things".toList ∈ es) ∧
      update chars next { c with federation := false } b = .ok b := by
  intro b c
  exact C140_refuses chars next c b renamedFields [] rfl List.mem_cons_self rfl (Or.inr ⟨_, List.mem_cons_self, rfl, rfl⟩) (by decide)

/-- **C140, negation.**  So does a query field that is added by `@addField`. -/
theorem C140_violated_by_added :
    let fs : List CField := [⟨"user".toList, none, false, [.plain 0]⟩, ⟨"_service".toList, none, false, [.service]⟩]
    let b : Blueprint := onlyQuery [{ plainField "user" (nm "User") with res := some (.plain 0) }, plainField "_service" (nn "_Service"),
      { plainField "name" (nm "String") with res := some (.plain 1) }]
    let c : Config := ⟨true, [("Query".toList, seenFields fs)]⟩
    (∃ es, update chars next c b = .error es ∧ Err.fieldNotFound "name".toList ∈ es) ∧
      update chars next { c with federation := false } b = .ok b := by
  intro fs b c
  exact C140_refuses chars next c b [⟨"user".toList, none, false, [.plain 0]⟩, ⟨"_service".toList, none, false, [.service]⟩] ["name".toList] rfl
    List.mem_cons_self rfl (Or.inl List.mem_cons_self) (by decide)

end Verif.Service
