import Verif.Doc.Props

/-!
# Concrete cases
-/

namespace Verif.Doc

open Verif.Mustache (Text)
open Verif.Sdl (V GTy Dir InDef FieldDef ValDef Kind TypeDef SchemaDef Def)

/-- Every character a grapheme. -/
def chars (t : Text) : List Text := t.map ([·])

theorem chars_whole : Whole chars := by
  intro t
  induction t with
  | nil => rfl
  | cons c t ih =>
    unfold chars at ih ⊢
    simp only [List.map_cons, List.flatten_cons, ih, List.singleton_append]

theorem chars_clean (t : Text) : Clean (chars t) := by
  intro g hg hw c hc
  obtain ⟨x, _, rfl⟩ := List.mem_map.mp hg
  rw [List.mem_singleton.mp hc]
  simpa using hw

instance (d : Text) : Decidable (Plain d) := by unfold Plain; infer_instance
instance (d : Text) : Decidable (Short d) := by unfold Short; infer_instance
instance (d : Dir) : Decidable (GoodDir d) := by unfold GoodDir; infer_instance
instance (ds : List Dir) : Decidable (GoodDirs ds) := by unfold GoodDirs; infer_instance
/-- Deciding `GoodTy`. -/
def decGoodTy : (t : GTy) → Decidable (GoodTy t)
  | .named n _ => inferInstanceAs (Decidable (Verif.Gql.isName n = true))
  | .list t _ => decGoodTy t
instance (t : GTy) : Decidable (GoodTy t) := decGoodTy t
instance (f : InDef) : Decidable (GoodArg f) := by unfold GoodArg; infer_instance
instance (f : InDef) : Decidable (GoodIn f) := by unfold GoodIn; infer_instance
instance (f : FieldDef) : Decidable (GoodField f) := by unfold GoodField; infer_instance
instance (f : ValDef) : Decidable (GoodVal f) := by unfold GoodVal; infer_instance
instance (x : Def) : Decidable (GoodDef x) := by
  cases x with
  | directive => exact isFalse (by simp [GoodDef])
  | schema s => unfold GoodDef; infer_instance
  | type t =>
    obtain ⟨ext, doc, name, dirs, kind⟩ := t
    cases kind <;> (unfold GoodDef; infer_instance)

/-- A type that may be null. -/
def nm (s : String) : GTy := .named (t! s) true

/-- A type that may not be null. -/
def nn (s : String) : GTy := .named (t! s) false

/-- A schema with all kinds of definitions. -/
def shop : List Def :=
  [.type ⟨false, some (t! "What is asked"), t! "Query", [⟨t! "cache", [(t! "maxAge", .int 100)]⟩],
      .object [] [
        ⟨t! "items", none, [⟨t! "limit", none, nm "Int", some (.int (-10)), []⟩, ⟨t! "filter", none, nm "Filter", none, []⟩],
          .list (nn "Item") false, [⟨t! "http", [(t! "url", .str (t! "http://x/\"items\"")),
            (t! "query", .arr [.obj [(t! "key", .str (t! "limit")), (t! "value", .str (t! "{{.args.limit}}"))]]),
            (t! "dedupe", .bool true)]⟩]⟩,
        ⟨t! "now", some (t! "The \"time\" now"), [], nn "Date", [⟨t! "expr", [(t! "body", .float (t! "1.5"))]⟩, ⟨t! "protected", []⟩]⟩]⟩,
    .type ⟨false, none, t! "Color", [], .enum [⟨t! "RED", some (t! "not green"), []⟩, ⟨t! "GREEN", none, [⟨t! "alias", [(t! "options", .arr [.str (t! "G"), .str []])]⟩]⟩]⟩,
    .schema ⟨false, [⟨t! "server", [(t! "port", .int 8000)]⟩], some (t! "Query"), none, some (t! "Sub")⟩,
    .type ⟨false, none, t! "Any", [], .union [t! "Query", t! "Item"]⟩,
    .type ⟨false, some (t! "A day"), t! "Date", [], .scalar⟩,
    .type ⟨false, some []  , t! "Filter", [], .input [⟨t! "color", some (t! "its color"), nm "Color", some (.enum (t! "RED")), []⟩,
      ⟨t! "ids", none, .list (.list (nn "Int") true) false, none, [⟨t! "d", []⟩]⟩]⟩,
    .type ⟨false, none, t! "Node", [], .iface [] [⟨t! "id", none, [], nn "ID", []⟩]⟩,
    .type ⟨false, none, t! "Item", [], .object [t! "Node", t! "Thing"] [⟨t! "id", none, [], nn "ID", []⟩]⟩]

theorem shop_good : ∀ x ∈ shop, GoodDef x := by decide +kernel

example : SaysAll (print chars shop) shop := C132_text_partial chars chars_whole shop shop_good

/-- The text of one of the definitions. -/
example : print chars [.type ⟨false, some (t! "A day"), t! "Date", [], .scalar⟩, .schema ⟨false, [⟨t! "server", [(t! "port", .int 8000)]⟩], some (t! "Query"), none, none⟩] =
    t! "schema @server(port: 8000) {\n  query: Query\n}\n\n\"\"\"\nA day\n\"\"\"\nscalar Date" := by decide +kernel

/-- A description of more than eighty bytes. -/
def long : Text :=
  t! "The colors in which an item is sold: those of the catalogue, and in the summer also some others that are not in it"

example : ∃ s, IsDesc (fmtDocs chars 2 (some long)) s ∧ words s = words long :=
  C133_words_partial chars chars_whole 2 long (by decide +kernel) (by decide +kernel) (fun u _ => chars_clean u)

example : breakLines chars 80 long.length long =
    [t! "The colors in which an item is sold: those of the catalogue, and in the summer also ", t! "some others that are not in it"] := by
  decide +kernel

example : ∃ s, IsDesc (rawDocs 2 (some (t! "one\n  two\nthree"))) s ∧ words s = words (t! "one\n  two\nthree") :=
  C133_words_raw 2 (t! "one\n  two\nthree") (by decide)

example : words (t! "one\n  two\nthree") = [t! "one", t! "two", t! "three"] := rfl

example : (breakLines chars 5 9 (t! "ab cd efg")).flatten = t! "ab cd efg" := C133_lines chars chars_whole 5 (t! "ab cd efg")

example : breakLines chars 5 9 (t! "ab cd efg") = [t! "ab cd ", t! "efg"] := rfl

/-- A long word goes beyond the limit. -/
example : nextLine chars 5 (t! "a longword b") = t! "a longword " := rfl

example : ∃ a b w, nextLine chars 5 (t! "a longword b") = a ++ (b ++ w) ∧ byteLen a ≤ 5 ∧ (∀ c ∈ b, white c = false) ∧
    (w = [] ∧ nextLine chars 5 (t! "a longword b") = t! "a longword b" ∨
      w ∈ chars (t! "a longword b") ∧ w.any white = true ∧ 5 < byteLen (nextLine chars 5 (t! "a longword b"))) :=
  C133_width chars chars_whole 5 (t! "a longword b")

end Verif.Doc
