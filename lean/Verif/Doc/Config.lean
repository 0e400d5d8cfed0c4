import Verif.Doc.Nulls
import Verif.Sdl.Props
import Verif.Sdl.Reading

/-!
# A configuration in a file

The configuration is written as a document, the document as text, and both are read back.
-/

namespace Verif.Doc

open Verif.Mustache (Text)
open Verif.Merge (get)
open Verif.Sdl (V Dir TypeDef SchemaDef Def Config Server Upstream Telemetry toDoc fromDoc collect typeDefs findSchema ofType ofUnion ofEnum
  build build_id read_doc read_all get_perm schemaDef)

set_option linter.unusedSimpArgs false

theorem collect_perm {α β : Type} {f : α → Option (Option β)} {l l' : List α} (h : l.Perm l') :
    ∀ {r : List β}, collect f l = some r → ∃ r', collect f l' = some r' ∧ r'.Perm r := by
  induction h with
  | nil => intro r hr; exact ⟨r, hr, List.Perm.refl r⟩
  | cons x _ ih =>
    intro r hr
    rcases Verif.Sdl.collect_cons hr with ⟨y, r', h1, h2, rfl⟩ | ⟨h1, h2⟩
    · obtain ⟨s, h3, h4⟩ := ih h2
      exact ⟨y :: s, by simp only [collect, h1, h3], h4.cons y⟩
    · obtain ⟨s, h3, h4⟩ := ih h2
      exact ⟨s, by simp only [collect, h1, h3], h4⟩
  | swap x y l =>
    intro r hr
    rcases Verif.Sdl.collect_cons hr with ⟨a, r1, h1, h2, rfl⟩ | ⟨h1, h2⟩
    · rcases Verif.Sdl.collect_cons h2 with ⟨b, r2, h3, h4, rfl⟩ | ⟨h3, h4⟩
      · exact ⟨b :: a :: r2, by simp only [collect, h1, h3, h4], List.Perm.swap a b r2⟩
      · exact ⟨a :: r1, by simp only [collect, h1, h3, h4], List.Perm.refl _⟩
    · rcases Verif.Sdl.collect_cons h2 with ⟨b, r2, h3, h4, rfl⟩ | ⟨h3, h4⟩
      · exact ⟨b :: r2, by simp only [collect, h1, h3, h4], List.Perm.refl _⟩
      · exact ⟨r, by simp only [collect, h1, h3, h4], List.Perm.refl _⟩
  | trans _ _ ih1 ih2 =>
    intro r hr
    obtain ⟨s, h1, h2⟩ := ih1 hr
    obtain ⟨u, h3, h4⟩ := ih2 h1
    exact ⟨u, h3, h4.trans h2⟩

/-- The same settings and the same types, unions and enums under each name. -/
def Same (a b : Config) : Prop :=
  a.server = b.server ∧ a.upstream = b.upstream ∧ a.schema = b.schema ∧ a.links = b.links ∧ a.telemetry = b.telemetry ∧
    (∀ n, get n a.types = get n b.types) ∧ (∀ n, get n a.unions = get n b.unions) ∧ ∀ n, get n a.enums = get n b.enums

/-- The configuration that is read from a text. -/
def load (t : Text) : Option Config := (readText t).bind fromDoc

/-- **C134 (partial).**  A configuration that is written to a file and read from it is the same, up to the default of `verifySSL`, if
all its parts are written (`Config.Ok`), all parts of the document but null arguments are printed (`GoodDef`), and null arguments
are only where they mean the same as a missing argument (`SparseDef`).  Missing: the other configurations, see below and at C89
and C132. -/
theorem C134_file_partial (seg : Text → List Text) (hs : Whole seg) {inputs : Text → Bool} {c : Config} (h : c.Ok inputs)
    (hg : ∀ x ∈ toDoc inputs c, GoodDef (unNullDef x)) (hn : ∀ x ∈ toDoc inputs c, SparseDef x) :
    ∃ c', load (print seg (toDoc inputs c)) = some c' ∧
      Same c' { c with upstream := { c.upstream with verifySsl := some (c.upstream.verifySsl.getD true) } } := by
  rw [← print_unNull]
  have hg' : ∀ x ∈ (toDoc inputs c).map unNullDef, GoodDef x := by
    intro x hx
    obtain ⟨y, hy, rfl⟩ := List.mem_map.mp hx
    exact hg y hy
  have hd := fromDoc_unNull hn (read_doc h)
  obtain ⟨t1, t2, t3⟩ := read_all h
  have ht : ∀ t ∈ typeDefs (toDoc inputs c), SparseDef (.type t) := fun t ht => hn _ (Verif.Sdl.mem_typeDefs.mp ht)
  replace t1 := collect_via (g := unNullType) (fun t ht' r hr => type_unNull (ht t ht') hr) t1
  replace t2 := collect_via (g := unNullType) (fun t _ r hr => by rw [union_unNull]; exact hr) t2
  replace t3 := collect_via (g := unNullType) (fun t ht' r hr => enum_unNull (ht t ht') hr) t3
  rw [← typeDefs_unNull] at t1 t2 t3
  have hsch : findSchema (inOrder ((toDoc inputs c).map unNullDef)) = findSchema ((toDoc inputs c).map unNullDef) := by
    unfold inOrder toDoc
    simp only [List.map_cons, List.flatMap_cons, List.filter_cons, schemaDef, unNullDef, rank, beq_self_eq_true, if_true, List.cons_append]
    rfl
  generalize (toDoc inputs c).map unNullDef = doc at *
  have hread := print_reads seg hs doc hg'
  obtain ⟨l, hl, hp, _⟩ := C132_text_partial seg hs doc hg'
  rw [hread] at hl
  cases hl
  have htd : (typeDefs doc).Perm (typeDefs (inOrder doc)) := hp.symm.filterMap _
  obtain ⟨ts, a1, b1⟩ := collect_perm htd t1
  obtain ⟨us, a2, b2⟩ := collect_perm htd t2
  obtain ⟨es, a3, b3⟩ := collect_perm htd t3
  unfold fromDoc at hd
  rw [t1, t2, t3] at hd
  have n1 : (ts.map (·.1)).Nodup := ((b1.map (·.1)).nodup_iff).mpr h.typeKeys
  have n2 : (us.map (·.1)).Nodup := ((b2.map (·.1)).nodup_iff).mpr h.unionKeys
  have n3 : (es.map (·.1)).Nodup := ((b3.map (·.1)).nodup_iff).mpr h.enumKeys
  unfold load
  rw [hread, Option.bind_some]
  unfold fromDoc
  rw [a1, a2, a3, hsch]
  generalize findSchema doc = sd at hd
  simp only [Option.bind_eq_bind, Option.bind_eq_some_iff, Option.pure_def, Option.some.injEq] at hd ⊢
  obtain ⟨s, e1, u, e2, _, rfl, _, rfl, _, rfl, ls, e3, te, e4, e5⟩ := hd
  refine ⟨_, ⟨s, e1, u, e2, _, rfl, _, rfl, _, rfl, ls, e3, te, e4, rfl⟩, ?_⟩
  rw [← e5]
  refine ⟨rfl, rfl, rfl, rfl, rfl, fun n => ?_, fun n => ?_, fun n => ?_⟩
  · simp only [build_id n1, build_id h.typeKeys]
    exact get_perm b1 n n1
  · simp only [build_id n2, build_id h.unionKeys]
    exact get_perm b2 n n2
  · simp only [build_id n3, build_id h.enumKeys]
    exact get_perm b3 n n3

/-! ## A case -/

open Verif.Sdl (demo demoInputs demo_ok CType Field Arg obj plain get1 one)

/-- The configuration of C89 without what is lost in a file: the description of an argument and `@expr(body: null)`. -/
def demoFile : Config :=
  { demo with
    types := (t! "Query", obj [(t! "users", ⟨.list (.named (t! "User") true) false,
        [(t! "id", ⟨.named (t! "Int") false, none, none, some (.int 1)⟩), (t! "f", ⟨.named (t! "Filter") false, none, none, none⟩)],
        some (t! "doc"), none, none, some ⟨⟨60, by decide⟩⟩, none, some ⟨none⟩, none,
        [.http { get1 (t! "http://a.b/c") with method := .post, body := some (.obj [(t! "k", .str (t! "v"))]), batchKey := [t! "id"] }],
        [⟨t! "shareable", []⟩]⟩)]) :: demo.types.tail }

theorem demoFile_ok : demoFile.Ok demoInputs := by
  have hd := demo_ok
  refine ⟨hd.jit, hd.headers, hd.allowed, hd.batch, by decide, hd.unionKeys, hd.enumKeys, ?_, hd.unions, hd.enums, hd.links, hd.telemetry⟩
  intro p hp
  have hq : ∀ n, (∃ t ∈ demoFile.types, n ∈ t.2.impl) ↔ ∃ t ∈ demo.types, n ∈ t.2.impl := by
    intro n
    have e : demoFile.types.map (fun t => t.2.impl) = demo.types.map (fun t => t.2.impl) := rfl
    have key : ∀ l : List (Text × CType), (∃ t ∈ l, n ∈ t.2.impl) ↔ ∃ i ∈ l.map (fun t => t.2.impl), n ∈ i := by
      intro l
      constructor
      · rintro ⟨t, h1, h2⟩
        exact ⟨_, List.mem_map_of_mem h1, h2⟩
      · rintro ⟨i, h1, h2⟩
        obtain ⟨t, h3, rfl⟩ := List.mem_map.mp h1
        exact ⟨t, h3, h2⟩
    rw [key, key, e]
  rw [show (∃ t ∈ demoFile.types, p.1 ∈ t.2.impl) = (∃ t ∈ demo.types, p.1 ∈ t.2.impl) from propext (hq p.1)]
  rcases List.mem_cons.mp hp with rfl | hp
  · refine ⟨by decide, ?_, ?_, ?_, ?_, ?_, ?_⟩
    · rintro p hp
      simp only [obj, List.mem_cons, List.not_mem_nil, or_false] at hp
      subst hp
      refine ⟨?_, ?_, rfl⟩
      · simp [Verif.Sdl.Resolver.Ok, get1]
      · simp [Verif.Sdl.Directive.Ok, Verif.Sdl.apollo, t!]
    · simp [obj]
    · simp [demo, obj, CType.dflt, t!, Verif.Sdl.t!]
    · simp [obj, Verif.Sdl.ArgsOk, t!]
      rintro _ _ _ b (⟨_, rfl⟩ | ⟨_, rfl⟩) <;> rfl
    · intro _ h
      exact absurd h (by decide)
    · simp [obj]
  · exact hd.types p (List.mem_of_mem_tail hp)

theorem demoFile_good : ∀ x ∈ toDoc demoInputs demoFile, GoodDef (unNullDef x) := by decide +kernel

theorem demoFile_sparse : ∀ x ∈ toDoc demoInputs demoFile, SparseDef x := by decide +kernel

example : ∃ c', load (print chars (toDoc demoInputs demoFile)) = some c' ∧ Same c' demoFile :=
  C134_file_partial chars chars_whole demoFile_ok demoFile_good demoFile_sparse

/-- **C134, negation.**  The description of an argument is lost in the file, though it is in the document. -/
theorem C134_file_violated_by_argument_description :
    let c := one (t! "A") (obj [(t! "x", { plain (.named (t! "Int") false) with args := [(t! "n", ⟨.named (t! "Int") true, some (t! "d"), none, none⟩)] })])
    ((fromDoc (toDoc (fun _ => false) c)).bind (fun c => get (t! "A") c.types)).map (fun t => t.fields.map (fun f => f.2.args.map (fun a => a.2.doc))) =
      some [[some (t! "d")]] ∧
    ((load (print chars (toDoc (fun _ => false) c))).bind (fun c => get (t! "A") c.types)).map
      (fun t => t.fields.map (fun f => f.2.args.map (fun a => a.2.doc))) = some [[none]] := by
  decide +kernel

/-- **C134, negation.**  A field that is always `null` is written as `@expr` without a body, which cannot be read. -/
theorem C134_file_violated_by_null :
    let c := one (t! "A") (obj [(t! "x", { plain (.named (t! "Int") false) with resolvers := [.expr ⟨.null⟩] })])
    (fromDoc (toDoc (fun _ => false) c)).isSome = true ∧ (load (print chars (toDoc (fun _ => false) c))).isSome = false := by
  decide +kernel

/-- **C134, negation.**  Without a query all settings of the server and of upstream are lost in the file. -/
theorem C134_file_violated_by_no_query :
    let c : Config := { one (t! "A") (obj [(t! "x", plain (.named (t! "Int") false))]) with
      schema := ⟨none, none, none⟩, server := { Server.dflt with port := some 8080 } }
    (fromDoc (toDoc (fun _ => false) c)).map (fun c => c.server.port) = some (some 8080) ∧
    (load (print chars (toDoc (fun _ => false) c))).map (fun c => c.server.port) = some none := by
  decide +kernel

/-- **C134, negation.**  A field of an input type that is renamed and has a default value makes the file unreadable. -/
theorem C134_file_violated_by_default :
    let c := one (t! "A") (obj [(t! "x", { plain (.named (t! "Int") false) with modify := some ⟨some (t! "y"), none⟩, dflt := some (.int 1) })])
    (fromDoc (toDoc (fun n => n == t! "A") c)).isSome = true ∧ (load (print chars (toDoc (fun n => n == t! "A") c))).isSome = false := by
  decide +kernel

end Verif.Doc
