import Verif.Gql.Asks
import Verif.Gql.Sent

/-!
# Properties of the selection sets sent to GraphQL upstreams
-/

namespace Verif.Gql

open Verif.Mustache (Text)
open Verif.HttpUrl (intText boolText joinWith)
open Verif.HttpKey (escape GqlTemplate GCtx renderQuery bodyQuery intendedQuery Spells PlainChar GoodValue renderG
  C61_body_is_json_partial spells_plain)
open Verif.Exec (Ty)
open Verif.Input (QVal)
open Verif.Ir (IR Io)

set_option linter.unusedSimpArgs false

/-! ## C80: the upstream is asked for what the client wants from it -/

/-- C80, the part that holds.  For every selection on an object or interface type: either the client wants
nothing of this upstream and there is no text, or the text is, inside a JSON string, a spelling of a
selection set that asks for exactly the fields wanted — names, arguments, directives and type
conditions — whatever the order in which the fragments are put.

Missing from the full statement: variables in arguments and directives, cached and discriminated fields,
renamed fields inside of another resolver, unions, strings with `{{`, apostrophes or non-ASCII characters;
see the violations below. -/
theorem C80_asked_partial (kind : Text → Kind) (vars : Text → SVal) (ord : List Text → List Text)
    (hord : ∀ l, (ord l).Perm l) (ty : Text) (sub : List GField) (hu : kind ty ≠ .union)
    (h : goodFs safeS kind sub = true) :
    (selText escape ord (isIface kind) (isIface kind ty) sub = none ∧
      ∀ p, ¬ Wants kind vars (kind ty).abstract sub p) ∨
    ∃ lit plain doc, selText escape ord (isIface kind) (isIface kind ty) sub = some lit ∧
      Spells lit plain ∧ calm lit = true ∧ 2 ≤ lit.length ∧
      readSet plain = some doc ∧ ∀ p, At doc p ↔ Wants kind vars (kind ty).abstract sub p := by
  have hord' : ∀ l k, k ∈ ord l ↔ k ∈ l := fun l k => (hord l).mem_iff
  have hr : goodFs readableS kind sub = true := goodFs_mono (fun s => readable_of_safe) kind sub h
  have hasks := asks_iff vars hord' kind safeS (isIface kind ty) sub (goodFs_mem h)
    (asks_fields vars hord' kind safeS sub h)
  rw [abstract_eq hu]
  have hsc := sc_items (fun l k => (hord' l k).mp) (ifs := isIface kind) (isIface kind ty) sub (goodFs_mem h)
    (sc_fields (fun l k => (hord' l k).mp) (isIface kind) kind sub h)
  have hlex := lex_items (vars := vars) (fun l k => (hord' l k).mp) (ifs := isIface kind) (isIface kind ty) sub
    (goodFs_mem hr) (lex_fields vars hord' (isIface kind) kind sub hr)
  unfold selText
  rcases hlex with ⟨he, ha⟩ | ⟨he, t, ha, ht⟩
  · left
    rcases hsc with ⟨h1, _⟩ | ⟨_, _, _, h2, _⟩
    · refine ⟨h1, fun p hp => ?_⟩
      have : docItems vars ord (isIface kind) sub = [] := by
        rw [items_eq, List.map_eq_nil_iff] at he
        rw [docItems_eq, he]
        rfl
      have := (hasks p).mpr hp
      rw [‹docItems vars ord (isIface kind) sub = []›] at this
      simp [assembleDoc] at this
      exact at_nil p this
    · rw [h2] at ha; simp at ha
  · right
    rcases hsc with ⟨_, h1⟩ | ⟨lit, plain, h1, h2, h3, h4⟩
    · rw [h1] at ha; simp at ha
    · rw [h2] at ha
      obtain rfl := Option.some.inj ha
      refine ⟨lit, plain, _, h1, h3.1, h3.2, h4, readSet_of (noDots_assemble _ ?_) ht, hasks⟩
      intro x hx
      rw [docItems_eq] at hx
      obtain ⟨g, hg, rfl⟩ := List.mem_map.mp hx
      rw [List.mem_filter, Bool.not_eq_true'] at hg
      exact noDots_fields vars ord (isIface kind) kind safeS sub h g hg.1 hg.2

/-- C80 for the request: the body holds the configured operation with a selection set that asks for
exactly the fields wanted.  The three conditions on the template are those of C61. -/
theorem C80_sent_partial (kind : Text → Kind) (vars : Text → SVal) (ord : List Text → List Text)
    (hord : ∀ l, (ord l).Perm l) (ty : Text) (sub : List GField) (hu : kind ty ≠ .union)
    (h : goodFs safeS kind sub = true) (given : Text → Option Text) (t : GqlTemplate) (ctx : GCtx)
    (h1 : ∀ c ∈ t.opType ++ t.opName, PlainChar c)
    (h2 : ∀ kv ∈ t.args.getD [], (∀ c ∈ kv.1, PlainChar c) ∧ GoodValue (renderG kv.2 ctx.gql))
    (h3 : GoodValue (ctx.directives.getD []))
    (hsome : ∃ p, Wants kind vars (kind ty).abstract sub p) :
    ∃ plain doc,
      bodyQuery (renderQuery
        (withSelection t given (selText escape ord (isIface kind) (isIface kind ty) sub)) ctx) =
        some (intendedQuery t ctx plain) ∧
      readSet plain = some doc ∧ ∀ p, At doc p ↔ Wants kind vars (kind ty).abstract sub p := by
  rcases C80_asked_partial kind vars ord hord ty sub hu h with ⟨_, hn⟩ | ⟨lit, plain, doc, ht, hs, hc, hl, hr, hd⟩
  · obtain ⟨p, hp⟩ := hsome
    exact absurd hp (hn p)
  · refine ⟨plain, doc, ?_, hr, hd⟩
    rw [ht]
    simp only [withSelection, resolved_calm hc hl]
    exact C61_body_is_json_partial { t with fixedSelection := some lit } ctx plain h1 h2 h3 (by simpa using hs)

/-! ### A case that meets the hypotheses -/

/-- A field of a named type. -/
def fld (name ty : String) (ir : Option IR) (args : List GArg) (sub : List GField) : GField :=
  .mk name.toList name.toList ir (.named ty.toList false) none args [] sub

/-- The same in a fragment. -/
def fldOn (on name ty : String) (sub : List GField) : GField :=
  .mk name.toList name.toList (some (.ctxPath [name.toList])) (.named ty.toList false) (some on.toList) [] [] sub

/-- A field that comes from the parent's value. -/
def plainF (name ty : String) (sub : List GField) : GField :=
  fld name ty (some (.ctxPath [name.toList])) [] sub

/-- `Node` is an interface, `Media` a union. -/
def kinds (t : Text) : Kind :=
  if t = "Node".toList then .interface else if t = "Media".toList then .union else .plain

/-- A renamed field, arguments with an escape, a directive, a field with its own resolver and an interface
with two fragments. -/
def sample : List GField :=
  [.mk "title".toList "title".toList (some (.ctxPath ["name".toList])) (.named "String".toList false) none
     [⟨"lang".toList, some (.str "e\"n".toList)⟩, ⟨"n".toList, some (.list [.int (-3), .enum "UP".toList])⟩]
     [⟨"upper".toList, [("on".toList, .bool true)]⟩] [],
   fld "weather" "String" (some (.io ⟨1, false, false⟩)) [] [],
   plainF "near" "Node" [plainF "id" "ID" [], fldOn "User" "email" "String" [], fldOn "Post" "body" "String" [],
     fldOn "User" "boss" "User" [plainF "id" "ID" []]]]

example : selText id id (isIface kinds) (isIface kinds "User".toList) sample = some
    ("{ name(lang: \"e\\\"n\",n: [-3,UP]) @upper(on: true) near { id __typename ... on User { email boss { id } } " ++
     "... on Post { body } } }").toList := by
  set_option maxRecDepth 4000 in rfl

example : ∃ lit plain doc, selText escape List.reverse (isIface kinds) (isIface kinds "User".toList) sample = some lit ∧
    Spells lit plain ∧ readSet plain = some doc ∧
    At doc [⟨[], "near".toList, [], []⟩, ⟨["User".toList], "boss".toList, [], []⟩, ⟨[], "id".toList, [], []⟩] := by
  rcases C80_asked_partial kinds (fun _ => .word []) List.reverse (fun l => List.reverse_perm l) "User".toList sample
    (by decide) (by decide) with ⟨h, _⟩ | ⟨lit, plain, doc, h1, h2, _, _, h3, h4⟩
  · have : (selText escape List.reverse (isIface kinds) (isIface kinds "User".toList) sample).isSome = true := by rfl
    rw [h] at this
    simp at this
  · refine ⟨lit, plain, doc, h1, h2, h3, (h4 _).mpr ?_⟩
    have hn : plainF "near" "Node" [plainF "id" "ID" [], fldOn "User" "email" "String" [],
      fldOn "Post" "body" "String" [], fldOn "User" "boss" "User" [plainF "id" "ID" []]] ∈ sample :=
      List.mem_cons_of_mem _ (List.mem_cons_of_mem _ List.mem_cons_self)
    refine Wants.deep hn (by decide) ?_
    refine Wants.deep (List.mem_cons_of_mem _ (List.mem_cons_of_mem _ (List.mem_cons_of_mem _ List.mem_cons_self)))
      (by decide) ?_
    exact Wants.here List.mem_cons_self (by decide)

example : ∃ plain doc, bodyQuery (renderQuery (withSelection (Verif.HttpKey.gqlT "http://a" []) (fun _ => some "x".toList)
      (selText escape id (isIface kinds) (isIface kinds "User".toList) sample)) (Verif.HttpKey.gctx "1" [])) =
      some (intendedQuery (Verif.HttpKey.gqlT "http://a" []) (Verif.HttpKey.gctx "1" []) plain) ∧
    readSet plain = some doc ∧
    ∀ p, At doc p ↔ Wants kinds (fun _ => .word []) (kinds "User".toList).abstract sample p :=
  C80_sent_partial kinds (fun _ => .word []) id (fun l => List.Perm.refl l) "User".toList sample (by decide) (by decide)
    (fun _ => some "x".toList) _ _ (by decide) (by unfold GoodValue; decide) (by unfold GoodValue; decide)
    ⟨_, Wants.here List.mem_cons_self rfl⟩

/-! ### Violations -/

/-- The text for a selection on a plain type, before the variables are put in. -/
def asked (sub : List GField) : Option Text := selText escape id (isIface kinds) false sub

/-- The document that the upstream reads. -/
def document (sub : List GField) : Option (List Sel) := (selText id id (isIface kinds) false sub).bind readSet

theorem wants_head {kind : Text → Kind} {vars : Text → SVal} {abs : Bool} {sel : List GField} {p : List Step}
    (h : Wants kind vars abs sel p) :
    abs = true ∨ ∃ f ∈ sel, ∃ n, neededName f = some n ∧ p.head? = some (stepOf vars abs n f) := by
  cases h with
  | here hf hn => exact Or.inr ⟨_, hf, _, hn, rfl⟩
  | deep hf hn _ => exact Or.inr ⟨_, hf, _, hn, rfl⟩
  | typename => exact Or.inl rfl

theorem at_plain {d : List Sel} {s : Step} {p : List Step} (h : At d (s :: p)) :
    (∃ t sub, Sel.frag t sub ∈ d) ∨
    ∃ sub, Sel.field s.name s.args s.dirs sub ∈ d ∧ s.conds = [] ∧ (p = [] ∨ At sub p) := by
  generalize hq : s :: p = q at h
  cases h with
  | here hf =>
    obtain ⟨rfl, rfl⟩ := List.cons.inj hq
    exact Or.inr ⟨_, hf, rfl, Or.inl rfl⟩
  | deep hf hw =>
    obtain ⟨rfl, rfl⟩ := List.cons.inj hq
    exact Or.inr ⟨_, hf, rfl, Or.inr hw⟩
  | frag hf _ => exact Or.inl ⟨_, _, hf⟩

/-- A field with a cached resolver of its own is asked of the parent's upstream. -/
theorem C80_violated_by_cache :
    ∃ (sub : List GField) (doc : List Sel) (p : List Step), document sub = some doc ∧ At doc p ∧
      ∀ vars, ¬ Wants kinds vars false sub p := by
  refine ⟨[plainF "name" "String" [], fld "weather" "String" (some (.cache 60 ⟨1, false, false⟩)) [] []],
    [.field "name".toList [] [] [], .field "weather".toList [] [] []], [⟨[], "weather".toList, [], []⟩], by rfl,
    At.here (List.mem_cons_of_mem _ List.mem_cons_self), ?_⟩
  intro vars h
  rcases wants_head h with h | ⟨f, hf, n, hn, he⟩
  · simp at h
  · simp only [List.mem_cons, List.not_mem_nil, or_false] at hf
    rcases hf with rfl | rfl
    · obtain rfl := Option.some.inj hn
      have := congrArg (fun o : Option Step => o.map (·.name)) he
      exact absurd this (by simp [stepOf])
    · simp [neededName, fld, GField.ir, fromParent] at hn

/-- A field of an interface type with a resolver of its own is asked of the parent's upstream. -/
theorem C80_violated_by_interface_resolver :
    ∃ (sub : List GField) (doc : List Sel) (p : List Step), document sub = some doc ∧ At doc p ∧
      ∀ vars, ¬ Wants kinds vars false sub p := by
  refine ⟨[fld "near" "Node" (some (.discriminate (.keyed []) (.io ⟨1, false, false⟩))) [] [plainF "id" "ID" []]],
    [.field "near".toList [] [] [.field "id".toList [] [] [], .field "__typename".toList [] [] []]],
    [⟨[], "near".toList, [], []⟩], by rfl, At.here List.mem_cons_self, ?_⟩
  intro vars h
  rcases wants_head h with h | ⟨f, hf, n, hn, _⟩
  · simp at h
  · simp only [List.mem_cons, List.not_mem_nil, or_false] at hf
    subst hf
    simp [neededName, fld, GField.ir, fromParent] at hn

/-- A renamed field of an interface type is asked for by its new name. -/
theorem C80_violated_by_renamed_interface :
    ∃ (sub : List GField) (doc : List Sel) (p : List Step), document sub = some doc ∧
      (∀ vars, Wants kinds vars false sub p) ∧ ¬ At doc p := by
  refine ⟨[fld "close" "Node" (some (.discriminate (.keyed []) (.ctxPath ["near".toList]))) [] [plainF "id" "ID" []]],
    [.field "close".toList [] [] [.field "id".toList [] [] [], .field "__typename".toList [] [] []]],
    [⟨[], "near".toList, [], []⟩], by rfl, fun vars => ?_, ?_⟩
  · exact Wants.here (f := fld "close" "Node" (some (.discriminate (.keyed []) (.ctxPath ["near".toList]))) []
      [plainF "id" "ID" []]) (n := "near".toList) List.mem_cons_self rfl
  · intro h
    cases h with
    | here hf => simp at hf
    | deep hf hw => simp at hf

/-- An argument given by a variable is sent as the variable, which the request does not declare, instead
of its value. -/
theorem C80_violated_by_variable_argument :
    ∃ (sub : List GField) (doc : List Sel) (p : List Step) (vars : Text → SVal), document sub = some doc ∧
      asked sub = some "{ posts(limit: $n) }".toList ∧
      (∀ given, resolved given "{ posts(limit: $n) }".toList = "{ posts(limit: $n) }".toList) ∧
      Wants kinds vars false sub p ∧ ¬ At doc p := by
  refine ⟨[fld "posts" "Post" (some (.ctxPath ["posts".toList])) [⟨"limit".toList, some (.var "n".toList)⟩] []],
    [.field "posts".toList [("limit".toList, .var "n".toList)] [] []],
    [⟨[], "posts".toList, [("limit".toList, .word ['3'])], []⟩], fun _ => .word ['3'], by rfl, by rfl,
    fun given => resolved_calm (by decide) (by decide) given, ?_, ?_⟩
  · exact Wants.here List.mem_cons_self rfl
  · intro h
    cases h with
    | here hf => simp at hf
    | deep hf hw => simp at hf

/-- A string of the client with `{{x}}` is changed by the variable `x`. -/
theorem C80_violated_by_mustache_string :
    ∃ (sub : List GField) (t : Text) (given : Text → Option Text), asked sub = some t ∧
      t = "{ find(text: \\\"{{x}}\\\") }".toList ∧ resolved given t = "{ find(text: \\\"1\\\") }".toList := by
  refine ⟨[fld "find" "Post" (some (.ctxPath ["find".toList])) [⟨"text".toList, some (.str "{{x}}".toList)⟩] []], _,
    fun n => if n = ['x'] then some ['1'] else none, by rfl, by rfl, by decide⟩

/-- A string variable in a directive is put in without escaping: the body is not JSON. -/
theorem C80_violated_by_variable_directive :
    ∃ (sub : List GField) (given : Text → Option Text),
      bodyQuery (renderQuery (withSelection (Verif.HttpKey.gqlT "http://a" []) given (asked sub))
        (Verif.HttpKey.gctx "1" [])) = none := by
  refine ⟨[.mk "name".toList "name".toList none (.named "String".toList false) none []
      [⟨"case".toList, [("to".toList, .var ['x'])]⟩] []],
    fun n => if n = ['x'] then some "\"up\"".toList else none, by decide⟩

/-- On a union the conditions of the fragments and `__typename` are not sent. -/
theorem C80_violated_by_union :
    ∃ (sub : List GField) (doc : List Sel) (p q : List Step), document sub = some doc ∧
      (∀ vars, Wants kinds vars false sub p ∧ Wants kinds vars false sub q) ∧ ¬ At doc p ∧ ¬ At doc q := by
  refine ⟨[plainF "media" "Media" [fldOn "Song" "length" "Int" [], fldOn "Book" "pages" "Int" []]],
    [.field "media".toList [] [] [.field "length".toList [] [] [], .field "pages".toList [] [] []]],
    [⟨[], "media".toList, [], []⟩, ⟨["Song".toList], "length".toList, [], []⟩],
    [⟨[], "media".toList, [], []⟩, ⟨[], "__typename".toList, [], []⟩], by rfl, fun vars => ⟨?_, ?_⟩, ?_, ?_⟩
  · refine Wants.deep List.mem_cons_self (n := "media".toList) rfl ?_
    exact Wants.here (abs := true) (f := fldOn "Song" "length" "Int" []) (n := "length".toList)
      List.mem_cons_self rfl
  · refine Wants.deep List.mem_cons_self (n := "media".toList) rfl ?_
    refine Wants.typename (f := fldOn "Song" "length" "Int" []) (n := "length".toList) List.mem_cons_self rfl ?_
    intro g hg
    simp only [plainF, fld, GField.sub, List.mem_cons, List.not_mem_nil, or_false] at hg
    rcases hg with rfl | rfl <;> simp [fldOn, GField.frag]
  · intro h
    rcases at_plain h with ⟨t, sub, hf⟩ | ⟨sub, hf, _, hw⟩
    · simp at hf
    · simp only [List.mem_cons, Sel.field.injEq, List.not_mem_nil, or_false, true_and] at hf
      subst hf
      rcases hw with hw | hw
      · simp at hw
      · rcases at_plain hw with ⟨t, sub, hf⟩ | ⟨sub, _, hc, _⟩
        · simp at hf
        · simp at hc
  · intro h
    rcases at_plain h with ⟨t, sub, hf⟩ | ⟨sub, hf, _, hw⟩
    · simp at hf
    · simp only [List.mem_cons, Sel.field.injEq, List.not_mem_nil, or_false, true_and] at hf
      subst hf
      rcases hw with hw | hw
      · simp at hw
      · rcases at_plain hw with ⟨t, sub, hf⟩ | ⟨sub, hf, _, _⟩
        · simp at hf
        · simp at hf

/-- A field of an object type is asked without any selection when all its selected fields have resolvers
of their own: no GraphQL server accepts this. -/
theorem C80_violated_by_bare_object :
    ∃ (n : Text) (g : GField), g.sub ≠ [] ∧ document [g] = some [.field n [] [] []] :=
  ⟨"owner".toList, plainF "owner" "User" [fld "weather" "String" (some (.io ⟨1, false, false⟩)) [] []],
    by decide, by rfl⟩

/-- Two aliases of one field are asked under one name with different arguments: no GraphQL server accepts
this. -/
theorem C80_violated_by_alias :
    ∃ (sub : List GField) (n : Text) (a b : List (Text × SVal)), a ≠ b ∧ (sub.map GField.out).Nodup ∧
      document sub = some [.field n a [] [], .field n b [] []] :=
  ⟨[.mk "photo".toList "small".toList (some (.ctxPath ["photo".toList])) (.named "String".toList false) none
      [⟨"size".toList, some (.int 1)⟩] [] [],
    .mk "photo".toList "big".toList (some (.ctxPath ["photo".toList])) (.named "String".toList false) none
      [⟨"size".toList, some (.int 9)⟩] [] []], "photo".toList, [("size".toList, .word ['1'])],
    [("size".toList, .word ['9'])], by simp, by decide, by rfl⟩

/-! ## C81: every GraphQL call of a field carries the selection of the field -/

mutual
theorem reached_iff (i : Io) : ∀ x : IR, i ∈ reached x → Calls i x
  | .io j, h => by
    simp only [reached, List.mem_cons, List.not_mem_nil, or_false] at h
    subst h; exact .io
  | .cache n j, h => by
    simp only [reached, List.mem_cons, List.not_mem_nil, or_false] at h
    subst h; exact .cache
  | .path x p, h => .path (reached_iff i x (by simpa [reached] using h))
  | .protect a x, h => .protect (reached_iff i x (by simpa [reached] using h))
  | .map x m, h => .map (reached_iff i x (by simpa [reached] using h))
  | .discriminate d x, h => .discriminate (reached_iff i x (by simpa [reached] using h))
  | .pipe a b, h => by
    simp only [reached, List.mem_append] at h
    rcases h with h | h
    · exact .first (reached_iff i a h)
    · exact .second (reached_iff i b h)
  | .entity m, h => by
    obtain ⟨kv, hm, hc⟩ := reachedEnt_iff i m (by simpa [reached] using h)
    exact .entity (k := kv.1) hm hc
  | .merge l, h => by simp [reached] at h
  | .dynamic d, h => by simp [reached] at h
  | .ctxPath p, h => by simp [reached] at h
  | .service s, h => by simp [reached] at h
theorem reachedEnt_iff (i : Io) : ∀ m : List (Text × IR), i ∈ reachedEnt m → ∃ kv ∈ m, Calls i kv.2
  | [], h => by simp [reachedEnt] at h
  | kv :: l, h => by
    simp only [reachedEnt, List.mem_append] at h
    rcases h with h | h
    · exact ⟨kv, List.mem_cons_self, reachedEntry_iff i kv h⟩
    · obtain ⟨kv', hm, hc⟩ := reachedEnt_iff i l h
      exact ⟨kv', List.mem_cons_of_mem _ hm, hc⟩
theorem reachedEntry_iff (i : Io) : ∀ kv : Text × IR, i ∈ reachedEntry kv → Calls i kv.2
  | (_, x), h => reached_iff i x (by simpa [reachedEntry] using h)
end

theorem reachedEnt_mem {i : Io} {k : Text} {x : IR} {m : List (Text × IR)} (hm : (k, x) ∈ m) (h : i ∈ reached x) :
    i ∈ reachedEnt m := by
  induction m with
  | nil => simp at hm
  | cons kv l ih =>
    simp only [reachedEnt, List.mem_append]
    rcases List.mem_cons.mp hm with e | e
    · left; subst e; simpa [reachedEntry] using h
    · exact Or.inr (ih e)

theorem calls_reached {i : Io} {x : IR} (h : Calls i x) (hm : ¬ Merges x) : i ∈ reached x := by
  induction h with
  | io => simp [reached]
  | cache => simp [reached]
  | path _ ih => exact ih (fun hh => hm (.path hh))
  | protect _ ih => exact ih (fun hh => hm (.protect hh))
  | map _ ih => exact ih (fun hh => hm (.map hh))
  | first _ ih => exact List.mem_append_left _ (ih (fun hh => hm (.first hh)))
  | second _ ih => exact List.mem_append_right _ (ih (fun hh => hm (.second hh)))
  | merge => exact absurd .here hm
  | discriminate _ ih => exact ih (fun hh => hm (.discriminate hh))
  | entity hk _ ih => exact reachedEnt_mem hk (ih (fun hh => hm (.entity hk hh)))

theorem computed_mem {ord : List Text → List Text} {ifs : Text → Bool} {gql : Io → Bool} {l : List GField}
    {q : GField × Io × Text} : q ∈ computed ord ifs gql l ↔ ∃ f ∈ l, q ∈ computedField ord ifs gql f := by
  induction l with
  | nil => simp [computed]
  | cons a l ih => simp [computed, ih]

/-- The calls of the field itself, with the text. -/
theorem own_mem {ord : List Text → List Text} {ifs : Text → Bool} {gql : Io → Bool} {f : GField}
    {q : GField × Io × Text} : q ∈ computedField ord ifs gql f ↔
      (q.1 = f ∧ (∃ x, f.ir = some x ∧ q.2.1 ∈ reached x) ∧ gql q.2.1 = true ∧
        selText escape ord ifs (ifs f.ty.name) f.sub = some q.2.2) ∨
      q ∈ computed ord ifs gql f.sub := by
  cases f with
  | mk name out ir ty frag args dirs sub =>
    obtain ⟨g, i, t⟩ := q
    simp only [computedField, List.mem_append, GField.ir, GField.ty, GField.sub]
    refine or_congr ?_ Iff.rfl
    cases ir with
    | none => simp
    | some x =>
      cases ht : selText escape ord ifs (ifs ty.name) sub with
      | none => simp
      | some u =>
        simp only [List.mem_map, List.mem_filter, Prod.mk.injEq, Option.some.injEq]
        constructor
        · rintro ⟨j, ⟨h1, h2⟩, h3, h4, h5⟩
          subst h3; subst h4; subst h5
          exact ⟨rfl, ⟨x, rfl, h1⟩, h2, rfl⟩
        · rintro ⟨h1, ⟨y, h2, h3⟩, h4, h5⟩
          subst h1; subst h2; subst h5
          exact ⟨i, ⟨h3, h4⟩, rfl, rfl, rfl⟩

mutual
theorem computed_below (ord : List Text → List Text) (ifs : Text → Bool) (gql : Io → Bool) (q : GField × Io × Text) :
    ∀ f : GField, q ∈ computedField ord ifs gql f → (q.1 = f ∨ Below q.1 f.sub) ∧
      (∃ x, q.1.ir = some x ∧ q.2.1 ∈ reached x) ∧ gql q.2.1 = true ∧
      selText escape ord ifs (ifs q.1.ty.name) q.1.sub = some q.2.2
  | .mk name out ir ty frag args dirs sub, h => by
    rcases own_mem.mp h with ⟨h1, h2, h3, h4⟩ | h
    · rw [h1]; exact ⟨Or.inl rfl, h2, h3, h4⟩
    · obtain ⟨h1, h2⟩ := computed_belows ord ifs gql q sub h
      exact ⟨Or.inr h1, h2⟩
theorem computed_belows (ord : List Text → List Text) (ifs : Text → Bool) (gql : Io → Bool) (q : GField × Io × Text) :
    ∀ l : List GField, q ∈ computed ord ifs gql l → Below q.1 l ∧
      (∃ x, q.1.ir = some x ∧ q.2.1 ∈ reached x) ∧ gql q.2.1 = true ∧
      selText escape ord ifs (ifs q.1.ty.name) q.1.sub = some q.2.2
  | [], h => by simp [computed] at h
  | f :: l, h => by
    simp only [computed, List.mem_append] at h
    rcases h with h | h
    · obtain ⟨h1, h2⟩ := computed_below ord ifs gql q f h
      refine ⟨?_, h2⟩
      rcases h1 with h1 | h1
      · rw [h1]; exact .here List.mem_cons_self
      · exact .deep List.mem_cons_self h1
    · obtain ⟨h1, h2⟩ := computed_belows ord ifs gql q l h
      refine ⟨?_, h2⟩
      cases h1 with
      | here hm => exact .here (List.mem_cons_of_mem _ hm)
      | deep hm hd => exact .deep (List.mem_cons_of_mem _ hm) hd
end

/-- C81, the part that holds: every GraphQL call of every selected field whose resolver does not join
several others gets a selection, and this selection asks for exactly what is wanted from the field's value
(see C80 for the conditions).

Missing from the full statement: fields with several resolvers, see `C81_violated_by_several_resolvers`. -/
theorem C81_every_call_asks_partial (kind : Text → Kind) (vars : Text → SVal) (ord : List Text → List Text)
    (hord : ∀ l, (ord l).Perm l) (gql : Io → Bool) (l : List GField) (f : GField) (hb : Below f l) (x : IR)
    (hx : f.ir = some x) (hm : ¬ Merges x) (i : Io) (hc : Calls i x) (hg : gql i = true)
    (hu : kind f.ty.name ≠ .union) (h : goodFs safeS kind f.sub = true)
    (hw : ∃ p, Wants kind vars (kind f.ty.name).abstract f.sub p) :
    ∃ t plain doc, (f, i, t) ∈ computed ord (isIface kind) gql l ∧ Spells t plain ∧ readSet plain = some doc ∧
      ∀ p, At doc p ↔ Wants kind vars (kind f.ty.name).abstract f.sub p := by
  rcases C80_asked_partial kind vars ord hord f.ty.name f.sub hu h with ⟨_, hn⟩ | ⟨lit, plain, doc, ht, hs, _, _, hr, hd⟩
  · obtain ⟨p, hp⟩ := hw
    exact absurd hp (hn p)
  · refine ⟨lit, plain, doc, ?_, hs, hr, hd⟩
    induction hb with
    | here hf =>
      exact computed_mem.mpr ⟨f, hf, own_mem.mpr (Or.inl ⟨rfl, ⟨x, hx, calls_reached hc hm⟩, hg, ht⟩)⟩
    | deep hf _ ih => exact computed_mem.mpr ⟨_, hf, own_mem.mpr (Or.inr ih)⟩

/-- C81: nothing else gets a selection: only GraphQL calls, each the text of the field it belongs to. -/
theorem C81_only_own (kind : Text → Kind) (ord : List Text → List Text) (gql : Io → Bool) (l : List GField)
    (f : GField) (i : Io) (t : Text) (h : (f, i, t) ∈ computed ord (isIface kind) gql l) :
    Below f l ∧ gql i = true ∧ (∃ x, f.ir = some x ∧ Calls i x) ∧
      selText escape ord (isIface kind) (isIface kind f.ty.name) f.sub = some t := by
  obtain ⟨h1, ⟨x, h2, h3⟩, h4, h5⟩ := computed_belows ord (isIface kind) gql (f, i, t) l h
  exact ⟨h1, h4, ⟨x, h2, reached_iff i x h3⟩, h5⟩

/-- A pipe: first some other call, then the GraphQL one, below a field of another kind. -/
def pipeField : GField :=
  fld "user" "User" (some (.pipe (.io ⟨1, false, false⟩) (.path (.cache 5 ⟨2, false, false⟩) ["data".toList]))) []
    [plainF "name" "String" [], fld "weather" "String" (some (.io ⟨3, false, false⟩)) [] []]

example : ∃ t plain doc, (pipeField, ⟨2, false, false⟩, t) ∈
      computed id (isIface kinds) (fun i => i.id == 2) [plainF "viewer" "Viewer" [pipeField]] ∧
    Spells t plain ∧ readSet plain = some doc ∧
    ∀ p, At doc p ↔ Wants kinds (fun _ => .word []) false pipeField.sub p :=
  C81_every_call_asks_partial kinds (fun _ => .word []) id (fun l => List.Perm.refl l) (fun i => i.id == 2) _ pipeField
    (.deep List.mem_cons_self (.here List.mem_cons_self)) _ rfl
    (by
      intro h
      cases h with
      | first h => cases h
      | second h => cases h with | path h => cases h)
    ⟨2, false, false⟩ (.second (.path .cache)) rfl (by decide) (by decide)
    ⟨_, Wants.here List.mem_cons_self rfl⟩

example : (pipeField, (⟨2, false, false⟩ : Io), "{ name }".toList) ∈
    computed id (isIface kinds) (fun i => i.id == 2) [plainF "viewer" "Viewer" [pipeField]] := by
  refine computed_mem.mpr ⟨_, List.mem_cons_self, own_mem.mpr (Or.inr (computed_mem.mpr ⟨_, List.mem_cons_self,
    own_mem.mpr (Or.inl ⟨rfl, ⟨_, rfl, by decide⟩, rfl, by rfl⟩)⟩))⟩

/-- The calls of a field with several resolvers get no selection from the plan. -/
theorem C81_violated_by_several_resolvers :
    ∃ (f : GField) (x : IR) (i : Io), f.ir = some x ∧ Calls i x ∧
      (∀ vars, ∃ p, Wants kinds vars false f.sub p) ∧ computed id (isIface kinds) (fun _ => true) [f] = [] := by
  refine ⟨fld "user" "User" (some (.merge [.io ⟨1, false, false⟩, .io ⟨2, false, false⟩])) [] [plainF "name" "String" []],
    _, ⟨1, false, false⟩, rfl, .merge List.mem_cons_self .io, fun vars => ?_, by rfl⟩
  exact ⟨_, Wants.here List.mem_cons_self rfl⟩

/-! ### What such a call sends instead -/

/-- The fallback that such a call uses knows the fields by their names in the schema but looks them up by
their names in the response: an aliased field is not asked for. -/
theorem C81_violated_by_alias_in_fallback :
    ∃ (c : Conf) (r : Related) (v : List Text) (sub : List GField),
      related c 9 "User".toList [] = some (r, v) ∧
      (∀ vars, Wants kinds vars false sub [⟨[], "name".toList, [], []⟩]) ∧ fallback r sub = [] := by
  refine ⟨⟨[("User".toList, [⟨"name".toList, false, none, "String".toList⟩])], []⟩, _, _,
    [.mk "name".toList "label".toList (some (.ctxPath ["name".toList])) (.named "String".toList false) none [] [] []],
    rfl, fun vars => ?_, by rfl⟩
  exact Wants.here List.mem_cons_self rfl

/-- The fallback asks for the fields of a type only at the first field of this type. -/
theorem C81_violated_by_second_field_in_fallback :
    ∃ (c : Conf) (r : Related) (v : List Text) (sub : List GField),
      related c 9 "User".toList [] = some (r, v) ∧
      (∀ vars, Wants kinds vars false sub [⟨[], "work".toList, [], []⟩, ⟨[], "city".toList, [], []⟩]) ∧
      fallback r sub = "{ home { city } work }".toList := by
  refine ⟨⟨[("User".toList, [⟨"home".toList, false, none, "Address".toList⟩, ⟨"work".toList, false, none, "Address".toList⟩]),
      ("Address".toList, [⟨"city".toList, false, none, "String".toList⟩])], []⟩, _, _,
    [plainF "home" "Address" [plainF "city" "String" []], plainF "work" "Address" [plainF "city" "String" []]],
    rfl, fun vars => ?_, by rfl⟩
  exact Wants.deep (List.mem_cons_of_mem _ List.mem_cons_self) rfl (Wants.here List.mem_cons_self rfl)

end Verif.Gql
