import Verif.Service.Spec
import Verif.Doc.Props
import Verif.Doc.Nulls
import Verif.Sdl.ValueLemmas

/-!
# Lemmas about published schemas
-/

namespace Verif.Service

open Verif.Mustache (Text)
open Verif.Exec (Ty)
open Verif.Gql (Tok isName)
open Verif.Doc
open Verif.Sdl (J V GTy Dir InDef FieldDef ValDef Kind TypeDef SchemaDef Def Directive toJson ofJson ofFields ofField toG)

set_option linter.unusedSimpArgs false

/-! ## What can be printed -/

/-- The name of a type is a name. -/
def FineTy : Ty → Prop
  | .named n _ => isName n = true
  | .list t _ => FineTy t

/-- Directives with names, and with values that can be read. -/
def FineDir (d : Directive) : Prop :=
  isName d.name = true ∧ ∀ p ∈ d.args, nullJ p.2 = false → isName p.1 = true ∧ goodV (ofJson p.2) = true

/-- Arguments with names, and with defaults that can be read. -/
def FineIn (a : BIn) : Prop := isName a.name = true ∧ FineTy a.ty ∧ ∀ j ∈ a.dflt, goodV (ofJson j) = true

/-- Fields of which all can be read. -/
def FineField (f : BField) : Prop :=
  isName f.name = true ∧ (∀ a ∈ f.args, FineIn a) ∧ FineTy f.ty ∧ ∀ d ∈ f.dirs, FineDir d

/-- Definitions of which all can be read: with names, not empty, without directives on scalars and interfaces. -/
def Fine : BDef → Prop
  | .object n fs _ is ds => isName n = true ∧ (∀ i ∈ is, isName i = true) ∧ (∀ d ∈ ds, FineDir d) ∧ fs ≠ [] ∧ ∀ f ∈ fs, FineField f
  | .iface n fs _ is ds => isName n = true ∧ (∀ i ∈ is, isName i = true) ∧ ds = [] ∧ fs ≠ [] ∧ ∀ f ∈ fs, FineField f
  | .input n fs _ ds => isName n = true ∧ (∀ d ∈ ds, FineDir d) ∧ fs ≠ [] ∧ ∀ f ∈ fs, FineIn f
  | .scalar n _ ds => isName n = true ∧ ds = []
  | .enum n vs _ ds => isName n = true ∧ (∀ d ∈ ds, FineDir d) ∧ vs ≠ [] ∧ ∀ v ∈ vs, isName v.1 = true
  | .union n ts _ ds => isName n = true ∧ (∀ d ∈ ds, FineDir d) ∧ ts ≠ [] ∧ ∀ t ∈ ts, isName t = true

/-- Blueprints of which all can be read. -/
def FineBlueprint (b : Blueprint) : Prop :=
  isName b.query = true ∧ (∀ m ∈ b.mutation, isName m = true) ∧ ∀ d ∈ b.defs, Fine d

theorem nullV_ofJson (j : J) : nullV (ofJson j) = nullJ j := by cases j <;> rfl

theorem ofFields_map : ∀ l : List (Text × J), ofFields l = l.map (fun p => (p.1, ofJson p.2))
  | [] => by simp [ofFields]
  | (k, j) :: l => by simp [ofFields, ofField, ofFields_map l]

theorem goodVKvs_all : ∀ l : List (Text × V), (∀ p ∈ l, isName p.1 = true ∧ goodV p.2 = true) → goodVKvs l = true
  | [], _ => by simp [goodVKvs]
  | (k, v) :: l, h => by
    have h1 := h (k, v) List.mem_cons_self
    simp [goodVKvs, goodVKv, h1.1, h1.2, goodVKvs_all l (fun p hp => h p (List.mem_cons_of_mem _ hp))]

theorem unNull_args (d : Directive) :
    (unNull ⟨d.name, ofFields d.args⟩).args = (d.args.filter (fun p => !nullJ p.2)).map (fun p => (p.1, ofJson p.2)) := by
  simp only [unNull, ofFields_map, List.filter_map, Function.comp_def, nullV_ofJson]

theorem good_dir (d : Directive) (h : FineDir d) : GoodDir (unNull ⟨d.name, ofFields d.args⟩) := by
  refine ⟨h.1, ?_, ?_⟩
  · rw [unNull_args]
    refine goodVKvs_all _ (fun p hp => ?_)
    obtain ⟨q, hq, rfl⟩ := List.mem_map.mp hp
    obtain ⟨hq, hn⟩ := List.mem_filter.mp hq
    exact h.2 q hq (by simpa using hn)
  · rw [unNull_args]
    intro p hp
    obtain ⟨q, hq, rfl⟩ := List.mem_map.mp hp
    obtain ⟨hq, hn⟩ := List.mem_filter.mp hq
    rw [nullV_ofJson]
    simpa using hn

theorem good_dirs (ds : List Directive) (h : ∀ d ∈ ds, FineDir d) : GoodDirs ((dirsOf ds).map unNull) := by
  intro x hx
  obtain ⟨y, hy, rfl⟩ := List.mem_map.mp hx
  obtain ⟨d, hd, rfl⟩ := List.mem_map.mp hy
  exact good_dir d (h d hd)

theorem good_ty : ∀ t : Ty, FineTy t → GoodTy (toG t)
  | .named _ _, h => h
  | .list t _, h => good_ty t h

theorem good_dflt {o : Option J} (h : ∀ j ∈ o, goodV (ofJson j) = true) : ∀ v ∈ o.map ofJson, goodV v = true := by
  intro v hv
  cases o with
  | none => simp at hv
  | some j =>
    simp only [Option.map_some, Option.mem_def, Option.some.injEq] at hv
    subst hv
    exact h j rfl

theorem good_arg (a : BIn) (h : FineIn a) : GoodArg (inOf a) :=
  ⟨h.1, good_ty a.ty h.2.1, good_dflt h.2.2, rfl, rfl⟩

theorem good_in (a : BIn) (h : FineIn a) : GoodIn (unNullIn (inOf a)) :=
  ⟨by simp [inOf, unNullIn], h.1, good_ty a.ty h.2.1, by simp [inOf, unNullIn, GoodDirs], good_dflt h.2.2, Or.inl rfl⟩

theorem good_field (f : BField) (h : FineField f) : GoodField (unNullField (fieldOf f)) := by
  refine ⟨by simp [fieldOf, unNullField], h.1, ?_, good_ty f.ty h.2.2.1, good_dirs f.dirs h.2.2.2⟩
  intro a ha
  obtain ⟨b, hb, rfl⟩ := List.mem_map.mp ha
  exact good_arg b (h.2.1 b hb)

theorem good_def (d : BDef) (h : Fine d) : GoodDef (unNullDef (defOf d)) := by
  cases d with
  | object n fs de is ds =>
    refine ⟨rfl, h.1, by simp [unNullDef, unNullType, defOf], good_dirs ds h.2.2.1, h.2.1, ?_, ?_⟩
    · simpa using h.2.2.2.1
    · intro x hx
      obtain ⟨y, hy, rfl⟩ := List.mem_map.mp hx
      obtain ⟨f, hf, rfl⟩ := List.mem_map.mp hy
      exact good_field f (h.2.2.2.2 f hf)
  | iface n fs de is ds =>
    refine ⟨rfl, h.1, rfl, ?_, h.2.1, ?_, ?_⟩
    · have := h.2.2.1
      subst this
      rfl
    · simpa using h.2.2.2.1
    · intro x hx
      obtain ⟨y, hy, rfl⟩ := List.mem_map.mp hx
      obtain ⟨f, hf, rfl⟩ := List.mem_map.mp hy
      exact good_field f (h.2.2.2.2 f hf)
  | input n fs de ds =>
    refine ⟨rfl, h.1, by simp [unNullDef, unNullType, defOf], good_dirs ds h.2.1, ?_, ?_⟩
    · simpa using h.2.2.1
    · intro x hx
      obtain ⟨y, hy, rfl⟩ := List.mem_map.mp hx
      obtain ⟨f, hf, rfl⟩ := List.mem_map.mp hy
      exact good_in f (h.2.2.2 f hf)
  | scalar n de ds =>
    refine ⟨rfl, h.1, by simp [unNullDef, unNullType, defOf], ?_⟩
    have := h.2
    subst this
    rfl
  | enum n vs de ds =>
    refine ⟨rfl, h.1, by simp [unNullDef, unNullType, defOf], good_dirs ds h.2.1, ?_, ?_⟩
    · simpa using h.2.2.1
    · intro x hx
      obtain ⟨y, hy, rfl⟩ := List.mem_map.mp hx
      obtain ⟨f, hf, rfl⟩ := List.mem_map.mp hy
      exact ⟨by simp [unNullVal], h.2.2.2 f hf, by simp [unNullVal, GoodDirs]⟩
  | union n ts de ds =>
    exact ⟨rfl, h.1, rfl, good_dirs ds h.2.1, h.2.2.1, h.2.2.2⟩

theorem good_doc (b : Blueprint) (h : FineBlueprint b) : ∀ x ∈ (docOf b).map unNullDef, GoodDef x := by
  intro x hx
  obtain ⟨y, hy, rfl⟩ := List.mem_map.mp hx
  rcases List.mem_cons.mp hy with rfl | hy
  · exact ⟨rfl, by simp [GoodDirs], Or.inl rfl, by simpa using h.1, h.2.1, by simp⟩
  · obtain ⟨d, hd, rfl⟩ := List.mem_map.mp hy
    exact good_def d (h.2.2 d hd)

/-! ## What the document tells -/

theorem Each.map {α β γ : Type} {R : α → γ → Prop} (f : α → β) (g : β → γ) :
    ∀ l : List α, (∀ x ∈ l, R x (g (f x))) → Each R l ((l.map f).map g)
  | [], _ => .nil
  | x :: l, h => .cons (h x List.mem_cons_self) (Each.map f g l (fun y hy => h y (List.mem_cons_of_mem _ hy)))

theorem Each.map1 {α β : Type} {R : α → β → Prop} (f : α → β) :
    ∀ l : List α, (∀ x ∈ l, R x (f x)) → Each R l (l.map f)
  | [], _ => .nil
  | x :: l, h => .cons (h x List.mem_cons_self) (Each.map1 f l (fun y hy => h y (List.mem_cons_of_mem _ hy)))

theorem tells_ty : ∀ t : Ty, TellsTy t (toG t)
  | .named n nn => .named n nn (!nn) (by cases nn <;> decide)
  | .list t nn => .list nn (!nn) (by cases nn <;> decide) (tells_ty t)

theorem tells_dirs (ds : List Directive) : Each TellsDir ds ((dirsOf ds).map unNull) := by
  refine Each.map _ unNull ds (fun d _ => ⟨rfl, ?_⟩)
  rw [unNull_args, List.map_map]
  simp [Function.comp_def, Verif.Sdl.toJson_ofJson]

theorem tells_in (a : BIn) : TellsIn a (inOf a) := by
  refine ⟨rfl, tells_ty a.ty, ?_⟩
  cases h : a.dflt <;> simp [inOf, h, Verif.Sdl.toJson_ofJson]

theorem tells_field (f : BField) : TellsField f (unNullField (fieldOf f)) :=
  ⟨rfl, Each.map1 inOf f.args (fun a _ => tells_in a), tells_ty f.ty, tells_dirs f.dirs⟩

theorem tells (d : BDef) : Tells d (unNullDef (defOf d)) := by
  cases d with
  | object n fs de is ds => exact ⟨rfl, rfl, tells_dirs ds, Each.map fieldOf unNullField fs (fun f _ => tells_field f)⟩
  | iface n fs de is ds => exact ⟨rfl, rfl, tells_dirs ds, Each.map fieldOf unNullField fs (fun f _ => tells_field f)⟩
  | input n fs de ds => exact ⟨rfl, tells_dirs ds, Each.map inOf unNullIn fs (fun f _ => tells_in f)⟩
  | scalar n de ds => exact ⟨rfl, tells_dirs ds⟩
  | enum n vs de ds =>
    refine ⟨rfl, tells_dirs ds, ?_⟩
    simp [kindOf, unNullVal, Function.comp_def]
  | union n ts de ds => exact ⟨rfl, tells_dirs ds, rfl⟩

/-! ## Reading -/

theorem ext_lex : lex .top extension =
    some (.word "extend".toList :: .word "schema".toList :: dToks [federation2]) := by decide +kernel

theorem fed_vals : ∀ x ∈ [federation2], goodVKvs x.args = true := by decide +kernel

theorem ext_sep : Sep extension := by
  intro c r e
  have : extension.head? = some '\n' := by decide +kernel
  rw [e] at this
  simp only [List.head?_cons, Option.some.injEq] at this
  subst this
  exact ⟨rfl, by decide⟩

/-- A definition does not begin with `extend`. -/
theorem def_first (x : Def) (hg : DefVals x) : (defToks x).head? ≠ some (.word "extend".toList) := by
  cases x with
  | directive => exact absurd hg (by simp [DefVals])
  | schema s => simp [defToks]
  | type t =>
    obtain ⟨ext, doc, name, dirs, kind⟩ := t
    cases doc <;> cases kind <;> simp [defToks, typeToks, descToks] <;> decide

theorem read_ext (d n : Nat) (h : (dToks [federation2]).length + 1 ≤ d) :
    readParts d (n + 1) (.word "extend".toList :: .word "schema".toList :: dToks [federation2]) = some ([], [federation2]) := by
  have h1 := read_directives [federation2] d [] fed_vals h (by simp) (by simp)
  rw [List.append_nil] at h1
  unfold readParts
  simp only [List.take_succ_cons, List.take_zero, if_true, List.drop_succ_cons, List.drop_zero, h1, bind, Option.bind]
  cases n <;> simp [readParts]

theorem read_parts (d : Nat) : ∀ (l : List Def), (∀ x ∈ l, DefVals x) → (∀ x ∈ l, (defToks x).length + 1 ≤ d) →
    (dToks [federation2]).length + 1 ≤ d → ∀ n, l.length ≤ n →
    readParts d (n + 1) (l.flatMap defToks ++ .word "extend".toList :: .word "schema".toList :: dToks [federation2]) =
      some (l, [federation2]) := by
  intro l
  induction l with
  | nil => intro _ _ he n _; exact read_ext d n he
  | cons x l ih =>
    intro hg hl he n hn
    cases n with
    | zero => simp at hn
    | succ n =>
      have ih := ih (fun y hy => hg y (List.mem_cons_of_mem _ hy)) (fun y hy => hl y (List.mem_cons_of_mem _ hy)) he n
        (by simpa using hn)
      generalize hE : (.word "extend".toList :: .word "schema".toList :: dToks [federation2] : List Tok) = E at ih
      have ha : After (l.flatMap defToks ++ E) := by
        intro c e
        cases l with
        | nil => rw [← hE] at e; simp at e
        | cons y l =>
          obtain ⟨u, us, hy, hu⟩ := def_head y (hg y (List.mem_cons_of_mem _ List.mem_cons_self))
          simp only [List.flatMap_cons, hy, List.cons_append, List.head?_cons, Option.some.injEq] at e
          exact absurd e (hu c)
      have h1 := read_def x d (l.flatMap defToks ++ E) (hg x List.mem_cons_self) (hl x List.mem_cons_self) ha
      obtain ⟨u, us, hx, _⟩ := def_head x (hg x List.mem_cons_self)
      have hf := def_first x (hg x List.mem_cons_self)
      simp only [List.flatMap_cons, List.append_assoc]
      rw [hx] at h1 hf ⊢
      simp only [List.cons_append] at h1 ⊢
      have hc : ¬ (List.take 2 (u :: (us ++ (l.flatMap defToks ++ E))) = [.word "extend".toList, .word "schema".toList]) := by
        intro e
        rw [List.take_succ_cons] at e
        refine hf ?_
        rw [List.head?_cons]
        exact congrArg some (List.cons.inj e).1
      unfold readParts
      rw [if_neg hc]
      simp only [h1, bind, Option.bind, ih, pure]

/-- What is published, for a blueprint of which all can be read. -/
theorem publishes (seg : Text → List Text) (hs : Whole seg) (b : Blueprint) (h : FineBlueprint b) :
    Publishes (print seg (docOf b) ++ extension) b := by
  have hg := good_doc b h
  rw [← print_unNull]
  have hm : ∀ x ∈ inOrder ((docOf b).map unNullDef), GoodDef x := by
    intro x hx
    obtain ⟨k, hk, hx⟩ := List.mem_flatMap.mp hx
    exact hg x (List.mem_filter.mp hx).1
  have hl := LexTo.trimEnd loose_nl _ (LexTo.joinMap (sep := '\n') (Or.inr (Or.inr rfl)) (defText seg) defToks
    (inOrder ((docOf b).map unNullDef)) (fun x hx => lex_def seg hs x (hm x hx))) extension ext_sep
  rw [ext_lex, Option.map_some] at hl
  have hv : ∀ x ∈ inOrder ((docOf b).map unNullDef), DefVals x := fun x hx => defVals_of x (hm x hx)
  obtain ⟨h1, h2⟩ := len_flatMap defToks (inOrder ((docOf b).map unNullDef))
    (fun x hx => by obtain ⟨t, ts, e, _⟩ := def_head x (hv x hx); rw [e]; simp)
  refine ⟨inOrder ((docOf b).map unNullDef), ⟨false, [], some b.query, b.mutation, none⟩, (b.defs.map defOf).map unNullDef,
    ?_, ?_, rfl, rfl, rfl, rfl, Each.map defOf unNullDef b.defs (fun d _ => tells d)⟩
  · unfold readSubgraph
    have hl' : lex .top (print seg ((docOf b).map unNullDef) ++ extension) = _ := hl
    simp only [hl', bind, Option.bind]
    refine read_parts _ _ hv (fun x hx => ?_) ?_ _ ?_
    · have := h2 x hx
      simp only [List.length_append, List.length_cons]
      omega
    · simp only [List.length_append, List.length_cons]
      omega
    · simp only [List.length_append, List.length_cons]
      omega
  · refine groups_perm rank _ (by decide) _ (fun x hx => ?_)
    obtain ⟨h1, h2⟩ := rank_group x (hg x hx)
    rw [h1]
    generalize group x = g at h2
    have : ∀ g, g ≤ 6 → rankOf g ∈ [0, 2, 3, 4, 5, 6, 7] := by decide
    exact this g h2

end Verif.Service
