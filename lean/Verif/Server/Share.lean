import Verif.Server.Props

/-!
# C68: which operations are shared in flight
-/

namespace Verif.Server

open Verif.Mustache (Text)
open Verif.HttpUrl (GVal)
open Verif.Exec (Plan Field transforms planDedupe planTtl planConst authF authFs InPlan fldIr planOf)
open Verif.Ir (IR Io Leaf Has updateIr updateIrs checkDedupe checkDedupes entDedupe entryDedupe checkCache checkCaches entCache
  entryCache isConst allConst entConst minOpt)

set_option linter.unusedSimpArgs false

/-- Specification: the calls an expression contains outside of enum mappings. -/
inductive Seen : IR → Leaf → Prop where
  | io (i) : Seen (.io i) (.bare i)
  | cache (m i) : Seen (.cache m i) (.cached m i)
  | path {x p l} : Seen x l → Seen (.path x p) l
  | protect {a x l} : Seen x l → Seen (.protect a x) l
  | pipeL {x y l} : Seen x l → Seen (.pipe x y) l
  | pipeR {x y l} : Seen y l → Seen (.pipe x y) l
  | merge {xs x l} : x ∈ xs → Seen x l → Seen (.merge xs) l
  | discriminate {d x l} : Seen x l → Seen (.discriminate d x) l
  | entity {m t x l} : (t, x) ∈ m → Seen x l → Seen (.entity m) l

/-- Specification: a call that is declared shareable. -/
def Shareable : Leaf → Prop
  | .bare i => i.js = false ∧ i.dedupe = true
  | .cached _ i => i.js = false ∧ i.dedupe = true

theorem canDedupe_spec (i : Io) : i.canDedupe = true ↔ i.js = false ∧ i.dedupe = true := by
  unfold Io.canDedupe
  cases i.js <;> simp

theorem checkDedupes_mem {l : List IR} (h : checkDedupes l = true) {x : IR} (hx : x ∈ l) : checkDedupe x = true := by
  induction l with
  | nil => cases hx
  | cons y r ih =>
    simp only [checkDedupes, Bool.and_eq_true] at h
    rcases List.mem_cons.1 hx with rfl | hx
    · exact h.1
    · exact ih h.2 hx

theorem entDedupe_mem {l : List (Text × IR)} (h : entDedupe l = true) {t : Text} {x : IR} (hx : (t, x) ∈ l) :
    checkDedupe x = true := by
  induction l with
  | nil => cases hx
  | cons y r ih =>
    simp only [entDedupe, Bool.and_eq_true] at h
    rcases List.mem_cons.1 hx with hx | hx
    · rw [← hx] at h; simpa only [entryDedupe] using h.1
    · exact ih h.2 hx

theorem checkDedupe_seen {x : IR} {l : Leaf} (hs : Seen x l) (h : checkDedupe x = true) : Shareable l := by
  induction hs with
  | io i => simp only [checkDedupe] at h; exact (canDedupe_spec i).1 h
  | cache m i => simp only [checkDedupe] at h; exact (canDedupe_spec i).1 h
  | path _ ih => simp only [checkDedupe] at h; exact ih h
  | protect _ ih => simp only [checkDedupe] at h; exact ih h
  | discriminate _ ih => simp only [checkDedupe] at h; exact ih h
  | pipeL _ ih => simp only [checkDedupe, Bool.and_eq_true] at h; exact ih h.1
  | pipeR _ ih => simp only [checkDedupe, Bool.and_eq_true] at h; exact ih h.2
  | merge hx _ ih => simp only [checkDedupe] at h; exact ih (checkDedupes_mem h hx)
  | entity hx _ ih => simp only [checkDedupe] at h; exact ih (entDedupe_mem h hx)

theorem checkCaches_mem {l : List IR} {m : Nat} (h : checkCaches l = some (some m)) {x : IR} (hx : x ∈ l) :
    ∃ n, checkCache x = some n ∧ m ≤ n := by
  induction l generalizing m with
  | nil => cases hx
  | cons y r ih =>
    simp only [checkCaches] at h
    split at h
    · rename_i hr
      cases r with
      | nil =>
        rw [List.mem_singleton.1 hx]
        injection h with h
        exact ⟨m, h, Nat.le_refl _⟩
      | cons z r => simp only [checkCaches] at hr; split at hr <;> cases hr
    · rename_i k hr
      injection h with h
      cases hy : checkCache y with
      | none => rw [hy] at h; cases h
      | some a =>
        cases k with
        | none => rw [hy] at h; cases h
        | some b =>
          rw [hy] at h
          simp only [minOpt, Option.some.injEq] at h
          rcases List.mem_cons.1 hx with rfl | hx
          · exact ⟨a, hy, by omega⟩
          · obtain ⟨n, h1, h2⟩ := ih hr hx
            exact ⟨n, h1, by omega⟩

theorem entCache_mem {l : List (Text × IR)} {m : Nat} (h : entCache l = some (some m)) {t : Text} {x : IR}
    (hx : (t, x) ∈ l) : ∃ n, checkCache x = some n ∧ m ≤ n := by
  induction l generalizing m with
  | nil => cases hx
  | cons y r ih =>
    simp only [entCache] at h
    split at h
    · rename_i hr
      cases r with
      | nil =>
        have hx := List.mem_singleton.1 hx
        injection h with h
        rw [← hx] at h
        simp only [entryCache] at h
        exact ⟨m, h, Nat.le_refl _⟩
      | cons z r => simp only [entCache] at hr; split at hr <;> cases hr
    · rename_i k hr
      injection h with h
      cases hy : entryCache y with
      | none => rw [hy] at h; cases h
      | some a =>
        cases k with
        | none => rw [hy] at h; cases h
        | some b =>
          rw [hy] at h
          simp only [minOpt, Option.some.injEq] at h
          rcases List.mem_cons.1 hx with hx | hx
          · rw [← hx] at hy
            simp only [entryCache] at hy
            exact ⟨a, hy, by omega⟩
          · obtain ⟨n, h1, h2⟩ := ih hr hx
            exact ⟨n, h1, by omega⟩

theorem checkCache_seen {x : IR} {l : Leaf} (hs : Seen x l) {m : Nat} (h : checkCache x = some m) :
    ∃ age i, l = .cached age i ∧ m ≤ age := by
  induction hs generalizing m with
  | io i => simp only [checkCache] at h; cases h
  | cache k i => simp only [checkCache, Option.some.injEq] at h; exact ⟨k, i, rfl, by omega⟩
  | path _ ih => simp only [checkCache] at h; exact ih h
  | protect _ ih => simp only [checkCache] at h; exact ih h
  | discriminate _ ih => simp only [checkCache] at h; exact ih h
  | pipeL _ ih =>
    simp only [checkCache] at h
    split at h
    · rename_i a b ha hb
      injection h with h
      obtain ⟨age, i, h1, h2⟩ := ih ha
      exact ⟨age, i, h1, by omega⟩
    · cases h
  | pipeR _ ih =>
    simp only [checkCache] at h
    split at h
    · rename_i a b ha hb
      injection h with h
      obtain ⟨age, i, h1, h2⟩ := ih hb
      exact ⟨age, i, h1, by omega⟩
    · cases h
  | merge hx _ ih =>
    rename_i xs x l _
    simp only [checkCache] at h
    cases hc : checkCaches xs with
    | none => rw [hc] at h; cases h
    | some k =>
      rw [hc] at h
      simp only [Option.getD_some] at h
      subst h
      obtain ⟨n, h1, h2⟩ := checkCaches_mem hc hx
      obtain ⟨age, i, h3, h4⟩ := ih h1
      exact ⟨age, i, h3, by omega⟩
  | entity hx _ ih =>
    rename_i xs t x l _
    simp only [checkCache] at h
    cases hc : entCache xs with
    | none => rw [hc] at h; cases h
    | some k =>
      rw [hc] at h
      simp only [Option.getD_some] at h
      subst h
      obtain ⟨n, h1, h2⟩ := entCache_mem hc hx
      obtain ⟨age, i, h3, h4⟩ := ih h1
      exact ⟨age, i, h3, by omega⟩

theorem allConst_mem {l : List IR} (h : allConst l = true) {x : IR} (hx : x ∈ l) : isConst x = true := by
  induction l with
  | nil => cases hx
  | cons y r ih =>
    simp only [allConst, Bool.and_eq_true] at h
    rcases List.mem_cons.1 hx with rfl | hx
    · exact h.1
    · exact ih h.2 hx

theorem entConst_mem {l : List (Text × IR)} (h : entConst l = true) {t : Text} {x : IR} (hx : (t, x) ∈ l) :
    isConst x = true := by
  induction l with
  | nil => cases hx
  | cons y r ih =>
    simp only [entConst, Bool.and_eq_true] at h
    rcases List.mem_cons.1 hx with hx | hx
    · rw [← hx] at h; simpa only [Verif.Ir.entryConst] using h.1
    · exact ih h.2 hx

theorem isConst_has {x : IR} {l : Leaf} (hs : Has x l) (h : isConst x = true) : False := by
  induction hs with
  | io i => simp [isConst] at h
  | cache m i => simp [isConst] at h
  | path _ ih => simp only [isConst] at h; exact ih h
  | map _ ih => simp only [isConst] at h; exact ih h
  | protect _ ih => simp only [isConst] at h; exact ih h
  | discriminate _ ih => simp only [isConst] at h; exact ih h
  | pipeL _ ih => simp only [isConst, Bool.and_eq_true] at h; exact ih h.1
  | pipeR _ ih => simp only [isConst, Bool.and_eq_true] at h; exact ih h.2
  | merge hx _ ih => simp only [isConst] at h; exact ih (allConst_mem h hx)
  | entity hx _ ih => simp only [isConst] at h; exact ih (entConst_mem h hx)

theorem updateIrs_map (l : List IR) : (updateIrs l).1 = l.map (fun x => (updateIr x).1) := by
  induction l with
  | nil => simp only [updateIrs, List.map_nil]
  | cons x r ih => simp only [updateIrs, List.map_cons, ih]

/-- Moving the guards in front keeps the calls. -/
theorem seen_updateIr {x : IR} {l : Leaf} (hs : Seen x l) : Seen (updateIr x).1 l := by
  induction hs with
  | io i => simp only [updateIr]; exact .io i
  | cache m i => simp only [updateIr]; exact .cache m i
  | path _ ih => simp only [updateIr]; exact .path ih
  | protect _ ih => simp only [updateIr]; exact ih
  | discriminate _ ih => simp only [updateIr]; exact .discriminate ih
  | pipeL _ ih => simp only [updateIr]; exact .pipeL ih
  | pipeR _ ih => simp only [updateIr]; exact .pipeR ih
  | merge hx _ ih =>
    simp only [updateIr, updateIrs_map]
    exact .merge (List.mem_map.2 ⟨_, hx, rfl⟩) ih
  | entity hx hs _ => simp only [updateIr]; exact .entity hx hs

theorem authFs_root {l : List Field} {f : Field} (hf : f ∈ l) {ir : IR} (hir : f.hdr.ir = some ir) :
    ∃ g ∈ (authFs l).1, g.hdr.ir = some (updateIr ir).1 := by
  induction l with
  | nil => cases hf
  | cons x r ih =>
    simp only [authFs]
    rcases List.mem_cons.1 hf with rfl | hf
    · refine ⟨_, List.mem_cons_self, ?_⟩
      cases f with
      | mk h sub =>
        simp only [Field.hdr] at hir
        simp only [authF, hir, Field.hdr]
    · obtain ⟨g, h1, h2⟩ := ih hf
      exact ⟨g, List.mem_cons_of_mem _ h1, h2⟩

theorem planTtl_mem {l : List Field} {m : Nat} (h : planTtl l = some m) {f : Field} (hf : f ∈ l) {ir : IR}
    (hir : f.hdr.ir = some ir) : ∃ n, checkCache ir = some n ∧ m ≤ n := by
  unfold planTtl at h
  have hstep : ∀ (l : List Field) (t : Option Nat),
      l.foldl (fun t f => match f.hdr.ir with | some ir => minOpt t (checkCache ir) | none => t) t = some m →
      (∃ k, t = some k ∧ m ≤ k) ∧ ∀ f ∈ l, ∀ ir, f.hdr.ir = some ir → ∃ n, checkCache ir = some n ∧ m ≤ n := by
    intro l
    induction l with
    | nil => intro t h; exact ⟨⟨m, h, Nat.le_refl _⟩, by simp⟩
    | cons x r ih =>
      intro t h
      simp only [List.foldl_cons] at h
      obtain ⟨⟨k, h1, h2⟩, h3⟩ := ih _ h
      cases hx : x.hdr.ir with
      | none =>
        rw [hx] at h1
        refine ⟨⟨k, h1, h2⟩, ?_⟩
        intro f hf ir hir
        rcases List.mem_cons.1 hf with rfl | hf
        · rw [hx] at hir; cases hir
        · exact h3 f hf ir hir
      | some y =>
        rw [hx] at h1
        simp only [] at h1
        cases t with
        | none => cases h1
        | some a =>
          cases hy : checkCache y with
          | none => rw [hy] at h1; cases h1
          | some b =>
            rw [hy] at h1
            simp only [minOpt, Option.some.injEq] at h1
            refine ⟨⟨a, rfl, by omega⟩, ?_⟩
            intro f hf ir hir
            rcases List.mem_cons.1 hf with rfl | hf
            · rw [hx] at hir
              injection hir with hir
              subst hir
              exact ⟨b, hy, by omega⟩
            · exact h3 f hf ir hir
  exact (hstep l _ h).2 f hf ir hir

/-- C68: an operation that is shared in flight is a query, and either all calls of its root
resolvers are declared shareable, or none of its resolvers makes a call, or all calls of its root
resolvers are cached.  Partial: calls of nested fields and calls in enum mappings are not looked at
(`C68_violated_by_nested_call`, `C68_violated_by_enum_mapping`). -/
theorem C68_shared_calls_partial (p : Plan) (h : (transforms p).canDedupe = true) : p.isQuery = true ∧
    ((∀ f ∈ p.sel, ∀ ir l, f.hdr.ir = some ir → Seen ir l → Shareable l) ∨
     (∀ f ir l, InPlan p.sel f → f.hdr.ir = some ir → ¬ Has ir l) ∨
     (∀ f ∈ p.sel, ∀ ir l, f.hdr.ir = some ir → Seen ir l → ∃ age i, l = .cached age i)) := by
  have hq : (transforms p).isQuery = p.isQuery := rfl
  have h1 : (transforms p).isDedupe = planDedupe (authFs p.sel).1 := rfl
  have h2 : (transforms p).isConst = planConst p.sel := rfl
  have h3 : (transforms p).ttl = planTtl (authFs p.sel).1 := rfl
  simp only [Plan.canDedupe, Bool.and_eq_true, Bool.or_eq_true, hq, h1, h2, h3] at h
  refine ⟨h.1, ?_⟩
  rcases h.2 with (h | h) | h
  · left
    intro f hf ir l hir hs
    obtain ⟨g, hg, hgir⟩ := authFs_root hf hir
    unfold planDedupe at h
    rw [List.all_eq_true] at h
    have := h g hg
    rw [hgir] at this
    exact checkDedupe_seen (seen_updateIr hs) this
  · right; left
    intro f ir l hf hir hs
    unfold planConst at h
    rw [List.all_eq_true] at h
    have := h f.hdr (Verif.Exec.inPlan_dfs hf)
    rw [hir] at this
    exact isConst_has hs this
  · right; right
    intro f hf ir l hir hs
    obtain ⟨g, hg, hgir⟩ := authFs_root hf hir
    obtain ⟨m, hm⟩ := Option.isSome_iff_exists.1 h
    obtain ⟨n, hn, -⟩ := planTtl_mem hm hg hgir
    obtain ⟨age, i, hl, -⟩ := checkCache_seen (seen_updateIr hs) hn
    exact ⟨age, i, hl⟩

/-- C68: the smallest age of a plan is at most that of each cached call of its root resolvers, and
there are no others outside of enum mappings. -/
theorem C68_min_age (p : Plan) (m : Nat) (h : (transforms p).ttl = some m) (f : Field) (hf : f ∈ p.sel) (ir : IR)
    (l : Leaf) (hir : f.hdr.ir = some ir) (hs : Seen ir l) : ∃ age i, l = .cached age i ∧ m ≤ age := by
  have h3 : (transforms p).ttl = planTtl (authFs p.sel).1 := rfl
  rw [h3] at h
  obtain ⟨g, hg, hgir⟩ := authFs_root hf hir
  obtain ⟨n, hn, hmn⟩ := planTtl_mem h hg hgir
  obtain ⟨age, i, hl, hle⟩ := checkCache_seen (seen_updateIr hs) hn
  exact ⟨age, i, hl, by omega⟩

/-- A call that is not to be shared. -/
def lone : Io := ⟨9, false, false⟩
/-- A call that may be shared. -/
def common : Io := ⟨8, false, true⟩

/-- `{ user { posts } }` with a shareable call of `user`. -/
def nested (sub : Io) : Plan := planOf [fldIr 1 "user" (some (.protect (.provider (.basic [])) (.io common)))
  [fldIr 2 "posts" (some (.io sub)) []]]

/-- The hypotheses of `C68_shared_calls_partial` and `C68_min_age` can be met. -/
example : (transforms (nested common)).canDedupe = true := by rfl

example : (transforms (planOf [fldIr 1 "a" (some (.pipe (.cache 60 lone) (.merge [.cache 10 lone, .cache 20 common]))) []])).ttl =
    some 10 := by rfl

/-- One root call that is not shareable is enough to run the operation alone. -/
example : (transforms (planOf [fldIr 1 "a" (some (.io common)) [], fldIr 2 "b" (some (.path (.io lone) [])) []])).canDedupe =
    false := by rfl

/-- C68 is violated by nested fields: the operation is shared though the call of a nested field is
not declared shareable, nor cached. -/
theorem C68_violated_by_nested_call : (transforms (nested lone)).canDedupe = true ∧
    ∃ f ir, InPlan (nested lone).sel f ∧ f.hdr.ir = some ir ∧ Has ir (.bare lone) ∧ ¬ Shareable (.bare lone) :=
  ⟨rfl, fldIr 2 "posts" (some (.io lone)) [], .io lone, .deeper List.mem_cons_self (.here List.mem_cons_self), rfl,
    .io lone, by simp [Shareable, lone]⟩

/-- C68 is violated by an enum mapping of the result of a call. -/
theorem C68_violated_by_enum_mapping : ∃ p f ir, (transforms p).canDedupe = true ∧ f ∈ p.sel ∧ f.hdr.ir = some ir ∧
    Has ir (.bare lone) ∧ ¬ Shareable (.bare lone) :=
  ⟨planOf [fldIr 1 "status" (some (.map (.io lone) [])) []], _, _, rfl, List.mem_cons_self, rfl, .map (.io lone),
    by simp [Shareable, lone]⟩

end Verif.Server
