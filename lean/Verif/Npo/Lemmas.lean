import Verif.Npo.Model

/-!
# What is a path that issues N + 1 calls, and lemmas on the search
-/

namespace Verif.Npo

open Verif.Mustache (Text)
open Verif.Exec (Ty)
open Verif.Merge (get)

set_option linter.unusedSimpArgs false

/-! ## Specification -/

/-- The resolver gathers the calls of many objects into one. -/
inductive Gathers : Resolver → Prop
  | http {k} : k ≠ [] → Gathers (.http k)
  | grpc {k} : k ≠ [] → Gathers (.grpc k)
  | graphql : Gathers (.graphql true)
  | entity {m n r} : (n, r) ∈ m → Gathers r → Gathers (.entity m)

/-- One of the resolvers makes a call for each object. -/
def Alone (s : RSet) : Prop := ∃ r ∈ s, ¬ Gathers r

/-- A chain of fields through the types, from the first type to the second. -/
inductive Path (c : Config) : Text → List (Text × Field) → Text → Prop
  | nil {a} : Path c a [] a
  | cons {a t n f p b} : get a c.types = some t → (n, f) ∈ t.fields → Path c f.ty.name p b →
      Path c a ((n, f) :: p) b

/-- A chain of fields, then a field of the type it leads to whose resolver makes a call for each
object.  `many` tells that there are many objects at the start; if not, a field on the way must
have a list as its type. -/
structure Offends (c : Config) (many : Bool) (a : Text) (p : List (Text × Field)) (b : Text)
    (n : Text) (f : Field) : Prop where
  path : Path c a p b
  last : ∃ t, get b c.types = some t ∧ (n, f) ∈ t.fields
  alone : Alone f.resolvers
  lists : many = true ∨ ∃ x ∈ p, x.2.ty.isList = true

/-- No field on the way is already such a field. -/
def First (c : Config) (many : Bool) (a : Text) (p : List (Text × Field)) : Prop :=
  ∀ p₁ n f p₂ b, p = p₁ ++ (n, f) :: p₂ → ¬ Offends c many a p₁ b n f

/-- The names along a chain of fields and its last field. -/
def names (p : List (Text × Field)) (n : Text) : List Seg :=
  p.map (fun x => Seg.field x.1) ++ [Seg.field n]

/-! ## Resolvers -/

mutual
theorem isBatched_iff : ∀ r : Resolver, r.isBatched = true ↔ Gathers r
  | .http k => by
    simp [Resolver.isBatched]
    exact ⟨fun h => .http h, fun h => by cases h; assumption⟩
  | .grpc k => by
    simp [Resolver.isBatched]
    exact ⟨fun h => .grpc h, fun h => by cases h; assumption⟩
  | .graphql b => by
    simp only [Resolver.isBatched]
    constructor
    · intro h; subst h; exact .graphql
    · intro h; cases h; rfl
  | .call => by simp [Resolver.isBatched]; intro h; cases h
  | .js => by simp [Resolver.isBatched]; intro h; cases h
  | .expr => by simp [Resolver.isBatched]; intro h; cases h
  | .service => by simp [Resolver.isBatched]; intro h; cases h
  | .entity m => by
    simp only [Resolver.isBatched]
    rw [anyBatched_iff m]
    constructor
    · rintro ⟨n, r, h, g⟩; exact .entity h g
    · intro h; cases h with | entity h g => exact ⟨_, _, h, g⟩
theorem anyBatched_iff : ∀ m : List (Text × Resolver), anyBatched m = true ↔ ∃ n r, (n, r) ∈ m ∧ Gathers r
  | [] => by simp [anyBatched]
  | (n, r) :: rest => by
    simp only [anyBatched, Bool.or_eq_true]
    rw [isBatched_iff r, anyBatched_iff rest]
    constructor
    · rintro (h | ⟨n', r', h, g⟩)
      · exact ⟨n, r, List.mem_cons_self, h⟩
      · exact ⟨n', r', List.mem_cons_of_mem _ h, g⟩
    · rintro ⟨n', r', h, g⟩
      rcases List.mem_cons.mp h with h | h
      · cases h; exact .inl g
      · exact .inr ⟨n', r', h, g⟩
end

theorem alone_iff (s : RSet) : (hasResolver s && !isBatched s) = true ↔ Alone s := by
  cases s with
  | nil => simp [hasResolver, Alone]
  | cons r rest =>
    simp only [hasResolver, isBatched, List.isEmpty_cons, Bool.not_false, Bool.true_and,
      if_neg (show ¬ (false = true) by decide)]
    rw [Bool.not_eq_true', ← Bool.not_eq_true, List.all_eq_true]
    constructor
    · intro h
      by_cases hx : ∃ x ∈ r :: rest, ¬ Gathers x
      · exact hx
      · exact absurd (fun x hm => (isBatched_iff x).mpr (by
          by_cases g : Gathers x
          · exact g
          · exact absurd ⟨x, hm, g⟩ hx)) h
    · rintro ⟨x, hm, g⟩ h
      exact g ((isBatched_iff x).mp (h x hm))

theorem batched_iff (s : RSet) (h : hasResolver s = true) : isBatched s = true ↔ ¬ Alone s := by
  rw [← alone_iff, h]; cases isBatched s <;> simp

/-! ## The cache -/

/-- The key is in the cache. -/
def Has (cache : Cache) (k : Text × Bool) : Prop := ∃ v, look k cache = some v

theorem has_cons {cache : Cache} {k k' v} : Has ((k', v) :: cache) k ↔ k' = k ∨ Has cache k := by
  unfold Has
  by_cases h : k' = k
  · simp [look, h]
  · simp [look, h]

/-- The keys for which the search can go on. -/
def keysOf (c : Config) : List (Text × Bool) :=
  c.types.flatMap fun x => [(x.1, false), (x.1, true)]

theorem mem_keysOf {c : Config} {a t l} (h : get a c.types = some t) : (a, l) ∈ keysOf c := by
  unfold keysOf
  generalize c.types = ts at h
  induction ts with
  | nil => simp [Verif.Merge.get] at h
  | cons x rest ih =>
    obtain ⟨k, v⟩ := x
    simp only [Verif.Merge.get] at h
    simp only [List.flatMap_cons, List.mem_append]
    split at h
    · rename_i he; subst he; left; cases l <;> simp
    · exact .inr (ih h)

theorem length_keysOf (c : Config) : (keysOf c).length = 2 * c.types.length := by
  unfold keysOf
  induction c.types with
  | nil => rfl
  | cons x rest ih => simp only [List.flatMap_cons, List.length_append, ih, List.length_cons, List.length_nil]; omega

/-- How many keys are not in the cache. -/
def left (c : Config) (cache : Cache) : Nat :=
  ((keysOf c).filter fun k => (look k cache).isNone).length

theorem filter_le {α} (l : List α) (p q : α → Bool) (h : ∀ x, p x = true → q x = true) :
    (l.filter p).length ≤ (l.filter q).length := by
  induction l with
  | nil => simp
  | cons x rest ih =>
    simp only [List.filter_cons]
    by_cases hp : p x = true
    · simp only [hp, h x hp, if_true, List.length_cons]; omega
    · simp only [hp]
      by_cases hq : q x = true
      · simp only [hq, if_true, List.length_cons]; simp; omega
      · simpa [hq] using ih

theorem filter_lt {α} (l : List α) (p q : α → Bool) (h : ∀ x, p x = true → q x = true) (y : α)
    (hy : y ∈ l) (hp : p y = false) (hq : q y = true) :
    (l.filter p).length < (l.filter q).length := by
  induction l with
  | nil => simp at hy
  | cons x rest ih =>
    simp only [List.filter_cons]
    rcases List.mem_cons.mp hy with he | hm
    · subst he
      have := filter_le rest p q h
      simp only [hp, hq, if_true, List.length_cons]; simp; omega
    · have := ih hm
      by_cases hpx : p x = true
      · simp only [hpx, h x hpx, if_true, List.length_cons]; omega
      · simp only [hpx]
        by_cases hqx : q x = true
        · simp only [hqx, if_true, List.length_cons]; simp; omega
        · simpa [hqx] using this

theorem left_le {c : Config} {s s' : Cache} (h : ∀ k, Has s k → Has s' k) : left c s' ≤ left c s := by
  apply filter_le
  intro k hk
  cases hs : look k s with
  | none => rfl
  | some v =>
    obtain ⟨v', h'⟩ := h k ⟨v, hs⟩
    rw [h'] at hk; cases hk

theorem left_lt {c : Config} {s : Cache} {k v} (hu : k ∈ keysOf c) (hk : look k s = none) :
    left c ((k, v) :: s) < left c s := by
  refine filter_lt _ _ _ ?_ k hu ?_ ?_
  · intro x hx
    cases hs : look x s with
    | none => rfl
    | some w =>
      simp only [look] at hx
      split at hx
      · cases hx
      · rw [hs] at hx; cases hx
  · simp [look]
  · simp [hk]

/-! ## One call of the search -/

/-- The chunk leads to an offending field of the type `b`. -/
def Leads (c : Config) (many : Bool) (a : Text) (ch : List Seg) : Prop :=
  ∃ p b n f, ch = names p n ∧ Offends c many a p b n f

/-- A chunk leads to the field `n` of `b`. -/
def Shown (c : Config) (a : Text) (chunks : Paths) (b n : Text) : Prop :=
  ∃ p, Path c a p b ∧ names p n ∈ chunks

/-- `(b, true)` has the offending field `n`. -/
def Bad (c : Config) (k : Text × Bool) (n : Text) : Prop :=
  k.2 = true ∧ ∃ t f, get k.1 c.types = some t ∧ (n, f) ∈ t.fields ∧ Alone f.resolvers

/-- One step from a key to the next one along a field that is not offending. -/
def Next (c : Config) (k k' : Text × Bool) : Prop :=
  ∃ t n f, get k.1 c.types = some t ∧ (n, f) ∈ t.fields ∧ ¬ (k.2 = true ∧ Alone f.resolvers) ∧
    k' = (f.ty.name, k.2 || f.ty.isList)

/-- What is in the cache leads to offending fields. -/
def Sound (c : Config) (s : Cache) : Prop :=
  ∀ k v, look k s = some v → ∀ ch ∈ v, Leads c k.2 k.1 ch

/-- What a call gives: the cache `s'` and the paths found, none of them with a parent. -/
structure Step (c : Config) (s : Cache) (k : Text × Bool) (found : Paths) (s' : Cache) : Prop where
  mono : ∀ x, Has s x → Has s' x
  key : Has s' k
  sound : Sound c s'
  leads : ∀ ch ∈ found, Leads c k.2 k.1 ch
  closed : ∀ x, Has s' x → ¬ Has s x → ∀ y, Next c x y → Has s' y
  shown : ∀ x, Has s' x → ¬ Has s x → ∀ n, Bad c x n → Shown c k.1 found x.1 n

/-- What the loop over some fields of the type gives. -/
structure Loop (c : Config) (s : Cache) (k : Text × Bool) (fs : List (Text × Field)) (found : Paths)
    (s' : Cache) : Prop where
  mono : ∀ x, Has s x → Has s' x
  sound : Sound c s'
  leads : ∀ ch ∈ found, Leads c k.2 k.1 ch
  closed : ∀ x, Has s' x → ¬ Has s x → ∀ y, Next c x y → Has s' y
  shown : ∀ x, Has s' x → ¬ Has s x → ∀ n, Bad c x n → Shown c k.1 found x.1 n
  next : ∀ n f, (n, f) ∈ fs → ¬ (k.2 = true ∧ Alone f.resolvers) →
    Has s' (f.ty.name, k.2 || f.ty.isList)
  bad : ∀ n f, (n, f) ∈ fs → k.2 = true → Alone f.resolvers → names [] n ∈ found

/-- A recursive call with a bound `fuel`, with its parent in front. -/
def Good (c : Config) (visit : Cache → Seg → Text → Bool → Option (Paths × Cache)) (fuel : Nat) : Prop :=
  ∀ s p a l, Sound c s → left c s < fuel → ∃ found s', visit s p a l = some (found.map (p :: ·), s') ∧
    Step c s (a, l) found s'

theorem Leads.cons {c : Config} {l : Bool} {a t n f ch} (h : get a c.types = some t)
    (hm : (n, f) ∈ t.fields) (hl : Leads c (l || f.ty.isList) f.ty.name ch) :
    Leads c l a (.field n :: ch) := by
  obtain ⟨p, b, n', f', he, ho⟩ := hl
  refine ⟨(n, f) :: p, b, n', f', by rw [he]; rfl, .cons h hm ho.path, ho.last, ho.alone, ?_⟩
  rcases ho.lists with hl | ⟨x, hx, hxl⟩
  · rcases Bool.or_eq_true _ _ |>.mp hl with h1 | h1
    · exact .inl h1
    · exact .inr ⟨(n, f), List.mem_cons_self, h1⟩
  · exact .inr ⟨x, List.mem_cons_of_mem _ hx, hxl⟩

theorem Shown.cons {c : Config} {a t n f chunks b m} (h : get a c.types = some t)
    (hm : (n, f) ∈ t.fields) (hs : Shown c f.ty.name chunks b m) :
    Shown c a (chunks.map (.field n :: ·)) b m := by
  obtain ⟨p, hp, hc⟩ := hs
  exact ⟨(n, f) :: p, .cons h hm hp, List.mem_map.mpr ⟨_, hc, rfl⟩⟩

theorem Shown.weaken {c : Config} {a chunks chunks' b m} (h : Shown c a chunks b m)
    (hc : ∀ x ∈ chunks, x ∈ chunks') : Shown c a chunks' b m := by
  obtain ⟨p, hp, hm⟩ := h
  exact ⟨p, hp, hc _ hm⟩

theorem walk_good {c : Config} {visit fuel} (hv : Good c visit fuel) {a : Text} {l : Bool} {t : Typ}
    (ht : get a c.types = some t) : ∀ (fs done : List (Text × Field)) (s₀ s : Cache) (found : Paths),
    done ++ fs = t.fields → left c s < fuel → Loop c s₀ (a, l) done found s →
    ∃ found' s', walk visit l fs found s = some (found', s') ∧ Loop c s₀ (a, l) t.fields found' s'
  | [], done, s₀, s, found, he, hf, hl => by
    rw [List.append_nil] at he; subst he
    exact ⟨found, s, rfl, hl⟩
  | (n, f) :: rest, done, s₀, s, found, he, hf, hl => by
    have hm : (n, f) ∈ t.fields := by rw [← he]; simp
    simp only [walk]
    split
    · rename_i hc
      rw [Bool.and_assoc, Bool.and_eq_true, alone_iff] at hc
      obtain ⟨hl1, ha⟩ := hc
      refine walk_good hv ht rest (done ++ [(n, f)]) s₀ s _ (by rw [← he]; simp) hf ?_
      refine ⟨hl.mono, hl.sound, ?_, hl.closed, ?_, ?_, ?_⟩
      · intro ch hch
        rcases List.mem_append.mp hch with h | h
        · exact hl.leads ch h
        · rw [List.mem_singleton] at h; subst h
          exact ⟨[], a, n, f, rfl, .nil, ⟨t, ht, hm⟩, ha, .inl hl1⟩
      · intro x h1 h2 m hb
        exact (hl.shown x h1 h2 m hb).weaken fun y hy => List.mem_append.mpr (.inl hy)
      · intro m g hg hn
        rcases List.mem_append.mp hg with h | h
        · exact hl.next m g h hn
        · rw [List.mem_singleton] at h; cases h; exact absurd ⟨hl1, ha⟩ hn
      · intro m g hg h1 h2
        rcases List.mem_append.mp hg with h | h
        · exact List.mem_append.mpr (.inl (hl.bad m g h h1 h2))
        · rw [List.mem_singleton] at h; cases h; exact List.mem_append.mpr (.inr (by simp [names]))
    · rename_i hc
      rw [Bool.and_assoc, Bool.and_eq_true, alone_iff] at hc
      obtain ⟨fd, s', hvis, st⟩ := hv s (.field n) f.ty.name (l || f.ty.isList) hl.sound hf
      rw [hvis]
      refine walk_good hv ht rest (done ++ [(n, f)]) s₀ s' _ (by rw [← he]; simp)
        (Nat.lt_of_le_of_lt (left_le st.mono) hf) ?_
      refine ⟨fun x hx => st.mono x (hl.mono x hx), st.sound, ?_, ?_, ?_, ?_, ?_⟩
      · intro ch hch
        rcases List.mem_append.mp hch with h | h
        · exact hl.leads ch h
        · obtain ⟨ch', hch', rfl⟩ := List.mem_map.mp h
          exact (st.leads ch' hch').cons ht hm
      · intro x h1 h2 y hy
        by_cases hx : Has s x
        · exact st.mono _ (hl.closed x hx h2 y hy)
        · exact st.closed x h1 hx y hy
      · intro x h1 h2 m hb
        by_cases hx : Has s x
        · exact (hl.shown x hx h2 m hb).weaken fun y hy => List.mem_append.mpr (.inl hy)
        · exact ((st.shown x h1 hx m hb).cons ht hm).weaken fun y hy => List.mem_append.mpr (.inr hy)
      · intro m g hg hn
        rcases List.mem_append.mp hg with h | h
        · exact st.mono _ (hl.next m g h hn)
        · rw [List.mem_singleton] at h; cases h; exact st.key
      · intro m g hg h1 h2
        rcases List.mem_append.mp hg with h | h
        · exact List.mem_append.mpr (.inl (hl.bad m g h h1 h2))
        · rw [List.mem_singleton] at h; cases h; exact absurd ⟨h1, h2⟩ hc

theorem sound_cons {c : Config} {s : Cache} {k v} (hs : Sound c s)
    (hv : ∀ ch ∈ v, Leads c k.2 k.1 ch) : Sound c ((k, v) :: s) := by
  intro k' v' hl
  simp only [look] at hl
  split at hl
  · rename_i he; subst he; cases hl; exact hv
  · exact hs k' v' hl

theorem iter_good (c : Config) : ∀ fuel s parent a l, Sound c s → left c s < fuel →
    ∃ found s', iter c fuel s parent a l = some (under parent found, s') ∧ Step c s (a, l) found s'
  | 0, s, parent, a, l, _, h => by omega
  | fuel + 1, s, parent, a, l, hs, hf => by
    simp only [iter]
    cases hk : look (a, l) s with
    | some chunks =>
      exact ⟨chunks, s, rfl, fun _ h => h, ⟨_, hk⟩, hs, hs _ _ hk, fun x h1 h2 => absurd h1 h2,
        fun x h1 h2 => absurd h1 h2⟩
    | none =>
      have hno : ¬ Has s (a, l) := by rintro ⟨v, h⟩; rw [hk] at h; cases h
      cases ht : get a c.types with
      | none =>
        refine ⟨[], _, rfl, fun x h => has_cons.mpr (.inr (has_cons.mpr (.inr h))),
          has_cons.mpr (.inl rfl), sound_cons (sound_cons hs (by simp)) (by simp), by simp, ?_, ?_⟩
        · intro x h1 h2 y hy
          rcases has_cons.mp h1 with he | h1
          · obtain ⟨t, n, f, h3, _⟩ := hy
            subst he; rw [ht] at h3; cases h3
          · rcases has_cons.mp h1 with he | h1
            · obtain ⟨t, n, f, h3, _⟩ := hy
              subst he; rw [ht] at h3; cases h3
            · exact absurd h1 h2
        · intro x h1 h2 n hb
          obtain ⟨_, t, f, h3, _⟩ := hb
          rcases has_cons.mp h1 with he | h1
          · subst he; rw [ht] at h3; cases h3
          · rcases has_cons.mp h1 with he | h1
            · subst he; rw [ht] at h3; cases h3
            · exact absurd h1 h2
      | some t =>
        have hlt := left_lt (v := []) (mem_keysOf (l := l) ht) hk
        have hg : Good c (fun cache p n l => iter c fuel cache (some p) n l) fuel :=
          fun s p a l h1 h2 => iter_good c fuel s (some p) a l h1 h2
        have base : Loop c (((a, l), []) :: s) (a, l) [] [] (((a, l), []) :: s) :=
          ⟨fun _ h => h, sound_cons hs (by simp), by simp, fun x h1 h2 => absurd h1 h2,
            fun x h1 h2 => absurd h1 h2, by simp, by simp⟩
        obtain ⟨found, s', hw, lp⟩ := walk_good hg ht t.fields [] _ _ [] (by simp)
          (by omega) base
        simp only [hw]
        refine ⟨found, ((a, l), found) :: s', rfl,
          fun x h => has_cons.mpr (.inr (lp.mono x (has_cons.mpr (.inr h)))),
          has_cons.mpr (.inl rfl), sound_cons lp.sound lp.leads, lp.leads, ?_, ?_⟩
        · intro x h1 h2 y hy
          apply has_cons.mpr
          right
          by_cases he : (a, l) = x
          · subst he
            obtain ⟨t', n, f, h3, h4, h5, rfl⟩ := hy
            rw [ht] at h3; cases h3
            exact lp.next n f h4 h5
          · rcases has_cons.mp h1 with h | h1
            · exact absurd h he
            · exact lp.closed x h1 (fun h => (has_cons.mp h).elim he h2) y hy
        · intro x h1 h2 n hb
          by_cases he : (a, l) = x
          · subst he
            obtain ⟨h0, t', f, h3, h4, h5⟩ := hb
            rw [ht] at h3; cases h3
            exact ⟨[], .nil, lp.bad n f h4 h0 h5⟩
          · rcases has_cons.mp h1 with h | h1
            · exact absurd h he
            · exact lp.shown x h1 (fun h => (has_cons.mp h).elim he h2) n hb

/-! ## All keys that can be reached -/

/-- The cache has all keys that are next to its keys. -/
def Closed (c : Config) (s : Cache) : Prop := ∀ x, Has s x → ∀ y, Next c x y → Has s y

/-- A first offending path ends in a key of a closed cache that has its start. -/
theorem reach {c : Config} {s : Cache} (hc : Closed c s) : ∀ (p : List (Text × Field)) (many : Bool)
    (a b : Text) (n : Text) (f : Field), Has s (a, many) → Offends c many a p b n f →
    First c many a p → Has s (b, true)
  | [], many, a, b, n, f, hs, ho, _ => by
    have hp := ho.path
    cases hp
    rcases ho.lists with h | ⟨x, hx, _⟩
    · rw [h] at hs; exact hs
    · cases hx
  | (m, g) :: p, many, a, b, n, f, hs, ho, hf => by
    have hp := ho.path
    cases hp with
    | cons ht hm hp =>
      rename_i t
      have hnot : ¬ (many = true ∧ Alone g.resolvers) := by
        rintro ⟨h1, h2⟩
        exact hf [] m g p a rfl ⟨.nil, ⟨t, ht, hm⟩, h2, .inl h1⟩
      have hnext : Has s (g.ty.name, many || g.ty.isList) := hc _ hs _ ⟨t, m, g, ht, hm, hnot, rfl⟩
      refine reach hc p (many || g.ty.isList) g.ty.name b n f hnext ?_ ?_
      · refine ⟨hp, ho.last, ho.alone, ?_⟩
        rcases ho.lists with h | ⟨x, hx, hl⟩
        · exact .inl (by rw [h]; rfl)
        · rcases List.mem_cons.mp hx with h | h
          · subst h; exact .inl (by rw [hl]; simp)
          · exact .inr ⟨x, h, hl⟩
      · intro p₁ n' f' p₂ b' he ho'
        refine hf ((m, g) :: p₁) n' f' p₂ b' (by rw [he]; rfl) ⟨.cons ht hm ho'.path, ho'.last, ho'.alone, ?_⟩
        rcases ho'.lists with h | ⟨x, hx, hl⟩
        · rcases Bool.or_eq_true _ _ |>.mp h with h1 | h1
          · exact .inl h1
          · exact .inr ⟨_, List.mem_cons_self, h1⟩
        · exact .inr ⟨x, List.mem_cons_of_mem _ hx, hl⟩

/-- Each offending path has a first one at its front. -/
theorem first_of {c : Config} {many : Bool} {a : Text} : ∀ (k : Nat) (p : List (Text × Field)) (b n : Text)
    (f : Field), p.length ≤ k → Offends c many a p b n f →
    ∃ p' b' n' f', Offends c many a p' b' n' f' ∧ First c many a p'
  | 0, p, b, n, f, hk, ho => by
    refine ⟨p, b, n, f, ho, ?_⟩
    intro p₁ n' f' p₂ b' he
    have : p = [] := List.length_eq_zero_iff.mp (by omega)
    rw [this] at he
    cases p₁ <;> cases he
  | k + 1, p, b, n, f, hk, ho => by
    by_cases hf : First c many a p
    · exact ⟨p, b, n, f, ho, hf⟩
    · unfold First at hf
      simp only [Classical.not_forall] at hf
      obtain ⟨p₁, n', f', p₂, b', he, ho'⟩ := hf
      refine first_of k p₁ b' n' f' ?_ (Classical.not_not.mp ho')
      have := congrArg List.length he
      simp at this
      omega

end Verif.Npo
