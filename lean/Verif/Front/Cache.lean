import Verif.Front.Model

/-!
# Properties of the Cache-Control header: C47, C48, C73
-/

set_option linter.unusedSimpArgs false

namespace Verif.Front
open Verif.Mustache (Text)

/-! ## Reading a Cache-Control header -/

/-- The `max-age` a client reads from a header value that starts with this directive. -/
def readAge (h : Text) : Option Nat :=
  if ['m', 'a', 'x', '-', 'a', 'g', 'e', '='].isPrefixOf h then
    some (Nat.ofDigitChars 10 ((h.drop 8).takeWhile (·.isDigit)) 0)
  else none

/-- The client is told that the response is for one user only. -/
def SaysPrivate (h : Text) : Prop := ['p', 'r', 'i', 'v', 'a', 't', 'e'] <:+ h

/-- The client is told to revalidate. -/
def SaysNoCache (h : Text) : Prop := ['n', 'o', '-', 'c', 'a', 'c', 'h', 'e'] <+: h

theorem maxAge_toList : "max-age=".toList = ['m', 'a', 'x', '-', 'a', 'g', 'e', '='] := by decide
theorem noCache_toList : "no-cache".toList = ['n', 'o', '-', 'c', 'a', 'c', 'h', 'e'] := by decide
theorem private_toList : "private".toList = ['p', 'r', 'i', 'v', 'a', 't', 'e'] := by decide

theorem intText_nat (n : Nat) : intText (n : Int) = Nat.toDigits 10 n := by
  unfold intText
  rw [Int.toString_eq_repr, Int.repr_eq_if, if_pos (by omega), Int.toNat_natCast, Nat.toList_repr]

theorem takeWhile_digits (n : Nat) (r : Text) (hr : ∀ c, r.head? = some c → c.isDigit = false) :
    (Nat.toDigits 10 n ++ r).takeWhile (·.isDigit) = Nat.toDigits 10 n := by
  have : ∀ (l : Text), (∀ c ∈ l, c.isDigit = true) → (l ++ r).takeWhile (·.isDigit) = l := by
    intro l hl
    induction l with
    | nil =>
      cases r with
      | nil => rfl
      | cons c r => simp [List.takeWhile_cons, hr c rfl]
    | cons c l ih =>
      rw [List.cons_append, List.takeWhile_cons, if_pos (hl c List.mem_cons_self),
        ih (fun x hx => hl x (List.mem_cons_of_mem _ hx))]
  exact this _ (fun c hc => Nat.isDigit_of_mem_toDigits (by omega) (by omega) hc)

theorem readAge_of (n : Nat) (r : Text) (hr : ∀ c, r.head? = some c → c.isDigit = false) :
    readAge (['m', 'a', 'x', '-', 'a', 'g', 'e', '='] ++ (intText (n : Int) ++ r)) = some n := by
  unfold readAge
  rw [if_pos (by simp [List.isPrefixOf])]
  have : (['m', 'a', 'x', '-', 'a', 'g', 'e', '='] ++ (intText (n : Int) ++ r)).drop 8
      = intText (n : Int) ++ r := rfl
  rw [this, intText_nat, takeWhile_digits n r hr, Nat.ofDigitChars_ten_toDigits]

/-- What the header of a `CacheControl` says, in all cases. -/
theorem value_cases (c : CC) :
    (0 < c.maxAge ∧ ∃ h, c.value = some h ∧ readAge h = some c.maxAge.toNat ∧ ¬ SaysNoCache h
        ∧ (c.pub = false → SaysPrivate h))
    ∨ (c.maxAge = -1 ∧ ∃ h, c.value = some h ∧ readAge h = none ∧ SaysNoCache h
        ∧ (c.pub = false → SaysPrivate h))
    ∨ (c.maxAge ≤ 0 ∧ c.maxAge ≠ -1 ∧ c.pub = false ∧ ∃ h, c.value = some h ∧ readAge h = none
        ∧ SaysPrivate h ∧ ¬ SaysNoCache h)
    ∨ (c.maxAge ≤ 0 ∧ c.maxAge ≠ -1 ∧ c.pub = true ∧ c.value = none) := by
  obtain ⟨a, p⟩ := c
  unfold CC.value
  rw [maxAge_toList, noCache_toList, private_toList]
  simp only []
  by_cases h1 : a > 0
  · left
    refine ⟨h1, ?_⟩
    obtain ⟨n, rfl⟩ : ∃ n : Nat, a = n := ⟨a.toNat, by omega⟩
    rw [if_pos h1]
    cases p with
    | true =>
      refine ⟨_, rfl, ?_, ?_, ?_⟩
      · have := readAge_of n [] (by simp)
        rw [List.append_nil] at this
        exact this
      · rintro ⟨t, ht⟩; simp at ht
      · intro h; cases h
    | false =>
      refine ⟨_, rfl, ?_, ?_, ?_⟩
      · have := readAge_of n (", ".toList ++ ['p', 'r', 'i', 'v', 'a', 't', 'e']) (by
          intro c hc; injection hc with hc; subst hc; rfl)
        simpa [List.append_assoc] using this
      · rintro ⟨t, ht⟩; simp at ht
      · intro _; exact List.suffix_append _ _
  · rw [if_neg h1]
    by_cases h2 : a = -1
    · right; left
      refine ⟨h2, ?_⟩
      rw [if_pos h2]
      cases p with
      | true => exact ⟨_, rfl, rfl, ⟨[], rfl⟩, fun h => by cases h⟩
      | false => exact ⟨_, rfl, rfl, ⟨_, rfl⟩, fun _ => List.suffix_append _ _⟩
    · right; right
      rw [if_neg h2]
      cases p with
      | true => right; exact ⟨by show a ≤ 0; omega, h2, rfl, rfl⟩
      | false =>
        left
        refine ⟨by show a ≤ 0; omega, h2, rfl, _, rfl, rfl, ⟨[], rfl⟩, ?_⟩
        rintro ⟨t, ht⟩; simp at ht

/-! ## The cells of a request -/

/-- The ages that an upstream response contributes: its `max-age`, and -1 for `no-cache`. -/
def contributes (u : Up) : List Int :=
  if u.success then
    match u.policy with
    | some p => (p.maxAge.map asI32).toList ++ (if p.cach = some .noCache then [-1] else [])
    | none => []
  else []

/-- A response that asks to be kept private. -/
def isPriv (u : Up) : Bool := u.success && (u.policy.any (fun p => p.cach = some .priv))

/-- `m` is the least of `l`. -/
def Least (m : Option Int) (l : List Int) : Prop :=
  match m with
  | none => l = []
  | some m => m ∈ l ∧ ∀ a ∈ l, m ≤ a

theorem least_set {c : Cells} {l : List Int} (h : Least c.minAge l) (a : Int) :
    Least (setMinMaxAge c a).minAge (l ++ [a]) ∧ (setMinMaxAge c a).pub = c.pub := by
  unfold setMinMaxAge
  cases hm : c.minAge with
  | none =>
    rw [hm] at h
    simp only [Least] at h
    subst h
    simp [Least]
  | some m =>
    rw [hm] at h
    obtain ⟨h1, h2⟩ := h
    simp only []
    split
    · rename_i hlt
      refine ⟨⟨by simp, ?_⟩, rfl⟩
      intro b hb
      rcases List.mem_append.mp hb with hb | hb
      · have := h2 b hb; omega
      · simp at hb; omega
    · rename_i hlt
      rw [hm]
      refine ⟨⟨List.mem_append_left _ h1, ?_⟩, rfl⟩
      intro b hb
      rcases List.mem_append.mp hb with hb | hb
      · exact h2 b hb
      · simp at hb; omega

theorem visibility_minAge (c : Cells) (v : Option Cach) : (setVisibility c v).minAge = c.minAge := by
  unfold setVisibility; split <;> rfl

theorem visibility_pub (c : Cells) (v : Option Cach) :
    (setVisibility c v).pub = if v = some .priv then some false else c.pub := by
  unfold setVisibility
  split
  · rfl
  · rename_i h
    rw [if_neg (fun he => h he)]

theorem setPolicy_spec {c : Cells} {l : List Int} (h : Least c.minAge l) (p : Policy) :
    Least (setPolicy c p).minAge (l ++ contributes ⟨true, some p⟩)
      ∧ (setPolicy c p).pub = if p.cach = some .priv then some false else c.pub := by
  unfold setPolicy contributes
  simp only [if_true]
  have step1 : Least (setAge c p.maxAge).minAge (l ++ (p.maxAge.map asI32).toList)
      ∧ (setAge c p.maxAge).pub = c.pub := by
    cases p.maxAge with
    | none => simpa [setAge] using h
    | some a => exact least_set h _
  generalize hc1 : setAge c p.maxAge = c1 at step1 ⊢
  obtain ⟨hl1, hp1⟩ := step1
  generalize hv : setVisibility c1 p.cach = c2
  have hl2 : Least c2.minAge (l ++ (p.maxAge.map asI32).toList) := by
    rw [← hv, visibility_minAge]; exact hl1
  have hp2 : c2.pub = if p.cach = some .priv then some false else c.pub := by
    rw [← hv, visibility_pub, hp1]
  rw [← List.append_assoc]
  split
  · have := least_set hl2 (-1)
    exact ⟨this.1, this.2.trans hp2⟩
  · rw [List.append_nil]
    exact ⟨hl2, hp2⟩

theorem observe_spec {c : Cells} {l : List Int} (h : Least c.minAge l) (u : Up) :
    Least (observe true c u).minAge (l ++ contributes u)
      ∧ (observe true c u).pub = if isPriv u then some false else c.pub := by
  obtain ⟨s, p⟩ := u
  cases s with
  | false => simp [observe, contributes, isPriv, h]
  | true =>
    cases p with
    | none => simp [observe, contributes, isPriv, h]
    | some p =>
      have := setPolicy_spec h p
      simpa [observe, isPriv] using this

theorem fold_spec (ups : List Up) : ∀ {c : Cells} {l : List Int}, Least c.minAge l →
    Least (ups.foldl (observe true) c).minAge (l ++ ups.flatMap contributes)
      ∧ (ups.foldl (observe true) c).pub = if ups.any isPriv then some false else c.pub := by
  induction ups with
  | nil => intro c l h; simpa using h
  | cons u r ih =>
    intro c l h
    obtain ⟨h1, h2⟩ := observe_spec h u
    obtain ⟨h3, h4⟩ := ih h1
    refine ⟨?_, ?_⟩
    · simpa [List.append_assoc] using h3
    · rw [List.foldl_cons, h4, h2, List.any_cons]
      cases isPriv u <;> cases r.any isPriv <;> rfl

theorem fresh_spec (ups : List Up) :
    Least (ups.foldl (observe true) Cells.fresh).minAge (ups.flatMap contributes)
      ∧ (ups.foldl (observe true) Cells.fresh).pub.getD true = !ups.any isPriv := by
  have := fold_spec ups (c := Cells.fresh) (l := []) rfl
  refine ⟨by simpa using this.1, ?_⟩
  rw [this.2]
  cases ups.any isPriv <;> rfl

theorem least_unique {m m' : Option Int} {l l' : List Int} (h : Least m l) (h' : Least m' l')
    (hm : ∀ a, a ∈ l ↔ a ∈ l') : m = m' := by
  cases m with
  | none =>
    simp only [Least] at h
    subst h
    cases m' with
    | none => rfl
    | some b => exact absurd ((hm b).mpr h'.1) List.not_mem_nil
  | some a =>
    cases m' with
    | none =>
      simp only [Least] at h'
      subst h'
      exact absurd ((hm a).mp h.1) List.not_mem_nil
    | some b =>
      have h1 := h.2 b ((hm b).mpr h'.1)
      have h2 := h'.2 a ((hm a).mp h.1)
      rw [show a = b by omega]

/-! ## Merging -/

theorem merge_dflt_left (c : CC) : CC.dflt.merge c = c := by
  obtain ⟨a, p⟩ := c
  simp only [CC.merge, CC.dflt, Bool.true_and]
  congr 1
  split
  · omega
  · split
    · rename_i h; simp_all
    · split
      · rename_i h; simp_all
      · rfl

theorem merge_self (c : CC) : c.merge c = c := by
  obtain ⟨a, p⟩ := c
  simp only [CC.merge, Bool.and_self]
  congr 1
  split
  · simp_all
  · split
    · rfl
    · simp

theorem merge_comm (x y : CC) : x.merge y = y.merge x := by
  obtain ⟨a, p⟩ := x
  obtain ⟨b, q⟩ := y
  simp only [CC.merge, Bool.and_comm p q]
  congr 1
  repeat' split
  all_goals omega

theorem merge_assoc (x y z : CC) : (x.merge y).merge z = x.merge (y.merge z) := by
  obtain ⟨a, p⟩ := x
  obtain ⟨b, q⟩ := y
  obtain ⟨c, r⟩ := z
  simp only [CC.merge, Bool.and_assoc]
  congr 1
  repeat' split
  all_goals omega

theorem foldl_merge (rs : List CC) (x : CC) :
    rs.foldl CC.merge x = x.merge (rs.foldl CC.merge CC.dflt) := by
  induction rs generalizing x with
  | nil => rw [List.foldl_nil, List.foldl_nil, merge_comm, merge_dflt_left]
  | cons r rs ih =>
    rw [List.foldl_cons, List.foldl_cons, ih (x.merge r), ih (CC.dflt.merge r), merge_dflt_left, merge_assoc]

theorem foldl_merge_perm {rs rs' : List CC} (h : rs.Perm rs') :
    rs.foldl CC.merge CC.dflt = rs'.foldl CC.merge CC.dflt := by
  induction h with
  | nil => rfl
  | cons r _ ih => rw [List.foldl_cons, List.foldl_cons, foldl_merge, ih, ← foldl_merge]
  | swap a b l =>
    simp only [List.foldl_cons]
    rw [merge_dflt_left, merge_dflt_left, merge_comm]
  | trans _ _ ih1 ih2 => exact ih1.trans ih2

theorem batch_some (rs : List AnyResp) (c : CC) :
    (Batch.batch rs).cacheControl (some c) = if rs.isEmpty then CC.dflt else c := by
  have h : ∀ (rs : List AnyResp), rs.foldl (fun acc _ => CC.merge acc c) c = c := by
    intro rs
    induction rs with
    | nil => rfl
    | cons r rs ih => rw [List.foldl_cons, merge_self, ih]
  cases rs with
  | nil => rfl
  | cons r rs =>
    show rs.foldl _ (CC.dflt.merge c) = c
    rw [merge_dflt_left]
    exact h rs

theorem batch_none (rs : List AnyResp) :
    (Batch.batch rs).cacheControl none = (rs.map (·.cc)).foldl CC.merge CC.dflt := by
  rw [List.foldl_map]
  rfl

/-! ## C47 -/

/-- The response answers at least one operation. -/
def Answers : Batch → Prop
  | .single _ => True
  | .batch rs => rs ≠ []

theorem respond_some {ups : List Up} {b : Batch} (hb : b.isOk = true) (ha : Answers b) :
    respond true ups b
      = CC.value ⟨(ups.foldl (observe true) Cells.fresh).minAge.getD 0,
          (ups.foldl (observe true) Cells.fresh).pub.getD true⟩ := by
  unfold respond cacheHeader
  simp only [hb, if_true]
  cases b with
  | single r => rfl
  | batch rs =>
    rw [batch_some]
    cases rs with
    | nil => exact absurd rfl ha
    | cons r rs => rfl

theorem respond_ok {en : Bool} {ups : List Up} {b : Batch} {h : Text} (hr : respond en ups b = some h) :
    b.isOk = true := by
  unfold respond cacheHeader at hr
  simp only [] at hr
  split at hr
  · assumption
  · cases hr

theorem respond_answers {ups : List Up} {b : Batch} {h : Text} (hr : respond true ups b = some h) :
    Answers b := by
  cases b with
  | single r => trivial
  | batch rs =>
    intro he
    subst he
    cases hr

/-- **C47**, the age.  A `max-age` sent to the client is at most the `max-age` of every successful
upstream response, and none of these was `no-cache`.  Partial: for ages below 2^31 (about 68 years), the
larger ones are truncated (see `C47_violated_by_truncated_age`), and for the parsed policy, which leaves
`no-store` out (see `C47_violated_by_no_store`). -/
theorem C47_max_age_partial (ups : List Up) (b : Batch) (h : Text) (m : Nat)
    (hr : respond true ups b = some h) (hm : readAge h = some m) (u : Up) (hu : u ∈ ups)
    (hs : u.success = true) (p : Policy) (hp : u.policy = some p) :
    p.cach ≠ some .noCache ∧ ∀ a, p.maxAge = some a → a < 2 ^ 31 → m ≤ a := by
  rw [respond_some (respond_ok hr) (respond_answers hr)] at hr
  obtain ⟨hl, _⟩ := fresh_spec ups
  revert hr hl
  generalize (ups.foldl (observe true) Cells.fresh) = cells
  intro hr hl
  have hv := value_cases ⟨cells.minAge.getD 0, cells.pub.getD true⟩
  rw [hr] at hv
  have hpos : 0 < cells.minAge.getD 0 ∧ m = (cells.minAge.getD 0).toNat := by
    rcases hv with ⟨h1, h', he, h2, _⟩ | ⟨_, h', he, h2, _⟩ | ⟨_, _, _, h', he, h2, _⟩ | ⟨_, _, _, he⟩
    · injection he with he; subst he
      rw [hm] at h2
      exact ⟨h1, by injection h2⟩
    · injection he with he; subst he; rw [hm] at h2; cases h2
    · injection he with he; subst he; rw [hm] at h2; cases h2
    · cases he
  cases hmin : cells.minAge with
  | none => rw [hmin] at hpos; simp at hpos
  | some x =>
    rw [hmin] at hpos hl
    simp only [Option.getD_some] at hpos
    have hle : ∀ y ∈ contributes u, x ≤ y := fun y hy => hl.2 y (List.mem_flatMap.mpr ⟨u, hu, hy⟩)
    unfold contributes at hle
    rw [if_pos hs, hp] at hle
    simp only [] at hle
    constructor
    · intro hc
      have := hle (-1) (by simp [hc])
      omega
    · intro a ha hlt
      have := hle (asI32 a) (by simp [ha])
      have hmod : a % 2 ^ 32 = a := Nat.mod_eq_of_lt (by omega)
      unfold asI32 at this
      rw [hmod, if_pos hlt] at this
      omega

/-- **C47**, no invented ages: the age sent to the client is the (truncated) age of one of the upstream
responses. -/
theorem C47_max_age_attained (ups : List Up) (b : Batch) (h : Text) (m : Nat)
    (hr : respond true ups b = some h) (hm : readAge h = some m) :
    ∃ u ∈ ups, ∃ p a, u.success = true ∧ u.policy = some p ∧ p.maxAge = some a ∧ a % 2 ^ 32 = m := by
  rw [respond_some (respond_ok hr) (respond_answers hr)] at hr
  obtain ⟨hl, _⟩ := fresh_spec ups
  revert hr hl
  generalize (ups.foldl (observe true) Cells.fresh) = cells
  intro hr hl
  have hv := value_cases ⟨cells.minAge.getD 0, cells.pub.getD true⟩
  rw [hr] at hv
  have hpos : 0 < cells.minAge.getD 0 ∧ m = (cells.minAge.getD 0).toNat := by
    rcases hv with ⟨h1, h', he, h2, _⟩ | ⟨_, h', he, h2, _⟩ | ⟨_, _, _, h', he, h2, _⟩ | ⟨_, _, _, he⟩
    · injection he with he; subst he
      rw [hm] at h2
      exact ⟨h1, by injection h2⟩
    · injection he with he; subst he; rw [hm] at h2; cases h2
    · injection he with he; subst he; rw [hm] at h2; cases h2
    · cases he
  cases hmin : cells.minAge with
  | none => rw [hmin] at hpos; simp at hpos
  | some x =>
    rw [hmin] at hpos hl
    simp only [Option.getD_some] at hpos
    obtain ⟨u, hu, hx⟩ := List.mem_flatMap.mp hl.1
    refine ⟨u, hu, ?_⟩
    unfold contributes at hx
    split at hx
    · rename_i hs
      split at hx
      · rename_i p hp
        rcases List.mem_append.mp hx with hx | hx
        · cases ha : p.maxAge with
          | none => rw [ha] at hx; cases hx
          | some a =>
            rw [ha] at hx
            refine ⟨p, a, hs, hp, ha, ?_⟩
            simp only [Option.map_some, Option.toList_some, List.mem_singleton] at hx
            unfold asI32 at hx
            have : a % 2 ^ 32 < 2 ^ 32 := Nat.mod_lt _ (by omega)
            split at hx <;> omega
        · exfalso
          split at hx
          · rw [List.mem_singleton] at hx; omega
          · cases hx
      · cases hx
    · cases hx

/-- **C47**, privacy: if a successful upstream response was `private`, so is the response to the client. -/
theorem C47_private (ups : List Up) (b : Batch) (hb : b.isOk = true) (ha : Answers b) (u : Up)
    (hu : u ∈ ups) (hs : u.success = true) (p : Policy) (hp : u.policy = some p)
    (hc : p.cach = some .priv) : ∃ h, respond true ups b = some h ∧ SaysPrivate h := by
  rw [respond_some hb ha]
  obtain ⟨_, hpub⟩ := fresh_spec ups
  have hany : ups.any isPriv = true := List.any_eq_true.mpr ⟨u, hu, by simp [isPriv, hs, hp, hc]⟩
  rw [hany] at hpub
  rw [hpub]
  rcases value_cases ⟨(ups.foldl (observe true) Cells.fresh).minAge.getD 0, !true⟩ with
    ⟨_, h, he, _, _, h2⟩ | ⟨_, h, he, _, _, h2⟩ | ⟨_, _, _, h, he, _, h2, _⟩ | ⟨_, _, h2, _⟩
  · exact ⟨h, he, h2 rfl⟩
  · exact ⟨h, he, h2 rfl⟩
  · exact ⟨h, he, h2⟩
  · cases h2

/-- **C47**, revalidation: if a successful upstream response was `no-cache`, so is the response to the
client; for ages below 2^31 (see `C47_violated_by_truncated_age`). -/
theorem C47_no_cache_partial (ups : List Up) (b : Batch) (hb : b.isOk = true) (ha : Answers b)
    (hages : ∀ u ∈ ups, ∀ p a, u.policy = some p → p.maxAge = some a → a < 2 ^ 31) (u : Up)
    (hu : u ∈ ups) (hs : u.success = true) (p : Policy) (hp : u.policy = some p)
    (hc : p.cach = some .noCache) :
    ∃ h, respond true ups b = some h ∧ SaysNoCache h ∧ readAge h = none := by
  rw [respond_some hb ha]
  obtain ⟨hl, _⟩ := fresh_spec ups
  have hmem : (-1 : Int) ∈ ups.flatMap contributes :=
    List.mem_flatMap.mpr ⟨u, hu, by simp [contributes, hs, hp, hc]⟩
  have hge : ∀ x ∈ ups.flatMap contributes, -1 ≤ x := by
    intro x hx
    obtain ⟨u', hu', hx⟩ := List.mem_flatMap.mp hx
    unfold contributes at hx
    split at hx
    · split at hx
      · rename_i p' hp'
        rcases List.mem_append.mp hx with hx | hx
        · cases ha' : p'.maxAge with
          | none => rw [ha'] at hx; cases hx
          | some a' =>
            rw [ha'] at hx
            have hlt := hages u' hu' p' a' hp' ha'
            simp only [Option.map_some, Option.toList_some, List.mem_singleton] at hx
            have hmod : a' % 2 ^ 32 = a' := Nat.mod_eq_of_lt (by omega)
            unfold asI32 at hx
            rw [hmod, if_pos hlt] at hx
            omega
        · split at hx
          · rw [List.mem_singleton] at hx; omega
          · cases hx
      · cases hx
    · cases hx
  revert hl
  generalize (ups.foldl (observe true) Cells.fresh) = cells
  intro hl
  have hmin : cells.minAge = some (-1) := by
    cases hm : cells.minAge with
    | none => rw [hm] at hl; simp only [Least] at hl; rw [hl] at hmem; cases hmem
    | some x =>
      rw [hm] at hl
      have h1 := hl.2 _ hmem
      have h2 := hge _ hl.1
      rw [show x = -1 by omega]
  rw [hmin]
  rcases value_cases ⟨(some (-1)).getD 0, cells.pub.getD true⟩ with
    ⟨h1, _⟩ | ⟨_, h, he, h1, h2, _⟩ | ⟨_, h1, _⟩ | ⟨_, h1, _⟩
  · simp at h1
  · exact ⟨h, he, h2, h1⟩
  · simp at h1
  · simp at h1

/-- **C47**: the header does not depend on the order in which the upstream responses arrive. -/
theorem C47_order_independent (ups ups' : List Up) (hp : ups.Perm ups') (b : Batch) :
    respond true ups b = respond true ups' b := by
  have h1 := fresh_spec ups
  have h2 := fresh_spec ups'
  have hm : (ups.foldl (observe true) Cells.fresh).minAge = (ups'.foldl (observe true) Cells.fresh).minAge :=
    least_unique h1.1 h2.1 (fun a => by
      simp only [List.mem_flatMap]
      exact exists_congr (fun u => and_congr_left (fun _ => hp.mem_iff)))
  have hpub : (ups.foldl (observe true) Cells.fresh).pub.getD true
      = (ups'.foldl (observe true) Cells.fresh).pub.getD true := by
    rw [h1.2, h2.2]
    congr 1
    rw [Bool.eq_iff_iff, List.any_eq_true, List.any_eq_true]
    exact exists_congr (fun u => and_congr_left (fun _ => hp.mem_iff))
  unfold respond
  simp only []
  rw [hm, hpub]

/-- **C47**: no header if any member has errors, and none when the feature is off. -/
theorem C47_no_header (en : Bool) (ups : List Up) :
    (∀ (rs : List AnyResp) (r : AnyResp), r ∈ rs → r.isOk = false → respond en ups (.batch rs) = none)
      ∧ (∀ r : AnyResp, r.isOk = false → respond en ups (.single r) = none)
      ∧ (∀ rs : List AnyResp, (∀ r ∈ rs, r.cc = CC.dflt) → respond false ups (.batch rs) = none)
      ∧ (∀ r : AnyResp, r.cc = CC.dflt → respond false ups (.single r) = none) := by
  refine ⟨?_, ?_, ?_, ?_⟩
  · intro rs r hr h
    have hb : (Batch.batch rs).isOk = false := by
      show rs.all _ = false
      rw [Bool.eq_false_iff]
      intro hc
      have := List.all_eq_true.mp hc r hr
      rw [h] at this; cases this
    unfold respond cacheHeader
    simp [hb]
  · intro r h
    have hb : (Batch.single r).isOk = false := h
    unfold respond cacheHeader
    simp [hb]
  · intro rs h
    unfold respond cacheHeader
    have hf : (rs.map (·.cc)).foldl CC.merge CC.dflt = CC.dflt := by
      have : rs.map (·.cc) = List.replicate rs.length CC.dflt := by
        rw [List.eq_replicate_iff]
        refine ⟨by simp, ?_⟩
        intro c hc
        obtain ⟨r, hr, rfl⟩ := List.mem_map.mp hc
        exact h r hr
      rw [this]
      induction rs.length with
      | zero => rfl
      | succ n ih => rw [List.replicate_succ, List.foldl_cons, merge_dflt_left, ih]
    show (if _ then (Batch.cacheControl _ none).value else none) = none
    rw [batch_none, hf]
    split <;> rfl
  · intro r h
    unfold respond cacheHeader
    show (if _ then (CC.value r.cc) else none) = none
    rw [h]
    split <;> rfl

/-- Example data for the concrete cases below. -/
def okResp : AnyResp := ⟨['{', '}'], CC.dflt, true⟩

/-- Three upstream responses: public for 60 seconds, private for 120 seconds, and a failed one. -/
def threeUps : List Up :=
  [⟨true, some ⟨some 120, some .priv, false⟩⟩, ⟨true, some ⟨some 60, some .pub, false⟩⟩,
    ⟨false, some ⟨some 5, none, false⟩⟩]

/-- The hypotheses of the C47 theorems are met, and the header is what one expects. -/
example : respond true threeUps (.single okResp) = some "max-age=60, private".toList
    ∧ (∃ h, respond true threeUps (.single okResp) = some h ∧ SaysPrivate h) :=
  ⟨by decide, C47_private _ _ rfl trivial _ List.mem_cons_self rfl _ rfl rfl⟩

/-- `no-cache` wins over ages. -/
example : ∃ h, respond true (⟨true, some ⟨none, some .noCache, false⟩⟩ :: threeUps) (.batch [okResp, okResp])
    = some h ∧ SaysNoCache h ∧ readAge h = none :=
  C47_no_cache_partial _ _ rfl (by simp [Answers])
    (by
      intro u hu p a hp ha
      simp only [threeUps, List.mem_cons, List.not_mem_nil, or_false] at hu
      rcases hu with rfl | rfl | rfl | rfl <;> (cases hp; cases ha) <;> omega)
    _ List.mem_cons_self rfl _ rfl rfl

/-- **C47 is violated** by truncation: an upstream response with an age of 2^31 seconds or more makes the
header disappear, also when another response was `no-cache`. -/
theorem C47_violated_by_truncated_age :
    ∃ (ups : List Up) (b : Batch) (u : Up) (p : Policy), b.isOk = true ∧ u ∈ ups ∧ u.success = true
      ∧ u.policy = some p ∧ p.cach = some .noCache ∧ respond true ups b = none :=
  ⟨[⟨true, some ⟨none, some .noCache, false⟩⟩, ⟨true, some ⟨some 3000000000, none, false⟩⟩],
    .single okResp, ⟨true, some ⟨none, some .noCache, false⟩⟩, ⟨none, some .noCache, false⟩, rfl,
    List.mem_cons_self, rfl, rfl, rfl, by decide +kernel⟩

/-- **C47 is violated** by `no-store`: the client is told that it may keep what the upstream forbade to
store. -/
theorem C47_violated_by_no_store :
    ∃ (ups : List Up) (b : Batch) (h : Text), (∃ u ∈ ups, ∃ p, u.policy = some p ∧ p.noStore = true)
      ∧ respond true ups b = some h ∧ readAge h = some 60 :=
  ⟨[⟨true, some ⟨some 60, none, true⟩⟩], .single okResp, "max-age=60".toList,
    ⟨_, List.mem_cons_self, _, rfl, rfl⟩, by decide, by decide⟩

/-- **C47 is violated** by `max-age=0`: an upstream response that must not be reused gives a response
without any Cache-Control. -/
theorem C47_violated_by_zero_age :
    ∃ (ups : List Up) (b : Batch), (∃ u ∈ ups, ∃ p, u.success = true ∧ u.policy = some p
      ∧ p.maxAge = some 0) ∧ b.isOk = true ∧ respond true ups b = none :=
  ⟨[⟨true, some ⟨some 0, none, false⟩⟩], .single okResp, ⟨_, List.mem_cons_self, _, rfl, rfl, rfl⟩, rfl,
    by decide⟩

/-! ## C48 -/

/-- **C48**, order: the members of a batch can be exchanged. -/
theorem C48_order_independent (rs rs' : List AnyResp) (hp : rs.Perm rs') (cc : Option CC) :
    cacheHeader (.batch rs) cc = cacheHeader (.batch rs') cc := by
  have hok : (Batch.batch rs).isOk = (Batch.batch rs').isOk := by
    show rs.all _ = rs'.all _
    rw [Bool.eq_iff_iff, List.all_eq_true, List.all_eq_true]
    exact forall_congr' (fun r => by rw [hp.mem_iff])
  have hcc : (Batch.batch rs).cacheControl cc = (Batch.batch rs').cacheControl cc := by
    cases cc with
    | none => rw [batch_none, batch_none, foldl_merge_perm (hp.map _)]
    | some c =>
      rw [batch_some, batch_some]
      have : rs.isEmpty = rs'.isEmpty := by
        rw [Bool.eq_iff_iff, List.isEmpty_iff_length_eq_zero, List.isEmpty_iff_length_eq_zero, hp.length_eq]
      rw [this]
  unfold cacheHeader
  rw [hok, hcc]

theorem merged_zero (rs : List CC) (h0 : (rs.foldl CC.merge CC.dflt).maxAge = 0) (r : CC) (hr : r ∈ rs) :
    r.maxAge = 0 := by
  induction rs with
  | nil => cases hr
  | cons x xs ih =>
    rw [List.foldl_cons, foldl_merge, merge_dflt_left] at h0
    have hboth : x.maxAge = 0 ∧ (xs.foldl CC.merge CC.dflt).maxAge = 0 := by
      revert h0
      generalize xs.foldl CC.merge CC.dflt = y
      intro h0
      simp only [CC.merge] at h0
      repeat' split at h0
      all_goals omega
    rcases List.mem_cons.mp hr with rfl | hr
    · exact hboth.1
    · exact ih hboth.2 hr

theorem merge_pos {x y : CC} (h : 0 < (x.merge y).maxAge) :
    (x.maxAge = 0 ∨ (x.merge y).maxAge ≤ x.maxAge)
      ∧ (y.maxAge = 0 ∨ (0 < y.maxAge ∧ (x.merge y).maxAge ≤ y.maxAge)) := by
  simp only [CC.merge] at h ⊢
  by_cases h1 : x.maxAge = -1 <;> by_cases h2 : y.maxAge = -1 <;> by_cases h3 : y.maxAge = 0
    <;> by_cases h4 : x.maxAge = 0 <;> simp only [h1, h2, h3, h4, if_true, if_false] at h ⊢ <;> first
    | omega
    | (simp at h ⊢; try omega)

theorem merged_le (rs : List CC) (hpos : 0 < (rs.foldl CC.merge CC.dflt).maxAge) (r : CC) (hr : r ∈ rs) :
    r.maxAge = 0 ∨ (rs.foldl CC.merge CC.dflt).maxAge ≤ r.maxAge := by
  induction rs with
  | nil => cases hr
  | cons x xs ih =>
    rw [List.foldl_cons, foldl_merge, merge_dflt_left] at hpos ⊢
    obtain ⟨h1, h2⟩ := merge_pos hpos
    rcases List.mem_cons.mp hr with rfl | hr
    · exact h1
    · rcases h2 with h2 | ⟨h2, h3⟩
      · exact Or.inl (merged_zero xs h2 r hr)
      · rcases ih h2 hr with h | h
        · exact Or.inl h
        · exact Or.inr (by omega)

theorem merged_pub (rs : List CC) (x : CC) : (rs.foldl CC.merge x).pub = (x.pub && rs.all (·.pub)) := by
  induction rs generalizing x with
  | nil => simp
  | cons r rs ih => rw [List.foldl_cons, ih, List.all_cons, ← Bool.and_assoc]; rfl

theorem merged_no_cache (rs : List CC) (r : CC) (hr : r ∈ rs) (h : r.maxAge = -1) :
    (rs.foldl CC.merge CC.dflt).maxAge = -1 := by
  induction rs with
  | nil => cases hr
  | cons x xs ih =>
    rw [List.foldl_cons, foldl_merge, merge_dflt_left]
    rcases List.mem_cons.mp hr with rfl | hr
    · simp [CC.merge, h]
    · have := ih hr
      simp only [CC.merge, this, if_true]
      split <;> rfl

/-- **C48**, permission: what the header of a batch says is at most what each member says.  If it has a
`max-age`, every member with a non-zero age allows at least that age; if a member is `no-cache` or
private, so is the batch.  Partial: members of age 0 are taken to say nothing (see
`C48_violated_by_zero_age`). -/
theorem C48_conservative_partial (rs : List AnyResp) (r : AnyResp) (hr : r ∈ rs)
    (hok : ∀ x ∈ rs, x.isOk = true) :
    (∀ h m, cacheHeader (.batch rs) none = some h → readAge h = some m → r.cc.maxAge = 0 ∨ (m : Int) ≤ r.cc.maxAge)
      ∧ (r.cc.pub = false → ∃ h, cacheHeader (.batch rs) none = some h ∧ SaysPrivate h)
      ∧ (r.cc.maxAge = -1 → ∃ h, cacheHeader (.batch rs) none = some h ∧ SaysNoCache h ∧ readAge h = none) := by
  have hall : (Batch.batch rs).isOk = true := List.all_eq_true.mpr hok
  have hmem : r.cc ∈ rs.map (·.cc) := List.mem_map.mpr ⟨r, hr, rfl⟩
  unfold cacheHeader
  rw [if_pos hall, batch_none]
  have hv := value_cases ((rs.map (·.cc)).foldl CC.merge CC.dflt)
  refine ⟨?_, ?_, ?_⟩
  · intro h m he hm
    rw [he] at hv
    rcases hv with ⟨h1, h', he', h2, _⟩ | ⟨_, h', he', h2, _⟩ | ⟨_, _, _, h', he', h2, _⟩ | ⟨_, _, _, he'⟩
    · injection he' with he'; subst he'
      rw [hm] at h2
      injection h2 with h2
      rcases merged_le _ h1 _ hmem with h3 | h3
      · exact Or.inl h3
      · exact Or.inr (by omega)
    · injection he' with he'; subst he'; rw [hm] at h2; cases h2
    · injection he' with he'; subst he'; rw [hm] at h2; cases h2
    · cases he'
  · intro hp
    have hpub : ((rs.map (·.cc)).foldl CC.merge CC.dflt).pub = false := by
      rw [merged_pub]
      have : (rs.map (·.cc)).all (·.pub) = false := by
        rw [Bool.eq_false_iff]
        intro hc
        have := List.all_eq_true.mp hc _ hmem
        rw [hp] at this; cases this
      rw [this, Bool.and_false]
    rcases hv with ⟨_, h, he, _, _, h2⟩ | ⟨_, h, he, _, _, h2⟩ | ⟨_, _, _, h, he, _, h2, _⟩ | ⟨_, _, h2, _⟩
    · exact ⟨h, he, h2 hpub⟩
    · exact ⟨h, he, h2 hpub⟩
    · exact ⟨h, he, h2⟩
    · rw [hpub] at h2; cases h2
  · intro hm
    have hmin := merged_no_cache _ _ hmem hm
    rcases hv with ⟨h1, _⟩ | ⟨_, h, he, h1, h2, _⟩ | ⟨_, h1, _⟩ | ⟨_, h1, _⟩
    · omega
    · exact ⟨h, he, h2, h1⟩
    · exact absurd hmin h1
    · exact absurd hmin h1

/-- **C48** through the server: the header of a batch is that of a single operation which saw the same
upstream responses. -/
theorem C48_batch_like_single (ups : List Up) (rs : List AnyResp) (hne : rs ≠ [])
    (hok : ∀ x ∈ rs, x.isOk = true) (r : AnyResp) (hr : r.isOk = true) :
    respond true ups (.batch rs) = respond true ups (.single r) := by
  rw [respond_some (b := .batch rs) (List.all_eq_true.mpr hok) hne, respond_some (b := .single r) hr trivial]

/-- A batch of a private member of 60 seconds and one of 30 seconds. -/
example : cacheHeader (.batch [⟨[], ⟨60, false⟩, true⟩, ⟨[], ⟨30, true⟩, true⟩]) none
      = some "max-age=30, private".toList
    ∧ (∃ h, cacheHeader (.batch [⟨[], ⟨60, false⟩, true⟩, ⟨[], ⟨30, true⟩, true⟩]) none = some h
        ∧ SaysPrivate h) :=
  ⟨by decide, (C48_conservative_partial [⟨[], ⟨60, false⟩, true⟩, ⟨[], ⟨30, true⟩, true⟩]
    ⟨[], ⟨60, false⟩, true⟩ (by simp) (by simp)).2.1 rfl⟩

/-- **C48 is violated** by a member of age 0: the batch may be kept for 60 seconds although this member
may not be kept at all. -/
theorem C48_violated_by_zero_age :
    ∃ (rs : List AnyResp) (r : AnyResp) (h : Text), r ∈ rs ∧ r.cc.value = none
      ∧ cacheHeader (.batch rs) none = some h ∧ readAge h = some 60 :=
  ⟨[⟨[], ⟨60, true⟩, true⟩, ⟨[], ⟨0, true⟩, true⟩], ⟨[], ⟨0, true⟩, true⟩, "max-age=60".toList, by simp,
    rfl, by decide, by decide⟩

/-! ## C73: responses that share an execution -/

/-- The headers of two requests with one execution: the second joined the first
(jit/graphql_executor.rs:82-122, see Verif.Server), so the upstream responses `ups` were recorded
in the context of the first only; `execute_query` (http/request_handler.rs:136-146) reads each request's
own context. -/
def sharedHeaders (ups : List Up) (b : Batch) : Option Text × Option Text :=
  (respond true ups b, respond true [] b)

/-- **C73**, what remains: a request that joined never announces an age nor `no-cache` nor `private`; its
header is absent. -/
theorem C73_joined_says_nothing_partial (ups : List Up) (b : Batch) : (sharedHeaders ups b).2 = none := by
  unfold sharedHeaders
  simp only []
  cases h : respond true [] b with
  | none => rfl
  | some t =>
    rw [respond_some (respond_ok h) (respond_answers h)] at h
    cases h

/-- **C73 is violated**: the same data is private and not reusable for the first client, and without any
restriction for the second. -/
theorem C73_violated_by_joining :
    ∃ (ups : List Up) (b : Batch) (h : Text), (sharedHeaders ups b).1 = some h ∧ SaysPrivate h
      ∧ (sharedHeaders ups b).2 = none :=
  ⟨[⟨true, some ⟨some 5, some .priv, false⟩⟩], .single okResp, "max-age=5, private".toList, by decide,
    ⟨"max-age=5, ".toList, by decide⟩, by decide⟩

end Verif.Front
