import Verif.HttpBatch.Model
import Verif.HttpUrl.Lemmas

set_option linter.unusedSimpArgs false

/-! # Helper lemmas for the batching data loaders -/

namespace Verif.HttpBatch
open Verif.Mustache (Text)
open Verif.HttpUrl
open Verif.HttpKey

/-! ## Form encoding -/

theorem formSafe_ne {c : Char} (h : formSafe c = true) :
    c ≠ '%' ∧ c ≠ '+' ∧ c ≠ '&' ∧ c ≠ '=' := by
  refine ⟨?_, ?_, ?_, ?_⟩ <;> rintro rfl <;> revert h <;> decide

theorem formDecode_formEnc (s : Text) : formDecode (formEnc s) = s := by
  induction s with
  | nil => simp [formEnc, formDecode]
  | cons c r ih =>
    have hr : formEnc (c :: r) =
      (if formSafe c then .raw c else if c == ' ' then .raw '+' else .enc c) :: formEnc r := rfl
    rw [hr]
    by_cases h : formSafe c = true
    · obtain ⟨h1, h2, _, _⟩ := formSafe_ne h
      rw [if_pos h, formDecode]
      · simp [h2, ih]
      · intro a b r' _ hh; exact absurd hh h1
    · rw [if_neg h]
      by_cases hs : (c == ' ') = true
      · have : c = ' ' := by simpa using hs
        subst this
        rw [if_pos hs, formDecode]
        · simp [ih]
        · intro a b r' _ hh; revert hh; decide
      · rw [if_neg hs, formDecode, ih]

theorem formEnc_no (x : Char) (hx : x = '&' ∨ x = '=') (s : Text) : QC.raw x ∉ formEnc s := by
  intro h
  unfold formEnc at h
  rw [List.mem_map] at h
  obtain ⟨c, _, hc⟩ := h
  by_cases hs : formSafe c = true
  · rw [if_pos hs] at hc
    injection hc with hc
    obtain ⟨_, _, h3, h4⟩ := formSafe_ne hs
    rcases hx with rfl | rfl
    · exact h3 hc
    · exact h4 hc
  · rw [if_neg hs] at hc
    split at hc
    · injection hc with hc
      rcases hx with rfl | rfl <;> revert hc <;> decide
    · cases hc

theorem parsePair_form (k v : Text) : parsePair (formEnc k ++ .raw '=' :: formEnc v) = (k, v) := by
  have h : ∀ x ∈ formEnc k, (x != QC.raw '=') = true := by
    intro x hx
    have := formEnc_no '=' (Or.inr rfl) k
    simp only [bne_iff_ne, ne_eq]
    rintro rfl
    exact this hx
  unfold parsePair
  rw [takeWhile_stop _ _ _ _ h (by decide), dropWhile_stop _ _ _ _ h (by decide)]
  simp [formDecode_formEnc]

theorem pairsOf_form (k v : Text) : pairsOf (formEnc k ++ .raw '=' :: formEnc v) = [(k, v)] := by
  have h : ∀ x ∈ formEnc k ++ .raw '=' :: formEnc v, (x == QC.raw '&') = false := by
    intro x hx
    rw [List.mem_append, List.mem_cons] at hx
    rw [beq_eq_false_iff_ne]
    rintro rfl
    rcases hx with hx | hx | hx
    · exact formEnc_no '&' (Or.inl rfl) _ hx
    · revert hx; decide
    · exact formEnc_no '&' (Or.inl rfl) _ hx
  unfold pairsOf
  rw [splitAll_none _ _ h]
  have hne : (formEnc k ++ QC.raw '=' :: formEnc v).isEmpty = false := by
    cases formEnc k <;> rfl
  simp [hne, parsePair_form]

theorem pairsOf_extend (ps : List (Text × Text)) : ∀ q, pairsOf (extendPairs q ps) = pairsOf q ++ ps := by
  induction ps with
  | nil => intro q; simp [extendPairs]
  | cons p r ih =>
    intro q
    have : extendPairs q (p :: r) = extendPairs
      ((if q.isEmpty then q else q ++ [.raw '&']) ++ (formEnc p.1 ++ .raw '=' :: formEnc p.2)) r := rfl
    rw [this, ih]
    by_cases hq : q.isEmpty = true
    · have : q = [] := by simpa using hq
      subst this
      simp [pairsOf_form, pairsOf_nil]
    · rw [if_neg hq]
      have : q ++ [QC.raw '&'] ++ (formEnc p.1 ++ .raw '=' :: formEnc p.2) =
        q ++ .raw '&' :: (formEnc p.1 ++ .raw '=' :: formEnc p.2) := by simp
      rw [this, pairsOf_append, pairsOf_form]
      simp

/-- What merging does to the request. -/
theorem mergeQuery_spec (key : Option Text) (rest : List DLReq) : ∀ r : HttpReq,
    (mergeQuery key rest r).url.pairs = r.url.pairs ++ rest.flatMap (fun x => batchPairs key x.req.url) ∧
    (mergeQuery key rest r).method = r.method ∧ (mergeQuery key rest r).headers = r.headers ∧
    (mergeQuery key rest r).body = r.body ∧ (mergeQuery key rest r).url.base = r.url.base ∧
    (mergeQuery key rest r).url.frag = r.url.frag := by
  induction rest with
  | nil => intro r; simp [mergeQuery]
  | cons x rest ih =>
    intro r
    have hstep : mergeQuery key (x :: rest) r = mergeQuery key rest
      (let ps := batchPairs key x.req.url
       if ps.isEmpty then r
       else { r with url := { r.url with query := some (extendPairs (r.url.query.getD []) ps) } }) := rfl
    rw [hstep, List.flatMap_cons]
    generalize batchPairs key x.req.url = ps
    simp only []
    by_cases hp : ps.isEmpty = true
    · have : ps = [] := by simpa using hp
      subst this
      simpa using ih r
    · rw [if_neg hp]
      have h := ih { r with url := { r.url with query := some (extendPairs (r.url.query.getD []) ps) } }
      refine ⟨?_, h.2⟩
      rw [h.1]
      simp [Url.pairs, pairsOf_extend]

/-! ## Collecting -/

theorem collect_length {α β} (f : α → Option β) : ∀ (l : List α) (bs : List β),
    collect f l = some bs → bs.length = l.length := by
  intro l
  induction l with
  | nil => intro bs h; simp [collect] at h; subst h; rfl
  | cons a r ih =>
    intro bs h
    unfold collect at h
    split at h
    · rename_i b bs' hb hbs
      injection h with h
      subst h
      simp [ih _ hbs]
    · cases h

theorem collect_some {α β} (f : α → Option β) : ∀ (l : List α) (bs : List β),
    collect f l = some bs → ∀ a ∈ l, ∃ b, f a = some b := by
  intro l
  induction l with
  | nil => intro bs _ a ha; cases ha
  | cons a r ih =>
    intro bs h x hx
    unfold collect at h
    split at h
    · rename_i b bs' hb hbs
      rcases List.mem_cons.mp hx with rfl | hx
      · exact ⟨b, hb⟩
      · exact ih _ hbs x hx
    · cases h

theorem collect_of_all {α β} (f : α → Option β) (g : α → β) : ∀ (l : List α),
    (∀ a ∈ l, f a = some (g a)) → collect f l = some (l.map g) := by
  intro l
  induction l with
  | nil => intro _; rfl
  | cons a r ih =>
    intro h
    unfold collect
    rw [h a List.mem_cons_self, ih (fun x hx => h x (List.mem_cons_of_mem _ hx))]
    rfl

theorem collect_none {α β} (f : α → Option β) : ∀ (l : List α) (a : α), a ∈ l → f a = none →
    collect f l = none := by
  intro l
  induction l with
  | nil => intro a ha; cases ha
  | cons b r ih =>
    intro a ha hf
    unfold collect
    rcases List.mem_cons.mp ha with rfl | ha
    · rw [hf]
    · rw [ih a ha hf]
      split
      · rename_i h; simp at h
      · rfl

/-- Entries that keep their request are found under it. -/
theorem collect_lastEntry {α} (key : α → List Tok) (f : α → Option (α × Resp))
    (hf : ∀ a b, f a = some b → b.1 = a) :
    ∀ (ds : List α) (es : List (α × Resp)), collect f ds = some es → (ds.map key).Nodup →
    ∀ d ∈ ds, ∃ r, f d = some (d, r) ∧ lastEntry key es d = some r := by
  intro ds
  induction ds with
  | nil => intro es _ _ d hd; cases hd
  | cons a rest ih =>
    intro es h hn d hd
    unfold collect at h
    split at h
    · rename_i b bs hb hbs
      injection h with h
      subst h
      rw [List.map_cons, List.nodup_cons] at hn
      have hkeys : ∀ (l : List α) (bs : List (α × Resp)), collect f l = some bs →
          ∀ e ∈ bs, e.1 ∈ l := by
        intro l
        induction l with
        | nil => intro bs h e he; simp [collect] at h; subst h; cases he
        | cons x r ih' =>
          intro bs h e he
          unfold collect at h
          split at h
          · rename_i b' bs' hb' hbs'
            injection h with h
            subst h
            rcases List.mem_cons.mp he with rfl | he
            · rw [hf _ _ hb']; exact List.mem_cons_self
            · exact List.mem_cons_of_mem _ (ih' _ hbs' e he)
          · cases h
      have hba := hf _ _ hb
      rcases List.mem_cons.mp hd with rfl | hd
      · refine ⟨b.2, by rw [hb]; rw [← hba], ?_⟩
        have hnone : bs.filter (fun e => key e.1 = key d) = [] := by
          rw [List.filter_eq_nil_iff]
          intro e he hk
          have hk : key e.1 = key d := by simpa using hk
          exact hn.1 (hk ▸ List.mem_map_of_mem (hkeys _ _ hbs e he))
        unfold lastEntry
        rw [List.filter_cons]
        rw [if_pos (by simp [hba]), hnone]
        rfl
      · obtain ⟨r, hr, ha⟩ := ih bs hbs hn.2 d hd
        refine ⟨r, hr, ?_⟩
        have hne : key b.1 ≠ key d := by
          rw [hba]
          intro hk
          exact hn.1 (hk ▸ List.mem_map_of_mem hd)
        unfold lastEntry at ha ⊢
        rw [List.filter_cons, if_neg (by simpa using hne)]
        exact ha
    · cases h

theorem collect_answer (f : DLReq → Option (DLReq × Resp)) (hf : ∀ a b, f a = some b → b.1 = a)
    (ds : List DLReq) (es : List (DLReq × Resp)) (h : collect f ds = some es)
    (hn : (ds.map DLReq.key).Nodup) (d : DLReq) (hd : d ∈ ds) :
    ∃ r, f d = some (d, r) ∧ answer es d = some r :=
  collect_lastEntry DLReq.key f hf ds es h hn d hd

/-- Zipping with collected values is collecting pairs. -/
theorem collect_zip {α β γ} (f : α → Option β) (g : α → β → γ) : ∀ (l : List α) (bs : List β),
    collect f l = some bs →
    collect (fun a => (f a).map (g a)) l = some ((l.zip bs).map (fun p => g p.1 p.2)) := by
  intro l
  induction l with
  | nil => intro bs h; simp [collect] at h; subst h; rfl
  | cons a r ih =>
    intro bs h
    unfold collect at h
    split at h
    · rename_i b bs' hb hbs
      injection h with h
      subst h
      unfold collect
      rw [ih _ hbs, hb]
      rfl
    · cases h

/-! ## Grouping -/

theorem groupByKey_eq (f : NumFmt) (src : List (GVal × GVal)) (x : Text) :
    groupByKey f src x = (src.filter (fun kv => keyText f kv.1 == some x)).map Prod.snd := by
  have : ∀ (m : Text → List GVal),
      (src.foldl (pushItem f) m) x = m x ++ (src.filter (fun kv => keyText f kv.1 == some x)).map Prod.snd := by
    induction src with
    | nil => intro m; simp
    | cons kv r ih =>
      intro m
      rw [List.foldl_cons, ih, List.filter_cons]
      unfold pushItem
      cases h : keyText f kv.1 with
      | none => simp
      | some t =>
        by_cases hx : x = t
        · subst hx; simp
        · have : ¬ t = x := fun hh => hx hh.symm
          simp [hx, this]
  simpa [groupByKey] using this (fun _ => [])

theorem roundNat_small (n : Nat) (h : n ≤ 2 ^ 53) : roundNat n = n := by
  unfold roundNat
  by_cases h' : n < 2 ^ 53
  · rw [if_pos h']
  · have : n = 2 ^ 53 := by omega
    subst this
    decide

theorem roundF64_small (n : Int) (h : n.natAbs ≤ 2 ^ 53) : roundF64 n = n := by
  unfold roundF64
  rw [roundNat_small _ h]
  split <;> omega

end Verif.HttpBatch
