import Verif.Grpc.Spec
import Verif.HttpBatch.Props
import Verif.Server.Ident

/-!
# Lemmas about frames, lists of results and the grouping of messages
-/

set_option linter.unusedSimpArgs false

namespace Verif.Grpc

open Verif.Mustache (Text)
open Verif.HttpUrl (GVal intText)
open Verif.HttpBatch (NumFmt GroupBy gather gatherAll gatherAt groupByKey keyText)
open Verif.Transform (get)

/-! ## Frames -/

theorem unframe_cons (flag : UInt8) (n : Nat) (h : n < 2 ^ 32) (rest : List UInt8) (hl : n ≤ rest.length) :
    unframe (flag :: (be32 n ++ rest)) = some (flag, rest.take n, rest.drop n) := by
  have hn : (((UInt8.ofNat (n / 2 ^ 24)).toNat * 256 + (UInt8.ofNat (n / 2 ^ 16)).toNat) * 256 +
      (UInt8.ofNat (n / 2 ^ 8)).toNat) * 256 + (UInt8.ofNat n).toNat = n := by
    simp only [UInt8.toNat_ofNat']
    omega
  simp only [be32, List.cons_append, List.nil_append, unframe, hn, if_pos hl]

theorem unframe_bytes (lib : Lib) (m : PVal) (h : (lib.encode m).length < 2 ^ 32) :
    unframe (messageToBytes lib m) = some (0, lib.encode m, []) := by
  rw [messageToBytes, unframe_cons 0 _ h _ (Nat.le_refl _), List.take_length, List.drop_length]

theorem unframe_length {b p r : List UInt8} {f : UInt8} (h : unframe b = some (f, p, r)) : p.length < 2 ^ 32 := by
  unfold unframe at h
  split at h
  · rename_i fl a b' c d rest
    simp only at h
    split at h
    · simp only [Option.some.injEq, Prod.mk.injEq] at h
      obtain ⟨_, rfl, _⟩ := h
      have := a.toNat_lt
      have := b'.toNat_lt
      have := c.toNat_lt
      have := d.toNat_lt
      rw [List.length_take]
      omega
    · cases h
  · cases h

/-- A frame that fills its bytes: the message is what comes after five of them. -/
theorem unframe_drop {b p : List UInt8} {f : UInt8} (h : unframe b = some (f, p, [])) :
    ¬ b.length < 5 ∧ b.drop 5 = p := by
  unfold unframe at h
  split at h
  · rename_i fl a b' c d rest
    simp only at h
    split at h
    · simp only [Option.some.injEq, Prod.mk.injEq] at h
      obtain ⟨_, hp, hd⟩ := h
      refine ⟨by simp, ?_⟩
      simp only [List.drop_succ_cons, List.drop_zero]
      rw [← hp]
      have := List.take_append_drop ((((a.toNat * 256 + b'.toNat) * 256 + c.toNat) * 256) + d.toNat) rest
      rw [hd, List.append_nil] at this
      exact this.symm
    · cases h
  · cases h

/-! ## Lists of results -/

theorem mapE_ok {α β : Type} {f : α → Except Err β} {l : List α} {bs : List β} (h : mapE f l = .ok bs) :
    bs.length = l.length ∧ ∀ (i : Nat) (a : α), l[i]? = some a → ∃ b, bs[i]? = some b ∧ f a = .ok b := by
  induction l generalizing bs with
  | nil => simp only [mapE, Except.ok.injEq] at h; subst h; simp
  | cons x r ih =>
    simp only [mapE] at h
    split at h
    · cases h
    · rename_i b hb
      split at h
      · cases h
      · rename_i bs' hbs
        injection h with h
        subst h
        obtain ⟨hl, hi⟩ := ih hbs
        refine ⟨by simp [hl], ?_⟩
        intro i a ha
        cases i with
        | zero => simp only [List.getElem?_cons_zero, Option.some.injEq] at ha ⊢; subst ha; exact ⟨b, rfl, hb⟩
        | succ i => simp only [List.getElem?_cons_succ] at ha ⊢; exact hi i a ha

theorem mapE_total {α β : Type} {f : α → Except Err β} {l : List α} {bs : List β}
    (h : ∀ i : Nat, i < l.length ∨ i < bs.length → ∃ a b, l[i]? = some a ∧ bs[i]? = some b ∧ f a = .ok b) :
    mapE f l = .ok bs := by
  induction l generalizing bs with
  | nil =>
    cases bs with
    | nil => rfl
    | cons b bs => obtain ⟨a, _, ha, _⟩ := h 0 (by simp); simp at ha
  | cons x r ih =>
    cases bs with
    | nil => obtain ⟨a, b, _, hb, _⟩ := h 0 (by simp); simp at hb
    | cons b bs =>
      obtain ⟨a, b', ha, hb, hf⟩ := h 0 (by simp)
      simp only [List.getElem?_cons_zero, Option.some.injEq] at ha hb
      subst ha; subst hb
      simp only [mapE, hf]
      rw [ih (bs := bs)]
      intro i hi
      obtain ⟨a, b', ha, hb, hf⟩ := h (i + 1) (by simp; omega)
      simp only [List.getElem?_cons_succ] at ha hb
      exact ⟨a, b', ha, hb, hf⟩

/-! ## Grouping -/

mutual
/-- What the grouping looks at in the JSON of a message is what the path leads to in the message. -/
theorem gather_json : ∀ (o : PVal) (p : List Text) (x y : GVal), (x, y) ∈ gather (json o) p ↔
    ∃ k e, Leads o p k e ∧ x = json k ∧ y = json e
  | .msg fs, [], x, y => by
    simp only [json, gather, List.not_mem_nil, false_iff]
    rintro ⟨k, e, h, _⟩
    cases h
  | .msg fs, t :: tail, x, y => by
    simp only [json, gather]
    have := gatherAt_json fs (.msg fs) t tail x y
    simp only [json] at this
    rw [this]
    constructor
    · rintro ⟨n, v, hf, (⟨rfl, rfl, rfl⟩ | ⟨a, as, rfl, k, e, hl, rfl, rfl⟩)⟩
      · exact ⟨v, .msg fs, .last hf, rfl, by simp [json]⟩
      · exact ⟨k, e, .step hf hl, rfl, rfl⟩
    · rintro ⟨k, e, hl, rfl, rfl⟩
      cases hl with
      | last hf => exact ⟨_, _, hf, Or.inl ⟨rfl, rfl, by simp [json]⟩⟩
      | step hf hl => exact ⟨_, _, hf, Or.inr ⟨_, _, rfl, k, e, hl, rfl, rfl⟩⟩
  | .list l, p, x, y => by
    simp only [json, gather]
    rw [gatherAll_json l p x y]
    constructor
    · rintro ⟨v, hv, k, e, hl, h⟩
      exact ⟨k, e, .item hv hl, h⟩
    · rintro ⟨k, e, hl, h⟩
      cases hl with
      | item hv hl => exact ⟨_, hv, k, e, hl, h⟩
  | .i32 _, p, x, y => by
    simp only [json, gather, List.not_mem_nil, false_iff]; rintro ⟨k, e, h, _⟩; cases h
  | .i64 _, p, x, y => by
    simp only [json, gather, List.not_mem_nil, false_iff]; rintro ⟨k, e, h, _⟩; cases h
  | .u32 _, p, x, y => by
    simp only [json, gather, List.not_mem_nil, false_iff]; rintro ⟨k, e, h, _⟩; cases h
  | .u64 _, p, x, y => by
    simp only [json, gather, List.not_mem_nil, false_iff]; rintro ⟨k, e, h, _⟩; cases h
  | .f32 _ _, p, x, y => by
    simp only [json, gather, List.not_mem_nil, false_iff]; rintro ⟨k, e, h, _⟩; cases h
  | .f64 _ _, p, x, y => by
    simp only [json, gather, List.not_mem_nil, false_iff]; rintro ⟨k, e, h, _⟩; cases h
  | .bool _, p, x, y => by
    simp only [json, gather, List.not_mem_nil, false_iff]; rintro ⟨k, e, h, _⟩; cases h
  | .enum _ _, p, x, y => by
    simp only [json, gather, List.not_mem_nil, false_iff]; rintro ⟨k, e, h, _⟩; cases h
  | .str _, p, x, y => by
    simp only [json, gather, List.not_mem_nil, false_iff]; rintro ⟨k, e, h, _⟩; cases h
  | .bytes _, p, x, y => by
    simp only [json, gather, List.not_mem_nil, false_iff]; rintro ⟨k, e, h, _⟩; cases h
theorem gatherAll_json : ∀ (l : List PVal) (p : List Text) (x y : GVal), (x, y) ∈ gatherAll (jsonAll l) p ↔
    ∃ v ∈ l, ∃ k e, Leads v p k e ∧ x = json k ∧ y = json e
  | [], p, x, y => by simp [jsonAll, gatherAll]
  | v :: r, p, x, y => by
    simp only [jsonAll, gatherAll, List.mem_append, gather_json v p x y, gatherAll_json r p x y, List.mem_cons,
      exists_eq_or_imp]
theorem gatherAt_json : ∀ (fs : List ((Text × Text) × PVal)) (whole : PVal) (t : Text) (tail : List Text) (x y : GVal),
    (x, y) ∈ gatherAt (json whole) (jsonFields fs) t tail ↔
    ∃ n v, fs.find? (fun f => f.1.2 = t) = some ((n, t), v) ∧
      ((tail = [] ∧ x = json v ∧ y = json whole) ∨
        ∃ a as, tail = a :: as ∧ ∃ k e, Leads v (a :: as) k e ∧ x = json k ∧ y = json e)
  | [], whole, t, tail, x, y => by simp [jsonFields, gatherAt]
  | ((n', t'), v) :: r, whole, t, tail, x, y => by
    simp only [jsonFields, gatherAt]
    by_cases h : t' = t
    · subst h
      rw [if_pos rfl]
      simp only [List.find?_cons, decide_true, Option.some.injEq, Prod.mk.injEq]
      cases tail with
      | nil =>
        simp only [List.mem_cons, Prod.mk.injEq, List.not_mem_nil, or_false]
        constructor
        · rintro ⟨rfl, rfl⟩; exact ⟨n', v, ⟨⟨rfl, trivial⟩, rfl⟩, Or.inl ⟨trivial, rfl, rfl⟩⟩
        · rintro ⟨n, w, ⟨⟨rfl, _⟩, rfl⟩, (⟨_, rfl, rfl⟩ | ⟨a, as, h, _⟩)⟩
          · exact ⟨rfl, rfl⟩
          · cases h
      | cons a as =>
        simp only [gather_json v (a :: as) x y]
        constructor
        · intro h; exact ⟨n', v, ⟨⟨rfl, trivial⟩, rfl⟩, Or.inr ⟨a, as, rfl, h⟩⟩
        · rintro ⟨n, w, ⟨⟨rfl, _⟩, rfl⟩, (⟨h, _⟩ | ⟨a', as', h, hh⟩)⟩
          · cases h
          · injection h with h1 h2; subst h1; subst h2; exact hh
    · rw [if_neg h, gatherAt_json r whole t tail x y, List.find?_cons]
      simp only [h, decide_false]
end

/-- Values that can be compared have the same text exactly when they are the same. -/
theorem keyText_comparable (f : NumFmt) {a b : PVal} (h : Comparable a b) :
    keyText f (json b) = some (valueStr a) ↔ a = b := by
  have small : ∀ n : Int, n.natAbs ≤ 2 ^ 53 → keyText f (.int n) = some (intText n) := by
    intro n hn
    simp only [keyText, Verif.HttpBatch.roundF64_small n hn, if_pos hn]
  cases a <;> cases b <;> first | (exfalso; exact h) | skip
  · rename_i a b
    simp only [json, valueStr]
    rw [small b (by simp only [Comparable] at h; omega)]
    constructor
    · intro h; injection h with h; rw [Verif.Server.intText_inj h]
    · intro h; injection h with h; rw [h]
  · rename_i a b
    simp only [json, valueStr, keyText, Option.some.injEq, PVal.i64.injEq]
    exact ⟨fun h => (Verif.Server.intText_inj h).symm, fun h => by rw [h]⟩
  · rename_i a b
    simp only [json, valueStr]
    rw [small b (by simp only [Comparable] at h; omega)]
    constructor
    · intro h; injection h with h; have := Verif.Server.intText_inj h; congr 1; omega
    · intro h; injection h with h; rw [h]
  · rename_i a b
    simp only [json, valueStr, keyText, Option.some.injEq, PVal.u64.injEq]
    exact ⟨fun h => by have := Verif.Server.intText_inj h; omega, fun h => by rw [h]⟩
  · rename_i a b
    simp only [json, valueStr, keyText, Option.some.injEq, PVal.str.injEq]
    exact ⟨fun h => h.symm, fun h => h.symm⟩

end Verif.Grpc
