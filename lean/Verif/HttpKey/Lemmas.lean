import Verif.HttpKey.Model

set_option linter.unusedSimpArgs false

/-! # Helper lemmas for request keys -/

namespace Verif.HttpKey
open Verif.Mustache (Text Template Seg)
open Verif.HttpUrl

theorem hdrToks_length (hs : List (Text × Text)) : (hdrToks hs).length = 2 * hs.length := by
  induction hs with
  | nil => rfl
  | cons x r ih => simp only [hdrToks, List.flatMap_cons, List.length_append, List.length_cons,
      List.length_nil] at ih ⊢; omega

theorem hdrToks_append (a b : List (Text × Text)) : hdrToks (a ++ b) = hdrToks a ++ hdrToks b := by
  simp [hdrToks]

theorem hdrToks_inj {a b : List (Text × Text)} (h : hdrToks a = hdrToks b) : a = b := by
  induction a generalizing b with
  | nil =>
    cases b with
    | nil => rfl
    | cons y s => simp [hdrToks] at h
  | cons x r ih =>
    cases b with
    | nil => simp [hdrToks] at h
    | cons y s =>
      simp only [hdrToks, List.flatMap_cons, List.cons_append, List.nil_append, List.cons.injEq,
        Tok.txt.injEq] at h
      obtain ⟨h1, h2, h3⟩ := h
      have := ih (b := s) h3
      subst this
      cases x; cases y
      simp_all

/-- The optional body token. -/
def optTok : Option Text → List Tok
  | some b => [.txt b]
  | none => []

theorem stream_inj {m m' : Text} {h h' : List (Text × Text)} {b b' : Option Text} {u u' : Url}
    (he : [Tok.txt m] ++ hdrToks h ++ optTok b ++ [.url u] =
      [Tok.txt m'] ++ hdrToks h' ++ optTok b' ++ [.url u']) :
    m = m' ∧ h = h' ∧ b = b' ∧ u = u' := by
  obtain ⟨he1, hu⟩ := List.append_inj_of_length_right he
  have hu : u = u' := by simpa using hu
  have hlen := congrArg List.length he1
  simp only [List.length_append, List.length_cons, List.length_nil, hdrToks_length] at hlen
  have hb : (optTok b).length = (optTok b').length := by
    cases b <;> cases b' <;> simp [optTok] at hlen ⊢ <;> omega
  obtain ⟨he2, hb⟩ := List.append_inj' he1 hb
  obtain ⟨hm, hh⟩ := List.append_inj he2 rfl
  refine ⟨by simpa using hm, hdrToks_inj hh, ?_, hu⟩
  cases b <;> cases b' <;> simp_all [optTok]
where
  List.append_inj_of_length_right {a b : List Tok} {x y : Tok} (h : a ++ [x] = b ++ [y]) :
      a = b ∧ [x] = [y] := List.append_inj' h rfl

/-- The key of an HTTP evaluation in terms of its parts. -/
theorem cacheKey_eq {norm t ctx k} (h : cacheKey norm t ctx = some k) :
    ∃ u, createUrl norm t ctx = some u ∧
      k = [Tok.txt t.method] ++
        hdrToks (rendered t.headers (fun m => Verif.Mustache.render m ctx.str) ++ ctx.headers) ++
        optTok (t.body.map (fun b => Verif.Mustache.render b ctx.str)) ++ [.url u] := by
  unfold cacheKey at h
  cases hu : createUrl norm t ctx with
  | none => rw [hu] at h; cases h
  | some u =>
    rw [hu] at h
    injection h with h
    refine ⟨u, rfl, ?_⟩
    rw [← h, hdrToks_append]
    cases t.body <;> simp [optTok]

attribute [local simp] headerTok

/-- The stream of the batching headers determines the first value of each of them. -/
theorem headers_stream_inj (ns : List Text) (hn : ns.Nodup) (h h' : Text → Option Text)
    (he : ns.flatMap (fun n => headerTok n (h n)) =
      ns.flatMap (fun n => headerTok n (h' n))) :
    ∀ n ∈ ns, h n = h' n := by
  have first : ∀ (l : List Text) (f : Text → Option Text) (n : Text) (v : Text) (r : List Tok),
      l.flatMap (fun n => headerTok n (f n)) =
        Tok.txt n :: .txt v :: r → n ∈ l := by
    intro l f n v r
    induction l with
    | nil => simp
    | cons m l ih =>
      simp only [List.flatMap_cons]
      cases hf : f m with
      | none => intro hh; exact List.mem_cons_of_mem _ (ih (by simpa using hh))
      | some w =>
        intro hh
        simp only [headerTok, List.cons_append, List.nil_append, List.cons.injEq, Tok.txt.injEq] at hh
        rw [← hh.1]; exact List.mem_cons_self
  induction ns with
  | nil => simp
  | cons n ns ih =>
    rw [List.nodup_cons] at hn
    simp only [List.flatMap_cons] at he
    cases h1 : h n with
    | none =>
      cases h2 : h' n with
      | none =>
        simp only [headerTok, h1, h2, List.nil_append] at he
        intro m hm
        rcases List.mem_cons.mp hm with rfl | hm
        · rw [h1, h2]
        · exact ih hn.2 he m hm
      | some w =>
        simp only [headerTok, h1, h2, List.nil_append, List.cons_append] at he
        exact absurd (first _ _ _ _ _ he) hn.1
    | some v =>
      cases h2 : h' n with
      | none =>
        simp only [headerTok, h1, h2, List.nil_append, List.cons_append] at he
        exact absurd (first _ _ _ _ _ he.symm) hn.1
      | some w =>
        simp only [headerTok, h1, h2, List.nil_append, List.cons_append, List.cons.injEq, Tok.txt.injEq,
          true_and] at he
        intro m hm
        rcases List.mem_cons.mp hm with rfl | hm
        · rw [h1, h2, he.1]
        · exact ih hn.2 he.2 m hm

theorem headers_stream_even (ns : List Text) (h : Text → Option Text) :
    ∃ k, (ns.flatMap (fun n => headerTok n (h n))).length = 2 * k := by
  induction ns with
  | nil => exact ⟨0, rfl⟩
  | cons n ns ih =>
    obtain ⟨k, hk⟩ := ih
    simp only [List.flatMap_cons, List.length_append]
    rw [hk]
    cases h n with
    | none => exact ⟨k, by simp⟩
    | some v => exact ⟨k + 1, by simp; omega⟩

end Verif.HttpKey
