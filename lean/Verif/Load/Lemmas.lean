import Verif.Load.Spec

/-!
# Lemmas about the walk through the imports
-/

namespace Verif.Load

open Verif.Mustache (Text)
open Verif.Transform (get insert)

theorem bind_ok {α β : Type} {r : Res α} {f : α → Res β} {b : β} : r.bind f = .ok b ↔ ∃ a, r = .ok a ∧ f a = .ok b := by
  cases r <;> simp [Res.bind]

theorem bind_more {α β : Type} {r : Res α} {f : α → Res β} : r.bind f = .more ↔ r = .more ∨ ∃ a, r = .ok a ∧ f a = .more := by
  cases r <;> simp [Res.bind]

theorem bind_err {α β : Type} {r : Res α} {f : α → Res β} {e : Err} :
    r.bind f = .err e ↔ r = .err e ∨ ∃ a, r = .ok a ∧ f a = .err e := by
  cases r <;> simp [Res.bind]

theorem orErr_ok {α : Type} {e : Err} {o : Option α} {a : α} : orErr e o = .ok a ↔ o = some a := by
  cases o <;> simp [orErr]

theorem orErr_more {α : Type} {e : Err} {o : Option α} : orErr e o ≠ .more := by
  cases o <;> simp [orErr]

/-- What the imports of one file add. -/
theorem absorb_ok {rd : Text → Res PFile} : ∀ {is : List Text} {q d q' d' : List PFile},
    absorb (is.map rd) q d = .ok (q', d') →
    ∃ new, q' = q ++ new ∧ d' = d ++ new ∧ (∀ f ∈ new, ∃ i ∈ is, rd i = .ok f) ∧
      ((d.map (·.name)).Nodup → (d'.map (·.name)).Nodup) ∧
      ∀ i ∈ is, ∃ p, rd i = .ok p ∧ ∃ g ∈ d', g.name = p.name
  | [], q, d, q', d', h => by
    simp only [List.map_nil, absorb, Res.ok.injEq, Prod.mk.injEq] at h
    exact ⟨[], by simp [h.1], by simp [h.2], by simp, fun hn => h.2 ▸ hn, by simp⟩
  | i :: is, q, d, q', d', h => by
    rw [List.map_cons] at h
    cases hr : rd i with
    | err e => simp [hr, absorb] at h
    | more => simp [hr, absorb] at h
    | ok p =>
      rw [hr, absorb] at h
      by_cases hc : d.any (fun f => f.name = p.name) = true
      · rw [if_pos hc] at h
        obtain ⟨new, h1, h2, h3, h4, h5⟩ := absorb_ok h
        refine ⟨new, h1, h2, fun f hf => ?_, h4, fun j hj => ?_⟩
        · obtain ⟨j, hj, e⟩ := h3 f hf
          exact ⟨j, List.mem_cons_of_mem _ hj, e⟩
        · rcases List.mem_cons.1 hj with e | hj
          · subst e
            simp only [List.any_eq_true, decide_eq_true_eq] at hc
            obtain ⟨g, hg, e⟩ := hc
            exact ⟨p, hr, g, by rw [h2]; exact List.mem_append_left _ hg, e⟩
          · exact h5 j hj
      · rw [if_neg hc] at h
        obtain ⟨new, h1, h2, h3, h4, h5⟩ := absorb_ok h
        refine ⟨p :: new, by simp [h1], by simp [h2], fun f hf => ?_, fun hn => h4 ?_, fun j hj => ?_⟩
        · rcases List.mem_cons.1 hf with e | hf
          · subst e; exact ⟨i, List.mem_cons_self .., hr⟩
          · obtain ⟨j, hj, e⟩ := h3 f hf
            exact ⟨j, List.mem_cons_of_mem _ hj, e⟩
        · rw [List.map_append, List.nodup_append]
          refine ⟨hn, by simp, ?_⟩
          intro a ha b hb e
          simp only [List.map_cons, List.map_nil, List.mem_singleton] at hb
          subst hb
          simp only [List.mem_map] at ha
          obtain ⟨g, hg, hge⟩ := ha
          apply hc
          simp only [List.any_eq_true, decide_eq_true_eq]
          exact ⟨g, hg, hge.trans e⟩
        · rcases List.mem_cons.1 hj with e | hj
          · subst e
            exact ⟨p, hr, p, by rw [h2]; simp, rfl⟩
          · exact h5 j hj

theorem absorb_all {rd : Text → Res PFile} : ∀ {is : List Text} {q d : List PFile},
    (∀ i ∈ is, ∃ g, rd i = .ok g) → ∃ x, absorb (is.map rd) q d = .ok x
  | [], q, d, _ => ⟨(q, d), rfl⟩
  | i :: is, q, d, h => by
    obtain ⟨g, hg⟩ := h i (List.mem_cons_self ..)
    rw [List.map_cons, hg, absorb]
    split
    · exact absorb_all (fun j hj => h j (List.mem_cons_of_mem _ hj))
    · exact absorb_all (fun j hj => h j (List.mem_cons_of_mem _ hj))

theorem absorb_not_more {rd : Text → Res PFile} (hr : ∀ i, rd i ≠ .more) : ∀ {is : List Text} {q d : List PFile},
    absorb (is.map rd) q d ≠ .more
  | [], q, d => by simp [absorb]
  | i :: is, q, d => by
    rw [List.map_cons]
    cases h : rd i with
    | more => exact absurd h (hr i)
    | err e => simp [absorb]
    | ok p =>
      rw [absorb]
      split
      · exact absorb_not_more hr
      · exact absorb_not_more hr

/-- What holds whenever the loop takes the next file of the queue. -/
structure Inv (rd : Text → Res PFile) (root : PFile) (q d : List PFile) : Prop where
  nodup : (d.map (·.name)).Nodup
  sound : ∀ f ∈ d, Imported rd root f
  queue : ∀ f ∈ q, f = root ∨ f ∈ d
  done : ∀ f, f = root ∨ f ∈ d → f ∈ q ∨ ∀ i ∈ f.src.deps, ∃ p, rd i = .ok p ∧ ∃ g ∈ d, g.name = p.name

theorem inv_start {rd : Text → Res PFile} {root : PFile} : Inv rd root [root] [] where
  nodup := by simp
  sound := by simp
  queue := by simp
  done := by simp

theorem inv_step {rd : Text → Res PFile} {root f : PFile} {q d q' d' : List PFile} (h : Inv rd root (f :: q) d)
    (ha : absorb (f.src.deps.map rd) q d = .ok (q', d')) : Inv rd root q' d' := by
  obtain ⟨new, rfl, rfl, h3, h4, h5⟩ := absorb_ok ha
  refine ⟨h4 h.nodup, fun g hg => ?_, fun g hg => ?_, fun g hg => ?_⟩
  · rcases List.mem_append.1 hg with hg | hg
    · exact h.sound g hg
    · obtain ⟨i, hi, e⟩ := h3 g hg
      rcases h.queue f (List.mem_cons_self ..) with hf | hf
      · subst hf; exact .direct hi e
      · exact .step (h.sound f hf) hi e
  · rcases List.mem_append.1 hg with hg | hg
    · rcases h.queue g (List.mem_cons_of_mem _ hg) with hf | hf
      · exact .inl hf
      · exact .inr (List.mem_append_left _ hf)
    · exact .inr (List.mem_append_right _ hg)
  · have key : (g = root ∨ g ∈ d) ∨ g ∈ new := by
      rcases hg with hg | hg
      · exact .inl (.inl hg)
      · rcases List.mem_append.1 hg with hg | hg
        · exact .inl (.inr hg)
        · exact .inr hg
    rcases key with hk | hk
    · rcases h.done g hk with hq | hd
      · rcases List.mem_cons.1 hq with e | hq
        · subst e; exact .inr h5
        · exact .inl (List.mem_append_left _ hq)
      · refine .inr fun i hi => ?_
        obtain ⟨p, hp, x, hx, e⟩ := hd i hi
        exact ⟨p, hp, x, List.mem_append_left _ hx, e⟩
    · exact .inl (List.mem_append_right _ hk)

theorem walk_inv {rd : Text → Res PFile} {root : PFile} : ∀ {n : Nat} {q d l : List PFile},
    Inv rd root q d → walk rd n q d = .ok l → Inv rd root [] l
  | n, [], d, l, h, hw => by
    have e : d = l := by cases n <;> simpa [walk] using hw
    exact e ▸ h
  | 0, f :: q, d, l, h, hw => by simp [walk] at hw
  | n + 1, f :: q, d, l, h, hw => by
    rw [walk, bind_ok] at hw
    obtain ⟨x, hx, hw⟩ := hw
    exact walk_inv (inv_step h hx) hw

/-- Files are known by the name by which they are imported. -/
def Named (rd : Text → Res PFile) : Prop := ∀ i f, rd i = .ok f → f.name = i

theorem imported_read {rd : Text → Res PFile} {root f : PFile} (h : Imported rd root f) : ∃ i, rd i = .ok f := by
  cases h with
  | direct _ e => exact ⟨_, e⟩
  | step _ _ e => exact ⟨_, e⟩

theorem imported_named {rd : Text → Res PFile} (hn : Named rd) {root f : PFile} (h : Imported rd root f) : rd f.name = .ok f := by
  obtain ⟨i, e⟩ := imported_read h
  rw [hn i f e]; exact e

theorem whole_of_walk {rd : Text → Res PFile} (hn : Named rd) {root : PFile} {n : Nat} {l : List PFile}
    (h : resolveDependencies rd n root = .ok l) : Whole rd root l ∧ Readable rd root := by
  rw [resolveDependencies, bind_ok] at h
  obtain ⟨d, hw, hl⟩ := h
  have inv := walk_inv inv_start hw
  have same : ∀ f, f = root ∨ f ∈ d → ∀ i ∈ f.src.deps, ∃ g, rd i = .ok g ∧ g ∈ d := by
    intro f hf i hi
    rcases inv.done f hf with hq | hd
    · exact absurd hq List.not_mem_nil
    · obtain ⟨p, hp, g, hg, e⟩ := hd i hi
      have h1 := imported_named hn (inv.sound g hg)
      rw [e, hn i p hp] at h1
      exact ⟨g, h1, hg⟩
  have all : ∀ f, Imported rd root f → f ∈ d := by
    intro f hf
    induction hf with
    | direct hi e =>
      obtain ⟨g, hg, hm⟩ := same root (.inl rfl) _ hi
      rw [e] at hg
      exact (Res.ok.inj hg) ▸ hm
    | step _ hi e ih =>
      obtain ⟨g, hg, hm⟩ := same _ (.inr ih) _ hi
      rw [e] at hg
      exact (Res.ok.inj hg) ▸ hm
  refine ⟨⟨d, (Res.ok.inj hl).symm, inv.nodup, fun f => ⟨inv.sound f, all f⟩⟩, ?_⟩
  intro f hf i hi
  have hf' : f = root ∨ f ∈ d := by
    rcases hf with hf | hf
    · exact .inl hf
    · exact .inr (all f hf)
  obtain ⟨g, hg, _⟩ := same f hf' i hi
  exact ⟨g, hg⟩

theorem names_of_imported {rd : Text → Res PFile} {root : PFile} {q d : List PFile} (h : Inv rd root q d) {U : List Text}
    (hU : ∀ f, Imported rd root f → f.name ∈ U) : d.length ≤ U.length := by
  have := List.Nodup.length_le_of_subset h.nodup (fun x hx => by
    simp only [List.mem_map] at hx
    obtain ⟨f, hf, e⟩ := hx
    exact e ▸ hU f (h.sound f hf))
  simpa using this

theorem walk_ends {rd : Text → Res PFile} (hr : ∀ i, rd i ≠ .more) {root : PFile} {U : List Text}
    (hU : ∀ f, Imported rd root f → f.name ∈ U) : ∀ {n : Nat} {q d : List PFile}, Inv rd root q d →
    U.length + q.length ≤ n + d.length → walk rd n q d ≠ .more
  | n, [], d, h, hl => by cases n <;> simp [walk]
  | 0, f :: q, d, h, hl => by
    have := names_of_imported h hU
    simp only [List.length_cons] at hl
    omega
  | n + 1, f :: q, d, h, hl => by
    rw [walk]
    intro hm
    rw [bind_more] at hm
    rcases hm with hm | ⟨x, hx, hm⟩
    · exact absorb_not_more hr hm
    · refine walk_ends hr hU (inv_step h hx) ?_ hm
      obtain ⟨new, h1, h2, -⟩ := absorb_ok hx
      simp only [List.length_cons] at hl
      rw [h1, h2, List.length_append, List.length_append]
      omega

theorem walk_no_err {rd : Text → Res PFile} {root : PFile} (hro : Readable rd root) {e : Err} :
    ∀ {n : Nat} {q d : List PFile}, Inv rd root q d → walk rd n q d ≠ .err e
  | n, [], d, h => by cases n <;> simp [walk]
  | 0, f :: q, d, h => by simp [walk]
  | n + 1, f :: q, d, h => by
    rw [walk]
    intro hm
    have hf : f = root ∨ Imported rd root f := by
      rcases h.queue f (List.mem_cons_self ..) with hf | hf
      · exact .inl hf
      · exact .inr (h.sound f hf)
    obtain ⟨x, hx⟩ := @absorb_all rd f.src.deps q d (hro f hf)
    rw [hx] at hm
    exact walk_no_err hro (inv_step h hx) hm

/-- With enough steps the reading of imports succeeds exactly if all can be read. -/
theorem resolve_ok_iff {rd : Text → Res PFile} (hn : Named rd) (hr : ∀ i, rd i ≠ .more) {root : PFile} {U : List Text}
    (hU : ∀ f, Imported rd root f → f.name ∈ U) {n : Nat} (hl : U.length + 1 ≤ n) :
    (∃ l, resolveDependencies rd n root = .ok l) ↔ Readable rd root := by
  constructor
  · rintro ⟨l, h⟩
    exact (whole_of_walk hn h).2
  · intro hro
    cases hw : walk rd n [root] [] with
    | ok d => exact ⟨d ++ [root], by rw [resolveDependencies, hw]; rfl⟩
    | err e => exact absurd hw (walk_no_err hro inv_start)
    | more => exact absurd hw (walk_ends hr hU inv_start (by simpa using hl))

end Verif.Load
