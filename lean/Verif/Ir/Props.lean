import Verif.Ir.Lemmas

/-!
# Properties of the resolver language
-/

namespace Verif.Ir

open Verif.Mustache (Text Template)
open Verif.HttpUrl (GVal)
open Verif.Auth (Auth)

set_option linter.unusedSimpArgs false

/-! ## Specification: where things occur in an expression -/

/-- An upstream call, plain or under `@cache`. -/
inductive Leaf where
  | bare (i : Io)
  | cached (age : Nat) (i : Io)

/-- The calls an expression contains. -/
inductive Has : IR → Leaf → Prop where
  | io (i) : Has (.io i) (.bare i)
  | cache (m i) : Has (.cache m i) (.cached m i)
  | path {x p l} : Has x l → Has (.path x p) l
  | protect {a x l} : Has x l → Has (.protect a x) l
  | map {x m l} : Has x l → Has (.map x m) l
  | pipeL {x y l} : Has x l → Has (.pipe x y) l
  | pipeR {x y l} : Has y l → Has (.pipe x y) l
  | merge {xs x l} : x ∈ xs → Has x l → Has (.merge xs) l
  | discriminate {d x l} : Has x l → Has (.discriminate d x) l
  | entity {m t x l} : (t, x) ∈ m → Has x l → Has (.entity m) l

/-- The calls of an expression that a request may make: those with no failing guard above. -/
inductive Open (r : Verif.Auth.Req) : IR → Io → Prop where
  | io (i) : Open r (.io i) i
  | cache (m i) : Open r (.cache m i) i
  | path {x p l} : Open r x l → Open r (.path x p) l
  | protect {a x l} : Verif.Auth.verify r a = .succeed → Open r x l → Open r (.protect a x) l
  | map {x m l} : Open r x l → Open r (.map x m) l
  | pipeL {x y l} : Open r x l → Open r (.pipe x y) l
  | pipeR {x y l} : Open r y l → Open r (.pipe x y) l
  | merge {xs x l} : x ∈ xs → Open r x l → Open r (.merge xs) l
  | discriminate {d x l} : Open r x l → Open r (.discriminate d x) l
  | entity {m t x l} : (t, x) ∈ m → Open r x l → Open r (.entity m) l

/-- The guards every evaluation of an expression has to pass (those of entity resolvers depend on
the representations). -/
inductive Guard : IR → Auth → Prop where
  | here (a x) : Guard (.protect a x) a
  | protect {a x b} : Guard x b → Guard (.protect a x) b
  | path {x p b} : Guard x b → Guard (.path x p) b
  | map {x m b} : Guard x b → Guard (.map x m) b
  | pipeL {x y b} : Guard x b → Guard (.pipe x y) b
  | pipeR {x y b} : Guard y b → Guard (.pipe x y) b
  | merge {xs x b} : x ∈ xs → Guard x b → Guard (.merge xs) b
  | discriminate {d x b} : Guard x b → Guard (.discriminate d x) b

/-- Some entity resolver occurs in the expression. -/
inductive UsesEntity : IR → Prop where
  | here (m) : UsesEntity (.entity m)
  | path {x p} : UsesEntity x → UsesEntity (.path x p)
  | protect {a x} : UsesEntity x → UsesEntity (.protect a x)
  | map {x m} : UsesEntity x → UsesEntity (.map x m)
  | pipeL {x y} : UsesEntity x → UsesEntity (.pipe x y)
  | pipeR {x y} : UsesEntity y → UsesEntity (.pipe x y)
  | merge {xs x} : x ∈ xs → UsesEntity x → UsesEntity (.merge xs)
  | discriminate {d x} : UsesEntity x → UsesEntity (.discriminate d x)

/-! ## Concrete worlds for the examples -/

/-- Every call takes 5 time units and answers with its own number plus the moment of the call. -/
def demoWorld : World where
  json _ := []
  parse t := if t = "1".toList then some (.int 1) else none
  key i _ := if i.js then none else some (i.id % 10)
  run n i _ := (5, .ok (.int (100 * i.id + n)))
  join _ _ := none
  cap := 3

/-- Example data for the concrete cases below. -/
def demoReq (h : Verif.Auth.Header) : Verif.Auth.Req where
  header := h
  check f _ p := f = p
  tokenHeader _ := none
  decode _ _ := none

/-- Example data for the concrete cases below. -/
def demoCtx (query : Bool) (h : Verif.Auth.Header) : Ctx where
  value := none
  args := none
  valueO := none
  argsO := none
  isQuery := query
  header _ := none
  vars := []
  env _ := none
  auth := demoReq h

/-- Example data for the concrete cases below. -/
def emptySt : St := ⟨0, [], [], []⟩

/-- Example data for the concrete cases below. -/
def call (n : Nat) : Io := ⟨n, false, true⟩
/-- Example data for the concrete cases below. -/
def adminOnly : Auth := .provider (.basic "adm".toList)
/-- Example data for the concrete cases below. -/
def adminHdr : Verif.Auth.Header := .basic "x".toList "adm".toList
/-- Example data for the concrete cases below. -/
def constant (s : String) : IR := .dynamic (.mustache [.lit s.toList])

/-! ## C43: guards -/

/-- The log grows, and only by calls allowed to the request `r`. -/
def OnlyCalls (good : Io → Prop) (s1 s2 : St) : Prop :=
  ∃ evs, s2.log = s1.log ++ evs ∧ ∀ i c, Ev.call i c ∈ evs → good i

theorem onlyCalls_refl (good : Io → Prop) (s : St) : OnlyCalls good s s :=
  ⟨[], by simp, by simp⟩

theorem onlyCalls_trans (good : Io → Prop) (a b c : St) (h1 : OnlyCalls good a b)
    (h2 : OnlyCalls good b c) : OnlyCalls good a c := by
  obtain ⟨e1, h1, g1⟩ := h1
  obtain ⟨e2, h2, g2⟩ := h2
  refine ⟨e1 ++ e2, by rw [h2, h1, List.append_assoc], ?_⟩
  intro i x hx
  rcases List.mem_append.1 hx with hx | hx
  · exact g1 i x hx
  · exact g2 i x hx

theorem onlyCalls_mono {g1 g2 : Io → Prop} (h : ∀ i, g1 i → g2 i) {a b : St}
    (hc : OnlyCalls g1 a b) : OnlyCalls g2 a b := by
  obtain ⟨e, h1, h2⟩ := hc
  exact ⟨e, h1, fun i c hm => h i (h2 i c hm)⟩

theorem callIo_only (w : World) (i : Io) (c : Ctx) (st : St) :
    OnlyCalls (· = i) st (callIo w i c st).1 := by
  refine ⟨[.call i c], rfl, ?_⟩
  intro j d hm
  simp only [List.mem_singleton, Ev.call.injEq] at hm
  exact hm.1

theorem evalIo_only (w : World) (i : Io) (c : Ctx) (st : St) :
    OnlyCalls (· = i) st (evalIo w i c st).1 := by
  unfold evalIo
  cases hq : (!i.canDedupe || !c.isQuery) with
  | true => simp only [if_true]; exact callIo_only w i c st
  | false =>
    simp only [Bool.false_eq_true, if_false]
    cases w.key i c with
    | none => exact callIo_only w i c st
    | some k =>
      simp only []
      cases doneGet k st.done with
      | some r => exact onlyCalls_refl _ _
      | none =>
        simp only []
        cases w.join st.log.length k with
        | some r => exact onlyCalls_refl _ _
        | none =>
          have := callIo_only w i c st
          exact this

theorem evalCache_only (w : World) (m : Nat) (i : Io) (c : Ctx) (st : St) :
    OnlyCalls (· = i) st (evalCache w m i c st).1 := by
  unfold evalCache
  cases w.key i c with
  | none => exact evalIo_only w i c st
  | some k =>
    simp only []
    cases cacheGet st.now k st.cache with
    | some v => exact onlyCalls_refl _ _
    | none =>
      have := evalIo_only w i c st
      rcases hrun : evalIo w i c st with ⟨st', r⟩
      rw [hrun] at this
      cases r with
      | error e => exact this
      | ok v =>
        obtain ⟨evs, h1, h2⟩ := this
        simp only [] at h1
        refine ⟨evs ++ [.store st'.now k v m], by simp [h1], ?_⟩
        intro j d hm
        rcases List.mem_append.1 hm with hm | hm
        · exact h2 j d hm
        · simp at hm

/-- The contexts of one request. -/
def Of (r : Verif.Auth.Req) (c : Ctx) : Prop := c.auth = r

theorem of_closed (r : Verif.Auth.Req) : Closed (Of r) := ⟨fun _ _ h => h, fun _ _ h => h⟩

mutual
theorem eval_open (w : World) (r : Verif.Auth.Req) (x : IR) :
    Moves (Of r) (OnlyCalls (Open r x)) (eval w x) := by
  intro c st hc
  match x with
  | .ctxPath p => simp only [eval]; exact onlyCalls_refl _ _
  | .dynamic d => simp only [eval]; exact onlyCalls_refl _ _
  | .service s => simp only [eval]; exact onlyCalls_refl _ _
  | .io i =>
    simp only [eval]
    exact onlyCalls_mono (fun j h => by subst h; exact .io _) (evalIo_only w i c st)
  | .cache m i =>
    simp only [eval]
    exact onlyCalls_mono (fun j h => by subst h; exact .cache _ _) (evalCache_only w m i c st)
  | .path y p =>
    have ih := eval_open w r y c st hc
    simp only [eval]
    generalize eval w y c st = q101 at *
    obtain ⟨st', v⟩ := q101
    cases v <;> exact onlyCalls_mono (fun _ h => .path h) ih
  | .map y m =>
    have ih := eval_open w r y c st hc
    simp only [eval]
    generalize eval w y c st = q102 at *
    obtain ⟨st', v⟩ := q102
    cases v <;> exact onlyCalls_mono (fun _ h => .map h) ih
  | .discriminate d y =>
    have ih := eval_open w r y c st hc
    simp only [eval]
    generalize eval w y c st = q103 at *
    obtain ⟨st', v⟩ := q103
    cases v <;> exact onlyCalls_mono (fun _ h => .discriminate h) ih
  | .protect a y =>
    have ih := eval_open w r y c st hc
    simp only [eval]
    cases hv : Verif.Auth.verify c.auth a with
    | fail e => exact onlyCalls_refl _ _
    | succeed =>
      have hv' : Verif.Auth.verify r a = .succeed := by rw [← hc]; exact hv
      exact onlyCalls_mono (fun _ h => .protect hv' h) ih
  | .pipe y z =>
    have ih := eval_open w r y c st hc
    simp only [eval]
    generalize eval w y c st = q104 at *
    obtain ⟨st', v⟩ := q104
    cases v with
    | error e => exact onlyCalls_mono (fun _ h => .pipeL h) ih
    | ok v =>
      have ih2 := eval_open w r z (c.withArgs v) st' hc
      exact onlyCalls_trans _ _ _ _ (onlyCalls_mono (fun _ h => .pipeL h) ih)
        (onlyCalls_mono (fun _ h => .pipeR h) ih2)
  | .merge l =>
    have ih := evalAll_open w r l c st hc
    simp only [eval]
    generalize evalAll w l c st = q105 at *
    obtain ⟨st', rs⟩ := q105
    simp only [] at ih ⊢
    have := onlyCalls_mono (g2 := Open r (.merge l)) (fun _ ⟨x, hx, h⟩ => .merge hx h) ih
    cases collect rs <;> exact this
  | .entity m =>
    simp only [eval]
    exact evalEntity_moves (of_closed r) (onlyCalls_refl _) (onlyCalls_trans _) _
      (fun p hp c st hc => onlyCalls_mono (fun _ ⟨t, x, hx, h⟩ => .entity hx h)
        (evalMap_open w r m p hp c st hc)) c st hc
theorem evalAll_open (w : World) (r : Verif.Auth.Req) (l : List IR) (c : Ctx) (st : St)
    (hc : Of r c) : OnlyCalls (fun i => ∃ x, x ∈ l ∧ Open r x i) st (evalAll w l c st).1 := by
  match l with
  | [] => simp only [evalAll]; exact onlyCalls_refl _ _
  | x :: xs =>
    have h1 := eval_open w r x c st hc
    simp only [evalAll]
    generalize eval w x c st = q1 at *
    obtain ⟨st1, v⟩ := q1
    simp only [] at h1 ⊢
    have h2 := evalAll_open w r xs c st1 hc
    generalize evalAll w xs c st1 = q2 at *
    obtain ⟨st2, vs⟩ := q2
    exact onlyCalls_trans _ _ _ _ (onlyCalls_mono (fun _ h => ⟨x, by simp, h⟩) h1)
      (onlyCalls_mono (fun _ ⟨y, hy, h⟩ => ⟨y, by simp [hy], h⟩) h2)
theorem evalMap_open (w : World) (r : Verif.Auth.Req) (m : List (Text × IR)) :
    ∀ p ∈ evalMap w m, Moves (Of r) (OnlyCalls (fun i => ∃ t x, (t, x) ∈ m ∧ Open r x i)) p.2 := by
  match m with
  | [] => simp [evalMap]
  | p :: rest =>
    intro q hq c st hc
    simp only [evalMap, List.mem_cons] at hq
    rcases hq with rfl | hq
    · have := evalEntry_open w r p c st hc
      exact onlyCalls_mono (fun _ h => ⟨p.1, p.2, by simp, h⟩) this
    · have := evalMap_open w r rest q hq c st hc
      exact onlyCalls_mono (fun _ ⟨t, x, hx, h⟩ => ⟨t, x, by simp [hx], h⟩) this
theorem evalEntry_open (w : World) (r : Verif.Auth.Req) (p : Text × IR) :
    Moves (Of r) (OnlyCalls (Open r p.2)) (evalEntry w p).2 := by
  match p with
  | (t, x) => simp only [evalEntry]; exact eval_open w r x
end

/-- C43: every upstream call that evaluation makes for a request is the call of a resolver with no
failing guard above it, whatever the upstreams answer and whatever else is in the expression. -/
theorem C43_no_call_under_failing_guard (w : World) (x : IR) (c : Ctx) (st : St) :
    ∃ evs, (eval w x c st).1.log = st.log ++ evs ∧
      ∀ i d, Ev.call i d ∈ evs → Open c.auth x i :=
  eval_open w c.auth x c st rfl

example : ∃ evs, (eval demoWorld (.merge [.io (call 1), .protect adminOnly (.io (call 2))])
    (demoCtx true .absent) emptySt).1.log = [] ++ evs ∧ ∀ i d, Ev.call i d ∈ evs → i = call 1 := by
  obtain ⟨evs, h1, h2⟩ := C43_no_call_under_failing_guard demoWorld
    (.merge [.io (call 1), .protect adminOnly (.io (call 2))]) (demoCtx true .absent) emptySt
  refine ⟨evs, h1, fun i d hm => ?_⟩
  cases h2 i d hm with
  | merge hx h =>
    simp only [List.mem_cons, List.not_mem_nil, or_false] at hx
    rcases hx with rfl | rfl
    · cases h; rfl
    · cases h with
      | protect hv _ => exact absurd hv (by decide)

theorem collect_error {rs : List Res} {e : Err} (h : .error e ∈ rs) :
    ∃ e', collect rs = .error e' := by
  induction rs with
  | nil => simp at h
  | cons r rest ih =>
    cases r with
    | error e' => exact ⟨e', rfl⟩
    | ok v =>
      simp only [List.mem_cons, reduceCtorEq, false_or] at h
      obtain ⟨e', he⟩ := ih h
      exact ⟨e', by simp [collect, he]⟩

mutual
theorem eval_guarded (w : World) (x : IR) (a : Auth) (hg : Guard x a) (c : Ctx) (st : St)
    (e : Verif.Auth.Err) (hv : Verif.Auth.verify c.auth a = .fail e) :
    ∃ e', (eval w x c st).2 = .error e' := by
  match x with
  | .ctxPath p => cases hg
  | .dynamic d => cases hg
  | .service s => cases hg
  | .io i => cases hg
  | .cache m i => cases hg
  | .entity m => cases hg
  | .path y p =>
    cases hg with
    | path hg =>
      have ⟨e', ih⟩ := eval_guarded w y a hg c st e hv
      simp only [eval]
      generalize eval w y c st = q106 at *
      obtain ⟨st', v⟩ := q106
      simp only [] at ih; subst ih
      exact ⟨e', rfl⟩
  | .map y m =>
    cases hg with
    | map hg =>
      have ⟨e', ih⟩ := eval_guarded w y a hg c st e hv
      simp only [eval]
      generalize eval w y c st = q107 at *
      obtain ⟨st', v⟩ := q107
      simp only [] at ih; subst ih
      exact ⟨e', rfl⟩
  | .discriminate d y =>
    cases hg with
    | discriminate hg =>
      have ⟨e', ih⟩ := eval_guarded w y a hg c st e hv
      simp only [eval]
      generalize eval w y c st = q108 at *
      obtain ⟨st', v⟩ := q108
      simp only [] at ih; subst ih
      exact ⟨e', rfl⟩
  | .protect b y =>
    simp only [eval]
    cases hb : Verif.Auth.verify c.auth b with
    | fail e' => exact ⟨_, rfl⟩
    | succeed =>
      cases hg with
      | here => rw [hv] at hb; simp at hb
      | protect hg => exact eval_guarded w y a hg c st e hv
  | .pipe y z =>
    simp only [eval]
    cases hg with
    | pipeL hg =>
      have ⟨e', ih⟩ := eval_guarded w y a hg c st e hv
      generalize eval w y c st = q109 at *
      obtain ⟨st', v⟩ := q109
      simp only [] at ih; subst ih
      exact ⟨e', rfl⟩
    | pipeR hg =>
      generalize eval w y c st = q110 at *
      obtain ⟨st', v⟩ := q110
      cases v with
      | error e' => exact ⟨e', rfl⟩
      | ok v => exact eval_guarded w z a hg (c.withArgs v) st' e hv
  | .merge l =>
    cases hg with
    | merge hx hg =>
      have ⟨e', ih⟩ := evalAll_guarded w l a ⟨_, hx, hg⟩ c st e hv
      simp only [eval]
      generalize evalAll w l c st = q111 at *
      obtain ⟨st', rs⟩ := q111
      simp only [] at ih ⊢
      obtain ⟨e2, he⟩ := collect_error ih
      rw [he]
      exact ⟨e2, rfl⟩
theorem evalAll_guarded (w : World) (l : List IR) (a : Auth) (hg : ∃ x, x ∈ l ∧ Guard x a)
    (c : Ctx) (st : St) (e : Verif.Auth.Err) (hv : Verif.Auth.verify c.auth a = .fail e) :
    ∃ e', Except.error e' ∈ (evalAll w l c st).2 := by
  match l with
  | [] => obtain ⟨x, hx, _⟩ := hg; simp at hx
  | y :: ys =>
    obtain ⟨x, hx, hg⟩ := hg
    simp only [evalAll]
    rcases List.mem_cons.1 hx with hxe | hx
    · have ⟨e', ih⟩ := eval_guarded w y a (hxe ▸ hg) c st e hv
      generalize eval w y c st = q3 at *
      obtain ⟨st1, v⟩ := q3
      simp only [] at ih ⊢
      subst ih
      generalize evalAll w ys c st1 = q4 at *
      obtain ⟨st2, vs⟩ := q4
      exact ⟨e', by simp⟩
    · generalize eval w y c st = q5 at *
      obtain ⟨st1, v⟩ := q5
      have ⟨e', ih⟩ := evalAll_guarded w ys a ⟨x, hx, hg⟩ c st1 e hv
      simp only []
      generalize evalAll w ys c st1 = q6 at *
      obtain ⟨st2, vs⟩ := q6
      exact ⟨e', by simp only [] at ih; simp [ih]⟩
end

/-- C43: an expression with a guard that the request does not pass never yields data, wherever the
guard is (other than in an entity resolver, which may not be used). -/
theorem C43_failing_guard_yields_no_data (w : World) (x : IR) (a : Auth) (hg : Guard x a)
    (c : Ctx) (hv : Verif.Auth.verify c.auth a ≠ .succeed) (st : St) (v : GVal) :
    (eval w x c st).2 ≠ .ok v := by
  cases h : Verif.Auth.verify c.auth a with
  | succeed => exact absurd h hv
  | fail e =>
    obtain ⟨e', he⟩ := eval_guarded w x a hg c st e h
    rw [he]; simp

example (v : GVal) : (eval demoWorld (.pipe (constant "1") (.map (.protect adminOnly (.io (call 2))) []))
    (demoCtx true .absent) emptySt).2 ≠ .ok v :=
  C43_failing_guard_yields_no_data _ _ adminOnly (.pipeR (.map (.here _ _))) _ (by decide) _ _

/-! ### The planner -/

mutual
theorem updateIr_eval (w : World) (x : IR) (c : Ctx) (st : St)
    (h : ∀ a ∈ (updateIr x).2, Verif.Auth.verify c.auth a = .succeed) :
    eval w (updateIr x).1 c st = eval w x c st := by
  match x with
  | .ctxPath p => rfl
  | .dynamic d => rfl
  | .service s => rfl
  | .io i => rfl
  | .cache m i => rfl
  | .entity m => rfl
  | .map y m => rfl
  | .path y p =>
    simp only [updateIr] at h ⊢
    simp only [eval, updateIr_eval w y c st h]
  | .discriminate d y =>
    simp only [updateIr] at h ⊢
    simp only [eval, updateIr_eval w y c st h]
  | .protect a y =>
    simp only [updateIr, List.mem_cons, forall_eq_or_imp] at h ⊢
    simp only [eval, updateIr_eval w y c st h.2, h.1]
  | .pipe y z =>
    simp only [updateIr, List.mem_append] at h ⊢
    simp only [eval, updateIr_eval w y c st (fun a ha => h a (.inl ha))]
    generalize eval w y c st = q112 at *
    obtain ⟨st', v⟩ := q112
    cases v with
    | error e => rfl
    | ok v => exact updateIr_eval w z (c.withArgs v) st' (fun a ha => h a (.inr ha))
  | .merge l =>
    simp only [updateIr] at h ⊢
    simp only [eval, updateIrs_eval w l c st h]
theorem updateIrs_eval (w : World) (l : List IR) (c : Ctx) (st : St)
    (h : ∀ a ∈ (updateIrs l).2, Verif.Auth.verify c.auth a = .succeed) :
    evalAll w (updateIrs l).1 c st = evalAll w l c st := by
  match l with
  | [] => rfl
  | x :: r =>
    simp only [updateIrs, List.mem_append] at h ⊢
    simp only [evalAll, updateIr_eval w x c st (fun a ha => h a (.inl ha))]
    generalize eval w x c st = q7 at *
    obtain ⟨st1, v⟩ := q7
    simp only [updateIrs_eval w r c st1 (fun a ha => h a (.inr ha))]
end

/-- C43: moving the guards of an expression to the front is safe: for a request that passes all
of the moved guards, the stripped expression does exactly what the original one does. -/
theorem C43_planner_preserves (w : World) (x : IR) (c : Ctx) (st : St)
    (h : ∀ a ∈ (updateIr x).2, Verif.Auth.verify c.auth a = .succeed) :
    eval w (updateIr x).1 c st = eval w x c st := updateIr_eval w x c st h

/-- Specification: a guard the planner can move: one that is not inside an enum mapping or an
entity resolver. -/
inductive Movable : IR → Auth → Prop where
  | here (a x) : Movable (.protect a x) a
  | protect {a x b} : Movable x b → Movable (.protect a x) b
  | path {x p b} : Movable x b → Movable (.path x p) b
  | pipeL {x y b} : Movable x b → Movable (.pipe x y) b
  | pipeR {x y b} : Movable y b → Movable (.pipe x y) b
  | merge {xs x b} : x ∈ xs → Movable x b → Movable (.merge xs) b
  | discriminate {d x b} : Movable x b → Movable (.discriminate d x) b

mutual
theorem updateIr_mem (x : IR) (a : Auth) : a ∈ (updateIr x).2 ↔ Movable x a := by
  match x with
  | .ctxPath p => simp only [updateIr]; exact ⟨fun h => by simp at h, fun h => by cases h⟩
  | .dynamic d => simp only [updateIr]; exact ⟨fun h => by simp at h, fun h => by cases h⟩
  | .service s => simp only [updateIr]; exact ⟨fun h => by simp at h, fun h => by cases h⟩
  | .io i => simp only [updateIr]; exact ⟨fun h => by simp at h, fun h => by cases h⟩
  | .cache m i => simp only [updateIr]; exact ⟨fun h => by simp at h, fun h => by cases h⟩
  | .entity m => simp only [updateIr]; exact ⟨fun h => by simp at h, fun h => by cases h⟩
  | .map y m => simp only [updateIr]; exact ⟨fun h => by simp at h, fun h => by cases h⟩
  | .path y p =>
    simp only [updateIr, updateIr_mem y a]
    exact ⟨.path, fun h => by cases h; assumption⟩
  | .discriminate d y =>
    simp only [updateIr, updateIr_mem y a]
    exact ⟨.discriminate, fun h => by cases h; assumption⟩
  | .protect b y =>
    simp only [updateIr, List.mem_cons, updateIr_mem y a]
    constructor
    · rintro (rfl | h)
      · exact .here _ _
      · exact .protect h
    · intro h
      cases h with
      | here => exact .inl rfl
      | protect h => exact .inr h
  | .pipe y z =>
    simp only [updateIr, List.mem_append, updateIr_mem y a, updateIr_mem z a]
    constructor
    · rintro (h | h)
      · exact .pipeL h
      · exact .pipeR h
    · intro h
      cases h with
      | pipeL h => exact .inl h
      | pipeR h => exact .inr h
  | .merge l =>
    simp only [updateIr, updateIrs_mem l a]
    exact ⟨fun ⟨x, hx, h⟩ => .merge hx h, fun h => by cases h with | merge hx h => exact ⟨_, hx, h⟩⟩
theorem updateIrs_mem (l : List IR) (a : Auth) :
    a ∈ (updateIrs l).2 ↔ ∃ x, x ∈ l ∧ Movable x a := by
  match l with
  | [] => simp [updateIrs]
  | x :: r =>
    simp only [updateIrs, List.mem_append, updateIr_mem x a, updateIrs_mem r a, List.mem_cons]
    constructor
    · rintro (h | ⟨y, hy, h⟩)
      · exact ⟨x, .inl rfl, h⟩
      · exact ⟨y, .inr hy, h⟩
    · rintro ⟨y, rfl | hy, h⟩
      · exact .inl h
      · exact .inr ⟨y, hy, h⟩
end

/-- C43: the guards the planner moves to the front are exactly the guards of the expression that
are not inside an enum mapping or an entity resolver. -/
theorem C43_planner_collects (x : IR) (a : Auth) : a ∈ (updateIr x).2 ↔ Movable x a :=
  updateIr_mem x a

mutual
theorem updateIr_none (x : IR) (a : Auth) : ¬ Movable (updateIr x).1 a := by
  intro h
  match x with
  | .ctxPath p => cases h
  | .dynamic d => cases h
  | .service s => cases h
  | .io i => cases h
  | .cache m i => cases h
  | .entity m => cases h
  | .map y m => cases h
  | .path y p => cases h with | path h => exact updateIr_none y a h
  | .discriminate d y => cases h with | discriminate h => exact updateIr_none y a h
  | .protect b y => exact updateIr_none y a h
  | .pipe y z =>
    cases h with
    | pipeL h => exact updateIr_none y a h
    | pipeR h => exact updateIr_none z a h
  | .merge l => cases h with | merge hx h => exact updateIrs_none l a _ hx h
theorem updateIrs_none (l : List IR) (a : Auth) (x : IR) (hx : x ∈ (updateIrs l).1) :
    ¬ Movable x a := by
  intro h
  match l with
  | [] => simp [updateIrs] at hx
  | y :: ys =>
    simp only [updateIrs, List.mem_cons] at hx
    rcases hx with hxe | hx
    · exact updateIr_none y a (hxe ▸ h)
    · exact updateIrs_none ys a x hx h
end

/-- C43: what the planner leaves has no guard that it could have moved: they are all checked once,
before anything is resolved. -/
theorem C43_planner_leaves_none (x : IR) (a : Auth) : ¬ Movable (updateIr x).1 a :=
  updateIr_none x a

example : (updateIr (.path (.protect adminOnly (.pipe (constant "1") (.io (call 1)))) [])).2 =
    [adminOnly] := by rfl
example : eval demoWorld (updateIr (.protect adminOnly (.io (call 1)))).1 (demoCtx true adminHdr)
    emptySt = eval demoWorld (.protect adminOnly (.io (call 1))) (demoCtx true adminHdr) emptySt :=
  C43_planner_preserves _ _ _ _ (by
    intro a ha
    have : a = adminOnly := by simpa [updateIr] using ha
    subst this; decide)
/-- The stripped expression alone is unguarded: without the `before` check the call is made. -/
example : (eval demoWorld (updateIr (.protect adminOnly (.io (call 1)))).1 (demoCtx true .absent)
    emptySt).2 = .ok (.int 100) := by rfl

/-! ## C40: constants -/

theorem mustache_const (t : Template) (h : Verif.Mustache.isConst t = true)
    (f g : List Text → Option Text) : Verif.Mustache.render t f = Verif.Mustache.render t g := by
  induction t with
  | nil => rfl
  | cons s r ih =>
    cases s with
    | expr p => simp [Verif.Mustache.isConst] at h
    | lit l =>
      simp only [Verif.Mustache.isConst] at h
      have := ih h
      simp only [Verif.Mustache.render, List.map_cons, List.flatten_cons] at this ⊢
      rw [this]

mutual
theorem renderDyn_const (d : Dyn) (h : d.isConst = true) (w1 w2 : World)
    (hp : w1.parse = w2.parse) (c1 c2 : Ctx) : renderDyn w1 c1 d = renderDyn w2 c2 d := by
  match d with
  | .value v => rfl
  | .mustache t =>
    simp only [Dyn.isConst] at h
    simp only [renderDyn]
    rw [mustache_const t h (c1.str w1) (c2.str w2), hp]
  | .object kvs =>
    simp only [Dyn.isConst] at h
    simp only [renderDyn, renderKvs_const kvs h w1 w2 hp c1 c2]
  | .array l =>
    simp only [Dyn.isConst] at h
    simp only [renderDyn, renderList_const l h w1 w2 hp c1 c2]
theorem renderKvs_const (kvs : List (Text × Dyn)) (h : Dyn.kvsConst kvs = true) (w1 w2 : World)
    (hp : w1.parse = w2.parse) (c1 c2 : Ctx) : renderKvs w1 c1 kvs = renderKvs w2 c2 kvs := by
  match kvs with
  | [] => rfl
  | p :: r =>
    simp only [Dyn.kvsConst, Bool.and_eq_true] at h
    simp only [renderKvs, renderKv_const p h.1 w1 w2 hp c1 c2, renderKvs_const r h.2 w1 w2 hp c1 c2]
theorem renderKv_const (p : Text × Dyn) (h : Dyn.kvConst p = true) (w1 w2 : World)
    (hp : w1.parse = w2.parse) (c1 c2 : Ctx) : renderKv w1 c1 p = renderKv w2 c2 p := by
  match p with
  | (k, d) =>
    simp only [Dyn.kvConst] at h
    simp only [renderKv, renderDyn_const d h w1 w2 hp c1 c2]
theorem renderList_const (l : List Dyn) (h : Dyn.listConst l = true) (w1 w2 : World)
    (hp : w1.parse = w2.parse) (c1 c2 : Ctx) : renderList w1 c1 l = renderList w2 c2 l := by
  match l with
  | [] => rfl
  | d :: r =>
    simp only [Dyn.listConst, Bool.and_eq_true] at h
    simp only [renderList, renderDyn_const d h.1 w1 w2 hp c1 c2,
      renderList_const r h.2 w1 w2 hp c1 c2]
end

/-- A world to compute constants in. -/
def pureWorld (p : Text → Option GVal) : World where
  json _ := []
  parse := p
  key _ _ := none
  run _ _ _ := (0, .ok .null)
  join _ _ := none
  cap := 0

mutual
theorem isConst_eval (p : Text → Option GVal) (x : IR) (hc : isConst x = true)
    (he : ¬ UsesEntity x) : ∃ r : Res, ∀ (w : World) (c : Ctx) (st : St), w.parse = p →
      (∀ a, Guard x a → Verif.Auth.verify c.auth a = .succeed) → eval w x c st = (st, r) := by
  match x with
  | .ctxPath q => simp [isConst] at hc
  | .io i => simp [isConst] at hc
  | .cache m i => simp [isConst] at hc
  | .entity m => exact absurd (.here m) he
  | .service s => exact ⟨_, fun w c st _ _ => rfl⟩
  | .dynamic d =>
    simp only [isConst] at hc
    refine ⟨.ok (renderDyn (pureWorld p) (demoCtx true .absent) d), fun w c st hp _ => ?_⟩
    simp only [eval]
    rw [renderDyn_const d hc w (pureWorld p) hp c (demoCtx true .absent)]
  | .path y q =>
    simp only [isConst] at hc
    obtain ⟨r, hr⟩ := isConst_eval p y hc (fun h => he (.path h))
    refine ⟨match r with | .error e => .error e | .ok v => .ok ((getPath v q).getD .null), ?_⟩
    intro w c st hp hg
    simp only [eval, hr w c st hp (fun a h => hg a (.path h))]
    cases r <;> rfl
  | .map y m =>
    simp only [isConst] at hc
    obtain ⟨r, hr⟩ := isConst_eval p y hc (fun h => he (.map h))
    refine ⟨match r with | .error e => .error e | .ok v => mapEnum m v, ?_⟩
    intro w c st hp hg
    simp only [eval, hr w c st hp (fun a h => hg a (.map h))]
    cases r <;> rfl
  | .discriminate d y =>
    simp only [isConst] at hc
    obtain ⟨r, hr⟩ := isConst_eval p y hc (fun h => he (.discriminate h))
    refine ⟨match r with | .error e => .error e | .ok v => resolveType d v, ?_⟩
    intro w c st hp hg
    simp only [eval, hr w c st hp (fun a h => hg a (.discriminate h))]
    cases r <;> rfl
  | .protect a y =>
    simp only [isConst] at hc
    obtain ⟨r, hr⟩ := isConst_eval p y hc (fun h => he (.protect h))
    refine ⟨r, fun w c st hp hg => ?_⟩
    simp only [eval, hg a (.here _ _)]
    exact hr w c st hp (fun b h => hg b (.protect h))
  | .pipe y z =>
    simp only [isConst, Bool.and_eq_true] at hc
    obtain ⟨r, hr⟩ := isConst_eval p y hc.1 (fun h => he (.pipeL h))
    obtain ⟨s, hs⟩ := isConst_eval p z hc.2 (fun h => he (.pipeR h))
    refine ⟨match r with | .error e => .error e | .ok _ => s, fun w c st hp hg => ?_⟩
    simp only [eval, hr w c st hp (fun a h => hg a (.pipeL h))]
    cases r with
    | error e => rfl
    | ok v => exact hs w (c.withArgs v) st hp (fun a h => hg a (.pipeR h))
  | .merge l =>
    simp only [isConst] at hc
    obtain ⟨rs, hr⟩ := allConst_eval p l hc (fun ⟨x, hx, h⟩ => he (.merge hx h))
    refine ⟨match collect rs with | .error e => .error e | .ok vs => .ok (mergeAll vs), ?_⟩
    intro w c st hp hg
    simp only [eval, hr w c st hp (fun a ⟨x, hx, h⟩ => hg a (.merge hx h))]
    cases collect rs <;> rfl
theorem allConst_eval (p : Text → Option GVal) (l : List IR) (hc : allConst l = true)
    (he : ¬ ∃ x, x ∈ l ∧ UsesEntity x) : ∃ rs : List Res, ∀ (w : World) (c : Ctx) (st : St),
      w.parse = p → (∀ a, (∃ x, x ∈ l ∧ Guard x a) → Verif.Auth.verify c.auth a = .succeed) →
      evalAll w l c st = (st, rs) := by
  match l with
  | [] => exact ⟨[], fun w c st _ _ => rfl⟩
  | x :: r =>
    simp only [allConst, Bool.and_eq_true] at hc
    obtain ⟨v, hv⟩ := isConst_eval p x hc.1 (fun h => he ⟨x, by simp, h⟩)
    obtain ⟨vs, hvs⟩ := allConst_eval p r hc.2 (fun ⟨y, hy, h⟩ => he ⟨y, by simp [hy], h⟩)
    refine ⟨v :: vs, fun w c st hp hg => ?_⟩
    simp only [evalAll, hv w c st hp (fun a h => hg a ⟨x, by simp, h⟩),
      hvs w c st hp (fun a ⟨y, hy, h⟩ => hg a ⟨y, by simp [hy], h⟩)]
end

/-- C40: an expression classified constant has one result, for all contexts (parent value,
arguments, headers, variables, environment), all states and all upstream behaviours, as soon as
the request passes its guards; and evaluating it has no effect.  (Partial: expressions that use
entity resolvers are excluded, see `C40_violated_by_entity`, and the guards have to pass.) -/
theorem C40_const_has_one_result_partial (p : Text → Option GVal) (x : IR)
    (hc : isConst x = true) (he : ¬ UsesEntity x) :
    ∃ r : Res, ∀ (w : World) (c : Ctx) (st : St), w.parse = p →
      (∀ a, Guard x a → Verif.Auth.verify c.auth a = .succeed) → eval w x c st = (st, r) :=
  isConst_eval p x hc he

/-- An entity resolver whose members are constant is classified constant, but its result depends
on the `representations` argument. -/
theorem C40_violated_by_entity : ∃ x c1 c2, isConst x = true ∧
    (eval demoWorld x c1 emptySt).2 ≠ (eval demoWorld x c2 emptySt).2 := by
  refine ⟨.entity [("A".toList, .dynamic (.value (.obj [])))],
    { demoCtx true .absent with args := some [("representations".toList, .list [])] },
    { demoCtx true .absent with
      args := some [("representations".toList, .list [.obj [("__typename".toList, .str "A".toList)]])] },
    rfl, ?_⟩
  intro h
  have h1 : (Except.ok (GVal.list []) : Res) =
    .ok (.list [.obj [("__typename".toList, .str "A".toList)]]) := h
  simp at h1

/-- A guarded constant is classified constant, but its result depends on the credentials. -/
theorem C40_violated_by_guard : ∃ x c1 c2, isConst x = true ∧ ¬ UsesEntity x ∧
    (eval demoWorld x c1 emptySt).2 ≠ (eval demoWorld x c2 emptySt).2 := by
  refine ⟨.protect adminOnly (constant "1"), demoCtx true .absent, demoCtx true adminHdr, rfl, ?_, ?_⟩
  · intro h; cases h with | protect h => cases h
  · intro h
    have h1 : (Except.error (Err.auth .missing) : Res) = .ok (.int 1) := h
    simp at h1

example : ∃ r : Res, ∀ (w : World) (c : Ctx) (st : St), w.parse = demoWorld.parse →
    (∀ a, Guard (IR.merge [constant "1", .path (.service "s".toList) ["sdl".toList]]) a →
      Verif.Auth.verify c.auth a = .succeed) →
    eval w (.merge [constant "1", .path (.service "s".toList) ["sdl".toList]]) c st = (st, r) := by
  apply C40_const_has_one_result_partial
  · rfl
  · intro h
    cases h with
    | merge hx h =>
      simp only [List.mem_cons, List.not_mem_nil, or_false] at hx
      rcases hx with rfl | rfl
      · cases h
      · cases h with | path h => cases h

/-! ## C41: mutations -/

/-- States that differ at most in the per-request results of deduplicated calls. -/
def SameButDone (s1 s2 : St) : Prop := s1.now = s2.now ∧ s1.cache = s2.cache ∧ s1.log = s2.log

/-- Specification: the operation is a mutation. -/
def IsMutation (c : Ctx) : Prop := c.isQuery = false

theorem mutation_closed : Closed IsMutation := ⟨fun _ _ h => h, fun _ _ h => h⟩

/-- Worlds that differ at most in what other requests have in flight. -/
def SameButJoin (w1 w2 : World) : Prop :=
  w1.json = w2.json ∧ w1.parse = w2.parse ∧ w1.key = w2.key ∧ w1.run = w2.run ∧ w1.cap = w2.cap

theorem callIo_agree {w1 w2 : World} (hw : SameButJoin w1 w2) (i : Io) :
    Agree IsMutation SameButDone (callIo w1 i) (callIo w2 i) := by
  intro c s1 s2 _ ⟨h1, h2, h3⟩
  obtain ⟨_, _, _, hrun, _⟩ := hw
  simp only [callIo, hrun, h3]
  exact ⟨⟨by simp [h1], h2, rfl⟩, trivial⟩

theorem evalIo_agree {w1 w2 : World} (hw : SameButJoin w1 w2) (i : Io) :
    Agree IsMutation SameButDone (evalIo w1 i) (evalIo w2 i) := by
  intro c s1 s2 hc hs
  have hcond : (!i.canDedupe || !c.isQuery) = true := by rw [show c.isQuery = false from hc]; simp
  simp only [evalIo, hcond, if_true]
  exact callIo_agree hw i c s1 s2 hc hs

theorem evalCache_agree {w1 w2 : World} (hw : SameButJoin w1 w2) (m : Nat) (i : Io) :
    Agree IsMutation SameButDone (evalCache w1 m i) (evalCache w2 m i) := by
  intro c s1 s2 hc hs
  have hio := evalIo_agree hw i c s1 s2 hc hs
  obtain ⟨h1, h2, h3⟩ := hs
  obtain ⟨_, _, hkey, _, hcap⟩ := hw
  simp only [evalCache, hkey, h1, h2]
  cases w2.key i c with
  | none => exact hio
  | some k =>
    simp only []
    cases cacheGet s2.now k s2.cache with
    | some v => exact ⟨⟨h1, h2, h3⟩, rfl⟩
    | none =>
      simp only []
      rcases e1 : evalIo w1 i c s1 with ⟨t1, r1⟩
      rcases e2 : evalIo w2 i c s2 with ⟨t2, r2⟩
      rw [e1, e2] at hio
      obtain ⟨⟨g1, g2, g3⟩, g4⟩ := hio
      simp only [] at g1 g2 g3 g4
      subst g4
      cases r1 with
      | error e => exact ⟨⟨g1, g2, g3⟩, rfl⟩
      | ok v =>
        refine ⟨⟨g1, ?_, ?_⟩, rfl⟩
        · simp only [g1, g2, hcap]
        · simp only [g1, g3]

theorem str_eq {w1 w2 : World} (hj : w1.json = w2.json) (c : Ctx) : c.str w1 = c.str w2 := by
  unfold Ctx.str
  have : c.raw w1 = c.raw w2 := by
    funext p
    unfold Ctx.raw
    rw [hj]
  rw [this, hj]

mutual
theorem renderDyn_eq {w1 w2 : World} (hj : w1.json = w2.json) (hp : w1.parse = w2.parse) (c : Ctx)
    (d : Dyn) : renderDyn w1 c d = renderDyn w2 c d := by
  match d with
  | .value v => rfl
  | .mustache t => simp only [renderDyn, str_eq hj, hp]
  | .object kvs => simp only [renderDyn, renderKvs_eq hj hp c kvs]
  | .array l => simp only [renderDyn, renderList_eq hj hp c l]
theorem renderKvs_eq {w1 w2 : World} (hj : w1.json = w2.json) (hp : w1.parse = w2.parse) (c : Ctx)
    (kvs : List (Text × Dyn)) : renderKvs w1 c kvs = renderKvs w2 c kvs := by
  match kvs with
  | [] => rfl
  | p :: r => simp only [renderKvs, renderKv_eq hj hp c p, renderKvs_eq hj hp c r]
theorem renderKv_eq {w1 w2 : World} (hj : w1.json = w2.json) (hp : w1.parse = w2.parse) (c : Ctx)
    (p : Text × Dyn) : renderKv w1 c p = renderKv w2 c p := by
  match p with
  | (k, d) => simp only [renderKv, renderDyn_eq hj hp c d]
theorem renderList_eq {w1 w2 : World} (hj : w1.json = w2.json) (hp : w1.parse = w2.parse) (c : Ctx)
    (l : List Dyn) : renderList w1 c l = renderList w2 c l := by
  match l with
  | [] => rfl
  | d :: r => simp only [renderList, renderDyn_eq hj hp c d, renderList_eq hj hp c r]
end

mutual
theorem eval_agree {w1 w2 : World} (hw : SameButJoin w1 w2) (x : IR) :
    Agree IsMutation SameButDone (eval w1 x) (eval w2 x) := by
  intro c s1 s2 hc hs
  match x with
  | .ctxPath p => exact ⟨hs, rfl⟩
  | .service s => exact ⟨hs, rfl⟩
  | .dynamic d =>
    simp only [eval, renderDyn_eq hw.1 hw.2.1 c d]; exact ⟨hs, trivial⟩
  | .io i => simp only [eval]; exact evalIo_agree hw i c s1 s2 hc hs
  | .cache m i => simp only [eval]; exact evalCache_agree hw m i c s1 s2 hc hs
  | .path y p =>
    have ih := eval_agree hw y c s1 s2 hc hs
    simp only [eval]
    generalize eval w1 y c s1 = q8 at *
    obtain ⟨t1, r1⟩ := q8
    generalize eval w2 y c s2 = q9 at *
    obtain ⟨t2, r2⟩ := q9
    obtain ⟨h1, h2⟩ := ih
    simp only [] at h1 h2; subst h2
    cases r1 <;> exact ⟨h1, rfl⟩
  | .map y m =>
    have ih := eval_agree hw y c s1 s2 hc hs
    simp only [eval]
    generalize eval w1 y c s1 = q10 at *
    obtain ⟨t1, r1⟩ := q10
    generalize eval w2 y c s2 = q11 at *
    obtain ⟨t2, r2⟩ := q11
    obtain ⟨h1, h2⟩ := ih
    simp only [] at h1 h2; subst h2
    cases r1 <;> exact ⟨h1, rfl⟩
  | .discriminate d y =>
    have ih := eval_agree hw y c s1 s2 hc hs
    simp only [eval]
    generalize eval w1 y c s1 = q12 at *
    obtain ⟨t1, r1⟩ := q12
    generalize eval w2 y c s2 = q13 at *
    obtain ⟨t2, r2⟩ := q13
    obtain ⟨h1, h2⟩ := ih
    simp only [] at h1 h2; subst h2
    cases r1 <;> exact ⟨h1, rfl⟩
  | .protect a y =>
    simp only [eval]
    cases Verif.Auth.verify c.auth a with
    | fail e => exact ⟨hs, rfl⟩
    | succeed => exact eval_agree hw y c s1 s2 hc hs
  | .pipe y z =>
    have ih := eval_agree hw y c s1 s2 hc hs
    simp only [eval]
    generalize eval w1 y c s1 = q14 at *
    obtain ⟨t1, r1⟩ := q14
    generalize eval w2 y c s2 = q15 at *
    obtain ⟨t2, r2⟩ := q15
    obtain ⟨h1, h2⟩ := ih
    simp only [] at h1 h2; subst h2
    cases r1 with
    | error e => exact ⟨h1, rfl⟩
    | ok v => exact eval_agree hw z (c.withArgs v) t1 t2 hc h1
  | .merge l =>
    have ih := evalAll_agree hw l c s1 s2 hc hs
    simp only [eval]
    generalize evalAll w1 l c s1 = q16 at *
    obtain ⟨t1, r1⟩ := q16
    generalize evalAll w2 l c s2 = q17 at *
    obtain ⟨t2, r2⟩ := q17
    obtain ⟨h1, h2⟩ := ih
    simp only [] at h1 h2 ⊢; subst h2
    cases collect r1 <;> exact ⟨h1, rfl⟩
  | .entity m =>
    simp only [eval]
    exact evalEntity_agree mutation_closed (evalMap_agree hw m) c s1 s2 hc hs
theorem evalAll_agree {w1 w2 : World} (hw : SameButJoin w1 w2) (l : List IR) (c : Ctx) (s1 s2 : St)
    (hc : IsMutation c) (hs : SameButDone s1 s2) :
    SameButDone (evalAll w1 l c s1).1 (evalAll w2 l c s2).1 ∧
      (evalAll w1 l c s1).2 = (evalAll w2 l c s2).2 := by
  match l with
  | [] => exact ⟨hs, rfl⟩
  | x :: r =>
    have ih := eval_agree hw x c s1 s2 hc hs
    simp only [evalAll]
    generalize eval w1 x c s1 = q18 at *
    obtain ⟨t1, r1⟩ := q18
    generalize eval w2 x c s2 = q19 at *
    obtain ⟨t2, r2⟩ := q19
    obtain ⟨h1, h2⟩ := ih
    simp only [] at h1 h2 ⊢; subst h2
    have ih2 := evalAll_agree hw r c t1 t2 hc h1
    generalize evalAll w1 r c t1 = q20 at *
    obtain ⟨u1, q1⟩ := q20
    generalize evalAll w2 r c t2 = q21 at *
    obtain ⟨u2, q2⟩ := q21
    obtain ⟨g1, g2⟩ := ih2
    simp only [] at g1 g2 ⊢; subst g2
    exact ⟨g1, rfl⟩
theorem evalMap_agree {w1 w2 : World} (hw : SameButJoin w1 w2) (m : List (Text × IR)) :
    AgreeMap IsMutation SameButDone (evalMap w1 m) (evalMap w2 m) := by
  match m with
  | [] => exact .nil
  | p :: r =>
    simp only [evalMap]
    have h := evalEntry_agree hw p
    rcases e1 : evalEntry w1 p with ⟨t1, f1⟩
    rcases e2 : evalEntry w2 p with ⟨t2, f2⟩
    rw [e1, e2] at h
    obtain ⟨h1, h2⟩ := h
    simp only [] at h1; subst h1
    exact .cons h2 (evalMap_agree hw r)
theorem evalEntry_agree {w1 w2 : World} (hw : SameButJoin w1 w2) (p : Text × IR) :
    (evalEntry w1 p).1 = (evalEntry w2 p).1 ∧
      Agree IsMutation SameButDone (evalEntry w1 p).2 (evalEntry w2 p).2 := by
  match p with
  | (t, x) => simp only [evalEntry]; exact ⟨trivial, eval_agree hw x⟩
end

/-- C41: the resolvers of a mutation never join a call in flight for another request, and never
reuse an earlier call of the same request: result, upstream calls and cache are the same whatever
is in flight (`join`) and whatever was deduplicated before (`done`). -/
theorem C41_mutation_ignores_dedupe (w1 w2 : World) (hw : SameButJoin w1 w2) (x : IR) (c : Ctx)
    (hc : c.isQuery = false) (s1 s2 : St) (hs : SameButDone s1 s2) :
    (eval w1 x c s1).2 = (eval w2 x c s2).2 ∧ (eval w1 x c s1).1.log = (eval w2 x c s2).1.log :=
  let h := eval_agree hw x c s1 s2 hc hs
  ⟨h.2, h.1.2.2⟩

/-- C41: an upstream call of a mutation is made, every time. -/
theorem C41_mutation_calls (w : World) (i : Io) (c : Ctx) (hc : c.isQuery = false) (st : St) :
    (eval w (.io i) c st).1.log = st.log ++ [.call i c] ∧
      (eval w (.io i) c st).2 = (w.run st.log.length i c).2 := by
  have hcond : (!i.canDedupe || !c.isQuery) = true := by rw [hc]; simp
  simp only [eval, evalIo, hcond, if_true, callIo]
  trivial

/-- A mutation under `@cache` is answered from the cache: the second call is not made. -/
theorem C41_violated_by_cached_mutation :
    let c := demoCtx false .absent
    let s1 := (eval demoWorld (.cache 100 (call 1)) c emptySt).1
    (eval demoWorld (.cache 100 (call 1)) c s1).1.log = s1.log ∧
      (eval demoWorld (.cache 100 (call 1)) c s1).2 = .ok (.int 100) := by
  exact ⟨rfl, rfl⟩

example : (eval demoWorld (.io (call 1)) (demoCtx false .absent)
    { emptySt with done := [(1, .ok .null)] }).2 = .ok (.int 100) := by rfl
/-- A query in the same state reuses the earlier result. -/
example : (eval demoWorld (.io (call 1)) (demoCtx true .absent)
    { emptySt with done := [(1, .ok .null)] }).2 = .ok .null := by rfl
example : (eval { demoWorld with join := fun _ _ => some (.ok .null) } (.io (call 1))
    (demoCtx false .absent) emptySt).2 = (eval demoWorld (.io (call 1)) (demoCtx false .absent)
    { emptySt with done := [(1, .ok .null)] }).2 :=
  (C41_mutation_ignores_dedupe _ _ ⟨rfl, rfl, rfl, rfl, rfl⟩ _ _ rfl _ _ ⟨rfl, rfl, rfl⟩).1

end Verif.Ir
