import Verif.Reflect.Spec

set_option linter.unusedSimpArgs false

namespace Verif.Reflect

open Verif.Mustache (Text NoBraces NoOpen)
open Verif.Transform (At get insert get_insert get_some)
open Verif.Load (PFile)
open Verif.Hook (headerName validValue tokenChar)

/-! ## Braces -/

theorem noBraces_iff {t : Text} : NoBraces t ↔ NoOpen t := by simp [NoBraces, NoOpen]

theorem noOpen_nil : NoOpen [] := by
  rintro ⟨a, b, h⟩
  cases a <;> simp at h

theorem noOpen_cons {c : Char} {t : Text} : NoOpen (c :: t) ↔ NoOpen t ∧ ¬ (c = '{' ∧ t.head? = some '{') := by
  constructor
  · intro h
    refine ⟨?_, ?_⟩
    · rintro ⟨a, b, e⟩
      exact h ⟨c :: a, b, by rw [e]; rfl⟩
    · rintro ⟨e, e'⟩
      cases t with
      | nil => simp at e'
      | cons d t =>
        simp only [List.head?_cons, Option.some.injEq] at e'
        exact h ⟨[], t, by rw [e, e']; rfl⟩
  · rintro ⟨h, h'⟩ ⟨a, b, e⟩
    cases a with
    | nil =>
      simp only [List.nil_append, List.cons.injEq] at e
      exact h' ⟨e.1, by rw [e.2]; rfl⟩
    | cons x a =>
      simp only [List.cons_append, List.cons.injEq] at e
      exact h ⟨a, b, e.2⟩

theorem noOpen_append {a b : Text} (ha : '{' ∉ a) (hb : NoOpen b) : NoOpen (a ++ b) := by
  induction a with
  | nil => exact hb
  | cons c a ih =>
    rw [List.mem_cons, not_or] at ha
    rw [List.cons_append, noOpen_cons]
    exact ⟨ih ha.2, fun h => ha.1 h.1.symm⟩

theorem hexDigit_low : ∀ n : Fin 32, unhex (hexDigit (n.val / 16)) = some (n.val / 16) ∧
    unhex (hexDigit (n.val % 16)) = some (n.val % 16) ∧ hexDigit (n.val / 16) ≠ '{' ∧ hexDigit (n.val % 16) ≠ '{' := by
  decide +kernel

/-- How a character is written: as it is, or without a brace. -/
theorem escChar_shape (c : Char) : escChar c = [c] ∨ (c ≠ '{' ∧ '{' ∉ escChar c ∧ escChar c ≠ []) := by
  unfold escChar
  split
  · next h => subst h; right; decide
  · split
    · next h => subst h; right; decide
    · split
      · next h =>
        right
        refine ⟨?_, ?_⟩
        · rintro rfl
          revert h
          decide
        · have hx := hexDigit_low ⟨c.toNat, h⟩
          split
          · decide
          · split
            · decide
            · split
              · decide
              · split
                · decide
                · split
                  · decide
                  · simp only [List.mem_cons, List.not_mem_nil, or_false, not_or]
                    exact ⟨⟨by decide, by decide, by decide, by decide, fun e => hx.2.2.1 e.symm,
                      fun e => hx.2.2.2 e.symm⟩, by simp⟩
      · exact .inl rfl

theorem noOpen_escaped {n t : Text} (h : NoOpen n) (ht : NoOpen t) (hh : t.head? ≠ some '{') :
    NoOpen (n.flatMap escChar ++ t) ∧ ((n.flatMap escChar ++ t).head? = some '{' → n.head? = some '{') := by
  induction n with
  | nil => exact ⟨ht, fun e => absurd e hh⟩
  | cons c n ih =>
    rw [noOpen_cons] at h
    obtain ⟨i1, i2⟩ := ih h.1
    rw [List.flatMap_cons, List.append_assoc]
    rcases escChar_shape c with e | ⟨e, e', e''⟩
    · rw [e, List.singleton_append, noOpen_cons]
      refine ⟨⟨i1, fun x => h.2 ⟨x.1, i2 x.2⟩⟩, fun x => ?_⟩
      simpa using x
    · refine ⟨noOpen_append e' i1, fun x => ?_⟩
      cases hx : escChar c with
      | nil => exact absurd hx e''
      | cons d r =>
        rw [hx] at x e'
        simp only [List.cons_append, List.head?_cons, Option.some.injEq] at x
        exact absurd (by rw [x]; exact List.mem_cons_self) e'

theorem keyOf_noBrace (a : Ask) : '{' ∉ keyOf a := by
  cases a
  · show '{' ∉ "list_services".toList
    decide
  · show '{' ∉ "file_containing_symbol".toList
    decide
  · show '{' ∉ "file_by_filename".toList
    decide

theorem body_noOpen {a : Ask} (h : NoOpen (argOf a)) : NoOpen (bodyText a) := by
  unfold bodyText
  rw [noOpen_cons, noOpen_cons]
  refine ⟨⟨noOpen_append (keyOf_noBrace a) ?_, by simp⟩, by simp⟩
  rw [noOpen_cons, noOpen_cons, noOpen_cons]
  refine ⟨⟨⟨?_, by simp⟩, by simp⟩, by simp⟩
  refine (noOpen_escaped h ?_ (by simp)).1
  rintro ⟨x, y, e⟩
  rcases x with _ | ⟨p, _ | ⟨q, _ | ⟨r, x⟩⟩⟩ <;> simp at e

/-! ## The body is read as it is meant -/

theorem readStr_esc (c : Char) (t : Text) : readStr (escChar c ++ t) = (readStr t).map (fun p => (c :: p.1, p.2)) := by
  unfold escChar
  split
  · next h => subst h; rfl
  · next h1 =>
    split
    · next h => subst h; rfl
    · next h2 =>
      split
      · next h =>
        have hx := hexDigit_low ⟨c.toNat, h⟩
        have hc : Char.ofNat c.toNat = c := Char.ofNat_toNat c
        split
        · next e => subst e; rfl
        · split
          · next e => subst e; rfl
          · split
            · next e => subst e; rfl
            · split
              · next e => rw [e] at hc; subst hc; rfl
              · split
                · next e => rw [e] at hc; subst hc; rfl
                · show (match unhex (hexDigit (c.toNat / 16)), unhex (hexDigit (c.toNat % 16)), readStr t with
                    | some x, some y, some p => some (Char.ofNat (16 * x + y) :: p.1, p.2)
                    | _, _, _ => none) = _
                  have e : 16 * (c.toNat / 16) + c.toNat % 16 = c.toNat := by omega
                  rw [hx.1, hx.2.1]
                  cases readStr t with
                  | none => rfl
                  | some p =>
                    show some (Char.ofNat (16 * (c.toNat / 16) + c.toNat % 16) :: p.1, p.2) = _
                    rw [e, hc]
                    rfl
      · next h =>
        show readStr (c :: t) = _
        rw [readStr.eq_def]
        split
        · next e => simp at e
        · next e => exact absurd (List.cons.inj e).1 h1
        · next e => exact absurd (List.cons.inj e).1 h2
        · next e => exact absurd (List.cons.inj e).1 h2
        · next e => exact absurd (List.cons.inj e).1 h2
        · next e => exact absurd (List.cons.inj e).1 h2
        · next e => exact absurd (List.cons.inj e).1 h2
        · next e => exact absurd (List.cons.inj e).1 h2
        · next e => exact absurd (List.cons.inj e).1 h2
        · next e => exact absurd (List.cons.inj e).1 h2
        · next e =>
          rw [← (List.cons.inj e).1, ← (List.cons.inj e).2, if_neg (fun x => x.elim h2 h)]

theorem readStr_escaped (n r : Text) : readStr (n.flatMap escChar ++ '"' :: r) = some (n, r) := by
  induction n with
  | nil => rfl
  | cons c n ih =>
    rw [List.flatMap_cons, List.append_assoc, readStr_esc, ih]
    rfl

theorem key_escaped (a : Ask) : (keyOf a).flatMap escChar = keyOf a := by
  cases a
  · show ("list_services".toList).flatMap escChar = "list_services".toList
    decide +kernel
  · show ("file_containing_symbol".toList).flatMap escChar = "file_containing_symbol".toList
    decide +kernel
  · show ("file_by_filename".toList).flatMap escChar = "file_by_filename".toList
    decide +kernel

theorem readBody_body (a : Ask) : readBody (bodyText a) = some a := by
  have hk : readStr (keyOf a ++ '"' :: (':' :: '"' :: ((argOf a).flatMap escChar ++ ['"', '}']))) =
      some (keyOf a, ':' :: '"' :: ((argOf a).flatMap escChar ++ ['"', '}'])) := by
    have := readStr_escaped (keyOf a) (':' :: '"' :: ((argOf a).flatMap escChar ++ ['"', '}']))
    rwa [key_escaped] at this
  have hv : readStr ((argOf a).flatMap escChar ++ ['"', '}']) = some (argOf a, ['}']) := readStr_escaped _ _
  unfold bodyText readBody
  simp only [hk, hv]
  cases a
  · rfl
  · show (if "file_containing_symbol".toList = "list_services".toList then some Ask.services
      else if "file_containing_symbol".toList = "file_containing_symbol".toList then _ else _) = _
    rw [if_neg (by decide), if_pos rfl]
    rfl
  · show (if "file_by_filename".toList = "list_services".toList then some Ask.services
      else if "file_by_filename".toList = "file_containing_symbol".toList then _
      else if "file_by_filename".toList = "file_by_filename".toList then _ else _) = _
    rw [if_neg (by decide), if_neg (by decide), if_pos rfl]
    rfl

/-! ## Rendering -/

theorem envText : "env".toList = ['e', 'n', 'v'] := by decide

theorem envCtx_eq (env : Text → Option Text) : envCtx env = Vars env := by
  funext ps
  unfold envCtx Vars
  rw [envText]
  split
  · next h k r =>
    by_cases e : h = ['e', 'n', 'v']
    · simp [e]
    · simp [e]
  · next hn =>
    cases ps with
    | nil => simp
    | cons h r =>
      cases r with
      | nil => simp
      | cons k r => exact absurd rfl (hn h k r)

theorem render_ok {env : Text → Option Text} {t v : Text} : render env t = .ok v ↔ ¬ NamesNoVar t ∧ v = Filled env t := by
  unfold render NamesNoVar Filled
  rw [envText, envCtx_eq]
  simp only
  split
  · next h => simp [h]
  · next h => simp [h, eq_comm]

theorem plain_render {env : Text → Option Text} {t : Text} (h : NoBraces t) (hq : t ≠ ['"']) : render env t = .ok t := by
  rw [render_ok]
  refine ⟨?_, (Verif.Mustache.C12_plain_text_verbatim_partial h hq _).2.symm⟩
  unfold NamesNoVar
  rw [Verif.Mustache.parse_noBraces h]
  split <;> simp

theorem body_render {env : Text → Option Text} {a : Ask} (h : NoBraces (argOf a)) : render env (bodyText a) = .ok (bodyText a) :=
  plain_render (noBraces_iff.2 (body_noOpen (noBraces_iff.1 h))) (by unfold bodyText; simp)

/-! ## Headers -/

theorem goodName_iff {k : Text} : headerName k = some (k.map Char.toLower) ∧ GoodName k ∨ headerName k = none ∧ ¬ GoodName k := by
  have hs : "!#$%&'*+-.^_`|~".toList = ['!', '#', '$', '%', '&', '\'', '*', '+', '-', '.', '^', '_', '`', '|', '~'] := by decide
  have : (!k.isEmpty && k.all tokenChar) = true ↔ GoodName k := by
    unfold GoodName
    simp only [tokenChar, hs, Bool.and_eq_true, List.all_eq_true, Bool.or_eq_true, List.contains_iff_mem, Bool.not_eq_true',
      List.isEmpty_eq_false_iff]
  unfold headerName
  by_cases h : (!k.isEmpty && k.all tokenChar) = true
  · rw [if_pos h]
    exact .inl ⟨rfl, this.1 h⟩
  · rw [if_neg h]
    exact .inr ⟨rfl, fun x => h (this.2 x)⟩

theorem goodValue_iff {v : Text} : validValue v = true ↔ GoodValue v := by
  unfold validValue GoodValue
  simp only [List.all_eq_true, Bool.or_eq_true, Bool.and_eq_true, decide_eq_true_eq, beq_iff_eq]
  exact ⟨fun h c hc => (h c hc).symm, fun h c hc => (h c hc).symm⟩

/-- The names in lower case. -/
def lower (hs : List (Text × Text)) : List (Text × Text) := hs.map (fun h => (h.1.map Char.toLower, h.2))

theorem names_ok {hs hs' : List (Text × Text)} : names hs = .ok hs' ↔ (∀ h ∈ hs, GoodName h.1) ∧ hs' = lower hs := by
  induction hs generalizing hs' with
  | nil => simp [names, lower, eq_comm]
  | cons h r ih =>
    obtain ⟨k, v⟩ := h
    rw [names]
    rcases goodName_iff (k := k) with ⟨e, g⟩ | ⟨e, g⟩
    · rw [e]
      simp only
      cases hr : names r with
      | error x =>
        have : ¬ ∀ h ∈ r, GoodName h.1 := fun hh => by
          rw [ih.2 ⟨hh, rfl⟩] at hr
          cases hr
        constructor
        · intro x; cases x
        · rintro ⟨x, _⟩
          exact absurd (fun h hh => x h (List.mem_cons_of_mem _ hh)) this
      | ok r' =>
        obtain ⟨x, y⟩ := ih.1 hr
        subst y
        show Except.ok ((k.map Char.toLower, v) :: lower r) = Except.ok hs' ↔ _
        constructor
        · intro z
          refine ⟨fun h hh => ?_, (Except.ok.inj z).symm⟩
          rcases List.mem_cons.1 hh with rfl | hh
          · exact g
          · exact x h hh
        · rintro ⟨_, rfl⟩
          rfl
    · rw [e]
      constructor
      · intro x; cases x
      · rintro ⟨x, _⟩
        exact absurd (x _ List.mem_cons_self) g

theorem names_error {hs : List (Text × Text)} {e : Err} (h : names hs = .error e) : e = .header := by
  induction hs with
  | nil => cases h
  | cons x r ih =>
    obtain ⟨k, v⟩ := x
    rw [names] at h
    split at h
    · cases h; rfl
    · cases hr : names r with
      | error y =>
        rw [hr] at h
        cases h
        exact ih hr
      | ok y => rw [hr] at h; cases h

/-- The headers of the template. -/
def allHeaders (l : Link) : List (Text × Text) :=
  lower (headersOf l) ++ [("content-type".toList, "application/grpc+proto".toList)]

theorem templates_ok {l : Link} {hs : List (Text × Text)} :
    templates l.headers = .ok hs ↔ (∀ h ∈ headersOf l, GoodName h.1) ∧ hs = allHeaders l := by
  unfold templates allHeaders headersOf
  cases hn : names (l.headers.getD []) with
  | error e =>
    have : ¬ ∀ h ∈ l.headers.getD [], GoodName h.1 := fun hh => by
      rw [names_ok.2 ⟨hh, rfl⟩] at hn
      cases hn
    constructor
    · intro x; cases x
    · rintro ⟨x, _⟩
      exact absurd x this
  | ok r =>
    obtain ⟨x, y⟩ := names_ok.1 hn
    subst y
    constructor
    · intro z
      exact ⟨x, (Except.ok.inj z).symm⟩
    · rintro ⟨_, rfl⟩
      rfl

/-- The last entry with the name and a value that headers may have. -/
def LastOf (env : Text → Option Text) (hs : List (Text × Text)) (k v : Text) : Prop :=
  ∃ before t after, hs = before ++ (k, t) :: after ∧ v = Filled env t ∧ GoodValue v ∧
    ∀ h ∈ after, h.1 = k → ¬ GoodValue (Filled env h.2)

theorem lastOf_cons {env : Text → Option Text} {h : Text × Text} {hs : List (Text × Text)} {k v : Text} :
    LastOf env (h :: hs) k v ↔ LastOf env hs k v ∨
      (h.1 = k ∧ v = Filled env h.2 ∧ GoodValue v ∧ ∀ h ∈ hs, h.1 = k → ¬ GoodValue (Filled env h.2)) := by
  constructor
  · rintro ⟨b, t, a, e, e1, e2, e3⟩
    cases b with
    | nil =>
      simp only [List.nil_append, List.cons.injEq] at e
      obtain ⟨rfl, rfl⟩ := e
      exact .inr ⟨rfl, e1, e2, e3⟩
    | cons x b =>
      simp only [List.cons_append, List.cons.injEq] at e
      exact .inl ⟨b, t, a, e.2, e1, e2, e3⟩
  · rintro (⟨b, t, a, e, e1, e2, e3⟩ | ⟨e, e1, e2, e3⟩)
    · exact ⟨h :: b, t, a, by rw [e]; rfl, e1, e2, e3⟩
    · refine ⟨[], h.2, hs, ?_, e1, e2, e3⟩
      rw [← e]
      rfl

/-- Whether an entry counts. -/
theorem lastOf_or {env : Text → Option Text} (hs : List (Text × Text)) (k : Text) :
    (∃ v, LastOf env hs k v) ∨ ∀ h ∈ hs, h.1 = k → ¬ GoodValue (Filled env h.2) := by
  induction hs with
  | nil => exact .inr (fun h hh => absurd hh (by simp))
  | cons h r ih =>
    rcases ih with ⟨v, hv⟩ | hn
    · exact .inl ⟨v, lastOf_cons.2 (.inl hv)⟩
    · by_cases e : h.1 = k ∧ GoodValue (Filled env h.2)
      · exact .inl ⟨_, lastOf_cons.2 (.inr ⟨e.1, rfl, e.2, hn⟩)⟩
      · refine .inr (fun x hx => ?_)
        rcases List.mem_cons.1 hx with rfl | hx
        · exact fun e1 e2 => e ⟨e1, e2⟩
        · exact hn x hx

theorem fill_ok {env : Text → Option Text} {hs m m' : List (Text × Text)} (h : fill env hs m = .ok m') :
    (∀ x ∈ hs, ¬ NamesNoVar x.2) ∧ ∀ k v, get m' k = some v ↔ LastOf env hs k v ∨
      (get m k = some v ∧ ∀ h ∈ hs, h.1 = k → ¬ GoodValue (Filled env h.2)) := by
  induction hs generalizing m with
  | nil =>
    cases h
    refine ⟨fun x hx => absurd hx (by simp), fun k v => ?_⟩
    constructor
    · exact fun e => .inr ⟨e, fun h hh => absurd hh (by simp)⟩
    · rintro (⟨b, t, a, e, _⟩ | e)
      · cases b <;> simp at e
      · exact e.1
  | cons x r ih =>
    obtain ⟨k', t⟩ := x
    rw [fill] at h
    split at h
    · cases h
    · next w hw =>
      obtain ⟨h1, rfl⟩ := render_ok.1 hw
      obtain ⟨i1, i2⟩ := ih h
      refine ⟨?_, fun k v => ?_⟩
      · intro y hy
        rcases List.mem_cons.1 hy with rfl | hy
        · exact h1
        · exact i1 y hy
      · rw [i2, lastOf_cons]
        by_cases g : GoodValue (Filled env t)
        · rw [if_pos (goodValue_iff.2 g), get_insert]
          by_cases e : k = k'
          · subst e
            rw [if_pos rfl]
            constructor
            · rintro (a | ⟨a, b⟩)
              · exact .inl (.inl a)
              · cases Option.some.inj a
                exact .inl (.inr ⟨rfl, rfl, g, b⟩)
            · rintro ((a | ⟨_, a, _, b⟩) | ⟨_, a⟩)
              · exact .inl a
              · exact .inr ⟨by rw [a], b⟩
              · exact absurd g (a _ List.mem_cons_self rfl)
          · rw [if_neg e]
            constructor
            · rintro (a | ⟨a, b⟩)
              · exact .inl (.inl a)
              · refine .inr ⟨a, fun y hy => ?_⟩
                rcases List.mem_cons.1 hy with rfl | hy
                · exact fun e' => absurd e'.symm e
                · exact b y hy
            · rintro ((a | ⟨a, _⟩) | ⟨a, b⟩)
              · exact .inl a
              · exact absurd a.symm e
              · exact .inr ⟨a, fun y hy => b y (List.mem_cons_of_mem _ hy)⟩
        · rw [if_neg (fun z => g (goodValue_iff.1 z))]
          constructor
          · rintro (a | ⟨a, b⟩)
            · exact .inl (.inl a)
            · refine .inr ⟨a, fun y hy => ?_⟩
              rcases List.mem_cons.1 hy with rfl | hy
              · exact fun _ => g
              · exact b y hy
          · rintro ((a | ⟨_, a, b, _⟩) | ⟨a, b⟩)
            · exact .inl a
            · rw [a] at b
              exact absurd b g
            · exact .inr ⟨a, fun y hy => b y (List.mem_cons_of_mem _ hy)⟩

theorem fill_some {env : Text → Option Text} {hs : List (Text × Text)} (h : ∀ x ∈ hs, ¬ NamesNoVar x.2) :
    ∀ m, ∃ m', fill env hs m = .ok m' := by
  induction hs with
  | nil => exact fun m => ⟨m, rfl⟩
  | cons x r ih =>
    obtain ⟨k, t⟩ := x
    intro m
    have e : render env t = .ok (Filled env t) := render_ok.2 ⟨h _ List.mem_cons_self, rfl⟩
    rw [fill, e]
    exact ih (fun y hy => h y (List.mem_cons_of_mem _ hy)) _

theorem fill_env {env env' : Text → Option Text} {hs : List (Text × Text)}
    (h : ∀ x ∈ hs, render env x.2 = render env' x.2) : ∀ m, fill env hs m = fill env' hs m := by
  induction hs with
  | nil => exact fun m => rfl
  | cons x r ih =>
    obtain ⟨k, t⟩ := x
    intro m
    have e : render env t = render env' t := h _ List.mem_cons_self
    rw [fill, fill, e]
    split
    · rfl
    · exact ih (fun y hy => h y (List.mem_cons_of_mem _ hy)) _

/-! ## The request -/

theorem request_ok {lib : Lib} {env : Text → Option Text} {l : Link} {a : Ask} {q : Req} :
    request lib env l a = .ok q ↔ ∃ u, lib.url l.src = some u ∧ (∀ h ∈ headersOf l, GoodName h.1) ∧
      (∃ t, render env (printUrl (Endpoint u)) = .ok t ∧ lib.url t = some q.url) ∧
      createHeaders env (allHeaders l) = .ok q.headers ∧
      ∃ b, render env (bodyText a) = .ok b ∧ readBody b = some q.ask := by
  have hE : ∀ u : Url, ({ u with path := reflectionPath } : Url) = Endpoint u := fun u => rfl
  unfold request
  constructor
  · intro h
    split at h
    · cases h
    · next u hu =>
      split at h
      · cases h
      · next hs hhs =>
        split at h
        · cases h
        · next t ht =>
          split at h
          · cases h
          · next u' hu' =>
            split at h
            · cases h
            · next hm hhm =>
              split at h
              · cases h
              · next b hb =>
                split at h
                · cases h
                · next a' ha' =>
                  cases h
                  obtain ⟨x, y⟩ := templates_ok.1 hhs
                  subst y
                  exact ⟨u, hu, x, ⟨t, ht, hu'⟩, hhm, b, hb, ha'⟩
  · rintro ⟨u, hu, hg, ⟨t, ht, hu'⟩, hm, b, hb, ha⟩
    simp only [hu, templates_ok.2 ⟨hg, rfl⟩, hE, ht, hu', hm, hb, ha]

theorem convertOutput_ok {lib : Lib} {bytes : List UInt8} {r : Answer} :
    convertOutput lib bytes = .ok r ↔ ∃ head body, bytes = head ++ body ∧ head.length = 5 ∧ lib.answer body = some r := by
  unfold convertOutput
  constructor
  · intro h
    split at h
    · cases h
    · next hl =>
      split at h
      · cases h
      · next x hx =>
        cases h
        exact ⟨bytes.take 5, bytes.drop 5, (List.take_append_drop 5 bytes).symm, by rw [List.length_take]; omega, hx⟩
  · rintro ⟨head, body, rfl, h5, ha⟩
    rw [if_neg (by rw [List.length_append]; omega), ← h5, List.drop_left, ha]

theorem execute_ok {lib : Lib} {env : Text → Option Text} {up : Req → Option (List UInt8)} {l : Link} {a : Ask} {r : Answer} :
    execute lib env up l a = .ok r ↔ Answers lib env up l a r := by
  unfold execute Answers
  constructor
  · intro h
    split at h
    · cases h
    · next q hq =>
      split at h
      · cases h
      · next bytes hb =>
        obtain ⟨head, body, rfl, e, e'⟩ := convertOutput_ok.1 h
        exact ⟨q, head, body, hq, hb, e, e'⟩
  · rintro ⟨q, head, body, hq, hb, e, e'⟩
    simp only [hq, hb]
    exact convertOutput_ok.2 ⟨head, body, rfl, e, e'⟩

theorem requestProto_ok {lib : Lib} {r : Answer} {f : PFile} :
    requestProto lib r = .ok f ↔ ∃ b rest, r.files = some (b :: rest) ∧ lib.file b = some f := by
  unfold requestProto
  constructor
  · intro h
    split at h
    · cases h
    · cases h
    · next b rest hb =>
      split at h
      · cases h
      · next f' hf =>
        cases h
        exact ⟨b, rest, hb, hf⟩
  · rintro ⟨b, rest, hb, hf⟩
    simp only [hb, hf]

theorem about_arg {a : Ask} {n : Text} (h : About a n) : argOf a = n := by
  cases h <;> rfl

end Verif.Reflect
