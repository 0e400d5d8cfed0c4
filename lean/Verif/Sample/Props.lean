import Verif.Sample.More

/-!
# Properties of requests generated from sample URLs (C118, C119)
-/

namespace Verif.Sample

open Verif.Mustache (Text Template Seg isWord parse print render merge printSeg print_cons print_merge render_merge merge_canon parse_print_canon
  ValidPath ValidName render_lit render_expr)
open Verif.HttpUrl (QC GVal RCtx pairsOf splitAll Query createUrl parseUrl cutAt Url scalarText leaves leavesAll sentValues specParams CleanKey CleanVal)
open Verif.Transform (insert At Lacks get_some get_none get_insert at_of_mem)

set_option linter.unusedSimpArgs false

/-! ## Templates -/

/-- The segment of a marked part. -/
def Marked.seg : Marked → Seg
  | (_, some i) => .expr ["args".toList, argName i]
  | (p, none) => .lit p.text

/-- The template of a URL, before literals are joined. -/
def urlTemplate (front : Text) (m : List Marked) (frag : Option Text) : Template :=
  .lit front :: (m.flatMap (fun x => [.lit ['/'], x.seg]) ++ [.lit (hash frag)])

theorem joinDots_two (a b : Text) : Verif.Mustache.joinDots [a, b] = a ++ '.' :: b := rfl

theorem args_head : "{{.args.".toList = '{' :: '{' :: '.' :: ("args".toList ++ ['.']) := by decide +kernel

theorem args_close : "}}".toList = ['}', '}'] := by decide +kernel

theorem print_placeholder (n : Text) : printSeg (.expr ["args".toList, n]) = placeholder n := by
  rw [printSeg, joinDots_two]
  unfold placeholder
  rw [args_head, args_close]
  simp

theorem print_append (a b : Template) : print (a ++ b) = print a ++ print b := by simp [print]

theorem print_seg (x : Marked) : printSeg x.seg = x.text := by
  obtain ⟨p, o⟩ := x
  cases o with
  | none => rfl
  | some i => exact print_placeholder _

theorem print_flat (m : List Marked) : print (m.flatMap (fun x => [.lit ['/'], x.seg])) = slashed (m.map Marked.text) := by
  induction m with
  | nil => rfl
  | cons x m ih =>
    rw [List.flatMap_cons, print_append, ih, List.map_cons, slashed, slashed, List.flatMap_cons]
    congr 1
    rw [print_cons, print_cons, print_seg]
    simp [printSeg, print]

theorem print_url (front : Text) (m : List Marked) (frag : Option Text) :
    print (urlTemplate front m frag) = front ++ slashed (m.map Marked.text) ++ hash frag := by
  rw [urlTemplate, print_cons, print_append, print_flat]
  simp [printSeg, print]

theorem args_valid : ValidName "args".toList := by
  refine ⟨'a', "rgs".toList, by decide +kernel, by decide, fun x hx => ?_⟩
  have hx : x = 'r' ∨ x = 'g' ∨ x = 's' := by simpa using hx
  rcases hx with rfl | rfl | rfl <;> decide

theorem gen_head : "GEN__".toList = ['G', 'E', 'N', '_', '_'] := by decide +kernel

theorem argName_valid (i : Nat) : ValidName (argName i) := by
  refine ⟨'G', ['E', 'N', '_', '_'] ++ (toString i).toList, by rw [argName, gen_head]; rfl, by decide, fun x hx => ?_⟩
  rcases List.mem_append.1 hx with hx | hx
  · have : x = 'E' ∨ x = 'N' ∨ x = '_' := by simpa using hx
    rcases this with rfl | rfl | rfl <;> decide
  · rw [Verif.Mustache.isWord_eq, Char.isAlphanum, digit_of_mem hx]
    simp

theorem name_valid {n : Text} (h : Name n) : ValidName n := by
  apply Verif.Mustache.validName_iff.2
  obtain ⟨c, cs, e, h1, h2⟩ := h
  exact ⟨c, cs, e, h1, h2⟩

theorem pair_valid {n : Text} (h : ValidName n) : ValidPath ["args".toList, n] := by
  refine ⟨by simp, fun p hp => ?_⟩
  rcases List.mem_cons.1 hp with rfl | hp
  · exact args_valid
  · rw [List.mem_singleton.1 hp]; exact h

theorem part_quiet {p : Part} (h : p.Ok) : ∀ c ∈ p.text, Quiet c := by
  have dig : ∀ c : Char, c.isDigit = true → Quiet c := by
    intro c hc
    have h1 : 48 ≤ c.toNat ∧ c.toNat ≤ 57 := by
      simp only [Char.isDigit, Bool.and_eq_true, decide_eq_true_eq] at hc
      exact ⟨hc.1, hc.2⟩
    refine ⟨by omega, ?_, ?_, ?_, ?_, ?_⟩ <;> (rintro rfl; revert h1; decide)
  cases p with
  | num n => exact fun c hc => dig c (digit_of_mem hc)
  | id u =>
    obtain ⟨⟨a, b, c, d, e, hu, _, _, _, _, _, hx⟩, _⟩ := h
    intro x hxu
    have hm : x ∈ u := hxu
    have hd : Quiet '-' := by refine ⟨by decide, ?_⟩; decide
    have : x = '-' ∨ x ∈ a ++ b ++ c ++ d ++ e := by
      rw [hu] at hm
      simp only [List.mem_append, List.mem_singleton] at hm ⊢
      rcases hm with (((((((h | h) | h) | h) | h) | h) | h) | h) | h <;> simp [h]
    rcases this with rfl | hx'
    · exact hd
    · rcases hx x hx' with h | h
      · exact dig x h
      · have : x = 'a' ∨ x = 'b' ∨ x = 'c' ∨ x = 'd' ∨ x = 'e' ∨ x = 'f' := by simpa using h
        rcases this with rfl | rfl | rfl | rfl | rfl | rfl <;> (refine ⟨by decide, ?_⟩; decide)
  | name t => exact fun c hc => (h.1 c hc).1

theorem mark1_fst : ∀ (l : List Part) (i : Nat), (mark1 i l).map (·.1) = l
  | [], _ => rfl
  | .num n :: r, i => by rw [mark1, List.map_cons, mark1_fst r]
  | .id u :: r, i => by rw [mark1, List.map_cons, mark1_fst r]; exact fun n e => by cases e
  | .name u :: r, i => by rw [mark1, List.map_cons, mark1_fst r]; exact fun n e => by cases e

theorem mark2_fst : ∀ (l : List Marked) (i : Nat), (mark2 i l).map (·.1) = l.map (·.1)
  | [], _ => rfl
  | (p, o) :: r, i => by
    cases p <;> cases o <;> simp only [mark2, List.map_cons, mark2_fst r]

theorem marks_fst (l : List Part) : (marks l).map (·.1) = l := by rw [marks, mark2_fst, mark1_fst]

theorem hash_quiet {frag : Option Text} (h : ∀ f, frag = some f → ∀ c ∈ f, c.toNat < 128 ∧ c ≠ '%' ∧ c ≠ '{' ∧ c ≠ '"') :
    ∀ c ∈ hash frag, c.toNat < 128 ∧ c ≠ '%' ∧ c ≠ '{' ∧ c ≠ '"' := by
  cases frag with
  | none => exact fun c hc => absurd hc List.not_mem_nil
  | some f =>
    intro c hc
    rcases List.mem_cons.1 hc with rfl | hc
    · decide
    · exact h f rfl c hc

/-- The template of the URL of a directive. -/
theorem parse_url {front : Text} {parts : List Part} {frag : Option Text} (hf : ∀ c ∈ front, Quiet c) (hp : ∀ p ∈ parts, p.Ok)
    (hh : ∀ f, frag = some f → ∀ c ∈ f, c.toNat < 128 ∧ c ≠ '%' ∧ c ≠ '{' ∧ c ≠ '"') :
    parse (front ++ slashed ((marks parts).map Marked.text) ++ hash frag) = merge (urlTemplate front (marks parts) frag) := by
  rw [← print_url, ← print_merge]
  refine parse_print_canon (merge_canon ?_ ?_).1
  · intro l hl
    have hq : ∀ c ∈ l, c ≠ '{' ∧ c ≠ '"' := by
      rw [urlTemplate] at hl
      rcases List.mem_cons.1 hl with e | hl
      · cases e; exact fun c hc => ⟨(hf c hc).2.2.1, (hf c hc).2.2.2.1⟩
      · rcases List.mem_append.1 hl with hl | hl
        · obtain ⟨x, hx, hl⟩ := List.mem_flatMap.1 hl
          rcases List.mem_cons.1 hl with e | hl
          · cases e
            intro c hc
            rw [List.mem_singleton.1 hc]
            decide
          · have e := List.mem_singleton.1 hl
            obtain ⟨p, o⟩ := x
            cases o with
            | some i => cases e
            | none =>
              cases e
              have : p ∈ (marks parts).map (·.1) := List.mem_map.2 ⟨_, hx, rfl⟩
              rw [marks_fst] at this
              exact fun c hc => ⟨(part_quiet (hp p this) c hc).2.2.1, (part_quiet (hp p this) c hc).2.2.2.1⟩
        · have e := List.mem_singleton.1 hl
          cases e
          exact fun c hc => (hash_quiet hh c hc).2.2
    exact ⟨fun h => (hq _ h).1 rfl, fun h => (hq _ h).2 rfl⟩
  · intro ps hps
    rw [urlTemplate] at hps
    rcases List.mem_cons.1 hps with e | hl
    · cases e
    · rcases List.mem_append.1 hl with hl | hl
      · obtain ⟨x, hx, hl⟩ := List.mem_flatMap.1 hl
        rcases List.mem_cons.1 hl with e | hl
        · cases e
        · have e := List.mem_singleton.1 hl
          obtain ⟨p, o⟩ := x
          cases o with
          | some i => cases e; exact pair_valid (argName_valid i)
          | none => cases e
      · have e := List.mem_singleton.1 hl
        cases e

/-- The template of a parameter. -/
theorem parse_placeholder {n : Text} (h : ValidName n) : parse (placeholder n) = [.expr ["args".toList, n]] := by
  have h1 : print [.expr ["args".toList, n]] = placeholder n := by
    rw [print_cons, print_placeholder]
    simp [print]
  rw [← h1]
  have := (merge_canon (t := [.expr ["args".toList, n]]) (fun l hl => by cases List.mem_singleton.1 hl)
    (fun ps hps => by cases List.mem_singleton.1 hps; exact pair_valid h)).1
  exact parse_print_canon this

/-! ## Values -/

/-- The value of a part. -/
def Part.value : Part → GVal
  | .num n => .int n
  | .id u => .str u
  | .name t => .str t

theorem boolText_eq (b : Bool) : scalarText (.bool b) = (toString b).toList := by cases b <;> decide +kernel

theorem written_text {printed : Text → Prop} {ty w : Text} {v : GVal} (h : Written printed ty w v) : scalarText v = w ∧ leaves v = [v] := by
  cases h with
  | int _ _ => exact ⟨rfl, by simp [leaves]⟩
  | float _ => exact ⟨rfl, by simp [leaves]⟩
  | bool => exact ⟨boolText_eq _, by simp [leaves]⟩
  | str => exact ⟨rfl, by simp [leaves]⟩

theorem written_list {printed : Text → Prop} {ty : Text} : ∀ {ws : List Text}, (∀ w ∈ ws, ∃ x, Written printed ty w x) →
    ∃ xs : List GVal, (leavesAll xs).map scalarText = ws ∧ (∀ x ∈ xs, ∃ w, Written printed ty w x) ∧ xs.length = ws.length
  | [], _ => ⟨[], by simp [leavesAll], fun x hx => absurd hx List.not_mem_nil, rfl⟩
  | w :: ws, h => by
    obtain ⟨x, hx⟩ := h w List.mem_cons_self
    obtain ⟨xs, e1, e2, e3⟩ := written_list (fun w' hw => h w' (List.mem_cons_of_mem _ hw))
    refine ⟨x :: xs, ?_, fun y hy => ?_, by rw [List.length_cons, e3, List.length_cons]⟩
    · rw [leavesAll, (written_text hx).2, List.map_append, e1]
      simp [(written_text hx).1]
    · rcases List.mem_cons.1 hy with rfl | hy
      · exact ⟨w, hx⟩
      · exact e2 y hy

theorem query_value {printed : Text → Prop} {pairs : List (Text × Text)} {q : Info}
    (ht : ∀ k v r, values pairs k = v :: r → ∀ w ∈ v :: r, ∃ x, Written printed (detect v) w x)
    (hq : ∃ v r, values pairs q.key = v :: r ∧ q.ty = detect v ∧ q.list = !r.isEmpty) :
    ∃ v, HasType printed ⟨q.ty, q.list, false⟩ v ∧ (leaves v).map scalarText = values pairs q.key := by
  obtain ⟨v, r, e1, e2, e3⟩ := hq
  have h := ht _ _ _ e1
  cases r with
  | nil =>
    obtain ⟨x, hx⟩ := h v List.mem_cons_self
    refine ⟨x, ?_, ?_⟩
    · have : q.list = false := e3
      rw [HasType]
      simp only [this]
      exact ⟨v, by rw [e2]; exact hx⟩
    · rw [(written_text hx).2, e1]
      simp [(written_text hx).1]
  | cons w r =>
    obtain ⟨xs, x1, x2, x3⟩ := written_list h
    refine ⟨.list xs, ?_, ?_⟩
    · have : q.list = true := e3
      rw [HasType]
      simp only [this, if_true]
      exact ⟨xs, rfl, by rw [e2]; exact x2⟩
    · cases xs with
      | nil => simp at x3
      | cons x xs =>
        rw [leaves, e1, ← x1, leavesAll]

/-- An argument of the path and its value. -/
theorem path_typed {printed : Text → Prop} {p : Part} (h : p.Ok) : HasType printed p.ty p.value := by
  cases p with
  | num n =>
    have hn : n < 2147483648 := h
    exact ⟨_, Written.int (n := (n : Int)) (by omega) (by omega)⟩
  | id u => exact ⟨u, .str⟩
  | name t => exact ⟨t, .str⟩

theorem str_value {ctx : RCtx} {p : Part} {n : Text} {o : Bool} (h : ctx.raw ["args".toList, n] = some (.value o p.value)) :
    ctx.str ["args".toList, n] = some p.text := by
  rw [RCtx.str, h]
  cases p with
  | num n => rfl
  | id u => rfl
  | name t => rfl

theorem render_append (a b : Template) (f : Verif.Mustache.Ctx) : render (a ++ b) f = render a f ++ render b f := by
  simp [render]

theorem render_url {front : Text} {m : List Marked} {frag : Option Text} {ctx : RCtx}
    (h : ∀ x ∈ tagged m, ctx.str ["args".toList, argName x.1] = some x.2.text) :
    render (urlTemplate front m frag) ctx.str = front ++ slashed ((m.map (·.1)).map Part.text) ++ hash frag := by
  have flat : ∀ (m : List Marked), (∀ x ∈ tagged m, ctx.str ["args".toList, argName x.1] = some x.2.text) →
      render (m.flatMap (fun x => [.lit ['/'], x.seg])) ctx.str = slashed ((m.map (·.1)).map Part.text) := by
    intro m
    induction m with
    | nil => intro _; rfl
    | cons x m ih =>
      intro h
      rw [tagged_cons] at h
      rw [List.flatMap_cons, render_append, ih (fun y hy => h y (List.mem_append_right _ hy)), List.map_cons, List.map_cons, slashed, slashed, List.flatMap_cons]
      congr 1
      obtain ⟨p, o⟩ := x
      cases o with
      | none =>
        simp only [Marked.seg]
        rw [render_lit, render_lit]
        simp [render]
      | some i =>
        have := h (i, p) (List.mem_append_left _ List.mem_cons_self)
        simp only [Marked.seg]
        rw [render_lit, render_expr, this]
        simp [render]
  rw [urlTemplate, render_lit, render_append, flat m h, render_lit]
  simp [render]

theorem cut_free {c : Char} {s : Text} (h : c ∉ s) : cutAt c s = (s, none) := by
  obtain ⟨h1, h2⟩ := takeWhile_all (p := (· != c)) (s := s) (fun x hx => by
    rw [bne_iff_ne]; rintro rfl; exact h hx)
  rw [cutAt, h2, h1]

theorem cut_at {c : Char} {s r : Text} (h : c ∉ s) : cutAt c (s ++ c :: r) = (s, some r) := by
  have h1 : (s ++ c :: r).takeWhile (· != c) = s ∧ (s ++ c :: r).dropWhile (· != c) = c :: r := by
    induction s with
    | nil => simp
    | cons a s ih =>
      have ha : (a != c) = true := by rw [bne_iff_ne]; rintro rfl; exact h List.mem_cons_self
      obtain ⟨i1, i2⟩ := ih (fun hs => h (List.mem_cons_of_mem _ hs))
      rw [List.cons_append, List.takeWhile_cons, List.dropWhile_cons, if_pos ha, if_pos ha, i1]
      exact ⟨rfl, i2⟩
  rw [cutAt, h1.2, h1.1]

theorem parseUrl_plain {norm : Text → Option Text} {a base : Text} {frag : Option Text} (h : ∀ c ∈ a, c ≠ '?' ∧ c ≠ '#') (hn : norm a = some base) :
    parseUrl norm (a ++ hash frag) = some ⟨base, none, frag⟩ := by
  have h1 : '#' ∉ a := fun hm => (h _ hm).2 rfl
  have h2 : '?' ∉ a := fun hm => (h _ hm).1 rfl
  cases frag with
  | none => simp only [hash, List.append_nil, parseUrl, cut_free h1, cut_free h2, hn]; rfl
  | some f => simp only [hash, parseUrl, cut_at h1, cut_free h2, hn]; rfl

theorem createUrl_some {norm : Text → Option Text} {t : Verif.HttpUrl.ReqTemplate} {ctx : RCtx} {url : Url}
    (h : parseUrl norm (render t.root ctx.str) = some url) : ∃ u, createUrl norm t ctx = some u := by
  unfold createUrl
  rw [h]
  simp only
  split
  · exact ⟨_, rfl⟩
  · split <;> exact ⟨_, rfl⟩

theorem mem_slashed {l : List Text} {c : Char} (h : c ∈ slashed l) : c = '/' ∨ ∃ s ∈ l, c ∈ s := by
  obtain ⟨s, hs, h⟩ := List.mem_flatMap.1 h
  rcases List.mem_cons.1 h with h | h
  · exact .inl h
  · exact .inr ⟨s, hs, h⟩

theorem slash_quiet : Quiet '/' := by
  refine ⟨by decide, ?_⟩; decide

theorem placeholder_ascii {i : Nat} {c : Char} (h : c ∈ placeholder (argName i)) : c.toNat < 128 ∧ c ≠ '%' := by
  unfold placeholder argName at h
  rcases List.mem_append.1 h with h | h
  · rcases List.mem_append.1 h with h | h
    · have : ∀ x ∈ "{{.args.".toList, x.toNat < 128 ∧ x ≠ '%' := by decide +kernel
      exact this c h
    · rcases List.mem_append.1 h with h | h
      · have : ∀ x ∈ "GEN__".toList, x.toNat < 128 ∧ x ≠ '%' := by decide +kernel
        exact this c h
      · have hq := part_quiet (p := .name [c]) |> fun _ => digit_of_mem h
        have h1 : 48 ≤ c.toNat ∧ c.toNat ≤ 57 := by
          simp only [Char.isDigit, Bool.and_eq_true, decide_eq_true_eq] at hq
          exact ⟨hq.1, hq.2⟩
        exact ⟨by omega, by rintro rfl; revert h1; decide⟩
  · have : ∀ x ∈ "}}".toList, x.toNat < 128 ∧ x ≠ '%' := by decide +kernel
    exact this c h

/-- What is generated for a plain sample. -/
theorem generate_plain {printed : Text → Prop} {camel : Text → Text} {s : Sample} (h : Plain printed camel s) {parts : List Part}
    (hpath : s.path = parts.flatMap (fun p => '/' :: p.text)) (hok : ∀ p ∈ parts, p.Ok) :
    generate camel s = some ⟨s.front ++ slashed ((marks parts).map Marked.text) ++ hash s.frag,
      (infos s.pairs).map (fun q => (q.key, placeholder (camel q.key))), (addQuery camel (infos s.pairs) (pathArgs parts)).2⟩ := by
  rw [generate, hpath, path_parts hok]
  simp only
  rw [decode_plain, Option.map_some, addQuery_fst]
  intro c hc
  rcases List.mem_append.1 hc with hc | hc
  · rcases List.mem_append.1 hc with hc | hc
    · exact ⟨(h.front c hc).1, (h.front c hc).2.1⟩
    · rcases mem_slashed hc with rfl | ⟨t, ht, hc⟩
      · decide
      · obtain ⟨⟨p, o⟩, hx, rfl⟩ := List.mem_map.1 ht
        cases o with
        | some i => exact placeholder_ascii hc
        | none =>
          have hm : p ∈ (marks parts).map (·.1) := List.mem_map.2 ⟨_, hx, rfl⟩
          rw [marks_fst] at hm
          have := part_quiet (hok p hm) c hc
          exact ⟨this.1, this.2.1⟩
  · have := hash_quiet h.frag c hc
    exact ⟨this.1, this.2.1⟩

/-! ## C118 -/

/-- C118 (partial): there are arguments of the declared types for which the generated request is the sample again: the same URL before
the query, the same fragment, and the same values of every parameter in the same order.

The full claim is for every sample.  Missing: samples with escapes, with numbers that are not written as the server writes them or are
too large, with UUIDs that start with a number, with commas, `&`, `%` or `+` in values, with parameters whose values are of several
types, and with names of parameters that are not names of arguments or become the same name. -/
theorem C118_roundtrip_partial (printed : Text → Prop) (camel : Text → Text) (norm : Text → Option Text) (method : Text) (body : Option Template)
    (s : Sample) (base : Text) (h : Plain printed camel s) (hn : norm (s.front ++ s.path) = some base) :
    ∃ d, generate camel s = some d ∧ ∃ vals, Typed printed d.args vals ∧
      ∀ ctx, Gives ctx vals → ∃ u, createUrl norm (d.template method body) ctx = some u ∧ u.base = base ∧ u.frag = s.frag ∧
        ∀ k, values u.pairs k = values s.pairs k := by
  obtain ⟨parts, hpath, hok⟩ := h.path
  have hk : Known s.pairs (infos s.pairs) := known_infos s.pairs (fun x hx => (h.texts x hx).2)
  refine ⟨_, generate_plain h hpath hok, ?_⟩
  -- the keys of parameters are those of pairs
  have hpair : ∀ q ∈ infos s.pairs, ∃ x ∈ s.pairs, x.1 = q.key := by
    intro q hq
    obtain ⟨v, r, e, _, _⟩ := hk.each q hq
    exact ⟨(q.key, v), mem_values.1 (by rw [e]; exact List.mem_cons_self), rfl⟩
  have hex : ∀ q, ∃ v, q ∈ infos s.pairs →
      HasType printed ⟨q.ty, q.list, false⟩ v ∧ (leaves v).map scalarText = values s.pairs q.key := by
    intro q
    by_cases hq : q ∈ infos s.pairs
    · obtain ⟨v, hv⟩ := query_value h.types (hk.each q hq)
      exact ⟨v, fun _ => hv⟩
    · exact ⟨.null, fun h => absurd h hq⟩
  obtain ⟨f, hf⟩ : ∃ f : Info → GVal, ∀ q, q ∈ infos s.pairs →
      HasType printed ⟨q.ty, q.list, false⟩ (f q) ∧ (leaves (f q)).map scalarText = values s.pairs q.key :=
    ⟨fun q => Classical.choose (hex q), fun q => Classical.choose_spec (hex q)⟩
  let vals : List (Text × GVal) :=
    (tagged (marks parts)).map (fun x => (argName x.1, x.2.value)) ++ (infos s.pairs).map (fun q => (camel q.key, f q))
  have hnd : (vals.map (·.1)).Nodup := by
    show (((tagged (marks parts)).map (fun x => (argName x.1, x.2.value)) ++ (infos s.pairs).map (fun q => (camel q.key, f q))).map (·.1)).Nodup
    rw [List.map_append, List.map_map, List.map_map, List.nodup_append]
    refine ⟨?_, ?_, ?_⟩
    · have := marks_nodup parts
      rw [show ((fun x : Text × GVal => x.1) ∘ fun x : Nat × Part => (argName x.1, x.2.value)) = (argName ∘ (·.1)) from rfl, ← List.map_map]
      exact List.Pairwise.map argName (fun a b hab e => hab (argName_inj e)) this
    · have h1 := hk.nodup
      rw [List.Nodup, List.pairwise_map] at h1 ⊢
      refine List.Pairwise.imp_of_mem ?_ h1
      intro a b ha hb hab e
      obtain ⟨x, hx, ex⟩ := hpair a ha
      obtain ⟨y, hy, ey⟩ := hpair b hb
      apply hab
      rw [← ex, ← ey]
      refine h.apart x hx y hy ?_
      rw [ex, ey]
      exact e
    · intro a ha b hb e
      obtain ⟨x, _, rfl⟩ := List.mem_map.1 ha
      obtain ⟨q, hq, rfl⟩ := List.mem_map.1 hb
      obtain ⟨y, hy, ey⟩ := hpair q hq
      have := (h.names y hy).2 x.1
      rw [ey] at this
      exact this e.symm
  have hat1 : ∀ x ∈ tagged (marks parts), At vals (argName x.1) x.2.value := fun x hx =>
    at_of_mem hnd (p := (argName x.1, x.2.value)) (List.mem_append_left _ (List.mem_map.2 ⟨x, hx, rfl⟩))
  have hat2 : ∀ q ∈ infos s.pairs, At vals (camel q.key) (f q) := fun q hq =>
    at_of_mem hnd (p := (camel q.key, f q)) (List.mem_append_right _ (List.mem_map.2 ⟨q, hq, rfl⟩))
  refine ⟨vals, ?_, ?_⟩
  · intro n t ht
    rcases addQuery_at camel _ _ n t ht with ⟨q, hq, rfl, rfl⟩ | ht
    · exact ⟨f q, hat2 q hq, (hf q hq).1⟩
    · obtain ⟨x, hx, rfl, rfl⟩ := pathArgs_at ht
      refine ⟨x.2.value, hat1 x hx, path_typed ?_⟩
      obtain ⟨m, hm, e⟩ := List.mem_filterMap.1 hx
      obtain ⟨i, hi, e⟩ := Option.map_eq_some_iff.1 e
      have : m.1 ∈ (marks parts).map (·.1) := List.mem_map.2 ⟨m, hm, rfl⟩
      rw [marks_fst] at this
      rw [← e]
      exact hok _ this
  · intro ctx hg
    have hroot : render (parse (s.front ++ slashed ((marks parts).map Marked.text) ++ hash s.frag)) ctx.str = (s.front ++ s.path) ++ hash s.frag := by
      rw [parse_url h.front hok h.frag, render_merge, render_url (fun x hx => ?_), marks_fst, hpath, slashed, List.flatMap_map]
      obtain ⟨o, ho⟩ := hg _ _ (hat1 x hx)
      exact str_value ho
    have hquiet : ∀ c ∈ s.front ++ s.path, c ≠ '?' ∧ c ≠ '#' := by
      intro c hc
      have : Quiet c := by
        rcases List.mem_append.1 hc with hc | hc
        · exact h.front c hc
        · rw [hpath] at hc
          obtain ⟨p, hp, hc⟩ := List.mem_flatMap.1 hc
          rcases List.mem_cons.1 hc with rfl | hc
          · exact slash_quiet
          · exact part_quiet (hok p hp) c hc
      exact this.2.2.2.2
    have hp := parseUrl_plain (frag := s.frag) hquiet hn
    rw [← hroot] at hp
    generalize hd : Directive.template _ method body = t
    have ht : t.root = parse (s.front ++ slashed ((marks parts).map Marked.text) ++ hash s.frag) := by rw [← hd]; rfl
    have hq : t.query = (infos s.pairs).map (fun q => ⟨q.key, [.expr ["args".toList, camel q.key]], false⟩) := by
      rw [← hd]
      simp only [Directive.template, List.map_map]
      refine List.map_congr_left (fun q hq => ?_)
      obtain ⟨y, hy, ey⟩ := hpair q hq
      have := name_valid (h.names y hy).1
      rw [ey] at this
      simp only [Function.comp, parse_placeholder this]
    have he : t.encoder = .repeatedKey := by rw [← hd]; rfl
    rw [← ht] at hp
    obtain ⟨u, hu⟩ := createUrl_some hp
    have hrest := Verif.HttpUrl.C14_rest_unchanged norm t ctx _ u hp hu
    have hspec : ∀ q ∈ infos s.pairs, specParams t.encoder ctx ⟨q.key, [.expr ["args".toList, camel q.key]], false⟩ =
        (values s.pairs q.key).map (fun w => (q.key, w)) := by
      intro q hq
      obtain ⟨o, ho⟩ := hg _ _ (hat2 q hq)
      rw [specParams]
      simp only [Verif.HttpUrl.singleValue, ho, he, sentValues, (hf q hq).2]
    have hpairs := Verif.HttpUrl.C14_pairs_exact_partial norm t ctx _ u hp hu
      (by intro q hq'; rw [hq] at hq'; obtain ⟨i, _, rfl⟩ := List.mem_map.1 hq'; exact Nat.le_refl _)
      (by
        intro q hq'; rw [hq] at hq'; obtain ⟨i, hi, rfl⟩ := List.mem_map.1 hq'
        obtain ⟨y, hy, ey⟩ := hpair i hi
        have := h.keys y hy
        rw [ey] at this
        refine ⟨this.1, fun c hc hm => ?_⟩
        by_cases e : c = '='
        · subst e; exact this.2.2 hc
        · exact this.2.1 c hc (by simp only [List.mem_cons] at hm ⊢; rcases hm with h | h | h <;> simp_all))
      (by
        intro q hq' kv hkv; rw [hq] at hq'; obtain ⟨i, hi, rfl⟩ := List.mem_map.1 hq'
        rw [hspec i hi] at hkv
        obtain ⟨w, hw, rfl⟩ := List.mem_map.1 hkv
        exact (h.texts (i.key, w) (mem_values.1 hw)).1)
      (by intro kv hkv; exact absurd hkv List.not_mem_nil)
    refine ⟨u, hu, hrest.1, hrest.2, fun k => ?_⟩
    rw [hpairs, hq, List.flatMap_map]
    have : (infos s.pairs).flatMap (fun q => specParams t.encoder ctx ⟨q.key, [.expr ["args".toList, camel q.key]], false⟩) =
        (infos s.pairs).flatMap (fun q => (values s.pairs q.key).map (fun w => (q.key, w))) := by
      rw [List.flatMap_def, List.flatMap_def, List.map_congr_left hspec]
    rw [this]
    exact values_back hk k

end Verif.Sample
