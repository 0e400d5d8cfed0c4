import Verif.Front.Model

/-!
# Properties of response headers and bodies: C74 - C77
-/

set_option linter.unusedSimpArgs false

namespace Verif.Front
open Verif.Mustache (Text)
open Verif.HttpKey (HMap valuesOf validHeader scanStr Spells PlainChar)

/-! ## C74: which upstream headers reach the client -/

/-- Nothing kept yet (http/request_context.rs:184-206). -/
def Kept.fresh : Kept := ⟨none, HMap.empty⟩

/-- The headers of a response: those of `base`, then `update_response_headers` with what the upstream
responses `ups` left in the request context. -/
def clientHeaders (static : List (Text × Text)) (cookies : Bool) (names : List Text) (ups : List UpH)
    (base : HMap) : HMap :=
  updateHeaders static (ups.foldl (keep cookies names) Kept.fresh) base

theorem addX_spec (names : List Text) (x h : HMap) (n : Text) :
    addX names x h n = if n ∈ names then (match (h n).head? with
      | some v => [v]
      | none => x n) else x n := by
  unfold addX
  induction names generalizing x with
  | nil => simp
  | cons m ms ih =>
    rw [List.foldl_cons, ih]
    by_cases hm : n = m
    · subst hm
      simp only [copyFirst, first, List.mem_cons, true_or, if_true]
      cases hf : (h n).head? with
      | none => simp
      | some v => simp [HMap.insert]
    · simp only [List.mem_cons, hm, false_or]
      have hx : copyFirst h x m n = x n := by
        unfold copyFirst
        cases first h m with
        | none => rfl
        | some v => simp [HMap.insert, hm]
      rw [hx]

/-- The experimental headers kept: nothing for a name that is not configured, else at most one value,
which is the first value of that name in one of the upstream responses. -/
theorem kept_x (cookies : Bool) (names : List Text) (ups : List UpH) (k : Kept) (n : Text)
    (hk : n ∉ names → k.x n = []) (hk1 : k.x n = [] ∨ ∃ v, k.x n = [v]) :
    (n ∉ names → (ups.foldl (keep cookies names) k).x n = [])
      ∧ ((ups.foldl (keep cookies names) k).x n = k.x n
        ∨ ∃ u ∈ ups, ∃ v, (u.headers n).head? = some v ∧ (ups.foldl (keep cookies names) k).x n = [v]) := by
  induction ups generalizing k with
  | nil => exact ⟨hk, Or.inl rfl⟩
  | cons u us ih =>
    have hx : (keep cookies names k u).x n = if n ∈ names then (match (u.headers n).head? with
      | some v => [v]
      | none => k.x n) else k.x n := addX_spec _ _ _ _
    have h1 : n ∉ names → (keep cookies names k u).x n = [] := by
      intro hn; rw [hx, if_neg hn]; exact hk hn
    have h2 : (keep cookies names k u).x n = k.x n
        ∨ ∃ v, (u.headers n).head? = some v ∧ (keep cookies names k u).x n = [v] := by
      rw [hx]
      split
      · cases hv : (u.headers n).head? with
        | none => exact Or.inl rfl
        | some v => exact Or.inr ⟨v, rfl, rfl⟩
      · exact Or.inl rfl
    have h3 : (keep cookies names k u).x n = [] ∨ ∃ v, (keep cookies names k u).x n = [v] := by
      rcases h2 with h2 | ⟨v, _, h2⟩
      · rw [h2]; exact hk1
      · exact Or.inr ⟨v, h2⟩
    obtain ⟨h4, h5⟩ := ih _ h1 h3
    refine ⟨h4, ?_⟩
    rw [List.foldl_cons]
    rcases h5 with h5 | ⟨w, hw, v, hv, h5⟩
    · rcases h2 with h2 | ⟨v, hv, h2⟩
      · exact Or.inl (h5.trans h2)
      · exact Or.inr ⟨u, List.mem_cons_self, v, hv, h5.trans h2⟩
    · exact Or.inr ⟨w, List.mem_cons_of_mem _ hw, v, hv, h5⟩

theorem kept_cookie (names : List Text) (ups : List UpH) (k : Kept) :
    (ups.foldl (keep false names) k).cookie = k.cookie := by
  induction ups generalizing k with
  | nil => rfl
  | cons u us ih => rw [List.foldl_cons, ih]; simp [keep]

theorem valuesOf_nil {static : List (Text × Text)} {n : Text} (h : ∀ v, (n, v) ∉ static) :
    valuesOf static n = [] := by
  unfold valuesOf
  rw [List.map_eq_nil_iff, List.filter_eq_nil_iff]
  intro kv hkv hc
  have : kv.1 = n := by simpa using hc
  exact h kv.2 (this ▸ hkv)

/-- **C74**: an upstream response can change only the configured experimental headers, which all start
with `x-`, and `set-cookie` if that is enabled; every other header the operator has not configured is as
the server made it. -/
theorem C74_only_configured (static : List (Text × Text)) (cookies : Bool) (names : List Text)
    (ups : List UpH) (base : HMap) (hx : experimentalOk names = true) (n : Text)
    (hs : ∀ v, (n, v) ∉ static) (hc : n = "set-cookie".toList → cookies = false)
    (hn : n ∉ names ∨ ¬ ['x', '-'] <+: n) :
    clientHeaders static cookies names ups base n = base n := by
  have hnames : n ∉ names := by
    rcases hn with hn | hn
    · exact hn
    · intro hmem
      have := List.all_eq_true.mp hx n hmem
      exact hn (List.isPrefixOf_iff_prefix.mp this)
  unfold clientHeaders updateHeaders
  have h1 := (kept_x cookies names ups Kept.fresh n (fun _ => rfl) (Or.inl rfl)).1 hnames
  unfold extendX
  rw [h1]
  simp only [List.getLast?_nil]
  have hb : base.extend static n = base n := by
    unfold HMap.extend
    rw [valuesOf_nil hs]; rfl
  cases hk : (ups.foldl (keep cookies names) Kept.fresh).cookie with
  | none => exact hb
  | some c =>
    show HMap.extend _ _ n = _
    by_cases hsc : n = setCookie
    · exfalso
      have hf := hc hsc
      subst hf
      rw [kept_cookie] at hk
      cases hk
    · unfold HMap.extend
      have : valuesOf [(setCookie, c)] n = [] := valuesOf_nil (by
        intro v hv
        rw [List.mem_singleton] at hv
        exact hsc (congrArg Prod.fst hv))
      rw [this]
      exact hb

/-- **C74**, the values: an experimental header that the client receives is the operator's, the server's,
or the first value of that header in an upstream response; it has one value in the latter case. -/
theorem C74_experimental_value (static : List (Text × Text)) (cookies : Bool) (names : List Text)
    (ups : List UpH) (base : HMap) (n : Text) (hsc : n ≠ "set-cookie".toList) :
    clientHeaders static cookies names ups base n = base n
      ∨ clientHeaders static cookies names ups base n = (static.filter (fun kv => kv.1 = n)).map Prod.snd
      ∨ ∃ u ∈ ups, ∃ v, (u.headers n).head? = some v ∧ clientHeaders static cookies names ups base n = [v] := by
  have hrest : withCookie (base.extend static) (ups.foldl (keep cookies names) Kept.fresh).cookie n
      = base.extend static n := by
    cases (ups.foldl (keep cookies names) Kept.fresh).cookie with
    | none => rfl
    | some c =>
      show HMap.extend _ _ n = _
      conv => lhs; unfold HMap.extend
      have : valuesOf [(setCookie, c)] n = [] := valuesOf_nil (by
        intro v hv
        rw [List.mem_singleton] at hv
        exact hsc (congrArg Prod.fst hv))
      rw [this]; rfl
  have hx := (kept_x cookies names ups Kept.fresh n (fun _ => rfl) (Or.inl rfl)).2
  unfold clientHeaders updateHeaders
  unfold extendX
  rcases hx with hx | ⟨u, hu, v, hv, hx⟩
  · rw [hx]
    show (withCookie (base.extend static) (ups.foldl (keep cookies names) Kept.fresh).cookie n = _) ∨ _
    rw [hrest]
    unfold HMap.extend
    split
    · exact Or.inl rfl
    · exact Or.inr (Or.inl rfl)
  · refine Or.inr (Or.inr ⟨u, hu, v, hv, ?_⟩)
    rw [hx]
    rfl

/-- **C74**, the operator: a configured response header is sent with all its configured values, unless an
upstream response sets an experimental header (or cookie) of the same name. -/
theorem C74_static_partial (static : List (Text × Text)) (cookies : Bool) (names : List Text)
    (ups : List UpH) (base : HMap) (n : Text) (hn : n ∉ names) (hsc : n ≠ "set-cookie".toList)
    (hs : ∃ v, (n, v) ∈ static) :
    clientHeaders static cookies names ups base n = (static.filter (fun kv => kv.1 = n)).map Prod.snd := by
  have h1 := (kept_x cookies names ups Kept.fresh n (fun _ => rfl) (Or.inl rfl)).1 hn
  have hv : (valuesOf static n).isEmpty = false := by
    obtain ⟨v, hv⟩ := hs
    have : v ∈ valuesOf static n := by
      unfold valuesOf
      exact List.mem_map.mpr ⟨(n, v), List.mem_filter.mpr ⟨hv, by simp⟩, rfl⟩
    cases hl : valuesOf static n with
    | nil => rw [hl] at this; cases this
    | cons _ _ => rfl
  have hb : base.extend static n = valuesOf static n := by
    unfold HMap.extend
    rw [hv]; rfl
  unfold clientHeaders updateHeaders
  unfold extendX
  rw [h1]
  simp only [List.getLast?_nil]
  cases (ups.foldl (keep cookies names) Kept.fresh).cookie with
  | none => exact hb
  | some c =>
    show HMap.extend _ _ n = _
    unfold HMap.extend
    have : valuesOf [(setCookie, c)] n = [] := valuesOf_nil (by
      intro v hv
      rw [List.mem_singleton] at hv
      exact hsc (congrArg Prod.fst hv))
    rw [this]
    exact hb

/-- An upstream response with some headers. -/
def upH (ok : Bool) (hs : List (Text × Text)) : UpH := ⟨ok, fun n => valuesOf hs n⟩

/-- An upstream response with an experimental header and one that is not configured: the client gets the
first, even of a failed response, and not the second. -/
example :
    let h := clientHeaders [(['s'], ['1'])] false [['x', '-', 'a']]
      [upH false [(['x', '-', 'a'], ['7']), (['x', '-', 'b'], ['8'])]] HMap.empty
    h ['x', '-', 'a'] = [['7']] ∧ h ['x', '-', 'b'] = [] ∧ h ['s'] = [['1']] := ⟨rfl, rfl, rfl⟩

/-- **C74 is violated** for the operator's headers: an upstream response replaces one. -/
theorem C74_violated_by_experimental_header :
    ∃ (static : List (Text × Text)) (names : List Text) (ups : List UpH) (n v : Text),
      experimentalOk names = true ∧ (n, v) ∈ static
      ∧ v ∉ clientHeaders static false names ups HMap.empty n :=
  ⟨[(['x', '-', 'a'], ['1'])], [['x', '-', 'a']], [upH true [(['x', '-', 'a'], ['2'])]], ['x', '-', 'a'],
    ['1'], rfl, by simp, by decide⟩

/-! ## C75: cookies -/

/-- **C75**, as far as it holds: if one of the upstream responses is successful and sets exactly one
cookie, and no other successful response sets one, the client gets exactly that cookie; and if there is
none, or cookies are off, it gets none.  The full statement wants every cookie of every response as a
`Set-Cookie` of its own. -/
theorem C75_single_cookie_partial (static : List (Text × Text)) (names : List Text) (base : HMap)
    (hst : ∀ v, (['s', 'e', 't', '-', 'c', 'o', 'o', 'k', 'i', 'e'], v) ∉ static)
    (hb : base ['s', 'e', 't', '-', 'c', 'o', 'o', 'k', 'i', 'e'] = [])
    (hn : ['s', 'e', 't', '-', 'c', 'o', 'o', 'k', 'i', 'e'] ∉ names) (pre post : List UpH) (u : UpH)
    (c : Text) (hu : u.headers ['s', 'e', 't', '-', 'c', 'o', 'o', 'k', 'i', 'e'] = [c])
    (ho : ∀ w ∈ pre ++ post, w.success = true →
      w.headers ['s', 'e', 't', '-', 'c', 'o', 'o', 'k', 'i', 'e'] = []) :
    clientHeaders static true names (pre ++ u :: post) base
        ['s', 'e', 't', '-', 'c', 'o', 'o', 'k', 'i', 'e'] = (if u.success then [c] else [])
      ∧ clientHeaders static false names (pre ++ u :: post) base
        ['s', 'e', 't', '-', 'c', 'o', 'o', 'k', 'i', 'e'] = [] := by
  have hsc : setCookie = ['s', 'e', 't', '-', 'c', 'o', 'o', 'k', 'i', 'e'] := by decide
  rw [← hsc] at hst hb hn hu ho ⊢
  have quiet : ∀ (l : List UpH) (k : Kept), (∀ w ∈ l, w.success = true → w.headers setCookie = []) →
      (l.foldl (keep true names) k).cookie = k.cookie := by
    intro l
    induction l with
    | nil => intro k _; rfl
    | cons w ws ih =>
      intro k hl
      rw [List.foldl_cons, ih _ (fun x hx => hl x (List.mem_cons_of_mem _ hx))]
      unfold keep
      simp only [Bool.true_and]
      split
      · rename_i hw
        unfold addCookie first
        rw [hl w List.mem_cons_self hw]
        rfl
      · rfl
  have hck : ((pre ++ u :: post).foldl (keep true names) Kept.fresh).cookie
      = if u.success then some c else none := by
    rw [List.foldl_append, List.foldl_cons, quiet post _ (fun w hw => ho w (List.mem_append_right _ hw))]
    have hpre := quiet pre Kept.fresh (fun w hw => ho w (List.mem_append_left _ hw))
    generalize pre.foldl (keep true names) Kept.fresh = k at hpre ⊢
    unfold keep
    simp only [Bool.true_and]
    split
    · unfold addCookie first
      rw [hu, hpre]
      rfl
    · exact hpre
  have hbase : base.extend static setCookie = [] := by
    unfold HMap.extend
    rw [valuesOf_nil hst]
    exact hb
  constructor
  · unfold clientHeaders updateHeaders
    unfold extendX
    rw [(kept_x true names _ Kept.fresh setCookie (fun _ => rfl) (Or.inl rfl)).1 hn, hck]
    simp only [List.getLast?_nil]
    cases u.success with
    | true => simp [withCookie, HMap.extend, valuesOf]
    | false => simpa [withCookie] using hbase
  · unfold clientHeaders updateHeaders
    unfold extendX
    rw [(kept_x false names _ Kept.fresh setCookie (fun _ => rfl) (Or.inl rfl)).1 hn, kept_cookie]
    simp only [List.getLast?_nil]
    exact hbase

/-- One upstream response sets a cookie, another one does not. -/
example : clientHeaders [] true [] ([upH true []] ++ upH true [(setCookie, ['a', '=', '1'])] :: []) HMap.empty
    ['s', 'e', 't', '-', 'c', 'o', 'o', 'k', 'i', 'e'] = [['a', '=', '1']] :=
  (C75_single_cookie_partial [] [] HMap.empty (by simp) rfl (by simp) [upH true []] []
    (upH true [(setCookie, ['a', '=', '1'])]) ['a', '=', '1'] (by decide) (by
      intro w hw _
      simp only [List.append_nil, List.mem_singleton] at hw
      subst hw; rfl)).1

/-- **C75 is violated** by two responses that set a cookie each: the client receives one cookie `a` with an
attribute `b`. -/
theorem C75_violated_by_two_responses :
    clientHeaders [] true []
      [upH true [(setCookie, ['a', '=', '1'])], upH true [(setCookie, ['b', '=', '2'])]] HMap.empty setCookie
      = [['a', '=', '1', ';', ' ', 'b', '=', '2']] := by decide

/-- **C75 is violated** by one response that sets two cookies: the second is lost. -/
theorem C75_violated_by_two_cookies :
    clientHeaders [] true []
      [upH true [(setCookie, ['a', '=', '1']), (setCookie, ['b', '=', '2'])]] HMap.empty setCookie
      = [['a', '=', '1']] := by decide

/-! ## C76: the body of a batch -/

/-- Where a reader of JSON text is: nesting depth, inside of a string, after a backslash. -/
structure Pos where
  depth : Nat
  inStr : Bool
  esc : Bool
  deriving DecidableEq, Repr

/-- Reading one character. -/
def Pos.step (p : Pos) (c : Char) : Pos :=
  if p.inStr then
    if p.esc then { p with esc := false }
    else if c = '\\' then { p with esc := true }
    else if c = '"' then { p with inStr := false }
    else p
  else if c = '"' then { p with inStr := true }
  else if c = '[' ∨ c = '{' then { p with depth := p.depth + 1 }
  else if c = ']' ∨ c = '}' then { p with depth := p.depth - 1 }
  else p

/-- A comma that separates the elements. -/
def Pos.separates (p : Pos) (c : Char) : Bool := c == ',' && p.depth == 0 && !p.inStr

/-- The elements of the text between the brackets of a JSON array: split at the commas outside of strings,
arrays and objects. -/
def splitTop (p : Pos) (cur : Text) : Text → List Text
  | [] => [cur]
  | c :: r => if p.separates c then cur :: splitTop p [] r else splitTop (p.step c) (cur ++ [c]) r

/-- The texts of the elements of a JSON array; `none` if it is not bracketed. -/
def arrayElements (s : Text) : Option (List Text) :=
  match s with
  | '[' :: r =>
      if r.getLast? = some ']' then
        some (if r.dropLast.isEmpty then [] else splitTop ⟨0, false, false⟩ [] r.dropLast)
      else none
  | _ => none

/-- The text is complete: no separator in it, and at its end the reader is where it was. -/
inductive Complete : Pos → Text → Pos → Prop where
  | nil (p : Pos) : Complete p [] p
  | cons {p q : Pos} {c : Char} {r : Text} (hc : p.separates c = false) (hr : Complete (p.step c) r q) :
      Complete p (c :: r) q

theorem Complete.append {p q r : Pos} {a b : Text} (h : Complete p a q) (h' : Complete q b r) :
    Complete p (a ++ b) r := by
  induction h with
  | nil => exact h'
  | cons hc _ ih => exact .cons hc (ih h')

theorem splitTop_complete {p q : Pos} {a : Text} (h : Complete p a q) (cur r : Text) :
    splitTop p cur (a ++ r) = splitTop q (cur ++ a) r := by
  induction h generalizing cur with
  | nil => simp
  | cons hc _ ih =>
    rw [List.cons_append, splitTop, hc, if_neg (by simp), ih]
    simp

/-- A body that is one JSON text, read from the top. -/
def JsonText (b : Text) : Prop := Complete ⟨0, false, false⟩ b ⟨0, false, false⟩

theorem splitTop_join (bs : List Text) (hb : ∀ b ∈ bs, JsonText b) (b : Text) (hj : JsonText b) :
    ∀ i, splitTop ⟨0, false, false⟩ [] (joinFrom i (b :: bs)) = (if i > 0 then [[]] else []) ++ b :: bs := by
  induction bs generalizing b with
  | nil =>
    intro i
    unfold joinFrom
    split
    · rw [List.append_assoc]
      show splitTop _ [] (',' :: (b ++ joinFrom (i + 1) [])) = _
      rw [splitTop, show Pos.separates ⟨0, false, false⟩ ',' = true from rfl, if_pos rfl,
        splitTop_complete hj]
      simp [joinFrom, splitTop]
    · rw [List.nil_append, splitTop_complete hj]
      simp [joinFrom, splitTop]
  | cons b' bs ih =>
    intro i
    have hrest := ih (fun x hx => hb x (List.mem_cons_of_mem _ hx)) b' (hb b' List.mem_cons_self) (i + 1)
    have hcomma : joinFrom (i + 1) (b' :: bs) = ',' :: (b' ++ joinFrom (i + 1 + 1) bs) := by
      conv => lhs; unfold joinFrom
      rw [if_pos (by omega)]; simp
    rw [hcomma, splitTop, show Pos.separates ⟨0, false, false⟩ ',' = true from rfl, if_pos rfl] at hrest
    rw [if_pos (show i + 1 > 0 by omega)] at hrest
    have htail : splitTop ⟨0, false, false⟩ [] (b' ++ joinFrom (i + 1 + 1) bs) = b' :: bs := by
      simpa using hrest
    have key : splitTop ⟨0, false, false⟩ [] (b ++ joinFrom (i + 1) (b' :: bs)) = b :: b' :: bs := by
      rw [splitTop_complete hj, hcomma, splitTop,
        show Pos.separates ⟨0, false, false⟩ ',' = true from rfl, if_pos rfl, htail]
      simp
    unfold joinFrom
    split
    · rw [List.append_assoc]
      show splitTop _ [] (',' :: (b ++ joinFrom (i + 1) (b' :: bs))) = _
      rw [splitTop, show Pos.separates ⟨0, false, false⟩ ',' = true from rfl, if_pos rfl, key]
      rfl
    · rw [List.nil_append, key]
      rfl

/-- **C76**: the body of a batch response is a JSON array whose elements are the bodies of the members, in
their order; provided that each of them is a non-empty JSON text. -/
theorem C76_batch_body (rs : List AnyResp) (h : ∀ r ∈ rs, JsonText r.body ∧ r.body ≠ []) :
    arrayElements (defaultBody (.batch rs)) = some (rs.map (·.body)) := by
  unfold defaultBody arrayElements
  simp only [List.nil_append, List.singleton_append, List.cons_append, List.getLast?_concat, if_true, List.dropLast_concat]
  cases rs with
  | nil => rfl
  | cons r rs =>
    have hne : (joinFrom 0 ((r :: rs).map (·.body))).isEmpty = false := by
      have := (h r List.mem_cons_self).2
      cases hb : r.body with
      | nil => exact absurd hb this
      | cons c cs => simp [joinFrom, hb]
    rw [hne]
    rw [List.map_cons, splitTop_join _ (by
      intro b hb
      obtain ⟨x, hx, rfl⟩ := List.mem_map.mp hb
      exact (h x (List.mem_cons_of_mem _ hx)).1) _ (h r List.mem_cons_self).1]
    rfl

/-! ### Serialised responses are JSON texts -/

/-- A JSON value, as `serde_json` prints it; numbers are their texts. -/
inductive J where
  | null
  | bool (b : Bool)
  | num (t : Text)
  | str (s : Text)
  | arr (l : List J)
  | obj (kvs : List (Text × J))

/-- One character of a JSON string as `serde_json` writes it (`hex` are four digits). -/
def jsonChar (hex : Char → Text) (c : Char) : Text :=
  if c = '"' then ['\\', '"']
  else if c = '\\' then ['\\', '\\']
  else if c.toNat < 32 then ['\\', 'u'] ++ hex c
  else [c]

/-- A JSON string. -/
def jsonStr (hex : Char → Text) (s : Text) : Text := ['"'] ++ s.flatMap (jsonChar hex) ++ ['"']

mutual
/-- `serde_json::to_vec` (as used at jit/response.rs:132; the short forms `\n`, `\t`, .. of control
characters are left out). -/
def J.print (hex : Char → Text) : J → Text
  | .null => ['n', 'u', 'l', 'l']
  | .bool true => ['t', 'r', 'u', 'e']
  | .bool false => ['f', 'a', 'l', 's', 'e']
  | .num t => t
  | .str s => jsonStr hex s
  | .arr l => ['['] ++ printArr hex true l ++ [']']
  | .obj kvs => ['{'] ++ printObj hex true kvs ++ ['}']
/-- The elements of an array; `first` for the first one. -/
def printArr (hex : Char → Text) (first : Bool) : List J → Text
  | [] => []
  | v :: r => (if first then [] else [',']) ++ v.print hex ++ printArr hex false r
/-- The members of an object. -/
def printObj (hex : Char → Text) (first : Bool) : List (Text × J) → Text
  | [] => []
  | kv :: r => (if first then [] else [',']) ++ jsonStr hex kv.1 ++ [':'] ++ kv.2.print hex ++ printObj hex false r
end

/-- The characters of a number. -/
def numChar (c : Char) : Bool := c.isDigit || c == '-' || c == '+' || c == '.' || c == 'e' || c == 'E'

mutual
/-- The numbers in a value are texts of numbers. -/
def J.Ok : J → Prop
  | .num t => ∀ c ∈ t, numChar c = true
  | .arr l => OkArr l
  | .obj kvs => OkObj kvs
  | _ => True
/-- Specification: the elements of a JSON array. -/
def OkArr : List J → Prop
  | [] => True
  | v :: r => v.Ok ∧ OkArr r
/-- Specification: the members of a JSON object. -/
def OkObj : List (Text × J) → Prop
  | [] => True
  | kv :: r => kv.2.Ok ∧ OkObj r
end

theorem complete_plain {p : Pos} {t : Text} (hp : p.inStr = false)
    (h : ∀ c ∈ t, c ≠ ',' ∧ c ≠ '"' ∧ c ≠ '[' ∧ c ≠ '{' ∧ c ≠ ']' ∧ c ≠ '}') : Complete p t p := by
  induction t with
  | nil => exact .nil p
  | cons c r ih =>
    obtain ⟨h1, h2, h3, h4, h5, h6⟩ := h c List.mem_cons_self
    refine .cons (by simp [Pos.separates, h1]) ?_
    have : p.step c = p := by simp [Pos.step, hp, h2, h3, h4, h5, h6]
    rw [this]
    exact ih (fun x hx => h x (List.mem_cons_of_mem _ hx))

theorem complete_in_string {p : Pos} {t : Text} (hp : p.inStr = true) (he : p.esc = false)
    (h : ∀ c ∈ t, c ≠ '"' ∧ c ≠ '\\') : Complete p t p := by
  induction t with
  | nil => exact .nil p
  | cons c r ih =>
    obtain ⟨h1, h2⟩ := h c List.mem_cons_self
    refine .cons (by simp [Pos.separates, hp]) ?_
    have : p.step c = p := by simp [Pos.step, hp, he, h1, h2]
    rw [this]
    exact ih (fun x hx => h x (List.mem_cons_of_mem _ hx))

theorem complete_escaped {p : Pos} (hp : p.inStr = true) (he : p.esc = false) (c : Char) :
    Complete p ['\\', c] p := by
  refine .cons (by simp [Pos.separates, hp]) (.cons (by simp [Pos.separates, Pos.step, hp, he]) ?_)
  have : (p.step '\\').step c = p := by
    obtain ⟨d, i, e⟩ := p
    simp only at hp he
    subst hp; subst he
    simp [Pos.step]
  rw [this]
  exact .nil p

theorem complete_str {hex : Char → Text} (hhex : ∀ c, ∀ d ∈ hex c, d ≠ '"' ∧ d ≠ '\\') {p : Pos}
    (hp : p.inStr = false) (he : p.esc = false) (s : Text) : Complete p (jsonStr hex s) p := by
  unfold jsonStr
  rw [List.append_assoc]
  have hq : p.step '"' = { p with inStr := true } := by simp [Pos.step, hp]
  refine .cons (by simp [Pos.separates]) ?_
  rw [hq]
  have hin : ∀ s : Text, Complete { p with inStr := true } (s.flatMap (jsonChar hex)) { p with inStr := true } := by
    intro s
    induction s with
    | nil => exact .nil _
    | cons c r ih =>
      rw [List.flatMap_cons]
      refine Complete.append ?_ ih
      unfold jsonChar
      split
      · exact complete_escaped (p := { p with inStr := true }) rfl he _
      · split
        · exact complete_escaped (p := { p with inStr := true }) rfl he _
        · split
          · exact Complete.append (a := ['\\', 'u'])
              (complete_escaped (p := { p with inStr := true }) rfl he _)
              (complete_in_string (p := { p with inStr := true }) rfl he (hhex c))
          · rename_i h1 h2 h3
            exact complete_in_string (p := { p with inStr := true }) rfl he (by
              intro d hd
              rw [List.mem_singleton] at hd
              subst hd
              exact ⟨h1, h2⟩)
  show Complete _ (s.flatMap (jsonChar hex) ++ ['"']) p
  refine Complete.append (hin s) ?_
  refine .cons (by simp [Pos.separates]) ?_
  have : Pos.step { p with inStr := true } '"' = p := by
    obtain ⟨d, i, e⟩ := p
    simp only at hp he
    subst hp; subst he
    simp [Pos.step]
  show Complete (Pos.step { p with inStr := true } '"') [] p
  rw [this]
  exact .nil p

theorem numChar_plain {c : Char} (h : numChar c = true) :
    c ≠ ',' ∧ c ≠ '"' ∧ c ≠ '[' ∧ c ≠ '{' ∧ c ≠ ']' ∧ c ≠ '}' := by
  refine ⟨?_, ?_, ?_, ?_, ?_, ?_⟩ <;> (intro he; subst he; revert h; decide)

theorem complete_comma {p : Pos} (hd : p.depth ≠ 0) (hp : p.inStr = false) : Complete p [','] p := by
  refine .cons (by simp [Pos.separates, hd]) ?_
  have : p.step ',' = p := by simp [Pos.step, hp]
  rw [this]
  exact .nil p

theorem complete_open {p : Pos} (hp : p.inStr = false) {c : Char} (hc : c = '[' ∨ c = '{') :
    Complete p [c] { p with depth := p.depth + 1 } := by
  refine .cons (by rcases hc with rfl | rfl <;> simp [Pos.separates]) ?_
  have : p.step c = { p with depth := p.depth + 1 } := by
    rcases hc with rfl | rfl <;> simp [Pos.step, hp]
  rw [this]
  exact .nil _

theorem complete_close {p : Pos} (hp : p.inStr = false) {c : Char} (hc : c = ']' ∨ c = '}') :
    Complete { p with depth := p.depth + 1 } [c] p := by
  refine .cons (by rcases hc with rfl | rfl <;> simp [Pos.separates]) ?_
  have : Pos.step { p with depth := p.depth + 1 } c = p := by
    obtain ⟨d, i, e⟩ := p
    simp only at hp
    subst hp
    rcases hc with rfl | rfl <;> simp [Pos.step]
  rw [this]
  exact .nil _

mutual
theorem complete_print {hex : Char → Text} (hhex : ∀ c, ∀ d ∈ hex c, d ≠ '"' ∧ d ≠ '\\') (v : J) (hv : v.Ok)
    (p : Pos) (hp : p.inStr = false) (he : p.esc = false) : Complete p (v.print hex) p := by
  match v with
  | .null => exact complete_plain hp (by unfold J.print; decide)
  | .bool true => exact complete_plain hp (by unfold J.print; decide)
  | .bool false => exact complete_plain hp (by unfold J.print; decide)
  | .num t => exact complete_plain hp (fun c hc => numChar_plain (hv c hc))
  | .str s => exact complete_str hhex hp he s
  | .arr l =>
    exact ((complete_open hp (Or.inl rfl)).append
      (complete_arr hhex true l hv { p with depth := p.depth + 1 } (by simp) hp he)).append
      (complete_close hp (Or.inl rfl))
  | .obj kvs =>
    exact ((complete_open hp (Or.inr rfl)).append
      (complete_obj hhex true kvs hv { p with depth := p.depth + 1 } (by simp) hp he)).append
      (complete_close hp (Or.inr rfl))
theorem complete_arr {hex : Char → Text} (hhex : ∀ c, ∀ d ∈ hex c, d ≠ '"' ∧ d ≠ '\\') (first : Bool)
    (l : List J) (hv : OkArr l) (p : Pos) (hd : p.depth ≠ 0) (hp : p.inStr = false) (he : p.esc = false) :
    Complete p (printArr hex first l) p := by
  match l with
  | [] => exact .nil p
  | v :: r =>
    unfold printArr
    have h0 : Complete p (if first = true then [] else [',']) p := by
      cases first
      · exact complete_comma hd hp
      · exact .nil p
    exact (h0.append (complete_print hhex v hv.1 p hp he)).append (complete_arr hhex false r hv.2 p hd hp he)
theorem complete_obj {hex : Char → Text} (hhex : ∀ c, ∀ d ∈ hex c, d ≠ '"' ∧ d ≠ '\\') (first : Bool)
    (l : List (Text × J)) (hv : OkObj l) (p : Pos) (hd : p.depth ≠ 0) (hp : p.inStr = false)
    (he : p.esc = false) : Complete p (printObj hex first l) p := by
  match l with
  | [] => exact .nil p
  | kv :: r =>
    unfold printObj
    have h0 : Complete p (if first = true then [] else [',']) p := by
      cases first
      · exact complete_comma hd hp
      · exact .nil p
    have h1 : Complete p [':'] p := complete_plain hp (by simp)
    exact (((h0.append (complete_str hhex hp he kv.1)).append h1).append
      (complete_print hhex kv.2 hv.1 p hp he)).append (complete_obj hhex false r hv.2 p hd hp he)
end

/-- **C76** for serialised responses: whatever objects the members are, the elements of the array are
their texts, in order. -/
theorem C76_serialised_batch (hex : Char → Text) (hhex : ∀ c, ∀ d ∈ hex c, d ≠ '"' ∧ d ≠ '\\')
    (rs : List AnyResp) (objs : List (List (Text × J))) (hok : ∀ o ∈ objs, OkObj o)
    (hb : rs.map (·.body) = objs.map (fun o => (J.obj o).print hex)) :
    arrayElements (defaultBody (.batch rs)) = some (objs.map (fun o => (J.obj o).print hex)) := by
  rw [← hb]
  refine C76_batch_body rs (fun r hr => ?_)
  have hm : r.body ∈ objs.map (fun o => (J.obj o).print hex) := hb ▸ List.mem_map.mpr ⟨r, hr, rfl⟩
  obtain ⟨o, ho, hoe⟩ := List.mem_map.mp hm
  rw [← hoe]
  exact ⟨complete_print hhex (.obj o) (hok o ho) _ rfl rfl, by simp [J.print]⟩

/-- Two members, one of them with commas, brackets and quotes inside of strings. -/
example : arrayElements (defaultBody (.batch
      [⟨(J.obj [(['a'], .str [',', ']', '"'])]).print (fun _ => ['0']), CC.dflt, true⟩,
       ⟨(J.obj [(['b'], .arr [.null, .num ['1']])]).print (fun _ => ['0']), CC.dflt, true⟩]))
    = some [(J.obj [(['a'], .str [',', ']', '"'])]).print (fun _ => ['0']),
        (J.obj [(['b'], .arr [.null, .num ['1']])]).print (fun _ => ['0'])] :=
  C76_serialised_batch (fun _ => ['0']) (by simp) _
    [[(['a'], .str [',', ']', '"'])], [(['b'], .arr [.null, .num ['1']])]]
    (by
      intro o ho
      simp only [List.mem_cons, List.not_mem_nil, or_false] at ho
      rcases ho with rfl | rfl
      · simp [OkObj, J.Ok]
      · simp [OkObj, J.Ok, OkArr, numChar]) rfl

/-- A member whose serialisation failed has an empty body (`unwrap_or_default`, jit/response.rs:132): the
array is not JSON then, the number of elements is still right. -/
example : arrayElements (defaultBody (.batch [⟨[], CC.dflt, true⟩, ⟨['{', '}'], CC.dflt, true⟩]))
    = some [[], ['{', '}']] := by decide

/-! ## C77: a raw GraphQL body -/

/-- The value of `query` in a JSON object of the form `{"query": <string> }`; `none` if the body is not of
this form. -/
def rawQuery (b : Text) : Option Text :=
  match b with
  | '{' :: '"' :: 'q' :: 'u' :: 'e' :: 'r' :: 'y' :: '"' :: ':' :: ' ' :: '"' :: r =>
      (scanStr r).bind (fun p => if p.2 = [' ', '}'] then some p.1 else none)
  | _ => none

theorem spells_debug {escaped : Char → Bool} {hex : Char → Text} {c : Char}
    (hc : c ≠ '\\' ∧ (c = '\n' ∨ c = '\r' ∨ c = '\t' ∨ (32 ≤ c.toNat ∧ escaped c = false))) :
    Spells (debugChar escaped hex c) [c] := by
  obtain ⟨h0, hc⟩ := hc
  unfold debugChar
  by_cases h1 : c = '"'
  · subst h1
    rw [if_pos rfl]
    intro r
    show scanStr ('\\' :: '"' :: r) = _
    rfl
  · rw [if_neg h1, if_neg h0]
    rcases hc with rfl | rfl | rfl | ⟨h32, hesc⟩
    · rw [if_pos rfl]
      intro r
      show scanStr ('\\' :: 'n' :: r) = _
      rfl
    · rw [if_neg (by decide), if_pos rfl]
      intro r
      show scanStr ('\\' :: 'r' :: r) = _
      rfl
    · rw [if_neg (by decide), if_neg (by decide), if_pos rfl]
      intro r
      show scanStr ('\\' :: 't' :: r) = _
      rfl
    · have hn : c ≠ '\n' := by rintro rfl; revert h32; decide
      have hr : c ≠ '\r' := by rintro rfl; revert h32; decide
      have ht : c ≠ '\t' := by rintro rfl; revert h32; decide
      have h00 : c ≠ Char.ofNat 0 := by rintro rfl; revert h32; decide
      rw [if_neg hn, if_neg hr, if_neg ht, if_neg h00, hesc, if_neg (by simp)]
      exact Verif.HttpKey.spells_char ⟨h32, h1, h0⟩

/-- **C77**, as far as it holds: a document of printable characters, newlines and tabs without a backslash
becomes a JSON request whose query is that document. -/
theorem C77_raw_document_partial (escaped : Char → Bool) (hex : Char → Text) (doc : Text)
    (h : ∀ c ∈ doc, c ≠ '\\' ∧ (c = '\n' ∨ c = '\r' ∨ c = '\t' ∨ (32 ≤ c.toNat ∧ escaped c = false))) :
    rawQuery (enrich escaped hex doc) = some doc := by
  have hs : Spells (doc.flatMap (debugChar escaped hex)) doc := by
    induction doc with
    | nil => exact Spells.nil
    | cons c r ih =>
      rw [List.flatMap_cons]
      exact Spells.append (spells_debug (h c List.mem_cons_self))
        (ih (fun x hx => h x (List.mem_cons_of_mem _ hx)))
  have hb : doc.contains '\\' = false := by
    rw [Bool.eq_false_iff]
    intro hc
    exact (h '\\' (by simpa using hc)).1 rfl
  unfold enrich
  rw [hb]
  show (scanStr (doc.flatMap (debugChar escaped hex) ++ ['"', ' ', '}'])).bind _ = _
  rw [hs]
  simp [scanStr]

/-- A document with a string argument and a newline. -/
example : rawQuery (enrich (fun _ => false) (fun _ => []) ['{', '\n', 'a', '(', 'b', ':', '"', 'é', '"', ')', '}'])
    = some ['{', '\n', 'a', '(', 'b', ':', '"', 'é', '"', ')', '}'] :=
  C77_raw_document_partial _ _ _ (by decide)

/-- **C77 is violated** by a backslash in a string of the document: the document is put into the JSON text
without quotes. -/
theorem C77_violated_by_backslash :
    ∃ doc : Text, ∀ escaped hex, rawQuery (enrich escaped hex doc) = none :=
  ⟨['{', 'a', '(', 'b', ':', '"', '\\', 'n', '"', ')', '}'], fun _ _ => rfl⟩

/-- **C77 is violated** by a character that Rust's debug format escapes, such as a zero width space: the
text is not JSON. -/
theorem C77_violated_by_escape (c : Char) (hc : 127 < c.toNat) :
    ∃ doc : Text, ∀ (escaped : Char → Bool) (hex : Char → Text), escaped c = true →
      rawQuery (enrich escaped hex doc) = none := by
  refine ⟨[c], fun escaped hex he => ?_⟩
  have ne : ∀ d : Char, d.toNat ≤ 127 → c ≠ d := by
    intro d hd h; subst h; omega
  have hb : [c].contains '\\' = false := by
    have := ne '\\' (by decide)
    simpa using Ne.symm this
  have hd : debugChar escaped hex c = ['\\', 'u', '{'] ++ hex c ++ ['}'] := by
    unfold debugChar
    rw [if_neg (ne _ (by decide)), if_neg (ne _ (by decide)), if_neg (ne _ (by decide)),
      if_neg (ne _ (by decide)), if_neg (ne _ (by decide)), if_neg (ne _ (by decide)), if_pos he]
  unfold enrich
  rw [hb, List.flatMap_cons, List.flatMap_nil, List.append_nil, hd]
  show (scanStr ((['\\', 'u', '{'] ++ hex c ++ ['}']) ++ ['"', ' ', '}'])).bind _ = none
  have h3 : ∀ t : Text, 3 ≤ t.length → scanStr ('\\' :: 'u' :: '{' :: t) = none := by
    intro t ht
    match t, ht with
    | a :: b :: d :: r, _ => rfl
  have : (['\\', 'u', '{'] ++ hex c ++ ['}']) ++ ['"', ' ', '}']
      = '\\' :: 'u' :: '{' :: (hex c ++ ['}', '"', ' ', '}']) := by simp
  rw [this, h3 _ (by simp)]
  rfl

end Verif.Front
