import Verif.HttpBatch.Lemmas

set_option linter.unusedSimpArgs false

/-!
# C20-C23, C59, C60, C63: batched upstream calls
-/

namespace Verif.HttpBatch
open Verif.Mustache (Text)
open Verif.HttpUrl
open Verif.HttpKey

/-! ## Specification -/

/-- `Reaches body path k o`: following `path` into `body` (into every element of every list on the way)
ends at the object `o`, whose entry for the last name of the path is `k`. -/
inductive Reaches : GVal → List Text → GVal → GVal → Prop where
  | item {l v p k o} : v ∈ l → Reaches v p k o → Reaches (.list l) p k o
  | here {kvs k v} : kvs.lookup k = some v → Reaches (.obj kvs) [k] v (.obj kvs)
  | inside {kvs k v p ps x o} : kvs.lookup k = some v → Reaches v (p :: ps) x o →
      Reaches (.obj kvs) (k :: p :: ps) x o

/-- A key value is the id: the same text, or the integer written like that. -/
def KeyIs (k : GVal) (id : Text) : Prop := k = .str id ∨ ∃ n, k = .int n ∧ intText n = id

/-- Keys on which the code can be relied: no floats, no integers beyond 2^53. -/
def PlainKey : GVal → Prop
  | .int n => n.natAbs ≤ 2 ^ 53
  | .float _ => False
  | _ => True

/-- The URL carries exactly one value for the batching parameter. -/
def HasId (u : Url) (name id : Text) : Prop := u.pairs.filter (fun p => p.1 = name) = [(name, id)]

instance (u : Url) (name id : Text) : Decidable (HasId u name id) := by unfold HasId; infer_instance

/-- The object's entry `k` is the id. -/
def fieldIs (k id : Text) : GVal → Bool
  | .obj kvs => match kvs.lookup k with
      | some (.str s) => s == id
      | some (.int n) => intText n == id
      | _ => false
  | _ => false

/-! ## Gathering against the specification -/

mutual
theorem gather_iff (v : GVal) (p : List Text) (k o : GVal) :
    (k, o) ∈ gather v p ↔ Reaches v p k o := by
  cases v with
  | list l =>
    unfold gather
    rw [gatherAll_iff l p k o]
    constructor
    · rintro ⟨v, hv, h⟩; exact .item hv h
    · intro h; cases h with | item hv h => exact ⟨_, hv, h⟩
  | obj kvs =>
    cases p with
    | nil => unfold gather; constructor
             · intro h; cases h
             · intro h; cases h
    | cons t ts =>
      unfold gather
      rw [gatherAt_iff (.obj kvs) kvs t ts k o]
      constructor
      · rintro ⟨v, hv, h⟩
        rcases h with ⟨rfl, rfl, rfl⟩ | ⟨a, as, rfl, h⟩
        · exact .here hv
        · exact .inside hv h
      · intro h
        cases h with
        | here hv => exact ⟨_, hv, Or.inl ⟨rfl, rfl, rfl⟩⟩
        | inside hv h => exact ⟨_, hv, Or.inr ⟨_, _, rfl, h⟩⟩
  | null => unfold gather; exact ⟨fun h => (by cases h), fun h => (by cases h)⟩
  | bool b => unfold gather; exact ⟨fun h => (by cases h), fun h => (by cases h)⟩
  | int n => unfold gather; exact ⟨fun h => (by cases h), fun h => (by cases h)⟩
  | float n => unfold gather; exact ⟨fun h => (by cases h), fun h => (by cases h)⟩
  | str n => unfold gather; exact ⟨fun h => (by cases h), fun h => (by cases h)⟩
  | enum n => unfold gather; exact ⟨fun h => (by cases h), fun h => (by cases h)⟩
theorem gatherAll_iff (l : List GVal) (p : List Text) (k o : GVal) :
    (k, o) ∈ gatherAll l p ↔ ∃ v ∈ l, Reaches v p k o := by
  cases l with
  | nil => simp [gatherAll]
  | cons v r =>
    unfold gatherAll
    rw [List.mem_append, gather_iff v p k o, gatherAll_iff r p k o]
    simp
theorem gatherAt_iff (whole : GVal) (kvs : List (Text × GVal)) (t : Text) (tail : List Text) (k o : GVal) :
    (k, o) ∈ gatherAt whole kvs t tail ↔ ∃ v, kvs.lookup t = some v ∧
      ((tail = [] ∧ k = v ∧ o = whole) ∨ ∃ a as, tail = a :: as ∧ Reaches v (a :: as) k o) := by
  match kvs with
  | [] => simp [gatherAt]
  | (t', v) :: r =>
    unfold gatherAt
    by_cases h : t' = t
    · subst h
      rw [if_pos rfl]
      simp only [List.lookup_cons, beq_self_eq_true]
      cases tail with
      | nil => simp
      | cons a as =>
        simp only [gather_iff v (a :: as) k o, Option.some.injEq, exists_eq_left', List.cons.injEq,
          reduceCtorEq, false_and, false_or]
        constructor
        · intro h; exact ⟨a, as, ⟨rfl, rfl⟩, h⟩
        · rintro ⟨_, _, ⟨rfl, rfl⟩, h⟩; exact h
    · rw [if_neg h, gatherAt_iff whole r t tail k o]
      have : (t == t') = false := by simpa using fun hh => h hh.symm
      simp only [List.lookup_cons, this]
end

theorem keyText_iff (f : NumFmt) (k : GVal) (id : Text) (hp : PlainKey k) :
    keyText f k = some id ↔ KeyIs k id := by
  unfold KeyIs
  cases k with
  | int n =>
    simp only [keyText, roundF64_small n hp, if_pos (show n.natAbs ≤ 2 ^ 53 from hp)]
    constructor
    · intro h; exact Or.inr ⟨n, rfl, by simpa using h⟩
    · rintro (h | ⟨m, h, h'⟩)
      · cases h
      · injection h with h; subst h; simp [h']
  | str s => simp [keyText]
  | float t => exact absurd hp (by simp [PlainKey])
  | null => simp [keyText]
  | bool b => simp [keyText]
  | enum e => simp [keyText]
  | list l => simp [keyText]
  | obj l => simp [keyText]

/-! ## C20 and C21: every request gets the items of its own id -/

/-- The list of items given out for an id. -/
theorem split_items (f : NumFmt) (body : GVal) (path : List Text) (id : Text)
    (hp : ∀ k o, Reaches body path k o → PlainKey k) (o : GVal) :
    o ∈ groupByKey f (gather body path) id ↔ ∃ k, Reaches body path k o ∧ KeyIs k id := by
  rw [groupByKey_eq, List.mem_map]
  constructor
  · rintro ⟨⟨k, o'⟩, hm, rfl⟩
    rw [List.mem_filter] at hm
    have hr := (gather_iff body path k o').mp hm.1
    have hk : keyText f k = some id := by simpa using hm.2
    exact ⟨k, hr, (keyText_iff f k id (hp k o' hr)).mp hk⟩
  · rintro ⟨k, hr, hk⟩
    refine ⟨(k, o), List.mem_filter.mpr ⟨(gather_iff body path k o).mpr hr, ?_⟩, rfl⟩
    simpa using (keyText_iff f k id (hp k o hr)).mpr hk

theorem queryId_of_HasId {u : Url} {name id : Text} (h : HasId u name id) : queryId u name = some id := by
  unfold queryId
  unfold HasId at h
  rw [h]
  rfl

/-- What a successful batch amounts to. -/
theorem load_answer {f : NumFmt} {g : GroupBy} {isList : Bool} {exec : HttpReq → Option Resp}
    {d0 : DLReq} {rest : List DLReq} {es : List (DLReq × Resp)}
    (hl : load f (some g) isList exec (d0 :: rest) = some es)
    (hn : ((d0 :: rest).map DLReq.key).Nodup) {d : DLReq} (hd : d ∈ d0 :: rest) {id : Text}
    (hid : (if d0.req.method = get then queryId d.req.url g.keyName else d.batchingValue) = some id) :
    ∃ res, exec (merged g d0 rest) = some res ∧
      answer es d = some { res with body := extract isList (groupByKey f (gather res.body g.paths)) id } := by
  unfold load at hl
  simp only at hl
  split at hl
  · cases hl
  · rename_i res hres
    obtain ⟨r, hr, ha⟩ := collect_answer _ (by
      intro a b hab
      rw [Option.map_eq_some_iff] at hab
      obtain ⟨i, _, rfl⟩ := hab
      rfl) _ _ hl hn d hd
    refine ⟨res, hres, ?_⟩
    rw [hid] at hr
    simp only [Option.map_some, Option.some.injEq, Prod.mk.injEq, true_and] at hr
    rw [ha, ← hr]

/-- **C20 (partial).** After a batched GET, a request is answered with the items whose key equals the id in
its own URL: all of them for a list field, one of them for a single field, null when there are none.

Missing from the full statement: the keys must be strings, or integers up to 2^53; see
`C20_violated_by_large_ids`. -/
theorem C20_own_items_partial (f : NumFmt) (g : GroupBy) (isList : Bool) (exec : HttpReq → Option Resp)
    (d0 : DLReq) (rest : List DLReq) (es : List (DLReq × Resp))
    (hl : load f (some g) isList exec (d0 :: rest) = some es) (hget : d0.req.method = "GET".toList)
    (hn : ((d0 :: rest).map DLReq.key).Nodup) (d : DLReq) (hd : d ∈ d0 :: rest) (id : Text)
    (hid : HasId d.req.url g.keyName id)
    (hp : ∀ m res, exec m = some res → ∀ k o, Reaches res.body g.paths k o → PlainKey k) :
    ∃ m res items, exec m = some res ∧
      (∀ o, o ∈ items ↔ ∃ k, Reaches res.body g.paths k o ∧ KeyIs k id) ∧
      answer es d = some ⟨res.status, res.headers,
        if isList then .list items else items.head?.getD .null⟩ := by
  obtain ⟨res, hres, ha⟩ := load_answer hl hn hd (id := id) (by
    rw [if_pos (show d0.req.method = get from hget)]
    exact queryId_of_HasId hid)
  refine ⟨_, res, groupByKey f (gather res.body g.paths) id, hres,
    split_items f res.body g.paths id (hp _ _ hres), ?_⟩
  rw [ha]
  rfl

/-- **C21 (answers, partial).** The same for a merged POST, where the id is the value rendered into the
body. -/
theorem C21_own_items_partial (f : NumFmt) (g : GroupBy) (isList : Bool) (exec : HttpReq → Option Resp)
    (d0 : DLReq) (rest : List DLReq) (es : List (DLReq × Resp))
    (hl : load f (some g) isList exec (d0 :: rest) = some es) (hpost : d0.req.method ≠ "GET".toList)
    (hn : ((d0 :: rest).map DLReq.key).Nodup) (d : DLReq) (hd : d ∈ d0 :: rest) (id : Text)
    (hid : d.batchingValue = some id)
    (hp : ∀ m res, exec m = some res → ∀ k o, Reaches res.body g.paths k o → PlainKey k) :
    ∃ m res items, exec m = some res ∧
      (∀ o, o ∈ items ↔ ∃ k, Reaches res.body g.paths k o ∧ KeyIs k id) ∧
      answer es d = some ⟨res.status, res.headers,
        if isList then .list items else items.head?.getD .null⟩ := by
  obtain ⟨res, hres, ha⟩ := load_answer hl hn hd (id := id) (by
    rw [if_neg (show ¬ d0.req.method = get from hpost)]
    exact hid)
  refine ⟨_, res, groupByKey f (gather res.body g.paths) id, hres,
    split_items f res.body g.paths id (hp _ _ hres), ?_⟩
  rw [ha]
  rfl

/-- **C20 (gRPC, partial).** After a batched gRPC call a request is answered with an item whose key is the id
of its own message, or null when there is none; a message without the key makes the whole batch an error. -/
theorem C20_grpc_own_item_partial (f : NumFmt) (g : GroupBy) (idOf : Text → Text → Option Text)
    (exec : GrpcCall → Option Resp) (d0 : GrpcDLReq) (rest : List GrpcDLReq)
    (hn : ((d0 :: rest).map GrpcDLReq.key).Nodup)
    (hp : ∀ m res, exec m = some res → ∀ k o, Reaches res.body g.paths k o → PlainKey k) :
    (∀ es, grpcLoad f g idOf exec (d0 :: rest) = some es → ∀ d ∈ d0 :: rest,
      ∃ (id : Text) (m : GrpcCall) (res : Resp) (items : List GVal), idOf g.keyName d.req.body = some id ∧ exec m = some res ∧
        m.messages = (d0 :: rest).map (fun x => x.req.body) ∧
        (∀ o, o ∈ items ↔ ∃ k, Reaches res.body g.paths k o ∧ KeyIs k id) ∧
        grpcAnswer es d = some ⟨res.status, res.headers, items.head?.getD .null⟩) ∧
    ((∃ d ∈ d0 :: rest, idOf g.keyName d.req.body = none) →
      grpcLoad f g idOf exec (d0 :: rest) = none) := by
  constructor
  · intro es hl d hd
    unfold grpcLoad at hl
    simp only at hl
    split at hl
    · cases hl
    · rename_i ids hids
      split at hl
      · cases hl
      · rename_i res hres
        injection hl with hl
        have hz := collect_zip (fun x : GrpcDLReq => idOf g.keyName x.req.body)
          (fun x id => (x, { res with body := extract false (groupByKey f (gather res.body g.paths)) id }))
          _ _ hids
        rw [hl] at hz
        obtain ⟨r, hr, ha⟩ := collect_lastEntry GrpcDLReq.key _ (by
          intro a b hab
          rw [Option.map_eq_some_iff] at hab
          obtain ⟨i, _, rfl⟩ := hab
          rfl) _ _ hz hn d hd
        rw [Option.map_eq_some_iff] at hr
        obtain ⟨id, hid, he⟩ := hr
        injection he with _ he
        subst he
        refine ⟨id, _, res, groupByKey f (gather res.body g.paths) id, hid, hres, rfl,
          split_items f res.body g.paths id (hp _ _ hres), ?_⟩
        exact ha
  · rintro ⟨d, hd, hno⟩
    unfold grpcLoad
    simp only
    rw [collect_none (fun x : GrpcDLReq => idOf g.keyName x.req.body) _ d hd hno]

/-- In a list of objects with plain keys the items are, in order, those whose entry is the id. -/
theorem flat_items (f : NumFmt) (k id : Text) (os : List GVal)
    (hobj : ∀ o ∈ os, ∃ kvs, o = .obj kvs ∧ ∀ v, kvs.lookup k = some v → PlainKey v) :
    groupByKey f (gather (.list os) [k]) id = os.filter (fieldIs k id) := by
  rw [groupByKey_eq]
  have hat : ∀ (whole : GVal) (kvs : List (Text × GVal)),
      gatherAt whole kvs k [] = (kvs.lookup k).toList.map (fun v => (v, whole)) := by
    intro whole kvs
    induction kvs with
    | nil => simp [gatherAt]
    | cons e r ih =>
      obtain ⟨k', v⟩ := e
      unfold gatherAt
      by_cases h : k' = k
      · subst h; simp [List.lookup_cons]
      · have : (k == k') = false := by simpa using fun hh => h hh.symm
        rw [if_neg h, ih]
        simp [List.lookup_cons, this]
  unfold gather
  induction os with
  | nil => simp [gatherAll]
  | cons o r ih =>
    obtain ⟨kvs, rfl, hk⟩ := hobj o List.mem_cons_self
    have ih := ih (fun x hx => hobj x (List.mem_cons_of_mem _ hx))
    unfold gatherAll
    rw [List.filter_append, List.map_append, ih, List.filter_cons]
    unfold gather
    rw [hat]
    cases hlk : kvs.lookup k with
    | none => simp [fieldIs, hlk]
    | some v =>
      have hkey := keyText_iff f v id (hk v hlk)
      have hf : fieldIs k id (.obj kvs) = true ↔ KeyIs v id := by
        unfold fieldIs KeyIs
        simp only [hlk]
        cases v <;> simp
      by_cases hm : KeyIs v id
      · rw [if_pos (hf.mpr hm)]
        simp [hkey.mpr hm]
      · rw [if_neg (fun h => hm (hf.mp h))]
        have : (keyText f v == some id) = false := by
          simpa using fun h => hm (hkey.mp h)
        simp [this]

/-- **C20 (order, partial).** When the response is a list of objects, a list field gets, in order, the
objects whose entry is the id of its request, and a single field gets the first of them. -/
theorem C20_in_order_partial (f : NumFmt) (g : GroupBy) (isList : Bool) (exec : HttpReq → Option Resp)
    (d0 : DLReq) (rest : List DLReq) (es : List (DLReq × Resp))
    (hl : load f (some g) isList exec (d0 :: rest) = some es) (hget : d0.req.method = "GET".toList)
    (hn : ((d0 :: rest).map DLReq.key).Nodup) (d : DLReq) (hd : d ∈ d0 :: rest) (id : Text)
    (hid : HasId d.req.url g.keyName id) (k : Text) (hk : g.paths = [k])
    (hflat : ∀ m res, exec m = some res → ∃ os, res.body = .list os ∧
      ∀ o ∈ os, ∃ kvs, o = .obj kvs ∧ ∀ v, kvs.lookup k = some v → PlainKey v) :
    ∃ m res os, exec m = some res ∧ res.body = .list os ∧
      answer es d = some ⟨res.status, res.headers,
        if isList then .list (os.filter (fieldIs k id))
        else (os.filter (fieldIs k id)).head?.getD .null⟩ := by
  obtain ⟨res, hres, ha⟩ := load_answer hl hn hd (id := id) (by
    rw [if_pos (show d0.req.method = get from hget)]
    exact queryId_of_HasId hid)
  obtain ⟨os, hb, hos⟩ := hflat _ _ hres
  refine ⟨_, res, os, hres, hb, ?_⟩
  rw [ha, hk, hb, show extract isList (groupByKey f (gather (.list os) [k])) id = _ from rfl,
    extract, flat_items f k id os hos]

/-- **C20.** A successful batch has an answer for every request; a request without the batching
parameter makes the whole batch an error. -/
theorem C20_all_or_error (f : NumFmt) (g : GroupBy) (isList : Bool) (exec : HttpReq → Option Resp)
    (d0 : DLReq) (rest : List DLReq) (hget : d0.req.method = "GET".toList)
    (hn : ((d0 :: rest).map DLReq.key).Nodup) :
    (∀ es, load f (some g) isList exec (d0 :: rest) = some es →
      ∀ d ∈ d0 :: rest, ∃ r, answer es d = some r) ∧
    ((∃ d ∈ d0 :: rest, ∀ p ∈ d.req.url.pairs, p.1 ≠ g.keyName) →
      load f (some g) isList exec (d0 :: rest) = none) := by
  constructor
  · intro es hl d hd
    have hl' := hl
    unfold load at hl'
    simp only at hl'
    split at hl'
    · cases hl'
    · obtain ⟨r, _, ha⟩ := collect_answer _ (by
        intro a b hab
        rw [Option.map_eq_some_iff] at hab
        obtain ⟨i, _, rfl⟩ := hab
        rfl) _ _ hl' hn d hd
      exact ⟨r, ha⟩
  · rintro ⟨d, hd, hno⟩
    unfold load
    simp only
    split
    · rfl
    · refine collect_none _ _ d hd ?_
      rw [if_pos (show d0.req.method = get from hget)]
      have : d.req.url.pairs.filter (fun p => p.1 = g.keyName) = [] := by
        rw [List.filter_eq_nil_iff]
        intro p hp
        simpa using hno p hp
      simp [queryId, this]

section examples
/-- A GET request for `http://u?id=<id>` with a header. -/
def getReq (id auth : String) : DLReq :=
  ⟨⟨"GET".toList, ⟨"http://u".toList, some (encodeQuery ("id=".toList ++ id.toList)), none⟩,
    HMap.empty.insert "authorization".toList auth.toList, none⟩, ["authorization".toList], none⟩

/-- Example data for the concrete cases below. -/
def byId : GroupBy := ⟨["id".toList], none⟩

/-- Example data for the concrete cases below. -/
def fmt : NumFmt := ⟨fun _ => [], id⟩

/-- Example data for the concrete cases below. -/
def itemS (id : String) : GVal := .obj [("id".toList, .str id.toList)]
/-- Example data for the concrete cases below. -/
def itemN (id : Int) : GVal := .obj [("id".toList, .int id)]

/-- An upstream that always gives the same items. -/
def always (items : List GVal) : HttpReq → Option Resp := fun _ => some ⟨200, [], .list items⟩

/-- The hypotheses of the C20 theorems are met by a batch of three. -/
example : ∃ es, load fmt (some byId) true (always [itemS "2", itemN 1, itemS "1", itemN 7])
      [getReq "1" "a", getReq "2" "a", getReq "3" "a"] = some es ∧
    ([getReq "1" "a", getReq "2" "a", getReq "3" "a"].map DLReq.key).Nodup ∧
    HasId (getReq "2" "a").req.url byId.keyName "2".toList ∧
    (∀ o ∈ [itemS "2", itemN 1, itemS "1", itemN 7], ∃ kvs, o = .obj kvs ∧
      ∀ v, kvs.lookup "id".toList = some v → PlainKey v) ∧
    (answer es (getReq "1" "a")).map (fun r => r.body) = some (.list [itemN 1, itemS "1"]) := by
  refine ⟨_, rfl, by decide, by decide, ?_, rfl⟩
  intro o ho
  simp only [List.mem_cons, List.not_mem_nil, or_false] at ho
  rcases ho with rfl | rfl | rfl | rfl <;> refine ⟨_, rfl, ?_⟩ <;> intro v hv <;>
    simp [List.lookup_cons] at hv <;> subst hv <;> simp [PlainKey]

/-- Ids beyond 2^53: the request for 9007199254740992 is given the item of 9007199254740993, and the
request for 9007199254740993 gets nothing. -/
theorem C20_violated_by_large_ids :
    ∃ (exec : HttpReq → Option Resp) (d d' : DLReq) (es : List (DLReq × Resp)),
      load fmt (some byId) false exec [d, d'] = some es ∧
      HasId d.req.url byId.keyName "9007199254740992".toList ∧
      HasId d'.req.url byId.keyName "9007199254740993".toList ∧
      (answer es d).map (fun r => r.body) = some (itemN 9007199254740993) ∧
      (answer es d').map (fun r => r.body) = some .null ∧
      intText 9007199254740993 = "9007199254740993".toList := by
  have hl : ∃ es, load fmt (some byId) false (always [itemN 9007199254740993])
      [getReq "9007199254740992" "a", getReq "9007199254740993" "a"] = some es := by
    unfold load
    exact ⟨_, collect_of_all _ (fun x => (x, ⟨200, [], extract false (groupByKey fmt
      (gather (.list [itemN 9007199254740993]) byId.paths))
        ((queryId x.req.url byId.keyName).getD [])⟩)) _ (by
      intro x hx
      simp only [List.mem_cons, List.not_mem_nil, or_false] at hx
      rcases hx with rfl | rfl
      · have : queryId (getReq "9007199254740992" "a").req.url byId.keyName =
          some "9007199254740992".toList := by decide
        rw [this]; rfl
      · have : queryId (getReq "9007199254740993" "a").req.url byId.keyName =
          some "9007199254740993".toList := by decide
        rw [this]; rfl)⟩
  obtain ⟨es, hl⟩ := hl
  have hr : roundF64 9007199254740993 = 9007199254740992 := by decide +kernel
  have ht : intText 9007199254740992 = "9007199254740992".toList := by decide +kernel
  have hkt : keyText fmt (.int 9007199254740993) = some "9007199254740992".toList := by
    simp only [keyText, hr, ht]
    rfl
  have hgr : ∀ x, groupByKey fmt (gather (.list [itemN 9007199254740993]) byId.paths) x =
      if x = "9007199254740992".toList then [itemN 9007199254740993] else [] := by
    intro x
    have hga : gather (.list [itemN 9007199254740993]) byId.paths =
      [(.int 9007199254740993, itemN 9007199254740993)] := by
      simp only [byId, GroupBy.paths, itemN, gather, gatherAll, gatherAt, List.isEmpty_cons,
        Bool.false_eq_true, if_false, if_true, List.append_nil]
    rw [hga, groupByKey_eq]
    by_cases hx : x = "9007199254740992".toList
    · simp only [hx, List.filter_cons, hkt, BEq.rfl, if_true, List.filter_nil, List.map_cons, List.map_nil]
    · have : (some "9007199254740992".toList == some x) = false := by
        simpa using fun h => hx h.symm
      simp only [hx, List.filter_cons, hkt, this, if_false, List.filter_nil, List.map_nil,
        Bool.false_eq_true]
  have hn : ([getReq "9007199254740992" "a", getReq "9007199254740993" "a"].map DLReq.key).Nodup := by
    decide
  refine ⟨always [itemN 9007199254740993], getReq "9007199254740992" "a", getReq "9007199254740993" "a",
    es, hl, by decide, by decide, ?_, ?_, by decide +kernel⟩
  · obtain ⟨res, hres, ha⟩ := load_answer hl hn (d := getReq "9007199254740992" "a")
      List.mem_cons_self (id := "9007199254740992".toList) (by decide)
    injection hres with hres
    subst hres
    rw [ha]
    simp only [Option.map_some, extract, hgr, Bool.false_eq_true, if_false, if_true]
    rfl
  · obtain ⟨res, hres, ha⟩ := load_answer hl hn (d := getReq "9007199254740993" "a")
      (List.mem_cons_of_mem _ List.mem_cons_self) (id := "9007199254740993".toList) (by decide)
    injection hres with hres
    subst hres
    rw [ha]
    have : ("9007199254740993".toList = "9007199254740992".toList) = False := by simp
    simp only [Option.map_some, extract, hgr, Bool.false_eq_true, if_false, this]
    rfl
end examples

/-! ## C22: the merged URL -/

/-- **C22.** The URL of a merged GET has the parameters of the first request and, after them, the batching
parameters of the others, and nothing else; address, fragment, method, headers and body are those of the first
request. -/
theorem C22_merged_get (g : GroupBy) (d : DLReq) (rest : List DLReq)
    (hget : d.req.method = "GET".toList) :
    (merged g d rest).url.pairs = d.req.url.pairs ++
      (rest.flatMap (fun x => x.req.url.pairs)).filter (fun p => p.1 = g.keyName) ∧
    (merged g d rest).url.base = d.req.url.base ∧ (merged g d rest).url.frag = d.req.url.frag ∧
    (merged g d rest).method = d.req.method ∧ (merged g d rest).body = d.req.body := by
  unfold merged
  rw [if_pos (show d.req.method = get from hget)]
  obtain ⟨h1, h2, h3, h4, h5, h6⟩ := mergeQuery_spec (some g.keyName) rest d.req
  refine ⟨?_, h5, h6, h2, h4⟩
  rw [h1]
  congr 1
  induction rest with
  | nil => rfl
  | cons x r ih =>
    rw [List.flatMap_cons, List.flatMap_cons, List.filter_append, ih (mergeQuery_spec _ _ _).1
      (mergeQuery_spec _ _ _).2.1 (mergeQuery_spec _ _ _).2.2.1 (mergeQuery_spec _ _ _).2.2.2.1
      (mergeQuery_spec _ _ _).2.2.2.2.1 (mergeQuery_spec _ _ _).2.2.2.2.2]
    rfl

/-- **C22 (each id).** Every request's id is in the merged URL, whatever characters it contains; every
parameter with another name is one of the first request. -/
theorem C22_ids (g : GroupBy) (d : DLReq) (rest : List DLReq) (hget : d.req.method = "GET".toList) :
    (∀ x ∈ d :: rest, ∀ id, (g.keyName, id) ∈ x.req.url.pairs →
      (g.keyName, id) ∈ (merged g d rest).url.pairs) ∧
    (merged g d rest).url.pairs.filter (fun p => p.1 ≠ g.keyName) =
      d.req.url.pairs.filter (fun p => p.1 ≠ g.keyName) := by
  rw [(C22_merged_get g d rest hget).1]
  constructor
  · intro x hx id hid
    rw [List.mem_append]
    rcases List.mem_cons.mp hx with rfl | hx
    · exact Or.inl hid
    · refine Or.inr (List.mem_filter.mpr ⟨List.mem_flatMap.mpr ⟨x, hx, hid⟩, by simp⟩)
  · rw [List.filter_append, List.filter_filter]
    have : (rest.flatMap (fun x => x.req.url.pairs)).filter
        (fun p => decide (p.1 ≠ g.keyName) && decide (p.1 = g.keyName)) = [] := by
      rw [List.filter_eq_nil_iff]
      intro p _ h
      simp at h
    rw [this, List.append_nil]

/-- **C22 (configured name).** The parameter that is merged is the configured one; without one it is the last
name of the path, and without a path it is `id`. -/
theorem C22_configured_name (k : Text) (path : List Text) (last : Text) (d : DLReq) (rest : List DLReq)
    (hget : d.req.method = "GET".toList) :
    (merged ⟨path, some k⟩ d rest).url.pairs = d.req.url.pairs ++
      (rest.flatMap (fun x => x.req.url.pairs)).filter (fun p => p.1 = k) ∧
    (merged ⟨path ++ [last], none⟩ d rest).url.pairs = d.req.url.pairs ++
      (rest.flatMap (fun x => x.req.url.pairs)).filter (fun p => p.1 = last) ∧
    (merged ⟨[], none⟩ d rest).url.pairs = d.req.url.pairs ++
      (rest.flatMap (fun x => x.req.url.pairs)).filter (fun p => p.1 = "id".toList) := by
  refine ⟨(C22_merged_get ⟨path, some k⟩ d rest hget).1, ?_, (C22_merged_get ⟨[], none⟩ d rest hget).1⟩
  rw [(C22_merged_get ⟨path ++ [last], none⟩ d rest hget).1]
  have : (GroupBy.mk (path ++ [last]) none).keyName = last := by simp [GroupBy.keyName]
  rw [this]

/-- Ids with reserved characters survive the merge. -/
example : (merged byId (getReq "1" "a") [getReq "2%26x" "b", getReq "a%3Db" "c"]).url.pairs =
    [("id".toList, "1".toList), ("id".toList, "2&x".toList), ("id".toList, "a=b".toList)] := by decide

/-! ## C21: the merged body -/

/-- Where a reader of JSON text is: nesting depth, inside a string, after a backslash. -/
structure Pos where
  depth : Nat
  inStr : Bool
  esc : Bool
  deriving DecidableEq

/-- Position outside of any bracket or string. -/
def Pos.top : Pos := ⟨0, false, false⟩

/-- Reading one character that does not end an item; `none` for a closing bracket too many. -/
def Pos.step (s : Pos) (c : Char) : Option Pos :=
  if s.inStr then
    if s.esc then some { s with esc := false }
    else if c = '\\' then some { s with esc := true }
    else if c = '"' then some { s with inStr := false }
    else some s
  else if c = '"' then some { s with inStr := true }
  else if c = '[' ∨ c = '{' then some { s with depth := s.depth + 1 }
  else if c = ']' ∨ c = '}' then (if s.depth = 0 then none else some { s with depth := s.depth - 1 })
  else some s

/-- Reading the items of an array after its opening bracket; `none` when an item is empty or the
text does not end with the array. -/
def readItems (s : Pos) (cur : Text) : Text → Option (List Text)
  | [] => none
  | c :: r =>
      if s = .top ∧ c = ']' then (if r.isEmpty ∧ cur ≠ [] then some [cur] else none)
      else if s = .top ∧ c = ',' then
        (if cur = [] then none else (readItems s [] r).map (fun l => cur :: l))
      else (s.step c).bind (fun s' => readItems s' (cur ++ [c]) r)

/-- The items of a JSON array, as texts. -/
def readArray : Text → Option (List Text)
  | '[' :: r => readItems .top [] r
  | _ => none

/-- Reading a text without meeting an item end. -/
def run (s : Pos) : Text → Option Pos
  | [] => some s
  | c :: r => if s = .top ∧ (c = ']' ∨ c = ',') then none else (s.step c).bind (fun s' => run s' r)

/-- A text that is one array item: brackets and quotes are closed, no comma at the top.  Every JSON
value is such a text. -/
def IsItem (b : Text) : Prop := b ≠ [] ∧ run .top b = some .top

instance (b : Text) : Decidable (IsItem b) := by unfold IsItem; infer_instance

theorem readItems_run (b : Text) : ∀ (s s' : Pos) (cur r : Text), run s b = some s' →
    readItems s cur (b ++ r) = readItems s' (cur ++ b) r := by
  induction b with
  | nil => intro s s' cur r h; simp [run] at h; subst h; simp
  | cons c b ih =>
    intro s s' cur r h
    unfold run at h
    split at h
    · cases h
    · rename_i hns
      rw [Option.bind_eq_some_iff] at h
      obtain ⟨s1, hs1, h⟩ := h
      rw [List.cons_append, readItems, if_neg (fun hh => hns ⟨hh.1, Or.inl hh.2⟩),
        if_neg (fun hh => hns ⟨hh.1, Or.inr hh.2⟩), hs1, Option.bind_some, ih s1 s' _ r h]
      simp

theorem readArray_join (bs : List Text) (hne : bs ≠ []) (h : ∀ b ∈ bs, IsItem b) :
    readArray ('[' :: (joinWithComma bs ++ [']'])) = some bs := by
  show readItems .top [] (joinWithComma bs ++ [']']) = some bs
  induction bs with
  | nil => exact absurd rfl hne
  | cons b r ih =>
    obtain ⟨hb, hr⟩ := h b List.mem_cons_self
    cases r with
    | nil =>
      rw [joinWithComma, readItems_run b _ _ _ _ hr]
      simp [readItems, hb]
    | cons c r =>
      have ih := ih (by simp) (fun x hx => h x (List.mem_cons_of_mem _ hx))
      rw [joinWithComma, List.append_assoc, readItems_run b _ _ _ _ hr, List.cons_append, readItems]
      simp only [Char.reduceEq, and_false, if_false, true_and, if_true, List.nil_append, hb]
      rw [ih]
      rfl

theorem joinBodies_eq (bs : List Text) (h : ∀ b ∈ bs, b ≠ []) : joinBodies bs = joinWithComma bs := by
  have : ∀ (bs : List Text) (acc : Text), acc ≠ [] → (∀ b ∈ bs, b ≠ []) →
      bs.foldl (fun acc b => (if acc.isEmpty then acc else acc ++ [',']) ++ b) acc =
        joinWithComma (acc :: bs) := by
    intro bs
    induction bs with
    | nil => intro acc _ _; rfl
    | cons b r ih =>
      intro acc ha hb
      rw [List.foldl_cons, ih _ (by simp [hb b List.mem_cons_self])
        (fun x hx => hb x (List.mem_cons_of_mem _ hx))]
      have hae : List.isEmpty acc = false := by cases acc with | nil => exact absurd rfl ha | cons => rfl
      rw [hae]
      simp only [Bool.false_eq_true, if_false]
      cases r with
      | nil => simp [joinWithComma]
      | cons c r => simp [joinWithComma]
  unfold joinBodies
  cases bs with
  | nil => rfl
  | cons b r =>
    rw [List.foldl_cons]
    exact this r b (h b List.mem_cons_self) (fun x hx => h x (List.mem_cons_of_mem _ hx))

/-- **C21 (partial).** When every request has a body that is a JSON value, a reader of the merged body gets
the bodies of all requests, each once and in order.

Missing from the full statement: a template can render to an empty body; see
`C21_violated_by_empty_body`. -/
theorem C21_merged_body_partial (g : GroupBy) (d : DLReq) (rest : List DLReq)
    (hpost : d.req.method ≠ "GET".toList) (bodies : List Text)
    (hb : (d :: rest).map (fun x => x.req.body) = bodies.map some) (hi : ∀ b ∈ bodies, IsItem b) :
    ∃ b, (merged g d rest).body = some b ∧ readArray b = some bodies := by
  have hbs : (d :: rest).filterMap (fun x => x.req.body) = bodies := by
    have : (d :: rest).filterMap (fun x => x.req.body) =
        ((d :: rest).map (fun x => x.req.body)).filterMap id := by
      rw [List.filterMap_map]; rfl
    rw [this, hb, List.filterMap_map]
    simp
  have hne : bodies ≠ [] := by
    rintro rfl
    simp at hb
  have hemp : bodies.isEmpty = false := by
    cases bodies with
    | nil => exact absurd rfl hne
    | cons => rfl
  unfold merged
  rw [if_neg (show ¬ d.req.method = get from hpost)]
  unfold mergeBodies
  simp only [hbs, hemp, Bool.false_eq_true, if_false]
  exact ⟨_, rfl, by rw [joinBodies_eq _ (fun b h => (hi b h).1)]; exact readArray_join _ hne hi⟩

/-- A POST request with a body. -/
def postReq (body : String) : DLReq :=
  ⟨⟨"POST".toList, ⟨"http://u".toList, none, none⟩, HMap.empty, some body.toList⟩, [], none⟩

/-- The hypotheses are met by bodies with nested arrays and commas inside strings. -/
example : IsItem "{\"id\":[1,2],\"s\":\"a,]\"}".toList ∧ IsItem "7".toList ∧
    (merged byId (postReq "{\"id\":[1,2],\"s\":\"a,]\"}") [postReq "7"]).body =
      some "[{\"id\":[1,2],\"s\":\"a,]\"},7]".toList := by decide

/-- A request whose body renders to nothing is lost, and one in the middle makes the body invalid. -/
theorem C21_violated_by_empty_body :
    (merged byId (postReq "") [postReq "7"]).body = some "[7]".toList ∧
    ∃ b, (merged byId (postReq "7") [postReq "", postReq "8"]).body = some b ∧ readArray b = none := by
  refine ⟨by decide, _, rfl, by decide⟩

/-! ## C23: GraphQL batches -/

theorem positional_spec (values : List GVal) (res : Resp) : ∀ (ds : List DLReq) (i : Nat),
    (ds.map DLReq.key).Nodup → ∀ j d, ds[j]? = some d →
      answer (positional values res i ds) d = some { res with body := (values[i + j]?).getD .null } := by
  have hkeys : ∀ (ds : List DLReq) (i : Nat), ∀ e ∈ positional values res i ds, e.1 ∈ ds := by
    intro ds
    induction ds with
    | nil => intro i e he; cases he
    | cons x r ih =>
      intro i e he
      rcases List.mem_cons.mp he with rfl | he
      · exact List.mem_cons_self
      · exact List.mem_cons_of_mem _ (ih _ e he)
  intro ds
  induction ds with
  | nil => intro i _ j d h; simp at h
  | cons x r ih =>
    intro i hn j d h
    rw [List.map_cons, List.nodup_cons] at hn
    cases j with
    | zero =>
      simp at h
      subst h
      have hnone : (positional values res (i + 1) r).filter (fun e => e.1.key = x.key) = [] := by
        rw [List.filter_eq_nil_iff]
        intro e he hk
        have hk : e.1.key = x.key := by simpa using hk
        exact hn.1 (hk ▸ List.mem_map_of_mem (hkeys _ _ e he))
      unfold answer lastEntry positional
      rw [List.filter_cons, if_pos (by simp), hnone]
      rfl
    | succ j =>
      rw [List.getElem?_cons_succ] at h
      have := ih (i + 1) hn.2 j d h
      have hne : x.key ≠ d.key := by
        intro hk
        exact hn.1 (hk ▸ List.mem_map_of_mem (List.mem_of_getElem? h))
      unfold answer lastEntry at this ⊢
      unfold positional
      rw [List.filter_cons, if_neg (by simpa using hne), this]
      simp [Nat.add_comm, Nat.add_left_comm, Nat.add_assoc]

/-- **C23.** When several GraphQL queries are sent as one batch, the body is an array whose element `i` is the
query of request `i`, and request `i` is answered with element `i` of the response list, or null if there is
none. -/
theorem C23_positional (exec : HttpReq → Option (Option Resp)) (d0 : DLReq) (rest : List DLReq)
    (hn : ((d0 :: rest).map DLReq.key).Nodup) (bodies : List Text)
    (hb : (d0 :: rest).map (fun x => x.req.body) = bodies.map some) (hi : ∀ b ∈ bodies, IsItem b)
    (es : List (DLReq × Resp)) (hl : gqlLoad true exec (d0 :: rest) = some es) :
    ∃ m b out, m.body = some b ∧ readArray b = some bodies ∧ exec m = some out ∧
      ∀ res values, out = some res → res.body = .list values →
        ∀ (i : Nat) (d : DLReq), (d0 :: rest)[i]? = some d →
          answer es d = some ⟨res.status, res.headers, (values[i]?).getD .null⟩ := by
  unfold gqlLoad at hl
  simp only [if_true] at hl
  rw [Option.map_eq_some_iff] at hl
  obtain ⟨out, hout, rfl⟩ := hl
  have hne : bodies ≠ [] := by rintro rfl; simp at hb
  have hbs : (d0 :: rest).map (fun x => x.req.body.getD []) = bodies := by
    have : (d0 :: rest).map (fun x => x.req.body.getD []) =
        ((d0 :: rest).map (fun x => x.req.body)).map (fun o => o.getD []) := by
      rw [List.map_map]; rfl
    rw [this, hb, List.map_map]
    simp [Function.comp_def]
  refine ⟨gqlMerged d0 rest, _, out, rfl, ?_, hout, ?_⟩
  · unfold collectBodies
    rw [hbs]
    exact readArray_join _ hne hi
  · rintro res values rfl hv i d hd
    have := positional_spec values res (d0 :: rest) 0 hn i d hd
    simp only [extractResponses, hv]
    rw [this, Nat.zero_add]

/-- A batch of three answered with two values. -/
example : ∃ es, gqlLoad true (fun _ => some (some ⟨200, [], .list [itemN 1, itemN 2]⟩))
      [postReq "{\"query\":\"a\"}", postReq "{\"query\":\"b\"}", postReq "{\"query\":\"c\"}"] = some es ∧
    (answer es (postReq "{\"query\":\"b\"}")).map (fun r => r.body) = some (itemN 2) ∧
    (answer es (postReq "{\"query\":\"c\"}")).map (fun r => r.body) = some .null := ⟨_, rfl, rfl, rfl⟩

/-! ## C63: a failed batch is reported -/

/-- **C63 (partial).** A batch whose call fails is an error for every request in it; without batching a
response that is not JSON is an error too.

Missing from the full statement: a batched GraphQL call that is answered with something else than a list;
see `C63_violated_by_error_object`. -/
theorem C63_failed_call_partial (f : NumFmt) (g : GroupBy) (isList : Bool) (d0 : DLReq) (rest : List DLReq)
    (exec : HttpReq → Option Resp) (gexec : HttpReq → Option (Option Resp))
    (h : ∀ m, exec m = none) (hg : ∀ m, gexec m = none) (d : DLReq) :
    fieldValue (load f (some g) isList exec (d0 :: rest)) d = none ∧
    fieldValue (load f none isList exec (d0 :: rest)) d = none ∧
    fieldValue (gqlLoad true gexec (d0 :: rest)) d = none ∧
    (∀ gexec' : HttpReq → Option (Option Resp), (∃ x ∈ d0 :: rest, gexec' x.req = some none) →
      fieldValue (gqlLoad false gexec' (d0 :: rest)) d = none) := by
  refine ⟨?_, ?_, ?_, ?_⟩
  · unfold load fieldValue
    simp [h]
  · unfold load fieldValue
    simp only
    rw [collect_none _ _ d0 List.mem_cons_self (by simp [h])]
    rfl
  · unfold gqlLoad fieldValue
    simp [hg]
  · rintro gexec' ⟨x, hx, hxe⟩
    unfold gqlLoad fieldValue
    simp only [Bool.false_eq_true, if_false]
    rw [collect_none _ _ x hx (by simp [hxe])]
    rfl

/-- An upstream that rejects the whole batch with an error object, or with something that is not JSON:
every field silently gets null. -/
theorem C63_violated_by_error_object :
    ∃ (err : GVal) (ds : List DLReq), ds ≠ [] ∧ ∀ d ∈ ds,
      fieldValue (gqlLoad true (fun _ => some (some ⟨500, [], err⟩)) ds) d = some ⟨200, [], .null⟩ ∧
      fieldValue (gqlLoad true (fun _ => some none) ds) d = some ⟨200, [], .null⟩ := by
  refine ⟨.obj [("errors".toList, .list [.str "unauthorized".toList])], [postReq "a", postReq "b"],
    by simp, ?_⟩
  intro d _
  exact ⟨rfl, rfl⟩

/-! ## C59: headers of merged calls -/

/-- **C59 (partial).** Without a batch key every request is sent as it is, so its answer is the one its own
headers get.  With a batch key, if all waiting requests have the same headers, only calls with these headers
are made: the result does not depend on how the upstream treats other headers.

Missing from the full statement: requests with different headers are merged too, even when they differ in a
header listed in `batch.headers`; see the `C59_violated_*` theorems. -/
theorem C59_headers_partial (f : NumFmt) (isList : Bool) (d0 : DLReq) (rest : List DLReq)
    (hn : ((d0 :: rest).map DLReq.key).Nodup) :
    (∀ (exec : HttpReq → Option Resp) es, load f none isList exec (d0 :: rest) = some es →
      ∀ d ∈ d0 :: rest, exec d.req ≠ none ∧ answer es d = exec d.req) ∧
    (∀ (g : GroupBy) (exec exec' : HttpReq → Option Resp) (h : HMap),
      (∀ d ∈ d0 :: rest, d.req.headers = h) → (∀ m, m.headers = h → exec m = exec' m) →
      load f (some g) isList exec (d0 :: rest) = load f (some g) isList exec' (d0 :: rest)) := by
  constructor
  · intro exec es hl d hd
    unfold load at hl
    simp only at hl
    obtain ⟨r, hr, ha⟩ := collect_answer _ (by
      intro a b hab
      rw [Option.map_eq_some_iff] at hab
      obtain ⟨i, _, rfl⟩ := hab
      rfl) _ _ hl hn d hd
    rw [Option.map_eq_some_iff] at hr
    obtain ⟨r', hr', he⟩ := hr
    injection he with _ he
    subst he
    exact ⟨by simp [hr'], by rw [ha, hr']⟩
  · intro g exec exec' h hh hex
    have hm : (merged g d0 rest).headers = h := by
      rw [← hh d0 List.mem_cons_self]
      unfold merged
      split
      · exact (mergeQuery_spec _ rest d0.req).2.2.1
      · unfold mergeBodies
        simp only
        split
        · exact (mergeQuery_spec _ rest d0.req).2.2.1
        · exact (mergeQuery_spec _ rest d0.req).2.2.1
    unfold load
    simp only
    rw [hex _ hm]

/-- An upstream that only answers Alice. -/
def onlyAlice (items : List GVal) : HttpReq → Option Resp := fun m =>
  if m.headers "authorization".toList = ["alice".toList] then some ⟨200, [], .list items⟩ else none

/-- Two clients ask at the same time.  `authorization` is a batching header, so their requests are
different; still Bob's request is sent with Alice's credentials and Bob gets data that Bob alone is denied. -/
theorem C59_violated_http :
    ∃ es, load fmt (some byId) false (onlyAlice [itemS "1", itemS "2"])
        [getReq "1" "alice", getReq "2" "bob"] = some es ∧
      "authorization".toList ∈ (getReq "2" "bob").batchHeaders ∧
      (answer es (getReq "2" "bob")).map (fun r => r.body) = some (itemS "2") ∧
      load fmt (some byId) false (onlyAlice [itemS "1", itemS "2"]) [getReq "2" "bob"] = none := by
  refine ⟨_, rfl, by decide, rfl, by decide⟩

/-- The same for GraphQL upstreams. -/
theorem C59_violated_graphql :
    ∃ (exec : HttpReq → Option (Option Resp)) (a b : DLReq) (es : List (DLReq × Resp)),
      a.key ≠ b.key ∧ gqlLoad true exec [a, b] = some es ∧
      (answer es b).map (fun r => r.body) = some (itemS "2") ∧ gqlLoad true exec [b] = none := by
  refine ⟨fun m => (onlyAlice [itemS "1", itemS "2"] m).map some,
    { getReq "1" "alice" with req := { (getReq "1" "alice").req with body := some "q".toList } },
    { getReq "1" "bob" with req := { (getReq "1" "bob").req with body := some "q".toList } },
    _, by decide, rfl, rfl, by decide⟩

/-- A gRPC request. -/
def grpcReq (id auth : String) : GrpcDLReq :=
  ⟨⟨⟨"http://u".toList, none, none⟩, HMap.empty.insert "authorization".toList auth.toList, id.toList, []⟩,
    ["authorization".toList]⟩

/-- The same for gRPC upstreams. -/
theorem C59_violated_grpc :
    ∃ (exec : GrpcCall → Option Resp) (es : List (GrpcDLReq × Resp)),
      (grpcReq "1" "alice").key ≠ (grpcReq "2" "bob").key ∧
      grpcLoad fmt byId (fun _ b => some b) exec [grpcReq "1" "alice", grpcReq "2" "bob"] = some es ∧
      (grpcAnswer es (grpcReq "2" "bob")).map (fun r => r.body) = some (itemS "2") ∧
      grpcLoad fmt byId (fun _ b => some b) exec [grpcReq "2" "bob"] = none := by
  refine ⟨fun c => if c.headers "authorization".toList = ["alice".toList] then
      some ⟨200, [], .list [itemS "1", itemS "2"]⟩ else none, _, by decide, rfl, rfl, by decide⟩

/-- The hypotheses of `C59_headers_partial` with two requests of one client. -/
example : ([getReq "1" "alice", getReq "2" "alice"].map DLReq.key).Nodup ∧
    (∀ d ∈ [getReq "1" "alice", getReq "2" "alice"],
      d.req.headers = HMap.empty.insert "authorization".toList "alice".toList) := by
  refine ⟨by decide, ?_⟩
  intro d hd
  simp only [List.mem_cons, List.not_mem_nil, or_false] at hd
  rcases hd with rfl | rfl <;> rfl

/-! ## C60: batching does not change the answer -/

/-- The parameters other than the batching one. -/
def otherParams (name : Text) (u : Url) : List (Text × Text) := u.pairs.filter (fun p => p.1 ≠ name)

/-- An upstream that answers a list of ids: it has some data, and sends, for the ids in the URL, the
items whose entry `k` is one of them, restricted by the address and the other parameters. -/
def Filtering (exec : HttpReq → Option Resp) (name k : Text) (data : List GVal)
    (keep : Text → List (Text × Text) → GVal → Bool) : Prop :=
  ∀ m : HttpReq, exec m = some ⟨200, [], .list (data.filter (fun o =>
    keep m.url.base (otherParams name m.url) o &&
      (m.url.pairs.filter (fun p => p.1 = name)).any (fun p => fieldIs k p.2 o)))⟩

/-- **C60 (partial).** For an upstream that answers a list of ids, a request of a batch is answered with
exactly the items the upstream has for that request alone; in particular being in a batch makes no
difference.

Missing from the full statement: the requests may differ only in the id; see
`C60_violated_by_other_params`. -/
theorem C60_batch_is_alone_partial (f : NumFmt) (g : GroupBy) (isList : Bool)
    (exec : HttpReq → Option Resp) (k : Text) (hk : g.paths = [k]) (data : List GVal)
    (keep : Text → List (Text × Text) → GVal → Bool)
    (hdata : ∀ o ∈ data, ∃ kvs, o = .obj kvs ∧ ∀ v, kvs.lookup k = some v → PlainKey v)
    (hex : Filtering exec g.keyName k data keep)
    (d0 : DLReq) (rest : List DLReq) (hget : ∀ d ∈ d0 :: rest, d.req.method = "GET".toList)
    (hn : ((d0 :: rest).map DLReq.key).Nodup)
    (hids : ∀ d ∈ d0 :: rest, ∃ id, HasId d.req.url g.keyName id)
    (hsame : ∀ d ∈ d0 :: rest, d.req.url.base = d0.req.url.base ∧
      otherParams g.keyName d.req.url = otherParams g.keyName d0.req.url)
    (d : DLReq) (hd : d ∈ d0 :: rest) (id : Text) (hid : HasId d.req.url g.keyName id) :
    fieldValue (load f (some g) isList exec (d0 :: rest)) d =
      fieldValue (load f (some g) isList exec [d]) d ∧
    ∃ items, fieldValue (load f (some g) isList exec (d0 :: rest)) d = some ⟨200, [],
        if isList then .list items else items.head?.getD .null⟩ ∧
      items = data.filter (fun o =>
        keep d.req.url.base (otherParams g.keyName d.req.url) o && fieldIs k id o) := by
  -- one computation for any batch that contains the request
  have key : ∀ (e0 : DLReq) (es : List DLReq), (∀ x ∈ e0 :: es, x.req.method = "GET".toList) →
      ((e0 :: es).map DLReq.key).Nodup → (∀ x ∈ e0 :: es, ∃ i, HasId x.req.url g.keyName i) →
      (∀ x ∈ e0 :: es, x.req.url.base = d.req.url.base ∧
        otherParams g.keyName x.req.url = otherParams g.keyName d.req.url) → d ∈ e0 :: es →
      fieldValue (load f (some g) isList exec (e0 :: es)) d = some ⟨200, [],
        if isList then .list (data.filter (fun o =>
          keep d.req.url.base (otherParams g.keyName d.req.url) o && fieldIs k id o))
        else (data.filter (fun o =>
          keep d.req.url.base (otherParams g.keyName d.req.url) o && fieldIs k id o)).head?.getD .null⟩ := by
    intro e0 es hget hn hids hsame hd
    have hg0 := hget e0 List.mem_cons_self
    have hmem := (C22_ids g e0 es hg0).1 d hd id (by
      have : (g.keyName, id) ∈ d.req.url.pairs.filter (fun p => p.1 = g.keyName) := by
        unfold HasId at hid
        rw [hid]; exact List.mem_cons_self
      exact (List.mem_filter.mp this).1)
    have hother := (C22_ids g e0 es hg0).2
    have hbase := (C22_merged_get g e0 es hg0).2.1
    -- the load succeeds
    have hload : ∃ out, load f (some g) isList exec (e0 :: es) = some out := by
      unfold load
      simp only
      rw [hex]
      simp only
      have hall : ∀ x ∈ e0 :: es, ∃ i, queryId x.req.url g.keyName = some i := by
        intro x hx
        obtain ⟨i, hi⟩ := hids x hx
        exact ⟨i, queryId_of_HasId hi⟩
      refine ⟨_, collect_of_all _ (fun x => (x, ⟨200, [], extract isList (groupByKey f
        (gather (.list (data.filter (fun o =>
          keep (merged g e0 es).url.base (otherParams g.keyName (merged g e0 es).url) o &&
          ((merged g e0 es).url.pairs.filter (fun p => p.1 = g.keyName)).any
            (fun p => fieldIs k p.2 o)))) g.paths)) ((queryId x.req.url g.keyName).getD [])⟩)) _ ?_⟩
      intro x hx
      obtain ⟨i, hi⟩ := hall x hx
      rw [if_pos (show e0.req.method = get from hg0), hi]
      rfl
    obtain ⟨out, hout⟩ := hload
    obtain ⟨res, hres, ha⟩ := load_answer hout hn hd (id := id) (by
      rw [if_pos (show e0.req.method = get from hg0)]
      exact queryId_of_HasId hid)
    rw [hex] at hres
    injection hres with hres
    subst hres
    rw [hout]
    unfold fieldValue
    rw [Option.map_some, ha]
    simp only [Option.getD_some]
    rw [hk, extract, flat_items f k id _ (fun o ho => hdata o (List.mem_filter.mp ho).1),
      List.filter_filter]
    have hfil : data.filter (fun o => fieldIs k id o &&
          (keep (merged g e0 es).url.base (otherParams g.keyName (merged g e0 es).url) o &&
          ((merged g e0 es).url.pairs.filter (fun p => p.1 = g.keyName)).any
            (fun p => fieldIs k p.2 o))) =
        data.filter (fun o =>
          keep d.req.url.base (otherParams g.keyName d.req.url) o && fieldIs k id o) := by
      have e1 : (merged g e0 es).url.base = d.req.url.base := by
        rw [hbase]; exact (hsame e0 List.mem_cons_self).1
      have e2 : otherParams g.keyName (merged g e0 es).url = otherParams g.keyName d.req.url := by
        rw [← (hsame e0 List.mem_cons_self).2]
        exact hother
      rw [e1, e2]
      apply List.filter_congr
      intro o _
      cases hfi : fieldIs k id o with
      | false => simp
      | true =>
        have : ((merged g e0 es).url.pairs.filter (fun p => p.1 = g.keyName)).any
            (fun p => fieldIs k p.2 o) = true := by
          rw [List.any_eq_true]
          exact ⟨(g.keyName, id), List.mem_filter.mpr ⟨hmem, by simp⟩, hfi⟩
        simp [this]
    rw [hfil]
  have hsame' : ∀ x ∈ d0 :: rest, x.req.url.base = d.req.url.base ∧
      otherParams g.keyName x.req.url = otherParams g.keyName d.req.url := by
    intro x hx
    have h1 := hsame x hx
    have h2 := hsame d hd
    exact ⟨h1.1.trans h2.1.symm, h1.2.trans h2.2.symm⟩
  have hb := key d0 rest hget hn hids hsame' hd
  have ha := key d [] (by simpa using hget d hd) (by simp) (by simpa using ⟨id, hid⟩) (by simp) (by simp)
  exact ⟨hb.trans ha.symm, _, hb, rfl⟩

/-- The hypotheses are met. -/
example : ∃ exec, Filtering exec "id".toList "id".toList [itemS "1", itemN 2] (fun _ _ _ => true) ∧
    (∀ d ∈ [getReq "1" "a", getReq "2" "a"], ∃ id, HasId d.req.url "id".toList id) ∧
    (∀ d ∈ [getReq "1" "a", getReq "2" "a"], d.req.url.base = (getReq "1" "a").req.url.base ∧
      otherParams "id".toList d.req.url = otherParams "id".toList (getReq "1" "a").req.url) := by
  refine ⟨fun m => some ⟨200, [], .list ([itemS "1", itemN 2].filter (fun o => true &&
      (m.url.pairs.filter (fun p => p.1 = "id".toList)).any (fun p => fieldIs "id".toList p.2 o)))⟩,
      fun m => rfl, ?_, ?_⟩
  · intro d hd
    simp only [List.mem_cons, List.not_mem_nil, or_false] at hd
    rcases hd with rfl | rfl
    · exact ⟨"1".toList, by decide⟩
    · exact ⟨"2".toList, by decide⟩
  · intro d hd
    simp only [List.mem_cons, List.not_mem_nil, or_false] at hd
    rcases hd with rfl | rfl <;> decide

/-- `http://u?id=<id>&lang=<lang>`. -/
def langReq (id lang : String) : DLReq :=
  ⟨⟨"GET".toList, ⟨"http://u".toList, some (encodeQuery ("id=".toList ++ id.toList ++ "&lang=".toList ++
    lang.toList)), none⟩, HMap.empty, none⟩, [], none⟩

/-- Requests that differ in another parameter are merged as if they had the first one's: the second
request asks for German and is given English. -/
theorem C60_violated_by_other_params :
    ∃ (exec : HttpReq → Option Resp) (a b : DLReq),
      (fieldValue (load fmt (some byId) false exec [a, b]) b).map (fun r => r.body) =
        some (.obj [("id".toList, .str "2".toList), ("lang".toList, .str "en".toList)]) ∧
      (fieldValue (load fmt (some byId) false exec [b]) b).map (fun r => r.body) =
        some (.obj [("id".toList, .str "2".toList), ("lang".toList, .str "de".toList)]) := by
  refine ⟨fun m => some ⟨200, [], .list ((m.url.pairs.filter (fun p => p.1 = "id".toList)).map (fun p =>
      .obj [("id".toList, .str p.2), ("lang".toList, .str ((m.url.pairs.lookup "lang".toList).getD []))]))⟩,
    langReq "1" "en", langReq "2" "de", rfl, rfl⟩

end Verif.HttpBatch
