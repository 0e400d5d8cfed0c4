import Verif.Grpc.Props

/-!
# C126: batches of gRPC calls
-/

set_option linter.unusedSimpArgs false

namespace Verif.Grpc

open Verif.Mustache (Text)
open Verif.HttpUrl (GVal intText)
open Verif.HttpBatch (NumFmt GroupBy gather groupByKey keyText)
open Verif.Transform (get)

/-! ## C126: a batch is one call that holds every message, and each gets the entry of its key -/

theorem getField_some {d : Desc} {n : Text} (h : ∃ k ∈ d.fields, k.name = n) (m : PVal) : ∃ k, getField d m n = some k := by
  unfold getField
  cases hf : d.fields.find? (fun f => f.name = n) with
  | none =>
    obtain ⟨k, hk, e⟩ := h
    have := List.find?_eq_none.mp hf k hk
    simp [e] at this
  | some f =>
    cases m <;> exact ⟨_, rfl⟩

theorem getField_key {d : Desc} {m k : PVal} {n : Text} (h : getField d m n = some k) : KeyOf d m n k := by
  unfold getField at h
  cases hf : d.fields.find? (fun f => f.name = n) with
  | none => rw [hf] at h; cases h
  | some f =>
    rw [hf] at h
    have hn : f.name = n := by simpa using List.find?_some hf
    refine ⟨f, List.mem_of_find?_eq_some hf, hn, ?_⟩
    cases m with
    | msg fs =>
      dsimp only at h
      cases hx : fs.find? (fun x => x.1.1 = n) with
      | none =>
        rw [hx] at h
        right
        refine ⟨?_, (Option.some.inj h).symm⟩
        intro fs' e x hx'
        cases e
        have := List.find?_eq_none.mp hx x hx'
        simpa using this
      | some x =>
        rw [hx] at h
        left
        obtain ⟨hp, pre, post, e, hpre⟩ := List.find?_eq_some_iff_append.mp hx
        obtain ⟨⟨a, j⟩, v⟩ := x
        have ha : a = n := by simpa using hp
        have hv : v = k := Option.some.inj h
        subst ha hv
        refine ⟨pre, j, post, by rw [e], fun y hy => ?_⟩
        have := hpre y hy
        simpa using this
    | _ => exact Or.inr ⟨(by intro fs e; cases e), (Option.some.inj h).symm⟩

/-- **C126 (sent, partial).** The messages of a batch are sent as one message: a field of it that is a list
of messages holds, in their order, what the bodies mean.

Missing from the full statement: it is the first field that is a list at all that has to be one of messages
(`C126_violated_by_lists`), and the messages have to have a field for the key. -/
theorem C126_sent_partial (lib : Lib) (op : Op) (inputs : List Text) (id : Text) (f : Fld) (t : Text) (d : Desc)
    (hf : op.input.fields.find? (fun f => f.isList) = some f) (ht : f.message = some t)
    (hd : get op.pool t = some d) (ms : List PVal)
    (hms : ∀ i : Nat, i < inputs.length ∨ i < ms.length →
      ∃ b m, inputs[i]? = some b ∧ ms[i]? = some m ∧ lib.ofJson d.name b = some m)
    (hk : ∃ k ∈ d.fields, k.name = id)
    (hl : (lib.encode (.msg [((f.name, f.json), .list ms)])).length < 2 ^ 32) :
    ∃ b ids, convertMultiple lib op inputs id = .ok (b, ids) ∧
      unframe b = some (0, lib.encode (.msg [((f.name, f.json), .list ms)]), []) ∧
      ids.length = inputs.length := by
  have h1 : mapE (toMessage lib d) inputs = .ok ms := by
    refine mapE_total (fun i hi => ?_)
    obtain ⟨b, m, hb, hm, ho⟩ := hms i hi
    exact ⟨b, m, hb, hm, by simp [toMessage, ho]⟩
  have hlen := (mapE_ok h1).1
  have h2 : mapE (fieldStr d id) ms = .ok (ms.map (fun m => valueStr ((getField d m id).getD (.str [])))) := by
    refine mapE_total (fun i hi => ?_)
    obtain ⟨b, m, hb, hm, _⟩ := hms i (by
      rcases hi with h | h
      · exact Or.inr h
      · rw [List.length_map] at h; exact Or.inr h)
    obtain ⟨k, hk⟩ := getField_some hk m
    exact ⟨m, valueStr k, hm, by simp [hm, hk], by simp [fieldStr, hk]⟩
  refine ⟨_, (ms.map (fun m => valueStr ((getField d m id).getD (.str [])))), ?_, unframe_bytes lib _ hl, ?_⟩
  · simp only [convertMultiple, listField, hf, ht, Option.bind_some, hd, h1, h2]
  · simp [hlen]

/-- What a successful batch amounts to. -/
theorem grouped_ok {f : NumFmt} {lib : Lib} {up : Req → Option Answer} {op : Op} {g : GroupBy}
    {r0 : Rendered} {rest : List Rendered} {es : List (Resp GVal)}
    (h : loadGrouped f lib up op g (r0 :: rest) = .ok es) :
    ∃ fl d ids b res, listField op = .ok (fl, d) ∧
      convertMultiple lib op ((r0 :: rest).map (·.body)) g.keyName = .ok (b, ids) ∧
      execute lib up op ⟨r0.url, r0.headers, b⟩ = .ok res ∧
      ∀ (i : Nat) (r : Rendered), (r0 :: rest)[i]? = some r → ∃ m k, lib.ofJson d.name r.body = some m ∧
        getField d m g.keyName = some k ∧
        es[i]? = some ⟨res.status, res.headers, (groupByKey f (gather res.body g.paths) (valueStr k)).head?.getD .null⟩ := by
  simp only [loadGrouped] at h
  split at h
  · cases h
  · rename_i body ids hc
    split at h
    · cases h
    · rename_i res he
      injection h with h
      subst h
      have hc' := hc
      unfold convertMultiple at hc
      split at hc
      · cases hc
      · rename_i fl d hlf
        split at hc
        · cases hc
        · rename_i ms hms
          split at hc
          · cases hc
          · rename_i ids' hids
            simp only [Except.ok.injEq, Prod.mk.injEq] at hc
            obtain ⟨_, rfl⟩ := hc
            refine ⟨fl, d, ids', body, res, hlf, hc', he, ?_⟩
            intro i r hi
            obtain ⟨m, hm, hto⟩ := (mapE_ok hms).2 i r.body (by rw [List.getElem?_map, hi]; rfl)
            obtain ⟨t, ht, hfs⟩ := (mapE_ok hids).2 i m hm
            unfold toMessage at hto
            split at hto
            · rename_i m' hm'
              injection hto with hto
              subst hto
              unfold fieldStr at hfs
              split at hfs
              · rename_i k hk
                injection hfs with hfs
                subst hfs
                refine ⟨m', k, hm', hk, ?_⟩
                simp [ht]
              · cases hfs
            · cases hto

/-- The value of an answer comes from a message. -/
theorem execute_body {lib : Lib} {up : Req → Option Answer} {op : Op} {q : Req} {res : Resp GVal}
    (h : execute lib up op q = .ok res) : ∃ a m, up q = some a ∧ lib.decode op.output.name (a.body.drop 5) = some m ∧
      res.body = json m := by
  cases hu : up q with
  | none => simp [execute, send, hu] at h
  | some a =>
    simp only [execute, send, hu] at h
    by_cases h4 : 400 ≤ a.status
    · simp [if_pos h4] at h
    · simp only [if_neg h4, fromReqwest] at h
      by_cases h2 : 200 ≤ a.status ∧ a.status < 300
      · rw [if_pos h2] at h
        split at h
        · split at h
          · rename_i v hv
            injection h with h
            subst h
            unfold convertOutput at hv
            split at hv
            · cases hv
            · split at hv
              · rename_i m hm
                injection hv with hv
                subst hv
                exact ⟨a, m, rfl, hm, rfl⟩
              · cases hv
          · cases h
        · cases h
      · rw [if_neg h2] at h
        cases h

/-- **C126 (entries, partial).** Every call of a batch gets an entry of the answer whose key is its own, and null
only if there is none.

Missing from the full statement: the keys have to be integers of one size, or texts, on both sides; see
`C126_violated_by_enums`, `C126_violated_by_booleans` and `C126_violated_by_names`. -/
theorem C126_entries_partial (f : NumFmt) (lib : Lib) (up : Req → Option Answer) (op : Op) (g : GroupBy)
    (r0 : Rendered) (rest : List Rendered) (es : List (Resp GVal))
    (h : loadGrouped f lib up op g (r0 :: rest) = .ok es) :
    ∃ b ids a o fl d, convertMultiple lib op ((r0 :: rest).map (·.body)) g.keyName = .ok (b, ids) ∧
      up ⟨r0.url, r0.headers, b⟩ = some a ∧ lib.decode op.output.name (a.body.drop 5) = some o ∧
      listField op = .ok (fl, d) ∧ ∀ (i : Nat) (r : Rendered), (r0 :: rest)[i]? = some r → ∃ m k res,
        lib.ofJson d.name r.body = some m ∧ KeyOf d m g.keyName k ∧ es[i]? = some res ∧
        ((∀ k' e, Leads o g.paths k' e → Comparable k k') →
          (∃ e, Leads o g.paths k e ∧ res.body = json e) ∨ ((∀ e, ¬ Leads o g.paths k e) ∧ res.body = .null)) := by
  obtain ⟨fl, d, ids, b, res, hlf, hcm, he, hall⟩ := grouped_ok h
  obtain ⟨a, o, ha, ho, hb⟩ := execute_body he
  refine ⟨b, ids, a, o, fl, d, hcm, ha, ho, hlf, ?_⟩
  intro i r hi
  obtain ⟨m, k, hm, hk, hes⟩ := hall i r hi
  refine ⟨m, k, _, hm, getField_key hk, hes, ?_⟩
  intro hc
  rw [Verif.HttpBatch.groupByKey_eq, hb]
  simp only
  cases hl : ((gather (json o) g.paths).filter (fun kv => keyText f kv.1 == some (valueStr k))) with
  | nil =>
    right
    refine ⟨?_, by simp⟩
    intro e hle
    have hin : (json k, json e) ∈ gather (json o) g.paths := (gather_json o g.paths _ _).mpr ⟨k, e, hle, rfl, rfl⟩
    have : (json k, json e) ∈ ((gather (json o) g.paths).filter (fun kv => keyText f kv.1 == some (valueStr k))) := by
      rw [List.mem_filter]
      refine ⟨hin, ?_⟩
      simp only [beq_iff_eq]
      exact (keyText_comparable f (hc k e hle)).mpr rfl
    rw [hl] at this
    cases this
  | cons p rest =>
    left
    have hp : p ∈ ((gather (json o) g.paths).filter (fun kv => keyText f kv.1 == some (valueStr k))) := by
      rw [hl]; exact List.mem_cons_self
    rw [List.mem_filter] at hp
    obtain ⟨k', e, hle, hx, hy⟩ := (gather_json o g.paths p.1 p.2).mp hp.1
    have hkk : k = k' := (keyText_comparable f (hc k' e hle)).mp (by rw [← hx]; simpa using hp.2)
    subst hkk
    exact ⟨e, hle, by simp [hy]⟩

/-- **C126 (number).** There are as many answers as calls. -/
theorem C126_number (f : NumFmt) (lib : Lib) (up : Req → Option Answer) (op : Op) (g : GroupBy)
    (rs : List Rendered) (es : List (Resp GVal)) (h : loadGrouped f lib up op g rs = .ok es) :
    es.length = rs.length := by
  cases rs with
  | nil => simp only [loadGrouped, Except.ok.injEq] at h; subst h; rfl
  | cons r0 rest =>
    simp only [loadGrouped] at h
    split at h
    · cases h
    · rename_i body ids hc
      split at h
      · cases h
      · injection h with h
        subst h
        unfold convertMultiple at hc
        split at hc
        · cases hc
        · split at hc
          · cases hc
          · rename_i ms hms
            split at hc
            · cases hc
            · rename_i ids' hids
              simp only [Except.ok.injEq, Prod.mk.injEq] at hc
              obtain ⟨_, rfl⟩ := hc
              rw [List.length_map, (mapE_ok hids).1, (mapE_ok hms).1, List.length_map]

/-- **C126 (each).** Without a batch key every call is made for itself, and has its own answer; one error is
the error of all. -/
theorem C126_each (lib : Lib) (up : Req → Option Answer) (op : Op) (rs : List Rendered) :
    (∀ es, loadEach lib up op rs = .ok es → es.length = rs.length ∧
      ∀ (i : Nat) (r : Rendered), rs[i]? = some r → ∃ res, es[i]? = some res ∧ call lib up op r = .ok res) ∧
    ((∀ r ∈ rs, ∃ res, call lib up op r = .ok res) → ∃ es, loadEach lib up op rs = .ok es) := by
  constructor
  · intro es h
    exact mapE_ok h
  · intro h
    unfold loadEach
    induction rs with
    | nil => exact ⟨[], rfl⟩
    | cons r rest ih =>
      obtain ⟨res, hr⟩ := h r List.mem_cons_self
      obtain ⟨es, he⟩ := ih (fun x hx => h x (List.mem_cons_of_mem _ hx))
      exact ⟨res :: es, by simp only [mapE, hr, he]⟩

/-! ## Cases that break the claim -/

/-- Numbers without a decimal point, for the cases below. -/
def fmt : NumFmt := ⟨fun _ => [], id⟩

/-- The key of the child messages below. -/
def userKey (v : Text → PVal) (name json : Text) : Lib where
  ofJson _ t := some (.msg [((name, json), v t)])
  encode _ := []
  decode _ _ := some (.msg [(("news".toList, "news".toList), .list
    [.msg [((name, json), v "1".toList), (("title".toList, "title".toList), .str "one".toList)],
     .msg [((name, json), v "2".toList), (("title".toList, "title".toList), .str "two".toList)]])])
  percent t := .ok t
  base64 _ := []
  description _ := []
  status _ := none

/-- An operation for batches: the input is a list of keys. -/
def newsOp (name json : Text) : Op :=
  ⟨⟨"Many".toList, [⟨"ids".toList, "ids".toList, true, some "One".toList, .list []⟩]⟩, ⟨"News".toList, []⟩,
    [("One".toList, ⟨"One".toList, [⟨name, json, false, none, .str []⟩]⟩)]⟩

/-- An upstream that answers all entries. -/
def newsUp (_ : Req) : Option Answer := some ⟨200, [], [0, 0, 0, 0, 0], []⟩

/-- Calls for one key each. -/
def callFor (t : Text) : Rendered := ⟨[], [], t⟩

/-- The titles of entries. -/
def titles (x : Except Err (List (Resp GVal))) : Option (List (Option Text)) :=
  match x with
  | .error _ => none
  | .ok l => some (l.map (fun r =>
    match r.body with
    | .obj [_, (_, .str t)] => some t
    | _ => none))

/-- **C126 (violated by enums).** If the key is an enum, every call gets null: the number is looked for among
the names. -/
theorem C126_violated_by_enums :
    titles (loadGrouped fmt (userKey (fun t => .enum t.length ('K' :: t)) "kind".toList "kind".toList) newsUp
      (newsOp "kind".toList "kind".toList) ⟨["news".toList, "kind".toList], none⟩ [callFor "1".toList, callFor "2".toList]) =
      some [none, none] ∧
    titles (loadGrouped fmt (userKey .str "kind".toList "kind".toList) newsUp
      (newsOp "kind".toList "kind".toList) ⟨["news".toList, "kind".toList], none⟩ [callFor "1".toList, callFor "2".toList]) =
      some [some "one".toList, some "two".toList] := by
  constructor <;> decide +kernel

/-- **C126 (violated by booleans).** If the key is a boolean, every call gets null. -/
theorem C126_violated_by_booleans :
    titles (loadGrouped fmt (userKey (fun t => .bool (t = "1".toList)) "kind".toList "kind".toList) newsUp
      (newsOp "kind".toList "kind".toList) ⟨["news".toList, "kind".toList], none⟩ [callFor "1".toList, callFor "2".toList]) =
      some [none, none] := by
  decide +kernel

/-- **C126 (violated by names).** If the name of the key has an underscore there is no way to write the batch
key: with its JSON name the messages have no such field, with its name the entries have none. -/
theorem C126_violated_by_names :
    titles (loadGrouped fmt (userKey .str "user_id".toList "userId".toList) newsUp
      (newsOp "user_id".toList "userId".toList) ⟨["news".toList, "userId".toList], none⟩ [callFor "1".toList]) = none ∧
    titles (loadGrouped fmt (userKey .str "user_id".toList "userId".toList) newsUp
      (newsOp "user_id".toList "userId".toList) ⟨["news".toList, "user_id".toList], none⟩ [callFor "1".toList]) =
      some [none] := by
  constructor <;> decide +kernel

/-- Two lists, of which the second holds messages. -/
def twoLists : Op :=
  ⟨⟨"Many".toList, [⟨"tags".toList, "tags".toList, true, none, .list []⟩,
    ⟨"ids".toList, "ids".toList, true, some "One".toList, .list []⟩]⟩, ⟨"News".toList, []⟩,
    [("One".toList, ⟨"One".toList, [⟨"id".toList, "id".toList, false, none, .str []⟩]⟩)]⟩

/-- **C126 (violated by lists).** If a list of texts comes before the list of messages there is no batch. -/
theorem C126_violated_by_lists :
    (∃ f ∈ twoLists.input.fields, f.isList = true ∧ ∃ d, f.message.bind (get twoLists.pool) = some d) ∧
    titles (loadGrouped fmt (userKey .str "id".toList "id".toList) newsUp twoLists
      ⟨["news".toList, "id".toList], none⟩ [callFor "1".toList]) = none := by
  refine ⟨⟨_, List.mem_cons_of_mem _ List.mem_cons_self, rfl, ?_⟩, by decide +kernel⟩
  exact ⟨⟨"One".toList, [⟨"id".toList, "id".toList, false, none, .str []⟩]⟩, rfl⟩

end Verif.Grpc
