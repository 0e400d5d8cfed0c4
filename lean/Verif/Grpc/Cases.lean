import Verif.Grpc.Names

/-!
# Cases that meet the hypotheses of C124 to C128
-/

namespace Verif.Grpc

open Verif.Mustache (Text)
open Verif.Exec (Ty)
open Verif.HttpUrl (GVal intText)
open Verif.HttpBatch (GroupBy)
open Verif.Transform (get)

/-! ## C124 -/

/-- Messages that are texts, as bytes. -/
def textLib : Lib := { bytesLib with
  ofJson := fun _ t => if t = [] then none else some (.str t)
  encode := fun m => match m with
    | .str t => t.map (fun c => UInt8.ofNat c.toNat)
    | _ => []
  decode := fun _ b => some (.str (b.map (fun x => Char.ofNat x.toNat))) }

/-- An upstream that answers `ok` to everything that it understands. -/
def okUp (r : Req) : Option Answer :=
  match unframe r.body with
  | some (0, _, []) => some ⟨200, [("content-type".toList, "application/grpc".toList)],
      messageToBytes textLib (.str "ok".toList), [(wireStatus, ['0'])]⟩
  | _ => none

theorem okUp_offers : Offers textLib plainOp (fun _ => .str "ok".toList) okUp := by
  intro r p m h _
  refine ⟨⟨200, [("content-type".toList, "application/grpc".toList)],
      messageToBytes textLib (.str "ok".toList), [(wireStatus, ['0'])]⟩, by simp only [okUp, h], rfl, ?_, rfl, ?_⟩
  · exact Or.inr rfl
  · exact unframe_bytes textLib _ (by decide +kernel)

example : ∃ q, toRequest textLib plainOp ⟨"u".toList, [], "hi".toList⟩ = .ok q ∧
    unframe q.body = some (0, [104, 105], []) := by
  obtain ⟨q, h, _, _, hb⟩ := (C124_sent_partial textLib plainOp ⟨"u".toList, [], "hi".toList⟩).1 (.str "hi".toList) rfl
  exact ⟨q, h, hb (by decide +kernel)⟩

example : toRequest textLib plainOp ⟨"u".toList, [], []⟩ = .error .input :=
  (C124_sent_partial textLib plainOp ⟨"u".toList, [], []⟩).2 rfl

example : convertOutput textLib plainOp [0, 0, 0, 0, 2, 104, 105] = .ok (.str "hi".toList) :=
  (C124_answer textLib plainOp [0, 0, 0, 0, 2, 104, 105] [104, 105] (by decide)).1 (.str "hi".toList) rfl

example : ∃ res, call textLib okUp plainOp ⟨"u".toList, [], "hi".toList⟩ = .ok res ∧ res.body = .str "ok".toList :=
  C124_call_partial textLib plainOp _ okUp okUp_offers _ (.str "hi".toList) rfl rfl rfl
    (by decide +kernel)

/-- Messages that are encoded as `n` bytes. -/
def bigLib (n : Nat) : Lib := { bytesLib with encode := fun _ => List.replicate n 0 }

example (n : Nat) (h : 2 ^ 32 ≤ n) : unframe (messageToBytes (bigLib n) (.str [])) ≠ some (0, (bigLib n).encode (.str []), []) :=
  C124_violated_by_length (bigLib n) (.str []) (by rw [show (bigLib n).encode (.str []) = List.replicate n 0 from rfl, List.length_replicate]; exact h) 0 []

/-! ## C125 -/

/-- An answer that says that the call has failed, with a message and a detail whose type is known. -/
def failed : Answer := ⟨200, [(wireStatus, "3".toList), (wireMessage, "bad input".toList), (wireDetails, "CAM=".toList)], [], []⟩

/-- An operation with the type of the detail. -/
def detailOp : Op := { plainOp with pool := [("google.rpc.BadRequest".toList, ⟨"google.rpc.BadRequest".toList, []⟩)] }

example : ∃ e, execute detailLib (fun _ => some failed) detailOp ⟨[], [], []⟩ = .error e ∧
    get (extensions e) "grpcCode".toList = some (.int 3) ∧
    get (extensions e) "grpcStatusMessage".toList = some (.str "bad input".toList) ∧
    get (extensions e) "grpcStatusDetails".toList = some (.obj [("code".toList, .int 3),
      ("message".toList, .str "bad".toList), ("details".toList, .list [.list [.int 1]])]) := by
  obtain ⟨e, h, h1, h2, h3⟩ := C125_errors_partial detailLib (fun _ => some failed) detailOp ⟨[], [], []⟩ failed rfl rfl
    (by decide) (by decide) 3 (by omega) (by omega) (by decide +kernel) "bad input".toList "bad input".toList rfl rfl
  refine ⟨e, h, h1, h2, h3 "CAM=".toList ⟨3, "bad".toList, [("type.googleapis.com/google.rpc.BadRequest".toList, [1])]⟩
    [.list [.int 1]] rfl (by decide +kernel) rfl ?_⟩
  refine .cons ⟨"google.rpc.BadRequest".toList, ⟨"google.rpc.BadRequest".toList, []⟩,
    .list [.i32 1], by decide +kernel, Or.inr ⟨"type.googleapis.com".toList, by decide +kernel⟩, by rfl, rfl, rfl⟩ .nil

example : 200 ≤ 200 ∧ Succeeded ⟨200, [(wireStatus, ['0'])], [0, 0, 0, 0, 1, 7], []⟩ := by
  have := C125_success_partial bytesLib (fun _ => some ⟨200, [(wireStatus, ['0'])], [0, 0, 0, 0, 1, 7], []⟩) plainOp ⟨[], [], []⟩
    ⟨200, [(wireStatus, ['0'])], [0, 0, 0, 0, 1, 7], []⟩ rfl rfl (by
      intro v hv
      have : v = ['0'] := by simpa [Verif.Transform.get] using hv.symm
      subst this
      decide) ⟨200, [(wireStatus, ['0'])], .list [.int 7]⟩ rfl
  exact ⟨this.1, this.2.2.1⟩

example : ∃ e, execute bytesLib (fun _ => some ⟨302, [], [], []⟩) plainOp ⟨[], [], []⟩ = .error e :=
  C125_transport bytesLib _ plainOp _ (Or.inr ⟨_, rfl, Or.inr (by decide)⟩)

example : ∃ e, execute bytesLib (fun _ => none) plainOp ⟨[], [], []⟩ = .error e :=
  C125_transport bytesLib _ plainOp _ (Or.inl rfl)

/-! ## C126 -/

/-- The library and the operation of a batch by texts. -/
def byText : Lib := userKey .str "id".toList "id".toList

example : ∃ b ids, convertMultiple byText (newsOp "id".toList "id".toList) ["1".toList, "2".toList] "id".toList = .ok (b, ids) ∧
    ids.length = 2 := by
  obtain ⟨b, ids, h, _, hl⟩ := C126_sent_partial byText (newsOp "id".toList "id".toList) ["1".toList, "2".toList] "id".toList
    ⟨"ids".toList, "ids".toList, true, some "One".toList, .list []⟩ "One".toList
    ⟨"One".toList, [⟨"id".toList, "id".toList, false, none, .str []⟩]⟩ rfl rfl rfl
    [.msg [(("id".toList, "id".toList), .str "1".toList)], .msg [(("id".toList, "id".toList), .str "2".toList)]]
    (by
      intro i hi
      match i, hi with
      | 0, _ => exact ⟨_, _, rfl, rfl, rfl⟩
      | 1, _ => exact ⟨_, _, rfl, rfl, rfl⟩
      | i + 2, h => simp at h; omega) ⟨_, List.mem_cons_self, rfl⟩ (by decide +kernel)
  exact ⟨b, ids, h, hl⟩

example : titles (loadGrouped fmt byText newsUp (newsOp "id".toList "id".toList) ⟨["news".toList, "id".toList], none⟩
    [callFor "2".toList, callFor "3".toList, callFor "1".toList]) = some [some "two".toList, none, some "one".toList] := by
  decide +kernel

/-- The entries of that answer have texts as their keys, so that every key can be compared with them. -/
theorem byText_comparable (o : PVal) (h : byText.decode [] [] = some o) (k' e : PVal)
    (hl : Leads o ["news".toList, "id".toList] k' e) (t : Text) : Comparable (.str t) k' := by
  injection h with h
  subst h
  cases hl with
  | step hf hl =>
    simp at hf
    obtain ⟨_, rfl⟩ := hf
    cases hl with
    | item hv hl =>
      simp at hv
      rcases hv with rfl | rfl
      · cases hl with
        | last hf =>
          simp at hf
          obtain ⟨_, rfl⟩ := hf
          trivial
      · cases hl with
        | last hf =>
          simp at hf
          obtain ⟨_, rfl⟩ := hf
          trivial

example : ∃ es, loadEach textLib okUp plainOp [⟨"u".toList, [], "a".toList⟩, ⟨"u".toList, [], "b".toList⟩] = .ok es := by
  refine (C126_each textLib okUp plainOp _).2 ?_
  intro r hr
  simp only [List.mem_cons, List.not_mem_nil, or_false] at hr
  rcases hr with rfl | rfl
  · obtain ⟨res, h, _⟩ := C124_call_partial textLib plainOp _ okUp okUp_offers ⟨"u".toList, [], "a".toList⟩ (.str "a".toList) rfl
      rfl rfl (by decide +kernel)
    exact ⟨res, h⟩
  · obtain ⟨res, h, _⟩ := C124_call_partial textLib plainOp _ okUp okUp_offers ⟨"u".toList, [], "b".toList⟩ (.str "b".toList) rfl
      rfl rfl (by decide +kernel)
    exact ⟨res, h⟩

/-! ## C127 -/

/-- A service in a package of two parts. -/
def newsService : Service := ⟨"a.b.News".toList, [("Get".toList, plainOp)]⟩

example : parseMethod "a.b.News.Get".toList = some ⟨"a.b".toList, "News".toList, "Get".toList⟩ :=
  C127_read ⟨"a.b".toList, "News".toList, "Get".toList⟩ (by decide) (by decide)

example : ∃ m, parseMethod "a.b.News.Get".toList = some m ∧ findOperation [newsService] m = some plainOp :=
  C127_found [newsService] newsService List.mem_cons_self (fun s h _ => List.mem_singleton.mp h) "a.b".toList
    "News".toList "Get".toList (by decide +kernel) (by decide) (by decide) plainOp List.mem_cons_self
    (fun o h => (Prod.mk.inj (List.mem_singleton.mp h)).2)

example : toUrl "http://x//".toList ⟨"a.b".toList, "News".toList, "Get".toList⟩ = "http://x/a.b.News/Get".toList := by
  decide +kernel

example : ∃ s ∈ [newsService], ("Get".toList, plainOp) ∈ s.methods :=
  let ⟨s, hs, hm, _⟩ := C127_called [newsService] "a.b.News.Get".toList "http://x//".toList ⟨"a.b".toList, "News".toList, "Get".toList⟩
    plainOp (by decide +kernel) rfl
  ⟨s, hs, hm⟩

/-! ## C128 -/

example : (validateGroupBy keyCfg keyPool 5 (.named "News".toList true) "In".toList "List".toList
    ["news".toList, "id".toList]).map List.length = some 0 := by decide +kernel

example : ∃ f, endOf keyPool "List".toList ["news".toList] = some f ∧ f.isList = true ∧ f.card = .repeated ∧
    f.kind = .message "News".toList ∧
    validateGroupBy keyCfg keyPool 5 (.named "News".toList false) "In".toList "List".toList ["news".toList, "id".toList] ≠ some [] := by
  refine ⟨_, rfl, rfl, rfl, rfl, ?_⟩
  exact C128_violated_by_nullable keyCfg keyPool 5 _ rfl _ _ _ _ _ rfl rfl "News".toList rfl
    ⟨false, [⟨"id".toList, .number, .optional, false⟩]⟩ rfl rfl

end Verif.Grpc
