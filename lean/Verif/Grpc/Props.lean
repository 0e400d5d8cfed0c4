import Verif.Grpc.Lemmas

/-!
# C124 and C125: messages in frames, and the status of calls
-/

set_option linter.unusedSimpArgs false

namespace Verif.Grpc

open Verif.Mustache (Text)
open Verif.HttpUrl (GVal intText)
open Verif.Transform (get)

/-! ## C124: a message is sent as it is configured, and the message of an answer is the value -/

/-- **C124 (sending, partial).** What is sent for an input is one frame that is not compressed and holds the
encoded message that the input means; an input that means none is an error.

Missing from the full statement: messages of 4 GiB and more; see `C124_violated_by_length`. -/
theorem C124_sent_partial (lib : Lib) (op : Op) (r : Rendered) :
    (∀ m, lib.ofJson op.input.name r.body = some m → ∃ q, toRequest lib op r = .ok q ∧ q.url = r.url ∧
      q.headers = r.headers ∧
      ((lib.encode m).length < 2 ^ 32 → unframe q.body = some (0, lib.encode m, []))) ∧
    (lib.ofJson op.input.name r.body = none → toRequest lib op r = .error .input) := by
  constructor
  · intro m hm
    refine ⟨⟨r.url, r.headers, messageToBytes lib m⟩, ?_, rfl, rfl, ?_⟩
    · simp only [toRequest, convertInput, toMessage, hm]
    · exact unframe_bytes lib m
  · intro h
    simp only [toRequest, convertInput, toMessage, h]

/-- **C124 (answers).** The value of an answer that is one frame is the message in it; what is not a message
of the type of the answer is an error. -/
theorem C124_answer (lib : Lib) (op : Op) (b p : List UInt8) (h : unframe b = some (0, p, [])) :
    (∀ m, lib.decode op.output.name p = some m → convertOutput lib op b = .ok (json m)) ∧
    (lib.decode op.output.name p = none → convertOutput lib op b = .error .output) := by
  obtain ⟨hl, hd⟩ := unframe_drop h
  constructor
  · intro m hm
    simp only [convertOutput, if_neg hl, hd, hm]
  · intro hm
    simp only [convertOutput, if_neg hl, hd, hm]

/-- **C124 (calls, partial).** A call of an upstream that offers a method gives what the method makes of the
message that the body means.

Missing from the full statement: messages of 4 GiB and more; see `C124_violated_by_length`. -/
theorem C124_call_partial (lib : Lib) (op : Op) (f : PVal → PVal) (up : Req → Option Answer)
    (hup : Offers lib op f up) (r : Rendered) (m : PVal) (hm : lib.ofJson op.input.name r.body = some m)
    (hi : lib.decode op.input.name (lib.encode m) = some m)
    (ho : lib.decode op.output.name (lib.encode (f m)) = some (f m)) (hl : (lib.encode m).length < 2 ^ 32) :
    ∃ res, call lib up op r = .ok res ∧ res.body = json (f m) := by
  obtain ⟨q, hq, -, -, hb⟩ := (C124_sent_partial lib op r).1 m hm
  obtain ⟨a, ha, hs, -, hh, hf⟩ := hup q _ m (hb hl) hi
  replace hh : get a.headers statusKey = none := hh
  refine ⟨⟨a.status, a.headers, json (f m)⟩, ?_, rfl⟩
  have h4 : ¬ 400 ≤ a.status := by omega
  have h2 : 200 ≤ a.status ∧ a.status < 300 := by omega
  simp only [call, hq, execute, send, ha, if_neg h4, fromReqwest, hh, Option.bind_none]
  rw [if_pos h2, if_pos (Or.inl trivial), (C124_answer lib op _ _ hf).1 _ ho]

/-- **C124 (violated by length).** Of a message of 4 GiB or more another length is sent: no reader of the
frame gets the message. -/
theorem C124_violated_by_length (lib : Lib) (m : PVal) (h : 2 ^ 32 ≤ (lib.encode m).length) (f : UInt8)
    (rest : List UInt8) : unframe (messageToBytes lib m) ≠ some (f, lib.encode m, rest) := by
  intro hu
  have := unframe_length hu
  omega

/-- Bytes that mean themselves, for the cases below. -/
def bytesLib : Lib where
  ofJson _ t := some (.str t)
  encode _ := []
  decode _ b := some (.list (b.map (fun x => .i32 x.toNat)))
  percent t := .ok t
  base64 t := t.map (fun c => UInt8.ofNat c.toNat)
  description n := intText n
  status b := some ⟨b.length, [], []⟩

/-- An operation without fields, for the cases below. -/
def plainOp : Op := ⟨⟨['I'], []⟩, ⟨['O'], []⟩, []⟩

/-- **C124 (violated by compression).** An answer that says that it is compressed is read as if it were not. -/
theorem C124_violated_by_compression :
    (unframe [1, 0, 0, 0, 2, 31, 139]).map (·.1) = some 1 ∧
    convertOutput bytesLib plainOp [1, 0, 0, 0, 2, 31, 139] = .ok (.list [.int 31, .int 139]) := by
  exact ⟨by decide, rfl⟩

/-- **C124 (violated by pieces).** An answer of which a part is missing is taken for the message. -/
theorem C124_violated_by_pieces :
    unframe [0, 0, 0, 0, 9, 7, 8] = none ∧
    convertOutput bytesLib plainOp [0, 0, 0, 0, 9, 7, 8] = .ok (.list [.int 7, .int 8]) := by
  exact ⟨by decide, rfl⟩

/-- **C124 (violated by streams).** Of an answer of two messages the second, with its length, is taken for a
part of the first. -/
theorem C124_violated_by_streams :
    unframe [0, 0, 0, 0, 1, 7, 0, 0, 0, 0, 1, 8] = some (0, [7], [0, 0, 0, 0, 1, 8]) ∧
    convertOutput bytesLib plainOp [0, 0, 0, 0, 1, 7, 0, 0, 0, 0, 1, 8] =
      .ok (.list [.int 7, .int 0, .int 0, .int 0, .int 0, .int 1, .int 8]) := by
  exact ⟨by decide, rfl⟩

/-! ## C125: the status of a call decides -/

theorem readable {v : Text} (h : ∀ c ∈ v, 32 ≤ c.toNat ∧ c.toNat < 127) : toStr v = some v := by
  unfold toStr
  rw [if_pos]
  simp only [List.all_eq_true]
  intro c hc
  obtain ⟨h1, h2⟩ := h c hc
  simp [h1, h2]

/-- **C125 (success, partial).** A call has a value only if its upstream says that it has succeeded.

Missing from the full statement: a status in the trailers, where it usually is, is not looked at
(`C125_violated_by_trailers`), and one of bytes that are not ASCII is taken for success
(`C125_violated_by_bytes`). -/
theorem C125_success_partial (lib : Lib) (up : Req → Option Answer) (op : Op) (r : Req) (a : Answer)
    (hu : up r = some a) (ht : get a.trailers wireStatus = none)
    (hr : ∀ v, get a.headers wireStatus = some v → ∀ c ∈ v, 32 ≤ c.toNat ∧ c.toNat < 127) (res : Resp GVal)
    (h : execute lib up op r = .ok res) :
    200 ≤ a.status ∧ a.status < 300 ∧ Succeeded a ∧ res.status = a.status ∧ res.headers = a.headers := by
  unfold execute at h
  simp only [send, hu] at h
  by_cases h4 : 400 ≤ a.status
  · simp [if_pos h4] at h
  · simp only [if_neg h4, fromReqwest] at h
    by_cases h2 : 200 ≤ a.status ∧ a.status < 300
    · rw [if_pos h2] at h
      split at h
      · rename_i hst
        split at h
        · injection h with h
          subst h
          refine ⟨h2.1, h2.2, ?_, rfl, rfl⟩
          unfold Succeeded rpcStatus
          rw [ht]
          cases hg : get a.headers wireStatus with
          | none => exact Or.inl rfl
          | some v =>
            have hg' : get a.headers statusKey = some v := hg
            rw [hg', Option.bind_some, readable (hr v hg)] at hst
            simpa using hst
        · cases h
      · cases h
    · rw [if_neg h2] at h
      cases h

theorem codeOf_intText (n : Nat) (h : n ≤ 16) : codeOf (intText n) = n := by
  have : ∀ k : Fin 17, codeOf (intText (k.val : Nat)) = k.val := by decide +kernel
  exact this ⟨n, by omega⟩

theorem intText_readable (n : Nat) (h : n ≤ 16) : ∀ c ∈ intText n, 32 ≤ c.toNat ∧ c.toNat < 127 := by
  have : ∀ k : Fin 17, ∀ c ∈ intText (k.val : Nat), 32 ≤ c.toNat ∧ c.toNat < 127 := by decide +kernel
  exact this ⟨n, by omega⟩

theorem intText_ne_zero (n : Nat) (h1 : 1 ≤ n) (h : n ≤ 16) : intText n ≠ ['0'] := by
  have : ∀ k : Fin 17, k.val ≠ 0 → intText (k.val : Nat) ≠ ['0'] := by decide +kernel
  exact this ⟨n, by omega⟩ (by simp; omega)

theorem last_part (u : Text) : '/' ∉ (u.reverse.takeWhile (· != '/')).reverse ∧
    (u = (u.reverse.takeWhile (· != '/')).reverse ∨ ∃ pre, u = pre ++ '/' :: (u.reverse.takeWhile (· != '/')).reverse) := by
  constructor
  · intro h
    have := List.all_eq_true.mp (List.all_takeWhile (p := (· != '/')) (l := u.reverse)) _ (List.mem_reverse.mp h)
    simp at this
  · have e : u = (u.reverse.dropWhile (· != '/')).reverse ++ (u.reverse.takeWhile (· != '/')).reverse := by
      rw [← List.reverse_append, List.takeWhile_append_dropWhile, List.reverse_reverse]
    cases hd : u.reverse.dropWhile (· != '/') with
    | nil =>
      left
      rw [hd] at e
      exact e
    | cons c l =>
      right
      have hc : c = '/' := by
        have := List.head_dropWhile_not (p := (· != '/')) (l := u.reverse) (by rw [hd]; simp)
        simpa [hd] using this
      subst hc
      rw [hd] at e
      refine ⟨l.reverse, ?_⟩
      rw [List.reverse_cons, List.append_assoc] at e
      exact e

theorem last_part_of {u name : Text} (hn : '/' ∉ name) (hu : u = name ∨ ∃ pre, u = pre ++ '/' :: name) :
    (u.reverse.takeWhile (· != '/')).reverse = name := by
  have ha : ∀ c ∈ name.reverse, (c != '/') = true := by
    intro c hc
    simp only [bne_iff_ne, ne_eq]
    rintro rfl
    exact hn (List.mem_reverse.mp hc)
  rcases hu with rfl | ⟨pre, rfl⟩
  · have := List.takeWhile_append_of_pos (l₂ := []) ha
    rw [List.append_nil, List.takeWhile_nil, List.append_nil] at this
    rw [this, List.reverse_reverse]
  · rw [List.reverse_append, List.reverse_cons, List.append_assoc]
    rw [List.takeWhile_append_of_pos ha]
    simp

theorem readDetails_all (lib : Lib) (op : Op) (ds : List (Text × List UInt8)) (vs : List GVal)
    (h : AllDetails lib op ds vs) : readDetails lib op ds = vs := by
  induction h with
  | nil => rfl
  | @cons d v ds vs hd _ ih =>
    obtain ⟨name, t, m, hn, hu, hg, hm, rfl⟩ := hd
    simp only [readDetails, last_part_of hn hu, hg, hm, ih]
  | @skip d ds vs hd _ ih =>
    obtain ⟨u, b⟩ := d
    unfold readDetails
    dsimp only
    cases hg : get op.pool (u.reverse.takeWhile (· != '/')).reverse with
    | none => exact ih
    | some t =>
      cases hm : lib.decode t.name b with
      | none => simpa only [hm] using ih
      | some m => exact absurd ⟨_, t, m, (last_part u).1, (last_part u).2, hg, hm, rfl⟩ (hd (json m))

/-- For every list of details there is what the client gets to know. -/
theorem allDetails_exists (lib : Lib) (op : Op) : ∀ ds : List (Text × List UInt8), ∃ vs, AllDetails lib op ds vs
  | [] => ⟨[], .nil⟩
  | d :: ds => by
    obtain ⟨vs, h⟩ := allDetails_exists lib op ds
    by_cases hd : ∃ v, DetailOf lib op d v
    · obtain ⟨v, hv⟩ := hd
      exact ⟨v :: vs, .cons hv h⟩
    · exact ⟨vs, .skip (fun v hv => hd ⟨v, hv⟩) h⟩

/-- **C125 (errors, partial).** If an upstream says that a call has failed, the call is an error, and the client
gets to know the code, the message, and all details whose types are known.

Missing from the full statement: a status in the trailers (`C125_violated_by_trailers`), codes that are not
defined (`C125_violated_by_codes`), and details of other types (`C125_violated_by_details`). -/
theorem C125_errors_partial (lib : Lib) (up : Req → Option Answer) (op : Op) (r : Req) (a : Answer)
    (hu : up r = some a) (ht : get a.trailers wireStatus = none) (h2 : 200 ≤ a.status) (h3 : a.status < 300)
    (n : Nat) (hn1 : 1 ≤ n) (hn : n ≤ 16) (hs : rpcStatus a = some (intText n)) (m msg : Text)
    (hm : get a.headers wireMessage = some m) (hp : lib.percent m = .ok msg) :
    ∃ e, execute lib up op r = .error e ∧
      get (extensions e) "grpcCode".toList = some (.int n) ∧
      get (extensions e) "grpcStatusMessage".toList = some (.str msg) ∧
      ∀ b s vs, get a.headers wireDetails = some b → lib.base64 b ≠ [] → lib.status (lib.base64 b) = some s →
        AllDetails lib op s.details vs →
        get (extensions e) "grpcStatusDetails".toList = some (.obj [("code".toList, .int s.code),
          ("message".toList, .str s.message), ("details".toList, .list vs)]) := by
  have hh : get a.headers wireStatus = some (intText n) := by
    simpa [rpcStatus, ht] using hs
  replace hh : get a.headers statusKey = some (intText n) := hh
  replace hm : get a.headers messageKey = some m := hm
  refine ⟨toGrpcError lib op ⟨a.status, a.headers, a.body⟩, ?_, ?_, ?_, ?_⟩
  · have h4 : ¬ 400 ≤ a.status := by omega
    simp only [execute, send, hu, if_neg h4, fromReqwest, hh, Option.bind_some,
      readable (intText_readable n hn)]
    rw [if_pos ⟨h2, h3⟩, if_neg]
    simp [intText_ne_zero n hn1 hn]
  · simp only [toGrpcError, hh, hm, hp, codeOf_intText n hn, extensions]
    rfl
  · simp only [toGrpcError, hh, hm, hp, codeOf_intText n hn, extensions]
    rfl
  · intro b s vs hb hne hst hd
    replace hb : get a.headers detailsKey = some b := hb
    have he : (lib.base64 b).isEmpty = false := by simpa using hne
    simp only [toGrpcError, hh, hm, hp, codeOf_intText n hn, extensions, hb, Option.map_some, Option.getD_some,
      he, hst, readDetails_all lib op _ _ hd]
    rfl

/-- **C125 (transport).** Without an answer, and with an answer that is not one of success, there is no
value. -/
theorem C125_transport (lib : Lib) (up : Req → Option Answer) (op : Op) (r : Req)
    (h : up r = none ∨ ∃ a, up r = some a ∧ (a.status < 200 ∨ 300 ≤ a.status)) :
    ∃ e, execute lib up op r = .error e := by
  rcases h with h | ⟨a, h, hs⟩
  · exact ⟨.transport, by simp [execute, send, h]⟩
  · by_cases h4 : 400 ≤ a.status
    · exact ⟨.transport, by simp [execute, send, h, h4]⟩
    · refine ⟨.failed, ?_⟩
      simp only [execute, send, h, if_neg h4, fromReqwest]
      rw [if_neg (by omega)]

/-- **C125 (violated by trailers).** The status that comes after the body is not looked at: a call that has
failed with INTERNAL after the first part of its answer has a value. -/
theorem C125_violated_by_trailers :
    let a : Answer := ⟨200, [], [0, 0, 0, 0, 1, 7], [(wireStatus, "13".toList)]⟩
    ¬ Succeeded a ∧ ∃ res, execute bytesLib (fun _ => some a) plainOp ⟨[], [], []⟩ = .ok res ∧
      res.body = .list [.int 7] := by
  refine ⟨?_, ⟨200, [], .list [.int 7]⟩, rfl, rfl⟩
  unfold Succeeded
  decide +kernel

/-- **C125 (violated by trailers).** And of a call that has failed without a message, the client gets to know
neither code nor message. -/
theorem C125_violated_by_trailers_alone :
    let a : Answer := ⟨200, [], [], [(wireStatus, "5".toList), (wireMessage, "no such user".toList)]⟩
    rpcStatus a = some "5".toList ∧ execute bytesLib (fun _ => some a) plainOp ⟨[], [], []⟩ = .error .empty ∧
      extensions .empty = [] := by
  exact ⟨by decide +kernel, rfl, rfl⟩

/-- **C125 (violated by bytes).** A status that is not ASCII is taken for success. -/
theorem C125_violated_by_bytes :
    let a : Answer := ⟨200, [(wireStatus, "1é".toList)], [0, 0, 0, 0, 1, 7], []⟩
    ¬ Succeeded a ∧ ∃ res, execute bytesLib (fun _ => some a) plainOp ⟨[], [], []⟩ = .ok res ∧
      res.body = .list [.int 7] := by
  refine ⟨?_, ⟨200, [(wireStatus, "1é".toList)], .list [.int 7]⟩, rfl, rfl⟩
  unfold Succeeded
  decide +kernel

/-- **C125 (violated by codes).** A code that is not defined is reported as another, UNKNOWN. -/
theorem C125_violated_by_codes :
    let a : Answer := ⟨200, [(wireStatus, "42".toList)], [], []⟩
    ∃ e, execute bytesLib (fun _ => some a) plainOp ⟨[], [], []⟩ = .error e ∧
      get (extensions e) "grpcCode".toList = some (.int 2) := by
  exact ⟨_, rfl, rfl⟩

/-- A status with one detail, for the case below. -/
def detailLib : Lib := { bytesLib with
  status := fun _ => some ⟨3, "bad".toList, [("type.googleapis.com/google.rpc.BadRequest".toList, [1])]⟩ }

/-- **C125 (violated by details).** A detail whose type is in none of the proto files is left out. -/
theorem C125_violated_by_details :
    let a : Answer := ⟨200, [(wireStatus, "3".toList), (wireDetails, "CAM=".toList)], [], []⟩
    ∃ e, execute detailLib (fun _ => some a) plainOp ⟨[], [], []⟩ = .error e ∧
      get (extensions e) "grpcStatusDetails".toList =
        some (.obj [("code".toList, .int 3), ("message".toList, .str "bad".toList), ("details".toList, .list [])]) := by
  exact ⟨_, rfl, rfl⟩

end Verif.Grpc
