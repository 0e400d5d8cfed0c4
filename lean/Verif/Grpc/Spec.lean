import Verif.Grpc.Model

/-!
# What gRPC calls should do, independently of the model of the program
-/

namespace Verif.Grpc

open Verif.Mustache (Text)
open Verif.HttpUrl (GVal intText)
open Verif.Transform (get)

/-- Reading one frame as the gRPC protocol prescribes: the flag of compression, the message of the given
length, and what comes after it. -/
def unframe : List UInt8 → Option (UInt8 × List UInt8 × List UInt8)
  | flag :: a :: b :: c :: d :: rest =>
    let n := ((a.toNat * 256 + b.toNat) * 256 + c.toNat) * 256 + d.toNat
    if n ≤ rest.length then some (flag, rest.take n, rest.drop n) else none
  | _ => none

/-- The name of the status in the protocol. -/
def wireStatus : Text := "grpc-status".toList

/-- The name of the message in the protocol. -/
def wireMessage : Text := "grpc-message".toList

/-- The name of the details in the protocol. -/
def wireDetails : Text := "grpc-status-details-bin".toList

/-- The status of an answer as the protocol prescribes: it is in the trailers, or in the headers when there
is nothing else. -/
def rpcStatus (a : Answer) : Option Text := (get a.trailers wireStatus).or (get a.headers wireStatus)

/-- A call has succeeded: its status is 0 (or there is none, as of proxies that leave it out). -/
def Succeeded (a : Answer) : Prop := rpcStatus a = none ∨ rpcStatus a = some ['0']

/-- An upstream that offers the method `f`: it reads one message from one frame that is not compressed, and
answers the result in another, which is not compressed either; its status is in the trailers. -/
def Offers (lib : Lib) (op : Op) (f : PVal → PVal) (up : Req → Option Answer) : Prop :=
  ∀ r p m, unframe r.body = some (0, p, []) → lib.decode op.input.name p = some m →
    ∃ a, up r = some a ∧ a.status = 200 ∧ Succeeded a ∧ get a.headers wireStatus = none ∧
      unframe a.body = some (0, lib.encode (f m), [])

/-- `k` is the last part of the path, followed by JSON names through messages and through the elements of
lists, and `e` is the message that it is a field of. -/
inductive Leads : PVal → List Text → PVal → PVal → Prop
  | last {fs : List ((Text × Text) × PVal)} {n j : Text} {v : PVal} :
      fs.find? (fun f => f.1.2 = j) = some ((n, j), v) → Leads (.msg fs) [j] v (.msg fs)
  | step {fs : List ((Text × Text) × PVal)} {n j t : Text} {p : List Text} {v k e : PVal} :
      fs.find? (fun f => f.1.2 = j) = some ((n, j), v) → Leads v (t :: p) k e → Leads (.msg fs) (j :: t :: p) k e
  | item {l : List PVal} {v k e : PVal} {p : List Text} :
      v ∈ l → Leads v p k e → Leads (.list l) p k e

/-- Two values that can be compared as keys: integers of one size, or texts. -/
def Comparable : PVal → PVal → Prop
  | .i32 a, .i32 b => a.natAbs ≤ 2 ^ 31 ∧ b.natAbs ≤ 2 ^ 31
  | .u32 a, .u32 b => a < 2 ^ 32 ∧ b < 2 ^ 32
  | .i64 _, .i64 _ => True
  | .u64 _, .u64 _ => True
  | .str _, .str _ => True
  | _, _ => False

/-- A detail of an error, and what a client should get to know of it. -/
def DetailOf (lib : Lib) (op : Op) (d : Text × List UInt8) (v : GVal) : Prop :=
  ∃ name t m, '/' ∉ name ∧ (d.1 = name ∨ ∃ pre, d.1 = pre ++ '/' :: name) ∧ get op.pool name = some t ∧
    lib.decode t.name d.2 = some m ∧ v = json m

/-- All details of an error whose types are known, in their order. -/
inductive AllDetails (lib : Lib) (op : Op) : List (Text × List UInt8) → List GVal → Prop
  | nil : AllDetails lib op [] []
  | cons {d : Text × List UInt8} {v : GVal} {ds : List (Text × List UInt8)} {vs : List GVal} :
      DetailOf lib op d v → AllDetails lib op ds vs → AllDetails lib op (d :: ds) (v :: vs)
  | skip {d : Text × List UInt8} {ds : List (Text × List UInt8)} {vs : List GVal} :
      (∀ v, ¬ DetailOf lib op d v) → AllDetails lib op ds vs → AllDetails lib op (d :: ds) vs

/-- The value of a field of a message by its name, which is the default value of the field if the message has none. -/
def KeyOf (d : Desc) (m : PVal) (n : Text) (k : PVal) : Prop :=
  ∃ f ∈ d.fields, f.name = n ∧
    ((∃ pre j post, m = .msg (pre ++ ((n, j), k) :: post) ∧ ∀ x ∈ pre, x.1.1 ≠ n) ∨
      ((∀ fs, m = .msg fs → ∀ x ∈ fs, x.1.1 ≠ n) ∧ k = f.dflt))

end Verif.Grpc
