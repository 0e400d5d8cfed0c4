import Verif.HttpUrl.Model

/-!
# Model of `MergeRight`

Models `src/core/merge_right.rs`, the derive macro `tailcall-macros/src/merge_right.rs`, the primitive
implementation `src/core/primitive.rs`, `src/core/config/key_values.rs` (`merge_key_value_vecs`) and the
configuration structs that derive or implement `MergeRight`.
-/

namespace Verif.Merge
open Verif.Mustache (Text)
open Verif.HttpUrl (GVal)

/-! ## Leaves -/

/-- `src/core/primitive.rs:25-29` (`impl<A: Primitive> MergeRight for A`), and the derive macro for enums
and unit structs, `tailcall-macros/src/merge_right.rs:64-75, 141-148`; also `Field`
(`src/core/config/config.rs:228-233`) and `FileDescriptorProto` (`src/core/merge_right.rs:110-114`):
the right value replaces the left one. -/
def right {α : Type} (_this other : α) : α := other

/-- `src/core/merge_right.rs:10-19` (`Option<A>`). -/
def mergeOpt {α : Type} (mv : α → α → α) : Option α → Option α → Option α
  | some this, some that => some (mv this that)
  | none, some that => some that
  | some this, none => some this
  | none, none => none

/-- `src/core/merge_right.rs:21-26` (`Vec<A>`); also `FileDescriptorSet`
(`src/core/config/config_module.rs:169-175`). -/
def mergeVec {α : Type} (this other : List α) : List α := this ++ other

/-! ## Ordered maps and sets -/

/-- The order of Rust `String`s: bytewise, which for UTF-8 is the order of the code points. (Standard
library, used by `BTreeMap<String, _>` at `src/core/merge_right.rs:48-63`.) -/
def tlt : Text → Text → Bool
  | [], [] => false
  | [], _ :: _ => true
  | _ :: _, [] => false
  | a :: s, b :: t => if a.toNat < b.toNat then true else if b.toNat < a.toNat then false else tlt s t

/-- Lookup in an association list (`BTreeMap::get`, `IndexMap::get`; standard library)
(used at src/core/config/key_values.rs:33-47 and src/core/merge_right.rs:48-108). -/
def get {V : Type} (k : Text) : List (Text × V) → Option V
  | [] => none
  | (k', v) :: r => if k' = k then some v else get k r

/-- `BTreeMap::insert` on the sorted list of entries (standard library, used at
`src/core/merge_right.rs:59`). -/
def insert {V : Type} (k : Text) (v : V) : List (Text × V) → List (Text × V)
  | [] => [(k, v)]
  | (k', v') :: r =>
    if k' = k then (k, v) :: r
    else if tlt k k' then (k, v) :: (k', v') :: r
    else (k', v') :: insert k v r

/-- `BTreeMap::remove` on the sorted list of entries (standard library, used at
`src/core/merge_right.rs:55`). -/
def remove {V : Type} (k : Text) : List (Text × V) → List (Text × V)
  | [] => []
  | (k', v) :: r => if k' = k then r else (k', v) :: remove k r

/-- The keys are in strictly increasing order (invariant of `BTreeMap`, src/core/merge_right.rs:48-63). -/
def Sorted {V : Type} (m : List (Text × V)) : Prop := m.Pairwise (fun a b => tlt a.1 b.1 = true)

/-- The loop of `BTreeMap::merge_right`, `src/core/merge_right.rs:53-62`, and of `HashMap::merge_right`,
70-79. -/
def mergeEntries {V : Type} (mv : V → V → V) : List (Text × V) → List (Text × V) → List (Text × V)
  | this, [] => this
  | this, (k, v) :: rest =>
    let v' := match get k this with
      | some old => mv old v
      | none => v
    mergeEntries mv (insert k v' (remove k this)) rest

/-- A `BTreeMap<String, V>`: its entries, sorted by key. Also used for `HashMap<String, V>`, whose
iteration order is not observable, so that the sorted list is a canonical representative
(src/core/merge_right.rs:48-63). -/
structure BMap (V : Type) where
  entries : List (Text × V)
  sorted : Sorted entries

/-- `src/core/merge_right.rs:28-46` (`BTreeSet<V>`, `HashSet<V>`: `extend`). Simplified: a set of strings
is the sorted association list of its members with `()`; inserting a member that is present changes
nothing. -/
abbrev BSet := BMap Unit

/-- `src/core/config/key_values.rs:24-27` (`KeyValue`). -/
structure KeyValue where
  key : Text
  value : Text
  deriving DecidableEq, Repr

/-- The two loops of `merge_key_value_vecs`, `src/core/config/key_values.rs:36-42`. -/
def insertAll : List KeyValue → List (Text × Text) → List (Text × Text)
  | [], res => res
  | kv :: rest, res => insertAll rest (insert kv.key kv.value res)

/-- `src/core/config/key_values.rs:33-47` (`merge_key_value_vecs`) and
`src/core/config/directives/server.rs:161-164` (`merge_right_vars`). -/
def mergeKeyValueVecs (current other : List KeyValue) : List KeyValue :=
  (insertAll other (insertAll current [])).map (fun (k, v) => { key := k, value := v })

/-! ## Insertion-ordered maps -/

/-- `IndexMap::entry(k)`, then either merge in place or append: the body of the loop at
`src/core/merge_right.rs:90-105`. -/
def upsert {V : Type} (mv : V → V → V) (k : Text) (v : V) : List (Text × V) → List (Text × V)
  | [] => [(k, v)]
  | (k', v') :: r => if k' = k then (k', mv v' v) :: r else (k', v') :: upsert mv k v r

/-- `src/core/merge_right.rs:82-108` (`IndexMap<K, V>`): keys of the left map keep their position, keys only
on the right are appended in the right map's order. -/
def mergeIndex {V : Type} (mv : V → V → V) : List (Text × V) → List (Text × V) → List (Text × V)
  | this, [] => this
  | this, (k, v) :: rest => mergeIndex mv (upsert mv k v this) rest

/-! ## `ConstValue` -/

mutual
/-- `src/core/merge_right.rs:116-129` (`ConstValue`). -/
def mergeConst (this : GVal) : GVal → GVal
  | .list b => match this with
    | .list a => .list (a ++ b)
    | _ => .list b
  | .obj b => match this with
    | .list a => .list (a ++ [.obj b])
    | .obj a => .obj (mergeConstKvs a b)
    | _ => .obj b
  | other => match this with
    | .list a => .list (a ++ [other])
    | _ => other
/-- `IndexMap<Name, ConstValue>::merge_right` (`src/core/merge_right.rs:82-108`) at the type used by
`ConstValue::Object`; same loop as `mergeIndex`, written out because the two functions call each other. -/
def mergeConstKvs (this : List (Text × GVal)) : List (Text × GVal) → List (Text × GVal)
  | [] => this
  | (k, v) :: rest => mergeConstKvs (
      match get k this with
      | some old => setKey k (mergeConst old v) this
      | none => this ++ [(k, v)]) rest
/-- Overwrite the value of an occupied entry (`*occupied_entry.get_mut() = …`,
`src/core/merge_right.rs:99`). -/
def setKey (k : Text) (v : GVal) : List (Text × GVal) → List (Text × GVal)
  | [] => []
  | (k', v') :: r => if k' = k then (k', v) :: r else (k', v') :: setKey k v r
end

/-! ## `serde_yaml_ng::Value` -/

/-- `serde_yaml_ng::Value`. Simplified: numbers are their text, mapping keys are strings
(external crate, used at src/core/merge_right.rs:131-176). -/
inductive YVal where
  | null
  | bool (b : Bool)
  | num (printed : Text)
  | str (s : Text)
  | seq (l : List YVal)
  | map (kvs : List (Text × YVal))
  | tagged (tag : Text) (v : YVal)
  deriving Repr

/-- Removing a key from a mapping, `src/core/merge_right.rs:150`. Simplified: the library swaps the last
entry into the gap; here the order of the others is kept (mappings are compared without order). -/
def yremove (k : Text) : List (Text × YVal) → List (Text × YVal)
  | [] => []
  | (k', v) :: r => if k' = k then r else (k', v) :: yremove k r

mutual
/-- `src/core/merge_right.rs:131-176` (`serde_yaml_ng::Value`). -/
def mergeYaml (this : YVal) : YVal → YVal
  | .seq rhs => match this with
    | .seq lhs => .seq (lhs ++ rhs)
    | .map lhs => .seq (rhs ++ [.map lhs])
    | _ => .seq rhs
  | .map rhs => match this with
    | .seq lhs => .seq (lhs ++ [.map rhs])
    | .map lhs => .map (mergeYamlKvs lhs rhs)
    | _ => .map rhs
  | .tagged t v => match this with
    | .seq lhs => .seq (lhs ++ [.tagged t v])
    | .tagged t' v' => if t' = t then .tagged t' (mergeYaml v' v) else .tagged t v
    | _ => .tagged t v
  | other => match this with
    | .seq lhs => .seq (lhs ++ [other])
    | _ => other
/-- The loop over the right mapping, `src/core/merge_right.rs:149-154`. -/
def mergeYamlKvs (lhs : List (Text × YVal)) : List (Text × YVal) → List (Text × YVal)
  | [] => lhs
  | (k, v) :: rest => mergeYamlKvs (
      yremove k lhs ++ [(k, match get k lhs with
        | some old => mergeYaml old v
        | none => v)]) rest
end

/-! ## Configuration structs -/

/-- Things that merging only copies or compares (links, directives, added fields, resolvers, exporters,
certificates, endpoints): their printed form (e.g. src/core/config/config.rs:66-102). -/
abbrev Opaque := Text

/-- `BTreeMap::merge_right` (`src/core/merge_right.rs:48-63`). The proof that the result is sorted is
supplied by `Verif.Merge.sorted_mergeEntries`. -/
def BMap.mergeWith {V : Type} (mv : V → V → V) (a b : BMap V)
    (h : ∀ x y : List (Text × V), Sorted x → Sorted (mergeEntries mv x y)) : BMap V :=
  ⟨mergeEntries mv a.entries b.entries, h _ _ a.sorted⟩

theorem tlt_irrefl (a : Text) : tlt a a = false := by
  induction a with
  | nil => rfl
  | cons c s ih => simp [tlt, ih]

theorem tlt_trans {a b c : Text} (h1 : tlt a b = true) (h2 : tlt b c = true) : tlt a c = true := by
  induction a generalizing b c with
  | nil => cases b with
    | nil => simp [tlt] at h1
    | cons y t => cases c with
      | nil => simp [tlt] at h2
      | cons z u => rfl
  | cons x s ih => cases b with
    | nil => simp [tlt] at h1
    | cons y t => cases c with
      | nil => simp [tlt] at h2
      | cons z u =>
        simp only [tlt] at *
        by_cases hxy : x.toNat < y.toNat <;> by_cases hyx : y.toNat < x.toNat <;>
          by_cases hyz : y.toNat < z.toNat <;> by_cases hzy : z.toNat < y.toNat <;>
          by_cases hxz : x.toNat < z.toNat <;> by_cases hzx : z.toNat < x.toNat <;>
          simp_all <;> first | omega | exact ih h1 h2 | exact .inr (ih h1 h2)

theorem tlt_tri {a b : Text} (h : a ≠ b) (h' : tlt a b = false) : tlt b a = true := by
  induction a generalizing b with
  | nil => cases b with
    | nil => exact absurd rfl h
    | cons y t => simp [tlt] at h'
  | cons x s ih => cases b with
    | nil => rfl
    | cons y t =>
      simp only [tlt] at *
      by_cases hxy : x.toNat < y.toNat
      · simp [hxy] at h'
      · by_cases hyx : y.toNat < x.toNat
        · simp [hyx]
        · have : x = y := by
            apply Char.toNat_inj.mp; omega
          subst this
          simp at h h' ⊢
          exact ih h h'

theorem sorted_insert {V : Type} {k : Text} {v : V} {m : List (Text × V)} (h : Sorted m) :
    Sorted (insert k v m) := by
  induction m with
  | nil => simp [insert, Sorted]
  | cons p r ih =>
    obtain ⟨k', v'⟩ := p
    simp only [Sorted, List.pairwise_cons] at h
    unfold insert
    split
    · rename_i e; subst e
      simp only [Sorted, List.pairwise_cons]
      exact h
    · split
      · rename_i hlt
        simp only [Sorted, List.pairwise_cons, List.mem_cons]
        refine ⟨?_, h⟩
        rintro q (rfl | hq)
        · exact hlt
        · exact tlt_trans hlt (h.1 q hq)
      · rename_i hne hlt
        simp only [Sorted, List.pairwise_cons]
        refine ⟨?_, ih h.2⟩
        intro q hq
        have hmem : q = (k, v) ∨ q ∈ r := by
          clear ih h hlt hne
          induction r with
          | nil => simp [insert] at hq; exact .inl hq
          | cons p' r' ih' =>
            obtain ⟨k'', v''⟩ := p'
            unfold insert at hq
            split at hq
            · simp at hq; rcases hq with h | h
              · exact .inl h
              · exact .inr (by simp [h])
            · split at hq
              · simp at hq; rcases hq with h | h | h
                · exact .inl h
                · exact .inr (by simp [h])
                · exact .inr (by simp [h])
              · simp at hq; rcases hq with h | h
                · exact .inr (by simp [h])
                · rcases ih' h with h | h
                  · exact .inl h
                  · exact .inr (by simp [h])
        rcases hmem with rfl | hq
        · exact tlt_tri (fun e => hne e.symm) (by simpa using hlt)
        · exact h.1 q hq

theorem sorted_remove {V : Type} {k : Text} {m : List (Text × V)} (h : Sorted m) :
    Sorted (remove k m) := by
  have sub : ∀ m : List (Text × V), (remove k m).Sublist m := by
    intro m
    induction m with
    | nil => exact .slnil
    | cons p r ih =>
      obtain ⟨k', v'⟩ := p
      unfold remove
      split
      · exact List.sublist_cons_self _ _
      · exact ih.cons_cons _
  exact List.Pairwise.sublist (sub m) h

theorem sorted_mergeEntries {V : Type} (mv : V → V → V) (a b : List (Text × V)) (h : Sorted a) :
    Sorted (mergeEntries mv a b) := by
  induction b generalizing a with
  | nil => exact h
  | cons p r ih => exact ih _ (sorted_insert (sorted_remove h))

/-- `BTreeMap::merge_right` and `HashMap::merge_right`, `src/core/merge_right.rs:48-80`. -/
def BMap.merge {V : Type} (mv : V → V → V) (a b : BMap V) : BMap V :=
  a.mergeWith mv b (fun x y => sorted_mergeEntries mv x y)

/-- `BTreeSet::merge_right`, `src/core/merge_right.rs:28-36`. -/
def BSet.merge (a b : BSet) : BSet := BMap.merge right a b

/-- The empty map (`Default` of the maps in src/core/config/config.rs:66-102). -/
def BMap.empty {V : Type} : BMap V := ⟨[], List.Pairwise.nil⟩

/-- `src/core/config/cors.rs:8-62` (`Cors`); methods are their names. -/
structure Cors where
  allowCredentials : Option Bool := none
  allowHeaders : List Text := []
  allowMethods : List Text := []
  allowOrigins : List Text := []
  allowPrivateNetwork : Option Bool := none
  exposeHeaders : List Text := []
  maxAge : Option Nat := none
  vary : List Text := []
  deriving DecidableEq, Repr

/-- Derived `MergeRight for Cors`, `src/core/config/cors.rs:10`. -/
def Cors.merge (a b : Cors) : Cors where
  allowCredentials := mergeOpt right a.allowCredentials b.allowCredentials
  allowHeaders := mergeVec a.allowHeaders b.allowHeaders
  allowMethods := mergeVec a.allowMethods b.allowMethods
  allowOrigins := mergeVec a.allowOrigins b.allowOrigins
  allowPrivateNetwork := mergeOpt right a.allowPrivateNetwork b.allowPrivateNetwork
  exposeHeaders := mergeVec a.exposeHeaders b.exposeHeaders
  maxAge := mergeOpt right a.maxAge b.maxAge
  vary := mergeVec a.vary b.vary

/-- `src/core/config/headers.rs:10-39` (`Headers`). -/
structure Headers where
  cacheControl : Option Bool := none
  custom : List KeyValue := []
  experimental : Option BSet := none
  setCookies : Option Bool := none
  cors : Option Cors := none

/-- Derived `MergeRight for Headers`, `src/core/config/headers.rs:11`. -/
def Headers.merge (a b : Headers) : Headers where
  cacheControl := mergeOpt right a.cacheControl b.cacheControl
  custom := mergeVec a.custom b.custom
  experimental := mergeOpt BSet.merge a.experimental b.experimental
  setCookies := mergeOpt right a.setCookies b.setCookies
  cors := mergeOpt Cors.merge a.cors b.cors

/-- `src/core/config/directives/server.rs:129-135` (`Routes`). -/
structure Routes where
  status : Text
  graphql : Text
  deriving DecidableEq, Repr

/-- Derived `MergeRight for Routes`, `src/core/config/directives/server.rs:129`. -/
def Routes.merge (a b : Routes) : Routes where
  status := right a.status b.status
  graphql := right a.graphql b.graphql

/-- `src/core/config/directives/server.rs:166-170` (`ScriptOptions`). -/
structure ScriptOptions where
  timeout : Option Nat := none
  deriving DecidableEq, Repr

/-- Derived `MergeRight for ScriptOptions`, `src/core/config/directives/server.rs:166`. -/
def ScriptOptions.merge (a b : ScriptOptions) : ScriptOptions where
  timeout := mergeOpt right a.timeout b.timeout

/-- `src/core/config/directives/server.rs:30-127` (`Server`); the HTTP version is its name. -/
structure Server where
  enableJit : Option Bool := none
  apolloTracing : Option Bool := none
  batchRequests : Option Bool := none
  headers : Option Headers := none
  globalResponseTimeout : Option Int := none
  hostname : Option Text := none
  introspection : Option Bool := none
  enableFederation : Option Bool := none
  pipelineFlush : Option Bool := none
  port : Option Nat := none
  queryValidation : Option Bool := none
  responseValidation : Option Bool := none
  script : Option ScriptOptions := none
  showcase : Option Bool := none
  vars : List KeyValue := []
  version : Option Text := none
  workers : Option Nat := none
  routes : Option Routes := none

/-- Derived `MergeRight for Server`, `src/core/config/directives/server.rs:22`, with
`#[merge_right(merge_right_fn = "merge_right_vars")]` on `vars` (104). -/
def Server.merge (a b : Server) : Server where
  enableJit := mergeOpt right a.enableJit b.enableJit
  apolloTracing := mergeOpt right a.apolloTracing b.apolloTracing
  batchRequests := mergeOpt right a.batchRequests b.batchRequests
  headers := mergeOpt Headers.merge a.headers b.headers
  globalResponseTimeout := mergeOpt right a.globalResponseTimeout b.globalResponseTimeout
  hostname := mergeOpt right a.hostname b.hostname
  introspection := mergeOpt right a.introspection b.introspection
  enableFederation := mergeOpt right a.enableFederation b.enableFederation
  pipelineFlush := mergeOpt right a.pipelineFlush b.pipelineFlush
  port := mergeOpt right a.port b.port
  queryValidation := mergeOpt right a.queryValidation b.queryValidation
  responseValidation := mergeOpt right a.responseValidation b.responseValidation
  script := mergeOpt ScriptOptions.merge a.script b.script
  showcase := mergeOpt right a.showcase b.showcase
  vars := mergeKeyValueVecs a.vars b.vars
  version := mergeOpt right a.version b.version
  workers := mergeOpt right a.workers b.workers
  routes := mergeOpt Routes.merge a.routes b.routes

/-- `src/core/config/directives/upstream.rs:12-21` (`Batch`). -/
structure Batch where
  delay : Nat
  headers : BSet
  maxSize : Option Nat

/-- `src/core/config/directives/upstream.rs:22-30` (`Batch::default`), which is also what an absent field
of a written `batch` gets (`#[serde(default)]`, line 15). -/
def Batch.default : Batch := { delay := 0, headers := BMap.empty, maxSize := some 100 }

/-- Derived `MergeRight for Batch`, `src/core/config/directives/upstream.rs:13`. -/
def Batch.merge (a b : Batch) : Batch where
  delay := right a.delay b.delay
  headers := BSet.merge a.headers b.headers
  maxSize := mergeOpt right a.maxSize b.maxSize

/-- `src/core/config/directives/upstream.rs:32-35` (`Proxy`). -/
structure Proxy where
  url : Text
  deriving DecidableEq, Repr

/-- Derived `MergeRight for Proxy`, `src/core/config/directives/upstream.rs:32`. -/
def Proxy.merge (a b : Proxy) : Proxy where
  url := right a.url b.url

/-- `src/core/config/directives/upstream.rs:57-150` (`Upstream`); the defaults are those of
`Upstream::default()`. -/
structure Upstream where
  onRequest : Option Text := none
  allowedHeaders : Option BSet := none
  batch : Option Batch := none
  connectTimeout : Option Nat := none
  httpCache : Option Nat := none
  http2Only : Option Bool := none
  keepAliveInterval : Option Nat := none
  keepAliveTimeout : Option Nat := none
  keepAliveWhileIdle : Option Bool := none
  poolMaxIdlePerHost : Option Nat := none
  poolIdleTimeout : Option Nat := none
  proxy : Option Proxy := none
  tcpKeepAlive : Option Nat := none
  timeout : Option Nat := none
  userAgent : Option Text := none
  verifySsl : Option Bool := none

/-- Derived `MergeRight for Upstream`, `src/core/config/directives/upstream.rs:47`. -/
def Upstream.merge (a b : Upstream) : Upstream where
  onRequest := mergeOpt right a.onRequest b.onRequest
  allowedHeaders := mergeOpt BSet.merge a.allowedHeaders b.allowedHeaders
  batch := mergeOpt Batch.merge a.batch b.batch
  connectTimeout := mergeOpt right a.connectTimeout b.connectTimeout
  httpCache := mergeOpt right a.httpCache b.httpCache
  http2Only := mergeOpt right a.http2Only b.http2Only
  keepAliveInterval := mergeOpt right a.keepAliveInterval b.keepAliveInterval
  keepAliveTimeout := mergeOpt right a.keepAliveTimeout b.keepAliveTimeout
  keepAliveWhileIdle := mergeOpt right a.keepAliveWhileIdle b.keepAliveWhileIdle
  poolMaxIdlePerHost := mergeOpt right a.poolMaxIdlePerHost b.poolMaxIdlePerHost
  poolIdleTimeout := mergeOpt right a.poolIdleTimeout b.poolIdleTimeout
  proxy := mergeOpt Proxy.merge a.proxy b.proxy
  tcpKeepAlive := mergeOpt right a.tcpKeepAlive b.tcpKeepAlive
  timeout := mergeOpt right a.timeout b.timeout
  userAgent := mergeOpt right a.userAgent b.userAgent
  verifySsl := mergeOpt right a.verifySsl b.verifySsl

/-- What a written `@upstream` gets for `verifySSL` when it does not mention it
(`#[serde(default = "default_verify_ssl")]`, `src/core/config/directives/upstream.rs:139-143`;
`default_verify_ssl` is `src/core/mod.rs:64-66`). -/
def Upstream.written (u : Upstream) : Upstream :=
  { u with verifySsl := some (u.verifySsl.getD true) }

/-- `src/core/config/directives/upstream.rs:201-203` (`get_verify_ssl`). -/
def Upstream.getVerifySsl (u : Upstream) : Bool := u.verifySsl.getD true

/-- `src/core/config/directives/upstream.rs:184-186` (`get_delay`). -/
def Upstream.getDelay (u : Upstream) : Nat := (u.batch.getD Batch.default).delay

/-- `src/core/config/directives/upstream.rs:188-192` (`get_max_size`). -/
def Upstream.getMaxSize (u : Upstream) : Nat :=
  match u.batch with
  | none => 100
  | some b => b.maxSize.getD 100

/-- `src/core/config/config.rs:169-175` (`RootSchema`). -/
structure RootSchema where
  query : Option Text := none
  mutation : Option Text := none
  subscription : Option Text := none
  deriving DecidableEq, Repr

/-- Derived `MergeRight for RootSchema`, `src/core/config/config.rs:169`. -/
def RootSchema.merge (a b : RootSchema) : RootSchema where
  query := mergeOpt right a.query b.query
  mutation := mergeOpt right a.mutation b.mutation
  subscription := mergeOpt right a.subscription b.subscription

/-- `src/core/config/resolver.rs:144-154` (`MergeRight for ResolverSet`): append what is not there yet. -/
def mergeResolvers : List Opaque → List Opaque → List Opaque
  | this, [] => this
  | this, r :: rest => mergeResolvers (if r ∈ this then this else this ++ [r]) rest

/-- `src/core/config/directives/protected.rs` (`Protected`), derived `MergeRight`. -/
structure Protected where
  id : Option (List Text) := none
  deriving DecidableEq, Repr

/-- Derived `MergeRight for Protected`, `src/core/config/directives/protected.rs:26`. -/
def Protected.merge (a b : Protected) : Protected where
  id := mergeOpt mergeVec a.id b.id

/-- `src/core/config/config.rs:107-133` (`Type`). Simplified: a field definition is opaque, because
merging replaces it as a whole (`config.rs:228-233`). `cache` is its only setting, the maximum age. -/
structure TypeDef where
  fields : BMap Opaque := BMap.empty
  addedFields : List Opaque := []
  doc : Option Text := none
  implements : BSet := BMap.empty
  cache : Option Nat := none
  protected_ : Option Protected := none
  resolvers : List Opaque := []
  directives : List Opaque := []

/-- Derived `MergeRight for Type`, `src/core/config/config.rs:107`. -/
def TypeDef.merge (a b : TypeDef) : TypeDef where
  fields := BMap.merge right a.fields b.fields
  addedFields := mergeVec a.addedFields b.addedFields
  doc := mergeOpt right a.doc b.doc
  implements := BSet.merge a.implements b.implements
  cache := mergeOpt right a.cache b.cache
  protected_ := mergeOpt Protected.merge a.protected_ b.protected_
  resolvers := mergeResolvers a.resolvers b.resolvers
  directives := mergeVec a.directives b.directives

/-- `src/core/config/config.rs:287-298` (`Union`, `Enum`): a set of names and a documentation string.
Simplified: an enum variant is the text of its name and alias. -/
structure Members where
  names : BSet := BMap.empty
  doc : Option Text := none

/-- Derived `MergeRight for Union` and `for Enum`, `src/core/config/config.rs:287, 293`. -/
def Members.merge (a b : Members) : Members where
  names := BSet.merge a.names b.names
  doc := mergeOpt right a.doc b.doc

/-- `src/core/config/directives/telemetry.rs:88-96` (`Telemetry`). -/
structure Telemetry where
  exporter : Option Opaque := none
  requestHeaders : List Text := []
  deriving DecidableEq, Repr

/-- `src/core/config/directives/telemetry.rs:100-110` (`Telemetry::merge_right`); the exporter is an enum,
for which the derived merge takes the right one. -/
def Telemetry.merge (a b : Telemetry) : Telemetry where
  exporter := match a.exporter, b.exporter with
    | none, none => none
    | none, some e => some e
    | some e, none => some e
    | some l, some r => some (right l r)
  requestHeaders := a.requestHeaders ++ b.requestHeaders

/-- `src/core/config/config.rs:65-101` (`Config`). -/
structure Config where
  server : Server := {}
  upstream : Upstream := {}
  schema : RootSchema := {}
  types : BMap TypeDef := BMap.empty
  unions : BMap Members := BMap.empty
  enums : BMap Members := BMap.empty
  links : List Opaque := []
  telemetry : Telemetry := {}

/-- Derived `MergeRight for Config`, `src/core/config/config.rs:65`. -/
def Config.merge (a b : Config) : Config where
  server := Server.merge a.server b.server
  upstream := Upstream.merge a.upstream b.upstream
  schema := RootSchema.merge a.schema b.schema
  types := BMap.merge TypeDef.merge a.types b.types
  unions := BMap.merge Members.merge a.unions b.unions
  enums := BMap.merge Members.merge a.enums b.enums
  links := mergeVec a.links b.links
  telemetry := Telemetry.merge a.telemetry b.telemetry

/-- `src/core/config/config_module.rs:130-151` (`Extensions`). -/
structure Extensions where
  grpcFileDescriptors : BMap Opaque := BMap.empty
  script : Option Text := none
  cert : List Opaque := []
  keys : List Opaque := []
  endpoints : List Opaque := []
  htpasswd : List Opaque := []
  jwks : List Opaque := []

/-- Derived `MergeRight for Extensions`, `src/core/config/config_module.rs:130`; `EndpointSet` is derived
too (`src/core/rest/endpoint_set.rs:15`). -/
def Extensions.merge (a b : Extensions) : Extensions where
  grpcFileDescriptors := BMap.merge right a.grpcFileDescriptors b.grpcFileDescriptors
  script := mergeOpt right a.script b.script
  cert := mergeVec a.cert b.cert
  keys := mergeVec a.keys b.keys
  endpoints := mergeVec a.endpoints b.endpoints
  htpasswd := mergeVec a.htpasswd b.htpasswd
  jwks := mergeVec a.jwks b.jwks

end Verif.Merge
