import Verif.Merge.Model
import Verif.Exec.Model

/-!
# The search for paths that issue N + 1 calls

Model of `src/core/config/npo/tracker.rs`, which is what `tailcall check` and `tailcall start`
report (`src/cli/fmt.rs:24-35`).
-/

namespace Verif.Npo

open Verif.Mustache (Text)
open Verif.Exec (Ty)
open Verif.Merge (get)

/-- `Resolver` (config/resolver.rs:31-41).  Only what `is_batched` reads is kept: the batch key of
`@http` and `@grpc`, the flag of `@graphQL`, and the resolvers of an entity resolver by type. -/
inductive Resolver where
  | http (batchKey : List Text)
  | grpc (batchKey : List Text)
  | graphql (batch : Bool)
  | call
  | js
  | expr
  | service
  | entity (byType : List (Text × Resolver))

mutual
/-- `Resolver::is_batched` (config/resolver.rs:44-57). -/
def Resolver.isBatched : Resolver → Bool
  | .http k => !k.isEmpty
  | .grpc k => !k.isEmpty
  | .graphql b => b
  | .entity m => anyBatched m
  | _ => false
/-- `.values().any(Resolver::is_batched)` (config/resolver.rs:50-53). -/
def anyBatched : List (Text × Resolver) → Bool
  | [] => false
  | (_, r) :: rest => r.isBatched || anyBatched rest
end

/-- `ResolverSet` (config/resolver.rs:60-62). -/
abbrev RSet := List Resolver

/-- `ResolverSet::has_resolver` (config/resolver.rs:64-66). -/
def hasResolver (s : RSet) : Bool := !s.isEmpty

/-- `ResolverSet::is_batched` (config/resolver.rs:68-74). -/
def isBatched (s : RSet) : Bool := if s.isEmpty then false else s.all Resolver.isBatched

/-- `Field` (config/config.rs:182-226): its type and its resolvers. -/
structure Field where
  ty : Ty
  resolvers : RSet

/-- `Type` (config/config.rs:108-133): its fields in the order of the map, the interfaces it
implements and its resolvers. -/
structure Typ where
  fields : List (Text × Field)
  implements : List Text
  resolvers : RSet

/-- `Config` (config/config.rs:66-102): the types of the root operations, the types and the
members of the unions, in the order of the maps. -/
structure Config where
  query : Option Text
  mutation : Option Text
  types : List (Text × Typ)
  unions : List (Text × List Text)

/-- `Name` (npo/tracker.rs:103-106). -/
inductive Seg where
  | field (name : Text)
  | entity (name : Text)
  deriving DecidableEq, Repr

/-- `Chunk<Chunk<Name>>` (npo/tracker.rs:131-136).  The chunk of the crate `tailcall-chunk` is a
list here: `append` and `concat` put at the end, `prepend` at the front. -/
abbrev Paths := List (List Seg)

/-- The keys and entries of the cache (npo/tracker.rs:123-128); the entry put in last counts. -/
abbrev Cache := List ((Text × Bool) × Paths)

/-- `HashMap::get` on the cache (standard library; npo/tracker.rs:141). -/
def look (k : Text × Bool) : Cache → Option Paths
  | [] => none
  | (k', v) :: rest => if k' = k then some v else look k rest

/-- The loop over the fields of a type (npo/tracker.rs:149-162), given the recursive call. -/
def walk (visit : Cache → Seg → Text → Bool → Option (Paths × Cache)) (isList : Bool) :
    List (Text × Field) → Paths → Cache → Option (Paths × Cache)
  | [], chunks, cache => some (chunks, cache)
  | (name, f) :: rest, chunks, cache =>
    if isList && hasResolver f.resolvers && !isBatched f.resolvers then
      walk visit isList rest (chunks ++ [[.field name]]) cache
    else
      match visit cache (.field name) f.ty.name (isList || f.ty.isList) with
      | none => none
      | some (found, cache) => walk visit isList rest (chunks ++ found) cache

/-- The paths with the parent put in front (npo/tracker.rs:172-178). -/
def under (parent : Option Seg) (chunks : Paths) : Paths :=
  match parent with
  | some p => chunks.map (p :: ·)
  | none => chunks

/-- `PathTracker::iter` (npo/tracker.rs:135-179).  The recursion is bounded by `fuel`; running out
of it is `none`. -/
def iter (c : Config) : Nat → Cache → Option Seg → Text → Bool → Option (Paths × Cache)
  | 0, _, _, _, _ => none
  | fuel + 1, cache, parent, name, isList =>
    match look (name, isList) cache with
    | some chunks => some (under parent chunks, cache)
    | none =>
      let cache := ((name, isList), []) :: cache
      let found :=
        match get name c.types with
        | none => some ([], cache)
        | some t => walk (fun cache p n l => iter c fuel cache (some p) n l) isList t.fields [] cache
      match found with
      | none => none
      | some (chunks, cache) => some (under parent chunks, ((name, isList), chunks) :: cache)

/-- The loop over the types with a resolver (npo/tracker.rs:187-204). -/
def entities (c : Config) (fuel : Nat) : List (Text × Typ) → Paths → Cache → Option Paths
  | [], chunks, _ => some chunks
  | (name, t) :: rest, chunks, cache =>
    if hasResolver t.resolvers then
      if isBatched t.resolvers then
        match iter c fuel cache (some (.entity name)) name true with
        | none => none
        | some (found, cache) => entities c fuel rest (chunks ++ found) cache
      else entities c fuel rest (chunks ++ [[.entity name]]) cache
    else entities c fuel rest chunks cache

/-- `PathTracker::find_chunks` (npo/tracker.rs:181-207) with a bound on the depth of the
recursion. -/
def findWith (c : Config) (fuel : Nat) : Option Paths :=
  match c.query with
  | none => entities c fuel c.types [] []
  | some q =>
    match iter c fuel [] none q false with
    | none => none
    | some (chunks, cache) => entities c fuel c.types chunks cache

/-- The bound used for the recursion of npo/tracker.rs:135-179: each type is entered at most twice, and one call can be on a name without a
type. -/
def depth (c : Config) : Nat := 2 * c.types.length + 1

/-- `PathTracker::find` (npo/tracker.rs:209-211). -/
def find (c : Config) : Option Paths := findWith c (depth c)

/-- `Display for Name` (npo/tracker.rs:108-118). -/
def Seg.show : Seg → Text
  | .field n => n
  | .entity n => "__entities(representations: [{ __typename: \"".toList ++ n ++ "\"}])".toList

/-- The fold from the right over the names of a path (npo/tracker.rs:45-54). -/
def nest : List Text → Text
  | [] => []
  | n :: rest =>
    let s := nest rest
    if s.isEmpty then n else n ++ " { ".toList ++ s ++ " }".toList

/-- One path as a query (npo/tracker.rs:42-58). -/
def showPath (p : List Seg) : Text :=
  "query { ".toList ++ nest (p.map Seg.show) ++ " }".toList

/-- `Display for QueryPath` (npo/tracker.rs:37-71): the queries, each on a line. -/
def showPaths (ps : Paths) : Text :=
  (ps.map showPath).foldl (fun s q => if s.isEmpty then q else s ++ '\n' :: q) []

/-- `Fmt::log_n_plus_one` (cli/fmt.rs:24-35) with `show_npo`, without colours: the number of paths
(`QueryPath::size`, npo/tracker.rs:13-17) and the paths. -/
def message (ps : Paths) : Nat × Text := (ps.length, showPaths ps)

end Verif.Npo
