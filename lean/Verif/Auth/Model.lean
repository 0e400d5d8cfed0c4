import Verif.Mustache.Model
import Verif.Merge.Model

/-!
# Model of authentication (src/core/auth, src/core/blueprint/auth.rs, operators/protected.rs)

Cryptography (`htpasswd_verify`, `jsonwebtoken`) is an oracle: a function the theorems quantify
over.  The `Authorization` header is modelled by what the `headers` crate makes of it.
-/

namespace Verif.Auth

open Verif.Mustache (Text)

/-- `auth::error::Error` (auth/error.rs:1-11). -/
inductive Err where
  | missing
  | parse (msg : Text)
  | invalid
  deriving DecidableEq, Repr

/-- Derived `Ord` of `Error` (auth/error.rs:1): by variant, then by message.  `leq a b` is
`a <= b`; messages compare as byte strings (here by code point, the same order). -/
def leq : Err → Err → Bool
  | .missing, _ => true
  | .parse _, .missing => false
  | .parse a, .parse b => ! Verif.Merge.tlt b a
  | .parse _, .invalid => true
  | .invalid, .invalid => true
  | .invalid, _ => false

/-- `std::cmp::max`: the second argument unless the first is strictly greater (used at auth/verification.rs:34). -/
def maxErr (a b : Err) : Err := if leq a b then b else a

/-- `Verification` (auth/verification.rs:9-12). -/
inductive Verification where
  | succeed
  | fail (e : Err)
  deriving DecidableEq, Repr

/-- `Verification::fold` (auth/verification.rs:23-28). -/
def Verification.fold (v : Verification) (ok : Verification) (err : Err → Verification) :
    Verification :=
  match v with
  | .succeed => ok
  | .fail e => err e

/-- `Verification::or` (auth/verification.rs:30-37). -/
def Verification.or (self other : Verification) : Verification :=
  match self with
  | .succeed => .succeed
  | .fail this => other.fold .succeed (fun that => .fail (maxErr this that))

/-- `Verification::and` (auth/verification.rs:39-44). -/
def Verification.and (self other : Verification) : Verification :=
  match self with
  | .succeed => other
  | .fail _ => self

/-- `OneOrMany<String>` (auth/jwt/jwt_verify.rs:14-17). -/
inductive OneOrMany where
  | one (a : Text)
  | many (l : List Text)
  deriving DecidableEq, Repr

/-- `JwtClaim` (auth/jwt/jwt_verify.rs:20-23). -/
structure Claim where
  aud : Option OneOrMany
  iss : Option Text
  deriving DecidableEq, Repr

/-- `jsonwebtoken::jwk::Jwk`: its key id, whether a decoding key can be made from it, its key
algorithm if stated, and an identity for the cryptographic oracle.  Simplification: an algorithm
that cannot be used for signatures is an `alg` the oracle never accepts (used at auth/jwt/jwks.rs:41-64). -/
structure Jwk where
  kid : Option Text
  keyErr : Option Text
  alg : Option Text
  algErr : Option Text
  material : Nat
  deriving DecidableEq, Repr

/-- `blueprint::Jwt` (blueprint/auth.rs:14-19). -/
structure Jwt where
  issuer : Option Text
  audiences : List Text
  optionalKid : Bool
  jwks : List Jwk
  deriving DecidableEq, Repr

/-- `Provider` (blueprint/auth.rs:22-25). -/
inductive Provider where
  | basic (htpasswd : Text)
  | jwt (o : Jwt)
  deriving DecidableEq, Repr

/-- `Auth` (blueprint/auth.rs:70-74), and `AuthVerifier` (auth/verify.rs:19-23), which has the
same shape (`From<blueprint::Auth>`, auth/verify.rs:34-46). -/
inductive Auth where
  | provider (p : Provider)
  | and (a b : Auth)
  | or (a b : Auth)
  deriving DecidableEq, Repr

/-- The `Authorization` header among the allowed headers as the `headers` crate sees it
(read at auth/basic.rs:18-29 and auth/jwt/jwt_verify.rs:41-47). -/
inductive Header where
  | absent
  | basic (user pass : Text)
  | bearer (token : Text)
  | other
  deriving DecidableEq, Repr

/-- A request context with the cryptographic oracles: `Htpasswd::check`,
`jsonwebtoken::decode_header` (the `kid` of the token, or an undecodable header) and
`jsonwebtoken::decode` under a given key and algorithm (which also checks expiry)
(used at auth/basic.rs:30 and auth/jwt/jwks.rs:42-64). -/
structure Req where
  header : Header
  check : Text → Text → Text → Bool
  tokenHeader : Text → Option (Option Text)
  decode : Text → Jwk → Option Claim

/-- `BasicVerifier::verify` (auth/basic.rs:18-35). -/
def verifyBasic (r : Req) (htpasswd : Text) : Verification :=
  match r.header with
  | .absent => .fail .missing
  | .basic u p => if r.check htpasswd u p then .succeed else .fail .invalid
  | .bearer _ => .fail .invalid
  | .other => .fail .invalid

/-- `Jwks::decode_with_jwk` (auth/jwt/jwks.rs:24-39). -/
def decodeWithJwk (r : Req) (token : Text) (k : Jwk) : Except Err Claim :=
  match k.keyErr with
  | some m => .error (.parse m)
  | none =>
    match k.alg with
    | none => .error (.parse "Key algorithm is not specified in JWKS".toList)
    | some _ =>
      match k.algErr with
      | some m => .error (.parse m)
      | none =>
        match r.decode token k with
        | none => .error .invalid
        | some c => .ok c

/-- `JwkSet::find`: the first key with that id (used at auth/jwt/jwks.rs:45). -/
def findKid (kid : Text) : List Jwk → Option Jwk
  | [] => none
  | k :: r => if k.kid = some kid then some k else findKid kid r

/-- The loop over all keys (auth/jwt/jwks.rs:57-63). -/
def tryAll (r : Req) (token : Text) : List Jwk → Except Err Claim
  | [] => .error .invalid
  | k :: ks =>
    match decodeWithJwk r token k with
    | .ok c => .ok c
    | .error _ => tryAll r token ks

/-- `Jwks::decode` (auth/jwt/jwks.rs:41-65). -/
def decode (r : Req) (o : Jwt) (token : Text) : Except Err Claim :=
  match r.tokenHeader token with
  | none => .error .invalid
  | some (some kid) =>
    match findKid kid o.jwks with
    | none => .error (.parse "Couldn't find JWK entry with specified kid".toList)
    | some k => decodeWithJwk r token k
  | some none =>
    if o.optionalKid then tryAll r token o.jwks else .error .invalid

/-- `validate_iss` (auth/jwt/jwt_verify.rs:81-93). -/
def validateIss (o : Jwt) (c : Claim) : Bool :=
  match o.issuer with
  | none => true
  | some issuer =>
    match c.iss with
    | none => false
    | some iss => decide (iss = issuer)

/-- `validate_aud` (auth/jwt/jwt_verify.rs:95-112). -/
def validateAud (o : Jwt) (c : Claim) : Bool :=
  if o.audiences.isEmpty then true
  else
    match c.aud with
    | none => false
    | some (.one a) => o.audiences.contains a
    | some (.many l) => l.any (fun a => o.audiences.contains a)

/-- `validate_claims` (auth/jwt/jwt_verify.rs:57-63). -/
def validateClaims (o : Jwt) (c : Claim) : Verification :=
  if !validateIss o c || !validateAud o c then .fail .invalid else .succeed

/-- `err.to_string()` (auth/error.rs:3-10). -/
def errText : Err → Text
  | .missing => "Missing Authorization Header".toList
  | .parse m => m
  | .invalid => "Invalid Authorization Header".toList

/-- `validate_token` (auth/jwt/jwt_verify.rs:49-55). -/
def validateToken (r : Req) (o : Jwt) (token : Text) : Verification :=
  match decode r o token with
  | .ok c => validateClaims o c
  | .error e => .fail (.parse (errText e))

/-- `JwtVerifier::verify` (auth/jwt/jwt_verify.rs:68-78). -/
def verifyJwt (r : Req) (o : Jwt) : Verification :=
  match r.header with
  | .absent => .fail .missing
  | .bearer t => validateToken r o t
  | .basic _ _ => .fail .invalid
  | .other => .fail .invalid

/-- `Verify for Verifier` (auth/verify.rs:49-56). -/
def verifyProvider (r : Req) : Provider → Verification
  | .basic h => verifyBasic r h
  | .jwt o => verifyJwt r o

/-- `Verify for AuthVerifier` (auth/verify.rs:59-72). -/
def verify (r : Req) : Auth → Verification
  | .provider p => verifyProvider r p
  | .and a b => (verify r a).and (verify r b)
  | .or a b => (verify r a).or (verify r b)

/-- A `Content<Provider>`: an optional id and the provider (blueprint/auth.rs:27-48).  The
configuration cannot state an issuer, audiences or an optional `kid`. -/
structure Content where
  id : Option Text
  provider : Provider
  deriving DecidableEq, Repr

/-- `From<Content<JwkSet>> for Content<Provider>` (blueprint/auth.rs:36-48). -/
def jwksContent (id : Option Text) (jwks : List Jwk) : Content :=
  ⟨id, .jwt ⟨none, [], false, jwks⟩⟩

/-- `From<Content<String>> for Content<Provider>` (blueprint/auth.rs:27-34). -/
def htpasswdContent (id : Option Text) (file : Text) : Content := ⟨id, .basic file⟩

/-- The linked files of the configuration that hold credentials (config/config_module.rs:147-149). -/
structure Ext where
  htpasswd : List (Option Text × Text)
  jwks : List (Option Text × List Jwk)

/-- `Provider::from_config` (blueprint/auth.rs:52-66). -/
def fromConfig (e : Ext) : List Content :=
  e.htpasswd.map (fun p => htpasswdContent p.1 p.2) ++ e.jwks.map (fun p => jwksContent p.1 p.2)

/-- `iter.reduce(|left, right| left.and(right))` (blueprint/auth.rs:81, blueprint/operators/protected.rs:67). -/
def andAll : List Auth → Option Auth
  | [] => none
  | a :: r => some (r.foldl Auth.and a)

/-- `Auth::from_config` (blueprint/auth.rs:77-82). -/
def allProviders (e : Ext) : Option Auth :=
  andAll ((fromConfig e).map (fun c => Auth.provider c.provider))

/-- The `HashMap` from id to provider (operators/protected.rs:34-37): collecting keeps the last
entry of an id. -/
def lookup (id : Text) : List Content → Option Provider
  | [] => none
  | c :: r =>
    match lookup id r with
    | some p => some p
    | none => if c.id = some id then some c.provider else none

/-- `@protected(id: …)`: `None` if the directive is absent (config/directives/protected.rs). -/
abbrev Directive := Option (Option (List Text))

/-- The ids a directive names: `protect.id` or nothing (blueprint/operators/protected.rs:43-57). -/
def idsOf : Directive → List Text
  | some (some l) => l
  | _ => []

/-- Errors of `update_protected` (raised at blueprint/operators/protected.rs:26, 30, 63). -/
inductive PErr where
  | inputTypesCannotBeProtected
  | noAuthProviders
  | providerNotFound (id : Text)
  deriving DecidableEq, Repr

/-- `Valid::from_iter` over the ids (operators/protected.rs:59-65): all failures are
collected. -/
def resolveIds (cs : List Content) : List Text → List PErr × List Auth
  | [] => ([], [])
  | id :: r =>
    let (es, as) := resolveIds cs r
    match lookup id cs with
    | some p => (es, .provider p :: as)
    | none => (.providerNotFound id :: es, as)

/-- `update_protected` (operators/protected.rs:16-90): the guard put around the resolver of a
field, `ok none` when the field is not guarded.  `inputType` says whether the enclosing type is
an input type.  Simplification: the wrapping of the resolver itself is in `Verif.Ir`
(`wrapProtected`); `has_auth` is "there is some provider". -/
def guard (e : Ext) (inputType : Bool) (type_ field output : Directive) :
    Except (List PErr) (Option Auth) :=
  if field.isSome || type_.isSome || output.isSome then
    if inputType then .error [.inputTypesCannotBeProtected]
    else if (fromConfig e).isEmpty then .error [.noAuthProviders]
    else
      match resolveIds (fromConfig e) (idsOf type_ ++ idsOf field) with
      | (err :: es, _) => .error (err :: es)
      | ([], as) =>
        match andAll as with
        | some a => .ok (some a)
        | none => .ok (allProviders e)
  else .ok none

end Verif.Auth
