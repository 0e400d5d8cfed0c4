import Verif.Sdl.ValueLemmas

/-! # Laws of the conversions of the directives -/

set_option linter.unusedSimpArgs false
set_option linter.unusedVariables false

namespace Verif.Sdl

open Verif.Mustache (Text)
open Verif.Merge (get)

theorem KeyValue.keys (a : KeyValue) : (a.fields.map (·.1)).Nodup := by
  simp [KeyValue.fields]

theorem KeyValue.law (a : KeyValue) : KeyValue.dec a.enc = some a := by
  have hn := a.keys
  have e1 : need a.enc "key".toList dText = some a.key := need_some hn (by rfl) (rfl)
  have e2 : need a.enc "value".toList dText = some a.value := need_some hn (by rfl) (rfl)
  simp only [KeyValue.dec, e1, e2, Option.bind_eq_bind, Option.bind_some]
  rfl

theorem KeyValue.law' (a : KeyValue) : (fieldsOf a.toJ).bind KeyValue.dec = some a := by
  simp only [KeyValue.toJ, fieldsOf, Option.bind_some]
  exact a.law

theorem URLQuery.keys (a : URLQuery) : (a.fields.map (·.1)).Nodup := by
  simp [URLQuery.fields]

theorem URLQuery.law (a : URLQuery) : URLQuery.dec a.enc = some a := by
  have hn := a.keys
  have e1 : need a.enc "key".toList dText = some a.key := need_some hn (by rfl) (rfl)
  have e2 : need a.enc "value".toList dText = some a.value := need_some hn (by rfl) (rfl)
  have e3 : maybe a.enc "skipEmpty".toList (dOpt dBool) none = some a.skipEmpty := maybe_skip hn (by rfl) (fun h => by simp_all) (fun _ => opt_law (fun x h => ⟨by simp, rfl⟩))
  simp only [URLQuery.dec, e1, e2, e3, Option.bind_eq_bind, Option.bind_some]
  rfl

theorem URLQuery.law' (a : URLQuery) : (fieldsOf a.toJ).bind URLQuery.dec = some a := by
  simp only [URLQuery.toJ, fieldsOf, Option.bind_some]
  exact a.law

theorem Http.keys (a : Http) : (a.fields.map (·.1)).Nodup := by
  simp [Http.fields]

theorem Http.law (a : Http) (hb : a.body ≠ some .null) (hs : a.select ≠ some .null) (hi : ∀ x, a.input = some x → x.ok) (ho : ∀ x, a.output = some x → x.ok) : Http.dec a.enc = some a := by
  have hn := a.keys
  have e0 : known a.enc ["onRequest".toList, "url".toList, "body".toList, "encoding".toList, "batchKey".toList, "headers".toList, "input".toList, "method".toList, "output".toList, "query".toList, "dedupe".toList, "select".toList, "onResponseBody".toList] = some () := known_keep (by simp [Http.fields])
  have e1 : maybe a.enc "onRequest".toList (dOpt dText) none = some a.onRequest := maybe_skip hn (by rfl) (fun h => by simp_all) (fun _ => opt_law (fun x h => ⟨by simp, rfl⟩))
  have e2 : need a.enc "url".toList dText = some a.url := need_some hn (by rfl) (rfl)
  have e3 : maybe a.enc "body".toList (dOpt some) none = some a.body := maybe_skip hn (by rfl) (fun h => by simp_all) (fun _ => opt_law (fun x h => ⟨fun he => hb (by simpa [he] using h), rfl⟩))
  have e4 : maybe a.enc "encoding".toList Encoding.ofJ .json = some a.encoding := maybe_skip hn (by rfl) (fun h => by simp_all) (fun _ => encoding_law _)
  have e5 : maybe a.enc "batchKey".toList (dList dText) [] = some a.batchKey := maybe_skip hn (by rfl) (fun h => by simp_all) (fun _ => list_law (fun x h => rfl))
  have e6 : maybe a.enc "headers".toList (dList (fun j => (fieldsOf j).bind KeyValue.dec)) [] = some a.headers := maybe_skip hn (by rfl) (fun h => by simp_all) (fun _ => list_law (fun x h => KeyValue.law' x))
  have e7 : maybe a.enc "input".toList (dOpt Schema.ofJ) none = some a.input := maybe_skip hn (by rfl) (fun h => by simp_all) (fun _ => opt_law (fun x h => ⟨schema_not_null x, schema_law x (hi x h)⟩))
  have e8 : maybe a.enc "method".toList Method.ofJ .get = some a.method := maybe_skip hn (by rfl) (fun h => by simp_all) (fun _ => method_law _)
  have e9 : maybe a.enc "output".toList (dOpt Schema.ofJ) none = some a.output := maybe_skip hn (by rfl) (fun h => by simp_all) (fun _ => opt_law (fun x h => ⟨schema_not_null x, schema_law x (ho x h)⟩))
  have e10 : maybe a.enc "query".toList (dList (fun j => (fieldsOf j).bind URLQuery.dec)) [] = some a.query := maybe_skip hn (by rfl) (fun h => by simp_all) (fun _ => list_law (fun x h => URLQuery.law' x))
  have e11 : maybe a.enc "dedupe".toList (dOpt dBool) none = some a.dedupe := maybe_skip hn (by rfl) (fun h => by simp_all) (fun _ => opt_law (fun x h => ⟨by simp, rfl⟩))
  have e12 : maybe a.enc "select".toList (dOpt some) none = some a.select := maybe_some hn (by rfl) (opt_law (fun x h => ⟨fun he => hs (by simpa [he] using h), rfl⟩))
  have e13 : maybe a.enc "onResponseBody".toList (dOpt dText) none = some a.onResponseBody := maybe_skip hn (by rfl) (fun h => by simp_all) (fun _ => opt_law (fun x h => ⟨by simp, rfl⟩))
  simp only [Http.dec, e0, e1, e2, e3, e4, e5, e6, e7, e8, e9, e10, e11, e12, e13, Option.bind_eq_bind, Option.bind_some]
  rfl

theorem Http.law' (a : Http) (hb : a.body ≠ some .null) (hs : a.select ≠ some .null) (hi : ∀ x, a.input = some x → x.ok) (ho : ∀ x, a.output = some x → x.ok) : (fieldsOf a.toJ).bind Http.dec = some a := by
  simp only [Http.toJ, fieldsOf, Option.bind_some]
  exact a.law hb hs hi ho

theorem Grpc.keys (a : Grpc) : (a.fields.map (·.1)).Nodup := by
  simp [Grpc.fields]

theorem Grpc.law (a : Grpc) (hb : a.body ≠ some .null) (hs : a.select ≠ some .null) : Grpc.dec a.enc = some a := by
  have hn := a.keys
  have e0 : known a.enc ["url".toList, "body".toList, "batchKey".toList, "headers".toList, "method".toList, "dedupe".toList, "select".toList, "onResponseBody".toList] = some () := known_keep (by simp [Grpc.fields])
  have e1 : need a.enc "url".toList dText = some a.url := need_some hn (by rfl) (rfl)
  have e2 : maybe a.enc "body".toList (dOpt some) none = some a.body := maybe_skip hn (by rfl) (fun h => by simp_all) (fun _ => opt_law (fun x h => ⟨fun he => hb (by simpa [he] using h), rfl⟩))
  have e3 : maybe a.enc "batchKey".toList (dList dText) [] = some a.batchKey := maybe_skip hn (by rfl) (fun h => by simp_all) (fun _ => list_law (fun x h => rfl))
  have e4 : maybe a.enc "headers".toList (dList (fun j => (fieldsOf j).bind KeyValue.dec)) [] = some a.headers := maybe_skip hn (by rfl) (fun h => by simp_all) (fun _ => list_law (fun x h => KeyValue.law' x))
  have e5 : need a.enc "method".toList dText = some a.method := need_some hn (by rfl) (rfl)
  have e6 : maybe a.enc "dedupe".toList (dOpt dBool) none = some a.dedupe := maybe_skip hn (by rfl) (fun h => by simp_all) (fun _ => opt_law (fun x h => ⟨by simp, rfl⟩))
  have e7 : maybe a.enc "select".toList (dOpt some) none = some a.select := maybe_some hn (by rfl) (opt_law (fun x h => ⟨fun he => hs (by simpa [he] using h), rfl⟩))
  have e8 : maybe a.enc "onResponseBody".toList (dOpt dText) none = some a.onResponseBody := maybe_skip hn (by rfl) (fun h => by simp_all) (fun _ => opt_law (fun x h => ⟨by simp, rfl⟩))
  simp only [Grpc.dec, e0, e1, e2, e3, e4, e5, e6, e7, e8, Option.bind_eq_bind, Option.bind_some]
  rfl

theorem Grpc.law' (a : Grpc) (hb : a.body ≠ some .null) (hs : a.select ≠ some .null) : (fieldsOf a.toJ).bind Grpc.dec = some a := by
  simp only [Grpc.toJ, fieldsOf, Option.bind_some]
  exact a.law hb hs

theorem GraphQL.keys (a : GraphQL) : (a.fields.map (·.1)).Nodup := by
  simp [GraphQL.fields]

theorem GraphQL.law (a : GraphQL) : GraphQL.dec a.enc = some a := by
  have hn := a.keys
  have e0 : known a.enc ["args".toList, "url".toList, "batch".toList, "headers".toList, "name".toList, "dedupe".toList] = some () := known_keep (by simp [GraphQL.fields])
  have e1 : maybe a.enc "args".toList (dOpt (dList (fun j => (fieldsOf j).bind KeyValue.dec))) none = some a.args := maybe_skip hn (by rfl) (fun h => by simp_all) (fun _ => opt_law (fun x h => ⟨by simp [eList], list_law (fun y _ => KeyValue.law' y)⟩))
  have e2 : need a.enc "url".toList dText = some a.url := need_some hn (by rfl) (rfl)
  have e3 : maybe a.enc "batch".toList dBool false = some a.batch := maybe_skip hn (by rfl) (fun h => by simp_all) (fun _ => rfl)
  have e4 : maybe a.enc "headers".toList (dList (fun j => (fieldsOf j).bind KeyValue.dec)) [] = some a.headers := maybe_skip hn (by rfl) (fun h => by simp_all) (fun _ => list_law (fun x h => KeyValue.law' x))
  have e5 : need a.enc "name".toList dText = some a.name := need_some hn (by rfl) (rfl)
  have e6 : maybe a.enc "dedupe".toList dBool false = some a.dedupe := maybe_skip hn (by rfl) (fun h => by simp_all) (fun _ => rfl)
  simp only [GraphQL.dec, e0, e1, e2, e3, e4, e5, e6, Option.bind_eq_bind, Option.bind_some]
  rfl

theorem GraphQL.law' (a : GraphQL) : (fieldsOf a.toJ).bind GraphQL.dec = some a := by
  simp only [GraphQL.toJ, fieldsOf, Option.bind_some]
  exact a.law

theorem Step.keys (a : Step) : (a.fields.map (·.1)).Nodup := by
  simp [Step.fields]

theorem Step.law (a : Step) (hk : (a.args.map (·.1)).Nodup) : Step.dec a.enc = some a := by
  have hn := a.keys
  have e1 : maybe a.enc "query".toList (dOpt dText) none = some a.query := maybe_skip hn (by rfl) (fun h => by simp_all) (fun _ => opt_law (fun x h => ⟨by simp, rfl⟩))
  have e2 : maybe a.enc "mutation".toList (dOpt dText) none = some a.mutation := maybe_skip hn (by rfl) (fun h => by simp_all) (fun _ => opt_law (fun x h => ⟨by simp, rfl⟩))
  have e3 : maybe a.enc "args".toList dMap [] = some a.args := maybe_skip hn (by rfl) (fun h => by simp_all) (fun _ => map_law hk)
  simp only [Step.dec, e1, e2, e3, Option.bind_eq_bind, Option.bind_some]
  rfl

theorem Step.law' (a : Step) (hk : (a.args.map (·.1)).Nodup) : (fieldsOf a.toJ).bind Step.dec = some a := by
  simp only [Step.toJ, fieldsOf, Option.bind_some]
  exact a.law hk

theorem Call.keys (a : Call) : (a.fields.map (·.1)).Nodup := by
  simp [Call.fields]

theorem Call.law (a : Call) (hk : ∀ s ∈ a.steps, (s.args.map (·.1)).Nodup) : Call.dec a.enc = some a := by
  have hn := a.keys
  have e1 : need a.enc "steps".toList (dList (fun j => (fieldsOf j).bind Step.dec)) = some a.steps := need_some hn (by rfl) (list_law (fun x h => Step.law' x (hk x h)))
  have e2 : maybe a.enc "dedupe".toList (dOpt dBool) none = some a.dedupe := maybe_skip hn (by rfl) (fun h => by simp_all) (fun _ => opt_law (fun x h => ⟨by simp, rfl⟩))
  simp only [Call.dec, e1, e2, Option.bind_eq_bind, Option.bind_some]
  rfl

theorem Call.law' (a : Call) (hk : ∀ s ∈ a.steps, (s.args.map (·.1)).Nodup) : (fieldsOf a.toJ).bind Call.dec = some a := by
  simp only [Call.toJ, fieldsOf, Option.bind_some]
  exact a.law hk

theorem Js.keys (a : Js) : (a.fields.map (·.1)).Nodup := by
  simp [Js.fields]

theorem Js.law (a : Js) : Js.dec a.enc = some a := by
  have hn := a.keys
  have e1 : need a.enc "name".toList dText = some a.name := need_some hn (by rfl) (rfl)
  simp only [Js.dec, e1, Option.bind_eq_bind, Option.bind_some]
  rfl

theorem Js.law' (a : Js) : (fieldsOf a.toJ).bind Js.dec = some a := by
  simp only [Js.toJ, fieldsOf, Option.bind_some]
  exact a.law

theorem Expr.keys (a : Expr) : (a.fields.map (·.1)).Nodup := by
  simp [Expr.fields]

theorem Expr.law (a : Expr) : Expr.dec a.enc = some a := by
  have hn := a.keys
  have e0 : known a.enc ["body".toList] = some () := known_keep (by simp [Expr.fields])
  have e1 : need a.enc "body".toList some = some a.body := need_some hn (by rfl) (rfl)
  simp only [Expr.dec, e0, e1, Option.bind_eq_bind, Option.bind_some]
  rfl

theorem Expr.law' (a : Expr) : (fieldsOf a.toJ).bind Expr.dec = some a := by
  simp only [Expr.toJ, fieldsOf, Option.bind_some]
  exact a.law

theorem Cache.keys (a : Cache) : (a.fields.map (·.1)).Nodup := by
  simp [Cache.fields]

theorem Cache.law (a : Cache) : Cache.dec a.enc = some a := by
  have hn := a.keys
  have e0 : known a.enc ["maxAge".toList] = some () := known_keep (by simp [Cache.fields])
  have e1 : need a.enc "maxAge".toList dPos = some a.maxAge := need_some hn (by rfl) (pos_law _)
  simp only [Cache.dec, e0, e1, Option.bind_eq_bind, Option.bind_some]
  rfl

theorem Cache.law' (a : Cache) : (fieldsOf a.toJ).bind Cache.dec = some a := by
  simp only [Cache.toJ, fieldsOf, Option.bind_some]
  exact a.law

theorem Omit.keys (a : Omit) : (a.fields.map (·.1)).Nodup := by
  simp [Omit.fields]

theorem Omit.law (a : Omit) : Omit.dec a.enc = some a := by
  have e0 : known a.enc [] = some () := known_keep (by simp [Omit.fields])
  simp only [Omit.dec, e0, Option.bind_eq_bind, Option.bind_some]
  rfl

theorem Omit.law' (a : Omit) : (fieldsOf a.toJ).bind Omit.dec = some a := by
  simp only [Omit.toJ, fieldsOf, Option.bind_some]
  exact a.law

theorem Modify.keys (a : Modify) : (a.fields.map (·.1)).Nodup := by
  simp [Modify.fields]

theorem Modify.law (a : Modify) : Modify.dec a.enc = some a := by
  have hn := a.keys
  have e0 : known a.enc ["name".toList, "omit".toList] = some () := known_keep (by simp [Modify.fields])
  have e1 : maybe a.enc "name".toList (dOpt dText) none = some a.name := maybe_skip hn (by rfl) (fun h => by simp_all) (fun _ => opt_law (fun x h => ⟨by simp, rfl⟩))
  have e2 : maybe a.enc "omit".toList (dOpt dBool) none = some a.omitted := maybe_skip hn (by rfl) (fun h => by simp_all) (fun _ => opt_law (fun x h => ⟨by simp, rfl⟩))
  simp only [Modify.dec, e0, e1, e2, Option.bind_eq_bind, Option.bind_some]
  rfl

theorem Modify.law' (a : Modify) : (fieldsOf a.toJ).bind Modify.dec = some a := by
  simp only [Modify.toJ, fieldsOf, Option.bind_some]
  exact a.law

theorem Protected.keys (a : Protected) : (a.fields.map (·.1)).Nodup := by
  simp [Protected.fields]

theorem Protected.law (a : Protected) : Protected.dec a.enc = some a := by
  have hn := a.keys
  have e1 : maybe a.enc "id".toList (dOpt (dList dText)) none = some a.ident := maybe_skip hn (by rfl) (fun h => by simp_all) (fun _ => opt_law (fun x h => ⟨by simp [eTexts, eList], texts_law x⟩))
  simp only [Protected.dec, e1, Option.bind_eq_bind, Option.bind_some]
  rfl

theorem Protected.law' (a : Protected) : (fieldsOf a.toJ).bind Protected.dec = some a := by
  simp only [Protected.toJ, fieldsOf, Option.bind_some]
  exact a.law

theorem AddField.keys (a : AddField) : (a.fields.map (·.1)).Nodup := by
  simp [AddField.fields]

theorem AddField.law (a : AddField) : AddField.dec a.enc = some a := by
  have hn := a.keys
  have e0 : known a.enc ["name".toList, "path".toList] = some () := known_keep (by simp [AddField.fields])
  have e1 : need a.enc "name".toList dText = some a.name := need_some hn (by rfl) (rfl)
  have e2 : need a.enc "path".toList (dList dText) = some a.path := need_some hn (by rfl) (texts_law _)
  simp only [AddField.dec, e0, e1, e2, Option.bind_eq_bind, Option.bind_some]
  rfl

theorem AddField.law' (a : AddField) : (fieldsOf a.toJ).bind AddField.dec = some a := by
  simp only [AddField.toJ, fieldsOf, Option.bind_some]
  exact a.law

theorem Alias.keys (a : Alias) : (a.fields.map (·.1)).Nodup := by
  simp [Alias.fields]

theorem Alias.law (a : Alias) (hk : a.options.Nodup) : Alias.dec a.enc = some a := by
  have hn := a.keys
  have e1 : need a.enc "options".toList dSet = some a.options := need_some hn (by rfl) (set_law hk)
  simp only [Alias.dec, e1, Option.bind_eq_bind, Option.bind_some]
  rfl

theorem Alias.law' (a : Alias) (hk : a.options.Nodup) : (fieldsOf a.toJ).bind Alias.dec = some a := by
  simp only [Alias.toJ, fieldsOf, Option.bind_some]
  exact a.law hk

theorem Discriminate.keys (a : Discriminate) : (a.fields.map (·.1)).Nodup := by
  simp [Discriminate.fields]

theorem Discriminate.law (a : Discriminate) : Discriminate.dec a.enc = some a := by
  have hn := a.keys
  have e0 : known a.enc ["field".toList] = some () := known_keep (by simp [Discriminate.fields])
  have e1 : maybe a.enc "field".toList (dOpt dText) none = some a.field := maybe_skip hn (by rfl) (fun h => by simp_all) (fun _ => opt_law (fun x h => ⟨by simp, rfl⟩))
  simp only [Discriminate.dec, e0, e1, Option.bind_eq_bind, Option.bind_some]
  rfl

theorem Discriminate.law' (a : Discriminate) : (fieldsOf a.toJ).bind Discriminate.dec = some a := by
  simp only [Discriminate.toJ, fieldsOf, Option.bind_some]
  exact a.law

theorem Link.keys (a : Link) : (a.fields.map (·.1)).Nodup := by
  simp [Link.fields]

theorem Link.law (a : Link) (hb : a.info ≠ some .null) : Link.dec a.enc = some a := by
  have hn := a.keys
  have e0 : known a.enc ["id".toList, "src".toList, "type".toList, "headers".toList, "meta".toList, "proto_paths".toList] = some () := known_keep (by simp [Link.fields])
  have e1 : maybe a.enc "id".toList (dOpt dText) none = some a.ident := maybe_skip hn (by rfl) (fun h => by simp_all) (fun _ => opt_law (fun x h => ⟨by simp, rfl⟩))
  have e2 : maybe a.enc "src".toList dText [] = some a.src := maybe_skip hn (by rfl) (fun h => by simp_all) (fun _ => rfl)
  have e3 : maybe a.enc "type".toList LinkType.ofJ .config = some a.typeOf := maybe_skip hn (by rfl) (fun h => by simp_all) (fun _ => linkType_law _)
  have e4 : maybe a.enc "headers".toList (dOpt (dList (fun j => (fieldsOf j).bind KeyValue.dec))) none = some a.headers := maybe_skip hn (by rfl) (fun h => by simp_all) (fun _ => opt_law (fun x h => ⟨by simp [eList], list_law (fun y _ => KeyValue.law' y)⟩))
  have e5 : maybe a.enc "meta".toList (dOpt some) none = some a.info := maybe_skip hn (by rfl) (fun h => by simp_all) (fun _ => opt_law (fun x h => ⟨fun he => hb (by simpa [he] using h), rfl⟩))
  have e6 : maybe a.enc "proto_paths".toList (dOpt (dList dText)) none = some a.protoPaths := maybe_skip hn (by rfl) (fun h => by simp_all) (fun _ => opt_law (fun x h => ⟨by simp [eTexts, eList], texts_law x⟩))
  simp only [Link.dec, e0, e1, e2, e3, e4, e5, e6, Option.bind_eq_bind, Option.bind_some]
  rfl

theorem Link.law' (a : Link) (hb : a.info ≠ some .null) : (fieldsOf a.toJ).bind Link.dec = some a := by
  simp only [Link.toJ, fieldsOf, Option.bind_some]
  exact a.law hb

theorem Cors.keys (a : Cors) : (a.fields.map (·.1)).Nodup := by
  simp [Cors.fields]

theorem Cors.law (a : Cors) (hv : a.vary ≠ []) : Cors.dec a.enc = some a := by
  have hn := a.keys
  have e1 : maybe a.enc "allowCredentials".toList (dOpt dBool) none = some a.allowCredentials := maybe_skip hn (by rfl) (fun h => by simp_all) (fun _ => opt_law (fun x h => ⟨by simp, rfl⟩))
  have e2 : maybe a.enc "allowHeaders".toList (dList dText) [] = some a.allowHeaders := maybe_skip hn (by rfl) (fun h => by simp_all) (fun _ => list_law (fun x h => rfl))
  have e3 : maybe a.enc "allowMethods".toList (dList Method.ofJ) [] = some a.allowMethods := maybe_skip hn (by rfl) (fun h => by simp_all) (fun _ => list_law (fun x h => method_law x))
  have e4 : maybe a.enc "allowOrigins".toList (dList dText) [] = some a.allowOrigins := maybe_skip hn (by rfl) (fun h => by simp_all) (fun _ => list_law (fun x h => rfl))
  have e5 : maybe a.enc "allowPrivateNetwork".toList (dOpt dBool) none = some a.allowPrivateNetwork := maybe_skip hn (by rfl) (fun h => by simp_all) (fun _ => opt_law (fun x h => ⟨by simp, rfl⟩))
  have e6 : maybe a.enc "exposeHeaders".toList (dList dText) [] = some a.exposeHeaders := maybe_skip hn (by rfl) (fun h => by simp_all) (fun _ => list_law (fun x h => rfl))
  have e7 : maybe a.enc "maxAge".toList (dOpt (dFin (2 ^ 64))) none = some a.maxAge := maybe_skip hn (by rfl) (fun h => by simp_all) (fun _ => opt_law (fun x h => ⟨by simp [eFin], fin_law x⟩))
  have e8 : maybe a.enc "vary".toList (dList dText) preflight = some a.vary := maybe_skip hn (by rfl) (fun h => by simp_all) (fun _ => list_law (fun x h => rfl))
  simp only [Cors.dec, e1, e2, e3, e4, e5, e6, e7, e8, Option.bind_eq_bind, Option.bind_some]
  rfl

theorem Cors.law' (a : Cors) (hv : a.vary ≠ []) : (fieldsOf a.toJ).bind Cors.dec = some a := by
  simp only [Cors.toJ, fieldsOf, Option.bind_some]
  exact a.law hv

theorem Headers.keys (a : Headers) : (a.fields.map (·.1)).Nodup := by
  simp [Headers.fields]

theorem Headers.law (a : Headers) (he : ∀ x, a.experimental = some x → x.Nodup) (hc : ∀ x, a.cors = some x → x.vary ≠ []) : Headers.dec a.enc = some a := by
  have hn := a.keys
  have e1 : maybe a.enc "cacheControl".toList (dOpt dBool) none = some a.cacheControl := maybe_skip hn (by rfl) (fun h => by simp_all) (fun _ => opt_law (fun x h => ⟨by simp, rfl⟩))
  have e2 : maybe a.enc "custom".toList (dList (fun j => (fieldsOf j).bind KeyValue.dec)) [] = some a.custom := maybe_skip hn (by rfl) (fun h => by simp_all) (fun _ => list_law (fun x h => KeyValue.law' x))
  have e3 : maybe a.enc "experimental".toList (dOpt dSet) none = some a.experimental := maybe_skip hn (by rfl) (fun h => by simp_all) (fun _ => opt_law (fun x h => ⟨by simp [eTexts, eList], set_law (he x h)⟩))
  have e4 : maybe a.enc "setCookies".toList (dOpt dBool) none = some a.setCookies := maybe_skip hn (by rfl) (fun h => by simp_all) (fun _ => opt_law (fun x h => ⟨by simp, rfl⟩))
  have e5 : maybe a.enc "cors".toList (dOpt (fun j => (fieldsOf j).bind Cors.dec)) none = some a.cors := maybe_skip hn (by rfl) (fun h => by simp_all) (fun _ => opt_law (fun x h => ⟨by simp [Cors.toJ], Cors.law' x (hc x h)⟩))
  simp only [Headers.dec, e1, e2, e3, e4, e5, Option.bind_eq_bind, Option.bind_some]
  rfl

theorem Headers.law' (a : Headers) (he : ∀ x, a.experimental = some x → x.Nodup) (hc : ∀ x, a.cors = some x → x.vary ≠ []) : (fieldsOf a.toJ).bind Headers.dec = some a := by
  simp only [Headers.toJ, fieldsOf, Option.bind_some]
  exact a.law he hc

theorem Script.keys (a : Script) : (a.fields.map (·.1)).Nodup := by
  simp [Script.fields]

theorem Script.law (a : Script) : Script.dec a.enc = some a := by
  have hn := a.keys
  have e1 : maybe a.enc "timeout".toList (dOpt (dFin (2 ^ 64))) none = some a.timeout := maybe_some hn (by rfl) (opt_law (fun x h => ⟨by simp [eFin], fin_law x⟩))
  simp only [Script.dec, e1, Option.bind_eq_bind, Option.bind_some]
  rfl

theorem Script.law' (a : Script) : (fieldsOf a.toJ).bind Script.dec = some a := by
  simp only [Script.toJ, fieldsOf, Option.bind_some]
  exact a.law

theorem Routes.keys (a : Routes) : (a.fields.map (·.1)).Nodup := by
  simp [Routes.fields]

theorem Routes.law (a : Routes) : Routes.dec a.enc = some a := by
  have hn := a.keys
  have e1 : maybe a.enc "status".toList dText "/status".toList = some a.status := maybe_some hn (by rfl) (rfl)
  have e2 : maybe a.enc "graphQL".toList dText "/graphql".toList = some a.graphql := maybe_some hn (by rfl) (rfl)
  simp only [Routes.dec, e1, e2, Option.bind_eq_bind, Option.bind_some]
  rfl

theorem Routes.law' (a : Routes) : (fieldsOf a.toJ).bind Routes.dec = some a := by
  simp only [Routes.toJ, fieldsOf, Option.bind_some]
  exact a.law

/-- The headers come back (config/headers.rs:14-40). -/
def Headers.Ok (a : Headers) : Prop :=
  (∀ x, a.experimental = some x → x.Nodup) ∧ ∀ x, a.cors = some x → x.vary ≠ []

theorem Server.keys (a : Server) : (a.fields.map (·.1)).Nodup := by
  simp [Server.fields]

theorem Server.law (a : Server) (hj : a.enableJit = none) (hh : ∀ x, a.headers = some x → x.Ok) : Server.dec a.enc = some a := by
  have hn := a.keys
  have e0 : known a.enc ["enableJIT".toList, "apolloTracing".toList, "batchRequests".toList, "headers".toList, "globalResponseTimeout".toList, "hostname".toList, "introspection".toList, "enableFederation".toList, "pipelineFlush".toList, "port".toList, "queryValidation".toList, "responseValidation".toList, "script".toList, "showcase".toList, "vars".toList, "version".toList, "workers".toList, "routes".toList] = some () := known_keep (by simp [Server.fields])
  have e1 : maybe a.enc "enableJIT".toList (dOpt dBool) none = some a.enableJit := maybe_never hn (by rfl) hj
  have e2 : maybe a.enc "apolloTracing".toList (dOpt dBool) none = some a.apolloTracing := maybe_skip hn (by rfl) (fun h => by simp_all) (fun _ => opt_law (fun x h => ⟨by simp, rfl⟩))
  have e3 : maybe a.enc "batchRequests".toList (dOpt dBool) none = some a.batchRequests := maybe_skip hn (by rfl) (fun h => by simp_all) (fun _ => opt_law (fun x h => ⟨by simp, rfl⟩))
  have e4 : maybe a.enc "headers".toList (dOpt (fun j => (fieldsOf j).bind Headers.dec)) none = some a.headers := maybe_skip hn (by rfl) (fun h => by simp_all) (fun _ => opt_law (fun x h => ⟨by simp [Headers.toJ], Headers.law' x (hh x h).1 (hh x h).2⟩))
  have e5 : maybe a.enc "globalResponseTimeout".toList (dOpt dI64) none = some a.globalResponseTimeout := maybe_skip hn (by rfl) (fun h => by simp_all) (fun _ => opt_law (fun x h => ⟨by simp, i64_law x⟩))
  have e6 : maybe a.enc "hostname".toList (dOpt dText) none = some a.hostname := maybe_skip hn (by rfl) (fun h => by simp_all) (fun _ => opt_law (fun x h => ⟨by simp, rfl⟩))
  have e7 : maybe a.enc "introspection".toList (dOpt dBool) none = some a.introspection := maybe_skip hn (by rfl) (fun h => by simp_all) (fun _ => opt_law (fun x h => ⟨by simp, rfl⟩))
  have e8 : maybe a.enc "enableFederation".toList (dOpt dBool) none = some a.enableFederation := maybe_skip hn (by rfl) (fun h => by simp_all) (fun _ => opt_law (fun x h => ⟨by simp, rfl⟩))
  have e9 : maybe a.enc "pipelineFlush".toList (dOpt dBool) none = some a.pipelineFlush := maybe_skip hn (by rfl) (fun h => by simp_all) (fun _ => opt_law (fun x h => ⟨by simp, rfl⟩))
  have e10 : maybe a.enc "port".toList (dOpt (dFin (2 ^ 16))) none = some a.port := maybe_skip hn (by rfl) (fun h => by simp_all) (fun _ => opt_law (fun x h => ⟨by simp [eFin], fin_law x⟩))
  have e11 : maybe a.enc "queryValidation".toList (dOpt dBool) none = some a.queryValidation := maybe_skip hn (by rfl) (fun h => by simp_all) (fun _ => opt_law (fun x h => ⟨by simp, rfl⟩))
  have e12 : maybe a.enc "responseValidation".toList (dOpt dBool) none = some a.responseValidation := maybe_skip hn (by rfl) (fun h => by simp_all) (fun _ => opt_law (fun x h => ⟨by simp, rfl⟩))
  have e13 : maybe a.enc "script".toList (dOpt (fun j => (fieldsOf j).bind Script.dec)) none = some a.script := maybe_skip hn (by rfl) (fun h => by simp_all) (fun _ => opt_law (fun x h => ⟨by simp [Script.toJ], Script.law' x⟩))
  have e14 : maybe a.enc "showcase".toList (dOpt dBool) none = some a.showcase := maybe_skip hn (by rfl) (fun h => by simp_all) (fun _ => opt_law (fun x h => ⟨by simp, rfl⟩))
  have e15 : maybe a.enc "vars".toList (dList (fun j => (fieldsOf j).bind KeyValue.dec)) [] = some a.vars := maybe_skip hn (by rfl) (fun h => by simp_all) (fun _ => list_law (fun x h => KeyValue.law' x))
  have e16 : maybe a.enc "version".toList (dOpt HttpVersion.ofJ) none = some a.version := maybe_skip hn (by rfl) (fun h => by simp_all) (fun _ => opt_law (fun x h => ⟨by cases x <;> simp [HttpVersion.toJ], version_law x⟩))
  have e17 : maybe a.enc "workers".toList (dOpt (dFin (2 ^ 64))) none = some a.workers := maybe_skip hn (by rfl) (fun h => by simp_all) (fun _ => opt_law (fun x h => ⟨by simp [eFin], fin_law x⟩))
  have e18 : maybe a.enc "routes".toList (dOpt (fun j => (fieldsOf j).bind Routes.dec)) none = some a.routes := maybe_skip hn (by rfl) (fun h => by simp_all) (fun _ => opt_law (fun x h => ⟨by simp [Routes.toJ], Routes.law' x⟩))
  simp only [Server.dec, e0, e1, e2, e3, e4, e5, e6, e7, e8, e9, e10, e11, e12, e13, e14, e15, e16, e17, e18, Option.bind_eq_bind, Option.bind_some]
  rfl

theorem Server.law' (a : Server) (hj : a.enableJit = none) (hh : ∀ x, a.headers = some x → x.Ok) : (fieldsOf a.toJ).bind Server.dec = some a := by
  simp only [Server.toJ, fieldsOf, Option.bind_some]
  exact a.law hj hh

theorem Batch.keys (a : Batch) : (a.fields.map (·.1)).Nodup := by
  simp [Batch.fields]

theorem Batch.law (a : Batch) (hk : a.headers.Nodup) : Batch.dec a.enc = some a := by
  have hn := a.keys
  have e1 : maybe a.enc "delay".toList (dFin (2 ^ 64)) 0 = some a.delay := maybe_some hn (by rfl) (fin_law _)
  have e2 : maybe a.enc "headers".toList dSet [] = some a.headers := maybe_some hn (by rfl) (set_law hk)
  have e3 : maybe a.enc "maxSize".toList (dOpt (dFin (2 ^ 64))) none = some a.maxSize := maybe_skip hn (by rfl) (fun h => by simp_all) (fun _ => opt_law (fun x h => ⟨by simp [eFin], fin_law x⟩))
  simp only [Batch.dec, e1, e2, e3, Option.bind_eq_bind, Option.bind_some]
  rfl

theorem Batch.law' (a : Batch) (hk : a.headers.Nodup) : (fieldsOf a.toJ).bind Batch.dec = some a := by
  simp only [Batch.toJ, fieldsOf, Option.bind_some]
  exact a.law hk

theorem Proxy.keys (a : Proxy) : (a.fields.map (·.1)).Nodup := by
  simp [Proxy.fields]

theorem Proxy.law (a : Proxy) : Proxy.dec a.enc = some a := by
  have hn := a.keys
  have e1 : need a.enc "url".toList dText = some a.url := need_some hn (by rfl) (rfl)
  simp only [Proxy.dec, e1, Option.bind_eq_bind, Option.bind_some]
  rfl

theorem Proxy.law' (a : Proxy) : (fieldsOf a.toJ).bind Proxy.dec = some a := by
  simp only [Proxy.toJ, fieldsOf, Option.bind_some]
  exact a.law

theorem Upstream.keys (a : Upstream) : (a.fields.map (·.1)).Nodup := by
  simp [Upstream.fields]

theorem Upstream.law (a : Upstream) (hh : ∀ x, a.allowedHeaders = some x → x.Nodup) (hb : ∀ x, a.batch = some x → x.headers.Nodup) : Upstream.dec a.enc = some { a with verifySsl := some (a.verifySsl.getD true) } := by
  have hn := a.keys
  have e0 : known a.enc ["onRequest".toList, "allowedHeaders".toList, "batch".toList, "connectTimeout".toList, "httpCache".toList, "http2Only".toList, "keepAliveInterval".toList, "keepAliveTimeout".toList, "keepAliveWhileIdle".toList, "poolMaxIdlePerHost".toList, "poolIdleTimeout".toList, "proxy".toList, "tcpKeepAlive".toList, "timeout".toList, "userAgent".toList, "verifySSL".toList] = some () := known_keep (by simp [Upstream.fields])
  have e1 : maybe a.enc "onRequest".toList (dOpt dText) none = some a.onRequest := maybe_skip hn (by rfl) (fun h => by simp_all) (fun _ => opt_law (fun x h => ⟨by simp, rfl⟩))
  have e2 : maybe a.enc "allowedHeaders".toList (dOpt dSet) none = some a.allowedHeaders := maybe_skip hn (by rfl) (fun h => by simp_all) (fun _ => opt_law (fun x h => ⟨by simp [eTexts, eList], set_law (hh x h)⟩))
  have e3 : maybe a.enc "batch".toList (dOpt (fun j => (fieldsOf j).bind Batch.dec)) none = some a.batch := maybe_skip hn (by rfl) (fun h => by simp_all) (fun _ => opt_law (fun x h => ⟨by simp [Batch.toJ], Batch.law' x (hb x h)⟩))
  have e4 : maybe a.enc "connectTimeout".toList (dOpt (dFin (2 ^ 64))) none = some a.connectTimeout := maybe_skip hn (by rfl) (fun h => by simp_all) (fun _ => opt_law (fun x h => ⟨by simp [eFin], fin_law x⟩))
  have e5 : maybe a.enc "httpCache".toList (dOpt (dFin (2 ^ 64))) none = some a.httpCache := maybe_skip hn (by rfl) (fun h => by simp_all) (fun _ => opt_law (fun x h => ⟨by simp [eFin], fin_law x⟩))
  have e6 : maybe a.enc "http2Only".toList (dOpt dBool) none = some a.http2Only := maybe_skip hn (by rfl) (fun h => by simp_all) (fun _ => opt_law (fun x h => ⟨by simp, rfl⟩))
  have e7 : maybe a.enc "keepAliveInterval".toList (dOpt (dFin (2 ^ 64))) none = some a.keepAliveInterval := maybe_skip hn (by rfl) (fun h => by simp_all) (fun _ => opt_law (fun x h => ⟨by simp [eFin], fin_law x⟩))
  have e8 : maybe a.enc "keepAliveTimeout".toList (dOpt (dFin (2 ^ 64))) none = some a.keepAliveTimeout := maybe_skip hn (by rfl) (fun h => by simp_all) (fun _ => opt_law (fun x h => ⟨by simp [eFin], fin_law x⟩))
  have e9 : maybe a.enc "keepAliveWhileIdle".toList (dOpt dBool) none = some a.keepAliveWhileIdle := maybe_skip hn (by rfl) (fun h => by simp_all) (fun _ => opt_law (fun x h => ⟨by simp, rfl⟩))
  have e10 : maybe a.enc "poolMaxIdlePerHost".toList (dOpt (dFin (2 ^ 64))) none = some a.poolMaxIdlePerHost := maybe_skip hn (by rfl) (fun h => by simp_all) (fun _ => opt_law (fun x h => ⟨by simp [eFin], fin_law x⟩))
  have e11 : maybe a.enc "poolIdleTimeout".toList (dOpt (dFin (2 ^ 64))) none = some a.poolIdleTimeout := maybe_skip hn (by rfl) (fun h => by simp_all) (fun _ => opt_law (fun x h => ⟨by simp [eFin], fin_law x⟩))
  have e12 : maybe a.enc "proxy".toList (dOpt (fun j => (fieldsOf j).bind Proxy.dec)) none = some a.proxy := maybe_skip hn (by rfl) (fun h => by simp_all) (fun _ => opt_law (fun x h => ⟨by simp [Proxy.toJ], Proxy.law' x⟩))
  have e13 : maybe a.enc "tcpKeepAlive".toList (dOpt (dFin (2 ^ 64))) none = some a.tcpKeepAlive := maybe_skip hn (by rfl) (fun h => by simp_all) (fun _ => opt_law (fun x h => ⟨by simp [eFin], fin_law x⟩))
  have e14 : maybe a.enc "timeout".toList (dOpt (dFin (2 ^ 64))) none = some a.timeout := maybe_skip hn (by rfl) (fun h => by simp_all) (fun _ => opt_law (fun x h => ⟨by simp [eFin], fin_law x⟩))
  have e15 : maybe a.enc "userAgent".toList (dOpt dText) none = some a.userAgent := maybe_skip hn (by rfl) (fun h => by simp_all) (fun _ => opt_law (fun x h => ⟨by simp, rfl⟩))
  have e16 : maybe a.enc "verifySSL".toList (dOpt dBool) (some true) = some (some (a.verifySsl.getD true)) := maybe_skip hn (by rfl) (fun h => by simp only [h]) (fun h => by cases hv : a.verifySsl <;> simp_all [eOpt, dOpt, dBool])
  simp only [Upstream.dec, e0, e1, e2, e3, e4, e5, e6, e7, e8, e9, e10, e11, e12, e13, e14, e15, e16, Option.bind_eq_bind, Option.bind_some]
  rfl

theorem Telemetry.keys (a : Telemetry) : (a.fields.map (·.1)).Nodup := by
  simp [Telemetry.fields]

theorem Telemetry.law (a : Telemetry) (hb : a.exporter ≠ some .null) : Telemetry.dec a.enc = some a := by
  have hn := a.keys
  have e0 : known a.enc ["export".toList, "requestHeaders".toList] = some () := known_keep (by simp [Telemetry.fields])
  have e1 : maybe a.enc "export".toList (dOpt some) none = some a.exporter := maybe_some hn (by rfl) (opt_law (fun x h => ⟨fun he => hb (by simpa [he] using h), rfl⟩))
  have e2 : maybe a.enc "requestHeaders".toList (dList dText) [] = some a.requestHeaders := maybe_skip hn (by rfl) (fun h => by simp_all) (fun _ => list_law (fun x h => rfl))
  simp only [Telemetry.dec, e0, e1, e2, Option.bind_eq_bind, Option.bind_some]
  rfl

theorem Telemetry.law' (a : Telemetry) (hb : a.exporter ≠ some .null) : (fieldsOf a.toJ).bind Telemetry.dec = some a := by
  simp only [Telemetry.toJ, fieldsOf, Option.bind_some]
  exact a.law hb

end Verif.Sdl
