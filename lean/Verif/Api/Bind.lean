import Verif.Api.Auth
import Verif.Util.Range

/-!
# Binding of requests (model)

How the servers read the name, the bucket, the digest, … of a request: `BindAll`
(src/apiserver/internal/entity/binder.go, src/metaserver/internal/entity/binder.go,
src/adminserver/internal/entity/binder.go, and the copy in src/objectserver/internal/entity) and the request
types of src/apiserver/internal/entity/dto.go, src/apiserver/internal/controller/http/metadata_api.go,
src/objectserver/internal/entity/dto.go, src/adminserver/internal/controller/http/object.go and
src/metaserver/internal/controller/http/version_rest.go.

gin and its validator are not part of the repository.  The first section models the parts of gin 1.9.1 that
are used: this belongs to the trusted base.
-/

namespace Verif.Api.Bind

open Verif

/-! ## gin -/

/-- The kind of a field.  `other` stands for the kinds no text converts to: `io.Reader`, and
`request.Range`.  (Simplification: gin would read a struct from JSON text, and would look for the
fields of `request.Range` in a request without the key `Range`; both are left out.) -/
inductive Kind
  | str
  | int (bits : Nat)
  | bool
  | strs
  | other
  deriving DecidableEq

/-- The tag `binding` of a field.  `min1` is used for strings, `min0` for numbers. -/
inductive Rule
  | none
  | required
  | min0
  | min1
  deriving DecidableEq

/-- A field of a request type: its Go name and its tags. -/
structure Field where
  name : Str
  kind : Kind
  uri : Option Str := .none
  header : Option Str := .none
  form : Option Str := .none
  json : Option Str := .none
  rule : Rule := .none

/-- The value of a field. -/
inductive Val
  | str (s : Str)
  | int (i : Int)
  | bool (b : Bool)
  | strs (l : List Str)
  | other
  deriving DecidableEq

/-- The zero value of a kind. -/
def zero : Kind → Val
  | .str => .str []
  | .int _ => .int 0
  | .bool => .bool false
  | .strs => .strs []
  | .other => .other

/-- A value of a JSON object.  Simplification: numbers are integers; arrays, objects, booleans and fractions are
`other`. -/
inductive JVal
  | str (s : Str)
  | num (i : Int)
  | other

/-- What gin reads of a request: the parameters of the route, the headers (by canonical name), the query, and
the body as a JSON object (`none`: it is none). -/
structure Request where
  param : Str → Option Str
  header : Str → Option (List Str)
  query : Str → Option (List Str)
  body : Option (List (Str × JVal)) := none

/-- The bindings `binding.Uri`, `binding.Header`, `binding.Query` and `binding.JSON`. -/
inductive Source
  | uri
  | header
  | query
  | json
  deriving DecidableEq

/-- `textproto.CanonicalMIMEHeaderKey` for names of letters, digits and hyphens. -/
def canonFrom (upper : Bool) : Str → Str
  | [] => []
  | c :: cs => (if upper then c.toUpper else c.toLower) :: canonFrom (c = '-') cs

/-- See `canonFrom`. -/
def canon (s : Str) : Str := canonFrom true s

/-- The name gin looks for: the tag, or **the Go name of the field if there is no such tag**
(`tryToSetValue` in binding/form_mapping.go). -/
def key (s : Source) (f : Field) : Str :=
  match s with
  | .uri => f.uri.getD f.name
  | .header => canon (f.header.getD f.name)
  | .query => f.form.getD f.name
  | .json => f.json.getD f.name

/-- The values of a request under a name. -/
def values (s : Source) (r : Request) (k : Str) : Option (List Str) :=
  match s with
  | .uri => (r.param k).map fun v => [v]
  | .header => r.header k
  | .query => r.query k
  | .json => none

/-- `strconv.ParseBool`. -/
def parseBool (s : Str) : Option Bool :=
  if s = ['1'] ∨ s = ['t'] ∨ s = ['T'] ∨ s = "TRUE".toList ∨ s = "true".toList ∨ s = "True".toList then some true
  else if s = ['0'] ∨ s = ['f'] ∨ s = ['F'] ∨ s = "FALSE".toList ∨ s = "false".toList ∨ s = "False".toList then
    some false
  else none

/-- `strconv.ParseInt(s, 10, bits)` for `bits ≤ 64`; `none`: an error. -/
def parseInt (bits : Nat) (s : Str) : Option Int :=
  match atoi s with
  | some i => if -(2 ^ (bits - 1) : Int) ≤ i ∧ i < 2 ^ (bits - 1) then some i else none
  | none => none

/-- The first of the values, `setByForm` in binding/form_mapping.go. -/
def first (vs : List Str) : Str := vs.headD []

/-- `setWithProperType` and `setSlice` in binding/form_mapping.go: an empty text is zero or false; `none` is an
error. -/
def setVal (k : Kind) (vs : List Str) : Option Val :=
  match k with
  | .str => some (.str (first vs))
  | .int bits => if first vs = [] then some (.int 0) else (parseInt bits (first vs)).map .int
  | .bool => if first vs = [] then some (.bool false) else (parseBool (first vs)).map .bool
  | .strs => some (.strs vs)
  | .other => none

/-- `mapping` in binding/form_mapping.go: the fields in the order of the type; the first error ends it.  The
result are the values of the fields and whether there was an error. -/
def mapFields (look : Field → Option (List Str)) : List Field → List Val → List Val × Bool
  | f :: fs, v :: vs =>
    match look f with
    | none => let (ws, e) := mapFields look fs vs; (v :: ws, e)
    | some l =>
      match setVal f.kind l with
      | none => (v :: vs, true)
      | some w => let (ws, e) := mapFields look fs vs; (w :: ws, e)
  | _, vs => (vs, false)

/-- The value of a JSON member for a field (`none`: it does not convert). -/
def setJson (k : Kind) (j : JVal) : Option Val :=
  match k, j with
  | .str, .str s => some (.str s)
  | .int bits, .num i => if -(2 ^ (bits - 1) : Int) ≤ i ∧ i < 2 ^ (bits - 1) then some (.int i) else none
  | _, _ => none

/-- `encoding/json`: a member that does not convert is skipped, the others are still stored, and an error is
returned in the end.  Simplification: names are compared exactly, and every name occurs once. -/
def mapJson (members : List (Str × JVal)) : List Field → List Val → List Val × Bool
  | f :: fs, v :: vs =>
    let (ws, e) := mapJson members fs vs
    match members.lookup (key .json f) with
    | none => (v :: ws, e)
    | some j =>
      match setJson f.kind j with
      | none => (v :: ws, true)
      | some w => (w :: ws, e)
  | _, vs => (vs, false)

/-- One rule of the validator. -/
def ruleOk (f : Field) (v : Val) : Bool :=
  match f.rule, v with
  | .none, _ => true
  | .required, v => v ≠ zero f.kind
  | .min0, .int i => 0 ≤ i
  | .min0, _ => true
  | .min1, .str s => s ≠ []
  | .min1, _ => true

/-- `validate`: all rules of the type, whatever was bound. -/
def validate : List Field → List Val → Bool
  | f :: fs, v :: vs => ruleOk f v && validate fs vs
  | _, _ => true

/-- `ShouldBindUri`, `ShouldBindWith` and `ShouldBindBodyWith`: the values afterwards, and whether an error is
returned.  After an error of the mapping nothing is validated. -/
def bindOne (t : List Field) (r : Request) (s : Source) (vs : List Val) : List Val × Bool :=
  match s with
  | .json =>
    match r.body with
    | none => (vs, true)
    | some m =>
      let (ws, e) := mapJson m t vs
      (ws, e || !validate t ws)
  | s =>
    let (ws, e) := mapFields (fun f => values s r (key s f)) t vs
    (ws, e || !validate t ws)

/-! ## The repository -/

/-- `BindAll`, apiserver/internal/entity/binder.go:17-29 (the same in the other servers): **every error is
overwritten by the result of the next binding**. -/
def bindAll (t : List Field) (r : Request) (ss : List Source) (vs : List Val) : List Val × Bool :=
  ss.foldl (fun p s => bindOne t r s p.1) (vs, false)

/-- A request type, from its zero value. -/
def bind (t : List Field) (ss : List Source) (r : Request) : Option (List Val) :=
  let (vs, e) := bindAll t r ss (t.map fun f => zero f.kind)
  if e then none else some vs

def sName : Str := "Name".toList
def sBucket : Str := "Bucket".toList
def sHash : Str := "Hash".toList

/-- `PutReq`, dto.go:23-32. -/
def putType : List Field :=
  [{ name := "Store".toList, kind := .int 8, form := some "ss".toList },
   { name := "Compress".toList, kind := .bool, form := some "compress".toList },
   { name := sName, kind := .str, uri := some "name".toList, rule := .required },
   { name := sBucket, kind := .str, header := some "bucket".toList, rule := .required },
   { name := sHash, kind := .str, header := some "digest".toList, rule := .required },
   { name := "Ext".toList, kind := .str },
   { name := "Locate".toList, kind := .strs },
   { name := "Body".toList, kind := .other }]

/-- `PutReq.Bind`, dto.go:78-83. -/
def putOrder : List Source := [.uri, .header, .query]

/-- `GetReq`, dto.go:34-39. -/
def getType : List Field :=
  [{ name := sName, kind := .str, uri := some "name".toList, rule := .required },
   { name := sBucket, kind := .str, header := some "bucket".toList, rule := .required },
   { name := "Version".toList, kind := .int 32, form := some "version".toList, rule := .min0 },
   { name := "Range".toList, kind := .other }]

/-- `GetReq.Bind`, dto.go:85-89; the rest of it is `Verif.Range.bindRange`.  (`VerModeLast` is 0.) -/
def getOrder : List Source := [.uri, .header, .query]

/-- `BigPostReq`, dto.go:41-48. -/
def bigType : List Field :=
  [{ name := "Compress".toList, kind := .bool, form := some "compress".toList },
   { name := sName, kind := .str, uri := some "name".toList, rule := .required },
   { name := sBucket, kind := .str, header := some "bucket".toList, rule := .required },
   { name := sHash, kind := .str, header := some "digest".toList, rule := .required },
   { name := "Size".toList, kind := .int 64, header := some "size".toList, rule := .required },
   { name := "Ext".toList, kind := .str }]

/-- `BigPostReq.Bind`, dto.go:55-60. -/
def bigOrder : List Source := [.header, .query, .uri]

/-- The body of `MetadataController.Get`, metadata_api.go:29-33. -/
def metaType : List Field :=
  [{ name := sName, kind := .str, uri := some "name".toList },
   { name := sBucket, kind := .str, header := some "bucket".toList, rule := .required },
   { name := "Version".toList, kind := .int 32, form := some "version".toList }]

/-- The body of `MetadataController.Versions`, metadata_api.go:47-52. -/
def versionsType : List Field :=
  [{ name := "Page".toList, kind := .int 64, form := some "page".toList, rule := .required },
   { name := "PageSize".toList, kind := .int 64, form := some "page_size".toList, rule := .required },
   { name := sBucket, kind := .str, header := some "bucket".toList, rule := .required },
   { name := sName, kind := .str, uri := some "name".toList, rule := .min1 }]

/-- `Bind(c, b, false)` of the API server, apiserver/internal/entity/binder.go:8-15. -/
def apiOrder : List Source := [.uri, .query, .header]

/-- `TempPostReq`, objectserver/internal/entity/dto.go:13-16. -/
def tempType : List Field :=
  [{ name := sName, kind := .str, uri := some "name".toList, rule := .required },
   { name := "Size".toList, kind := .int 64, header := some "size".toList, rule := .required }]

/-- The order of `Post`, objectserver/internal/controller/http/temp/temp_rest.go:44.  (`TempPostReq.Bind`,
objectserver/internal/entity/dto.go:18-23, is not used.) -/
def tempOrder : List Source := [.header, .uri]

/-- The body of `UpdateLocates`, metaserver/internal/controller/http/version_rest.go:124-128. -/
def locateType : List Field :=
  [{ name := "Locate".toList, kind := .str, json := some "locate".toList, rule := .required },
   { name := sHash, kind := .str, json := some "hash".toList, rule := .required },
   { name := "LocateIndex".toList, kind := .int 64, json := some "locateIndex".toList }]

/-- `FullBindings` of the metadata server, metaserver/internal/entity/binder.go:8. -/
def locateOrder : List Source := [.uri, .json, .query]

/-- What `ObjectsController.ValidatePut` (objects_api.go:96-119) gets from `PutReq.Bind`; `none`: status 400. -/
structure Put where
  name : Str
  bucket : Str
  digest : Str
  compress : Bool
  store : Int
  deriving DecidableEq

/-- See `Put`.  The fields `Ext`, `Locate` and `Body` are assigned by the handler before they are read. -/
def bindPut (r : Request) : Option Put :=
  match bind putType putOrder r with
  | some [.int ss, .bool c, .str n, .str b, .str h, _, _, _] => some ⟨n, b, h, c, ss⟩
  | _ => none

/-- What `ObjectsController.Get` (objects_api.go:58-67) gets from `GetReq.Bind`. -/
structure Get where
  name : Str
  bucket : Str
  version : Int
  deriving DecidableEq

/-- See `Get`. -/
def bindGet (r : Request) : Option Get :=
  match bind getType getOrder r with
  | some [.str n, .str b, .int v, _] => some ⟨n, b, v⟩
  | _ => none

/-- What `BigObjectsController.Post` (big_api.go:41-46) gets from `BigPostReq.Bind`. -/
structure Big where
  name : Str
  bucket : Str
  digest : Str
  size : Int
  compress : Bool
  deriving DecidableEq

/-- See `Big`. -/
def bindBig (r : Request) : Option Big :=
  match bind bigType bigOrder r with
  | some [.bool c, .str n, .str b, .str h, .int z, _] => some ⟨n, b, h, z, c⟩
  | _ => none

/-- What `MetadataController.Get` gets. -/
def bindMeta (r : Request) : Option Get :=
  match bind metaType apiOrder r with
  | some [.str n, .str b, .int v] => some ⟨n, b, v⟩
  | _ => none

/-- What `MetadataController.Versions` gets: name, bucket, page, page size. -/
def bindVersions (r : Request) : Option (Str × Str × Int × Int) :=
  match bind versionsType apiOrder r with
  | some [.int p, .int z, .str b, .str n] => some (n, b, p, z)
  | _ => none

/-- What `Post` (temp_rest.go:42-57) of a data server gets: name and size. -/
def bindTemp (r : Request) : Option (Str × Int) :=
  match bind tempType tempOrder r with
  | some [.str n, .int z] => some (n, z)
  | _ => none

/-- What `UpdateLocates` of a metadata server gets: hash, index, locate. -/
def bindLocate (r : Request) : Option (Str × Int × Str) :=
  match bind locateType locateOrder r with
  | some [.str l, .str h, .int i] => some (h, i, l)
  | _ => none

/-- What the authentication middleware (`Verif.Api.Req`) reads of the same request:
callback_validator.go:42-55.  `c.GetHeader` and `c.Query` give the first value; `util.ToInt`
(src/common/util/util.go:130-139) drops the error of `strconv.Atoi`, which is the same as `Range.toInt64`. -/
def authReq (fullPath host method : Str) (basic : Option (Str × Str)) (r : Request) : Api.Req where
  fullPath := fullPath
  host := host
  bucket := first ((r.header sBucket).getD [])
  region := first ((r.header "Region".toList).getD [])
  name := (r.param "name".toList).getD []
  version := Range.toInt64 (first ((r.query "version".toList).getD []))
  method := method
  basic := basic

end Verif.Api.Bind
