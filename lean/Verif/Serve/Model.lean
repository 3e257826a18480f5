import Verif.Search.Model
/-
The HTTP server of `weaver serve`: src/serve/server.rs:132-252 and src/serve/handlers.rs.

Of axum it is trusted how routes are chosen: fixed segments first, `{name}` matches one segment that is not empty, a known path
with another method is answered with 405, everything else goes to the fallback. The segments of a request are taken after
percent-decoding, and those that are fixed in a route are written without percent codes. Schemas, statistics and the OpenAPI
document are texts; the evaluation of jq filters is a parameter (modelled in Verif/Jq).
-/
namespace Verif.Serve
open Verif.Util Verif.Search

/-! ### Errors of filters -/

/-- crates/weaver_forge/src/error.rs: the errors that filters give, with the details of `FilterError`. -/
inductive Err (D : Type) where
  | filter (details : List D)
  | compound (errors : List (Err D))
  | other

mutual
/-- handlers.rs:318-334 `extract_details`. -/
def Err.details {D : Type} : Err D → List D
  | .filter ds => ds
  | .compound es => Err.detailsAll es
  | .other => []
/-- handlers.rs:326-330: the loop over the errors. -/
def Err.detailsAll {D : Type} : List (Err D) → List D
  | [] => []
  | e :: es => Err.details e ++ Err.detailsAll es
end

/-! ### Requests -/

/-- `GET` and `HEAD` are answered by `get(...)`. -/
inductive Method where
  | get
  | head
  | other
deriving DecidableEq

/-- types.rs:28-49 `SearchParams`; `kind` is `none` for all. -/
structure SearchParams where
  q : Option String := none
  kind : Option Kind := none
  stability : Option Stability := none
  hideDeprecated : Bool := false
  limit : Nat := 50
  offset : Nat := 0

/-- A request: its path, and the parameters of its query as the endpoints read them (`none`: they cannot be read). -/
structure Request where
  method : Method := .get
  segments : List String
  search : Option SearchParams := some {}
  filter : Option (Option String) := some none

/-- What is answered. `page` is the start page of the user interface. -/
inductive Body (V D : Type) where
  | empty
  | schema (name : String)
  | stats
  | openapi
  | item (i : Item)
  | found (query : Option String) (total count offset : Nat) (results : List (Nat × Item))
  | value (v : V)
  | error (details : Option (List D))
  | file (path : String)
  | page

/-- A status and a body. -/
structure Response (V D : Type) where
  status : Nat
  body : Body V D

/-- server.rs:30-38 `AppState`, with the files of the user interface (`UI_DIST`). -/
structure State (V D : Type) where
  ctx : Ctx
  run : String → Except (Err D) V
  files : List String

/-- server.rs:160-193: the routes. -/
inductive Route where
  | health
  | schema (name : String)
  | stats
  | item (k : Kind) (name : String)
  | search
  | filter
  | openapi
deriving DecidableEq

/-- server.rs:168-188: the segment of a kind. -/
def kindOf : String → Option Kind
  | "attribute" => some .attribute
  | "metric" => some .metric
  | "span" => some .span
  | "event" => some .event
  | "entity" => some .entity
  | _ => none

/-- server.rs:160-193. -/
def route : List String → Option Route
  | ["health"] => some .health
  | ["api", "v1", "openapi.json"] => some .openapi
  | ["api", "v1", "schema", n] => if n = "" then none else some (.schema n)
  | ["api", "v1", "registry", "stats"] => some .stats
  | ["api", "v1", "registry", "search"] => some .search
  | ["api", "v1", "registry", "filter"] => some .filter
  | ["api", "v1", "registry", k, n] => if n = "" then none else (kindOf k).map fun k => .item k n
  | _ => none

/-- handlers.rs:48-79 `get_schema`: the names that are known. -/
def schemaNames : List String := ["MaterializedRegistryV2", "SemconvDefinitionV2", "LiveCheckSample"]

/-- handlers.rs: what each route answers. -/
def handle {V D : Type} (u : Unicode) (st : State V D) (r : Request) : Route → Response V D
  | .health => ⟨200, .empty⟩
  | .schema n => if schemaNames.contains (trimSlashes n) then ⟨200, .schema (trimSlashes n)⟩ else ⟨404, .error none⟩
  | .stats => ⟨200, .stats⟩
  | .openapi => ⟨200, .openapi⟩
  | .item k n =>
    match httpGet st.ctx k n with
    | some i => ⟨200, .item i⟩
    | none => ⟨404, .error none⟩
  | .search =>
    match r.search with
    | none => ⟨400, .error none⟩
    | some p =>
      let res := search u st.ctx p.q p.kind p.stability p.hideDeprecated p.limit p.offset
      ⟨200, .found p.q res.2 res.1.length p.offset res.1⟩
  | .filter =>
    match r.filter with
    | none => ⟨400, .error none⟩
    | some f =>
      match st.run (f.getD ".") with
      | .ok v => ⟨200, .value v⟩
      | .error e => ⟨400, .error (if e.details.isEmpty then none else some e.details)⟩

/-- The path without the slashes at its beginning. -/
def pathText (segments : List String) : String := trimSlashes ("/".intercalate segments)

/-- server.rs:228-249 `serve_ui`. -/
def serveUi {V D : Type} (st : State V D) (r : Request) : Response V D :=
  if st.files.contains (pathText r.segments) then ⟨200, .file (pathText r.segments)⟩
  else if st.files.contains "index.html" then ⟨200, .page⟩
  else ⟨404, .error none⟩

/-- server.rs:160-196: the answer to a request. -/
def answer {V D : Type} (u : Unicode) (st : State V D) (r : Request) : Response V D :=
  match route r.segments with
  | none => serveUi st r
  | some rt => if r.method = .other then ⟨405, .empty⟩ else handle u st r rt

/-! ### Origins -/

/-- `HeaderValue::from_str`: visible ASCII characters, blanks and tabs. -/
def headerValue (s : Chars) : Bool := s.all fun c => decide ((32 ≤ c.toNat ∧ c.toNat < 127) ∨ c = '\t')

/-- `str::trim`, for the white space of ASCII. -/
def trim (s : Chars) : Chars := ((s.dropWhile Char.isWhitespace).reverse.dropWhile Char.isWhitespace).reverse

/-- What the layer for CORS allows. -/
inductive Cors where
  | off
  | any
  | only (origins : List Chars)
deriving DecidableEq

/-- server.rs:198-223. `none` is a panic: `expect` for an origin that is no value of a header, and `AllowOrigin::list` of
tower-http for a list with `*`. -/
def cors : Option Chars → Option Cors
  | none => some .off
  | some origins =>
    if origins = ['*'] then some .any
    else
      let list := (splitWhen (fun c => decide (c = ',')) origins).map trim
      if list.all headerValue ∧ ['*'] ∉ list then some (.only list) else none

/-- tower-http: whether a page of an origin may read the answer; the values of the headers are compared. -/
def Cors.allows : Cors → Chars → Bool
  | .off, _ => false
  | .any, _ => true
  | .only l, o => l.contains o

end Verif.Serve
