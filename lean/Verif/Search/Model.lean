import Verif.Util.Str
import Verif.Util.Map
import Verif.Util.Sort
/-
Model of the search engine, crates/weaver_search/src/lib.rs and types.rs, and of the handlers that serve it:
src/serve/handlers.rs (HTTP) and crates/weaver_mcp/src/service.rs (MCP tools).

Not modelled: the JSON of the answers, and the parts of a definition neither the search nor the lookups look at (they are
the number `body`). `str::to_lowercase` and `char::is_whitespace` are parameters: nothing depends on which functions
they are. The namespace separator is assumed not to be empty where a theorem says so.
-/
namespace Verif.Search
open Verif.Util

/-- The kinds of searchable items (lib.rs:58-69 `SearchableItem`). -/
inductive Kind where
  | «attribute» | metric | span | event | entity
deriving DecidableEq, Repr

/-- weaver_semconv stability.rs:15-30. -/
inductive Stability where
  | deprecated | stable | development | alpha | beta | releaseCandidate
deriving DecidableEq, Repr

/-- One definition of the registry: what `id`, `brief`, `note`, `is_deprecated` and `stability` (lib.rs:402-454) read
from it. `template` says whether the type of an attribute is a template. -/
structure Item where
  kind : Kind
  id : String
  brief : String := ""
  note : String := ""
  deprecated : Bool := false
  stability : Stability := .development
  template : Bool := false
  body : Nat := 0
deriving DecidableEq, Repr

/-- The parts of `ForgeResolvedRegistry` that are searched. -/
structure Registry where
  attributes : List Item := []
  metrics : List Item := []
  spans : List Item := []
  events : List Item := []
  entities : List Item := []

/-- The kinds are what the type of each collection says. -/
structure Registry.Typed (r : Registry) : Prop where
  attributes : ∀ i ∈ r.attributes, i.kind = .attribute
  metrics : ∀ i ∈ r.metrics, i.kind = .metric
  spans : ∀ i ∈ r.spans, i.kind = .span
  events : ∀ i ∈ r.events, i.kind = .event
  entities : ∀ i ∈ r.entities, i.kind = .entity

/-- lib.rs:34-55 `SearchContext`. The hash maps are association lists; their iteration order is arbitrary. -/
structure Ctx where
  items : List Item
  attrIndex : List (String × Item)
  templateIndex : List (String × Item)
  templatesByLength : List (String × Item)
  metricIndex : List (String × Item)
  spanIndex : List (String × Item)
  eventIndex : List (String × Item)
  entityIndex : List (String × Item)
  sep : String

/-- Filling an index: `for x in l { index.insert(x.id, x) }`. -/
def index (l : List Item) : List (String × Item) := l.foldl (fun m i => aset i.id i m) []

/-- `str::len`: the number of bytes. -/
def blen (s : String) : Nat := (s.toList.map Char.utf8Size).sum

/-- lib.rs:80-149 `from_registry_with_separator`. -/
def build (r : Registry) (sep : String) : Ctx where
  items := r.attributes ++ r.metrics ++ r.spans ++ r.events ++ r.entities
  attrIndex := index (r.attributes.filter (fun i => !i.template))
  templateIndex := index (r.attributes.filter (fun i => i.template))
  templatesByLength := sortBy (geKey (fun p : String × Item => blen p.1))
    ((r.attributes.filter (fun i => i.template)).map (fun i => (i.id, i)))
  metricIndex := index r.metrics
  spanIndex := index r.spans
  eventIndex := index r.events
  entityIndex := index r.entities
  sep := sep

/-! ### Scores -/

/-- The two standard functions on characters. -/
structure Unicode where
  lower : Chars → Chars
  white : Char → Bool

/-- The characters at which a query is cut into tokens (lib.rs:529). -/
def queryCut (u : Unicode) (sep : Chars) (c : Char) : Bool := sep.contains c || decide (c = '_') || u.white c

/-- The characters at which a name is cut into tokens (lib.rs:535). -/
def idCut (sep : Chars) (c : Char) : Bool := sep.contains c || decide (c = '_')

/-- lib.rs:528-531: the tokens of the query. -/
def queryTokens (u : Unicode) (sep q : Chars) : List Chars :=
  (splitWhen (queryCut u sep) q).filter (fun t => !t.isEmpty)

/-- lib.rs:518-564: the score before the demotion of deprecated items. -/
def baseScore (u : Unicode) (sep q id brief note : Chars) : Nat :=
  if id = q then 100
  else if (dropPrefix? q id).isSome then 80
  else if occurs q id then 70
  else
    if !(queryTokens u sep q).isEmpty then
      if (queryTokens u sep q).all (fun qt => (splitWhen (idCut sep) id).any (fun it => occurs qt it)) then 60
      else if occurs q brief then 40
      else if occurs q note then 20
      else if (queryTokens u sep q).all (fun qt => occurs qt brief) then 35
      else if (queryTokens u sep q).all (fun qt => occurs qt note) then 15
      else 0
    else if occurs q brief then 40
    else if occurs q note then 20
    else 0

/-- lib.rs:566-571: the demotion of deprecated items. -/
def demote (deprecated : Bool) (score : Nat) : Nat :=
  if deprecated && decide (0 < score) then (if score / 10 = 0 then 1 else score / 10) else score

/-- lib.rs:493-507 `score_match`. -/
def score (u : Unicode) (sep : String) (query : String) (i : Item) : Nat :=
  demote i.deprecated (baseScore u sep.toList (u.lower query.toList) (u.lower i.id.toList) (u.lower i.brief.toList)
    (u.lower i.note.toList))

/-! ### Search -/

/-- lib.rs:31. -/
def maxLimit : Nat := 1000

/-- lib.rs:178-193: the three filters; `none` is `SearchType::All`. -/
def filtered (c : Ctx) (kind : Option Kind) (stability : Option Stability) (hideDeprecated : Bool) : List Item :=
  let a := c.items.filter (fun i => match kind with | none => true | some k => decide (i.kind = k))
  let b := match stability with | none => a | some s => a.filter (fun i => decide (i.stability = s))
  if hideDeprecated then b.filter (fun i => !i.deprecated) else b

/-- lib.rs:350-360: the scored items. -/
def scored (u : Unicode) (sep query : String) (items : List Item) : List (Nat × Item) :=
  items.filterMap (fun i => if 0 < score u sep query i then some (score u sep query i, i) else none)

/-- lib.rs:343-377 `search_mode_with_total`. -/
def searchMode (u : Unicode) (items : List Item) (query : String) (limit offset : Nat) (sep : String) :
    List (Nat × Item) × Nat :=
  let ranked := sortBy (geKey Prod.fst) (scored u sep query items)
  ((ranked.drop offset).take limit, ranked.length)

/-- lib.rs:380-387 `browse_mode`. -/
def browseMode (items : List Item) (limit offset : Nat) : List (Nat × Item) :=
  ((items.drop offset).take limit).map (fun i => (0, i))

/-- lib.rs:166-214 `search`. -/
def search (u : Unicode) (c : Ctx) (query : Option String) (kind : Option Kind) (stability : Option Stability)
    (hideDeprecated : Bool) (limit offset : Nat) : List (Nat × Item) × Nat :=
  let limit := min limit maxLimit
  let items := filtered c kind stability hideDeprecated
  match query with
  | some q => if q = "" then (browseMode items limit offset, items.length) else searchMode u items q limit offset c.sep
  | none => (browseMode items limit offset, items.length)

/-- service.rs:390-411: the MCP tool `search`. -/
def mcpSearch (u : Unicode) (c : Ctx) (query : Option String) (kind : Option Kind) (stability : Option Stability)
    (limit : Nat) : List (Nat × Item) × Nat :=
  search u c query kind stability false (min limit 100) 0

/-! ### Lookups -/

/-- lib.rs:222-267: the lookups by name. -/
def getAttribute (c : Ctx) (k : String) : Option Item := aget k c.attrIndex
def getTemplate (c : Ctx) (k : String) : Option Item := aget k c.templateIndex
def getMetric (c : Ctx) (k : String) : Option Item := aget k c.metricIndex
def getSpan (c : Ctx) (k : String) : Option Item := aget k c.spanIndex
def getEvent (c : Ctx) (k : String) : Option Item := aget k c.eventIndex
def getEntity (c : Ctx) (k : String) : Option Item := aget k c.entityIndex

/-- lib.rs:236-243 `find_template`. -/
def findTemplate (c : Ctx) (name : String) : Option Item :=
  (c.templatesByLength.find? (fun p => (dropPrefix? p.1.toList name.toList).isSome)).map Prod.snd

/-- `str::trim_start_matches('/')`. -/
def trimSlashes (s : String) : String := String.ofList (s.toList.dropWhile (fun c => decide (c = '/')))

/-- handlers.rs:115-255: `GET /api/v1/registry/{kind}/{name}`. -/
def httpGet (c : Ctx) (kind : Kind) (name : String) : Option Item :=
  let key := trimSlashes name
  match kind with
  | .attribute => (getAttribute c key).orElse (fun _ => getTemplate c key)
  | .metric => getMetric c key
  | .span => getSpan c key
  | .event => getEvent c key
  | .entity => getEntity c key

/-- service.rs:420-488: the MCP tools `get_attribute`, `get_metric`, `get_span`, `get_event`, `get_entity`. -/
def mcpGet (c : Ctx) (kind : Kind) (key : String) : Option Item :=
  match kind with
  | .attribute => getAttribute c key
  | .metric => getMetric c key
  | .span => getSpan c key
  | .event => getEvent c key
  | .entity => getEntity c key

/-! ### Namespaces -/

/-- types.rs:71-82 `NamespaceInfo`; of an attribute listed directly, its entry in the index. -/
structure NsInfo where
  pre : String
  subs : List String
  attrs : List (String × Item)
  total : Nat
  depth : Nat
deriving DecidableEq, Repr

/-- lib.rs:294-304: what is left of a key below the prefix, if it is below it. -/
def remainder (sep p key : Chars) : Option Chars :=
  if p = [] then some key
  else
    match dropPrefix? p key with
    | some rest => dropPrefix? sep rest
    | none => none

/-- The state of the loop lib.rs:285-288; `subs` is a `BTreeSet`. -/
structure BState where
  subs : List (String × Unit) := []
  direct : List (String × Item) := []
  total : Nat := 0
  depth : Nat := 0

/-- The body of the loop, lib.rs:293-328. -/
def browseStep (sep p : Chars) (st : BState) (e : String × Item) : BState :=
  match remainder sep p e.1.toList with
  | none => st
  | some rem =>
    let total := st.total + 1
    let d := countSub sep 0 rem + 1
    let depth := if st.depth < d then d else st.depth
    match splitFirst sep rem with
    | some seg =>
      let ns := if p = [] then seg.1 else p ++ sep ++ seg.1
      { st with subs := bins (String.ofList ns) () st.subs, total := total, depth := depth }
    | none => { st with direct := st.direct ++ [e], total := total, depth := depth }

/-- The order of `direct_attrs.sort_by(|a, b| a.key.cmp(&b.key))`. -/
def keyLe (a b : String × Item) : Bool := decide (¬ b.1 < a.1)

/-- lib.rs:279-339 `browse_namespace`, with the entries of the two indices in the order the hash maps give them. -/
def browseIn (sep : String) (entries : List (String × Item)) (pre : Option String) : NsInfo :=
  let p := trimEndSub sep.toList (pre.getD "").toList
  let st := entries.foldl (browseStep sep.toList p) {}
  { pre := String.ofList p, subs := st.subs.map Prod.fst, attrs := sortBy keyLe st.direct, total := st.total,
    depth := st.depth }

/-- lib.rs:279-339 `browse_namespace` -/
def browse (c : Ctx) (pre : Option String) : NsInfo := browseIn c.sep (c.attrIndex ++ c.templateIndex) pre

end Verif.Search
