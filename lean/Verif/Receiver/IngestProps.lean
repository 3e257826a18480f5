import Verif.Receiver.Ingest
import Verif.Values.Props
/-
What is checked of the telemetry that is sent (C195 to C197).
-/
namespace Verif.Receiver.Ingest
open Verif.LiveCheck (Elem Value PType AType AttrDef SAttr Resource Scope SpanEvent SpanLink Exemplar Point Points Instr Metric Log
  Span Profile Sample SRef Finding attach nextResource attachAll typeAdvisor)
open Verif.Values (inferType inferType_iff HasType)
open Verif.Util (Forall2)

/-! ### Specification -/

/-- A signal in a request. -/
inductive Signal where
  | log (m : LogMsg)
  | metric (m : MetricMsg)
  | span (m : SpanMsg)
  | profile (d : Option Dict) (m : ProfileMsg)

/-- The signals of a resource, with the resource. -/
def Block.sent {σ : Type} (mk : σ → Signal) (b : Block σ) : List (Option (List KV) × Signal) :=
  b.scopes.flatMap (fun s => s.signals.map (fun m => (b.resource, mk m)))

/-- All signals of a request, with their resources. -/
def Request.sent : Request → List (Option (List KV) × Signal)
  | .logs l => l.flatMap (Block.sent .log)
  | .metrics l => l.flatMap (Block.sent .metric)
  | .traces l => l.flatMap (Block.sent .span)
  | .profiles d l => l.flatMap (Block.sent (.profile d))

/-- Every signal of the request comes with a resource. -/
def Request.Owned : Request → Prop
  | .logs l => ∀ b ∈ l, b.resource ≠ none
  | .metrics l => ∀ b ∈ l, b.resource ≠ none
  | .traces l => ∀ b ∈ l, b.resource ≠ none
  | .profiles _ l => ∀ b ∈ l, b.resource ≠ none

/-- The sample of a signal. -/
def sampleOf (r : Option Resource) : Signal → Sample
  | .log m => .log { logOf m with resource := r }
  | .metric m => .metric { metricOf m with resource := r }
  | .span m => .span { spanOf m with resource := r }
  | .profile d m => .profile { profileOf d m with resource := r }

def isSignal : Sample → Bool
  | .log _ => true
  | .metric _ => true
  | .span _ => true
  | .profile _ => true
  | _ => false

/-- A sample without its resource. -/
def bare : Sample → Sample
  | .log m => .log { m with resource := none }
  | .metric m => .metric { m with resource := none }
  | .span m => .span { m with resource := none }
  | .profile m => .profile { m with resource := none }
  | s => s

/-- The scalar says what was sent. -/
inductive SameElem : Any → Elem → Prop
  | str (s : String) : SameElem (.str s) (.str s)
  | int (n : Int) : SameElem (.int n) (.int n)
  | dbl (f : Nat) : SameElem (.dbl f) (.dbl f)
  | bool (b : Bool) : SameElem (.bool b) (.bool b)

/-- The value is a scalar, or an array of scalars. -/
def Scalar (v : Any) : Prop := ∃ e, SameElem v e

/-- The attribute has the name that was sent, and the value, if this is a scalar or an array of scalars. -/
structure SameAttr (kv : KV) (a : SAttr) : Prop where
  name : a.name = kv.key
  scalar : ∀ v, kv.value = some v → Scalar v → ∃ e, SameElem v e ∧ a.value = some (.elem e)
  array : ∀ l, kv.value = some (.arr l) → (∀ v ∈ l, Scalar v) → ∃ es, Forall2 SameElem l es ∧ a.value = some (.arr es)

/-- A data point has the attributes that were sent, and so have its exemplars. -/
structure SamePoint (m : PointMsg) (p : Point) : Prop where
  attrs : Forall2 SameAttr m.attrs p.attrs
  exemplars : Forall2 (fun (e : List KV) (x : Exemplar) => Forall2 SameAttr e x.attrs) m.exemplars p.exemplars

/-- The instrument and the data points of a metric. -/
def SameData : Option Data → Instr → Option Points → Prop
  | some (.sum m l), i, p => i = .supported (if m then "counter" else "updowncounter") ∧ ∃ ps, p = some (.number ps) ∧ Forall2 SamePoint l ps
  | some (.gauge l), i, p => i = .supported "gauge" ∧ ∃ ps, p = some (.number ps) ∧ Forall2 SamePoint l ps
  | some (.histogram l), i, p => i = .supported "histogram" ∧ ∃ ps, p = some (.histogram ps) ∧ Forall2 SamePoint l ps
  | some (.exponential l), i, p => i = .supported "histogram" ∧ ∃ ps, p = some (.exponential ps) ∧ Forall2 SamePoint l ps
  | some .summary, i, _ => i = .unsupported "Summary"
  | none, i, _ => i = .unsupported "Unspecified"

/-- The sample says what was sent, apart from the resource. What the attributes of profiles are: see C198. -/
def Says : Signal → Sample → Prop
  | .log m, .log s => s.eventName = m.eventName ∧ Forall2 SameAttr m.attrs s.attrs
  | .metric m, .metric s => s.name = m.name ∧ s.unit = m.unit ∧ SameData m.data s.instrument s.points
  | .span m, .span s => s.name = m.name ∧ Forall2 SameAttr m.attrs s.attrs ∧
      Forall2 (fun (e : String × List KV) (x : SpanEvent) => x.name = e.1 ∧ Forall2 SameAttr e.2 x.attrs) m.events s.events ∧
      Forall2 (fun (e : List KV) (x : SpanLink) => Forall2 SameAttr e x.attrs) m.links s.links
  | .profile _ _, .profile _ => True
  | _, _ => False

/-! ### C195 -/

theorem blockSamples_signals {σ : Type} (sample : Option Resource → σ → Sample) (mk : σ → Signal)
    (h : ∀ r m, sample r m = sampleOf r (mk m)) (b : Block σ) :
    (blockSamples sample b).filter isSignal = (b.sent mk).map (fun x => sampleOf (x.1.map resourceOf) x.2) := by
  have hsig : ∀ r s, isSignal (sampleOf r s) = true := by intro r s; cases s <;> rfl
  unfold blockSamples Block.sent
  dsimp only
  rw [List.filter_append]
  have h1 : ((b.resource.map resourceOf).toList.map Sample.resource).filter isSignal = [] := by
    cases b.resource <;> rfl
  rw [h1, List.nil_append]
  induction b.scopes with
  | nil => rfl
  | cons s ss ih =>
    rw [List.flatMap_cons, List.flatMap_cons, List.filter_append, ih, List.map_append]
    congr 1
    unfold scopeSamples
    rw [List.filter_append]
    have h2 : ((scopeOf s.scope s.url).toList.map Sample.scope).filter isSignal = [] := by
      cases scopeOf s.scope s.url <;> rfl
    rw [h2, List.nil_append, List.map_map, List.filter_eq_self.2]
    · apply List.map_congr_left
      intro m _
      exact h _ _
    · intro x hx
      obtain ⟨m, _, rfl⟩ := List.mem_map.1 hx
      rw [h]; exact hsig _ _

theorem filter_flatMap_eq {α β γ : Type} (p : β → Bool) (f : α → List β) (g : α → List γ) (k : γ → β)
    (h : ∀ a, (f a).filter p = (g a).map k) (l : List α) : (l.flatMap f).filter p = (l.flatMap g).map k := by
  induction l with
  | nil => rfl
  | cons a l ih => rw [List.flatMap_cons, List.flatMap_cons, List.filter_append, List.map_append, h, ih]

/-- The ingester: the signals of a request, in order, each with its own resource. -/
theorem ingest_signals (r : Request) :
    (ingest r).filter isSignal = r.sent.map (fun x => sampleOf (x.1.map resourceOf) x.2) := by
  cases r with
  | logs l => exact filter_flatMap_eq _ _ _ _ (blockSamples_signals logSample .log (fun _ _ => rfl)) l
  | metrics l => exact filter_flatMap_eq _ _ _ _ (blockSamples_signals metricSample .metric (fun _ _ => rfl)) l
  | traces l => exact filter_flatMap_eq _ _ _ _ (blockSamples_signals spanSample .span (fun _ _ => rfl)) l
  | profiles d l => exact filter_flatMap_eq _ _ _ _ (blockSamples_signals (profileSample d) (.profile d) (fun _ _ => rfl)) l

theorem bare_attach (cur : Option Resource) (s : Sample) : bare (attach cur s) = bare s := by cases s <;> rfl

theorem attachAll_bare (l : List Sample) : ∀ cur, (attachAll cur l).map bare = l.map bare := by
  induction l with
  | nil => intro _; rfl
  | cons s l ih => intro cur; simp only [attachAll, List.map_cons, bare_attach, ih]

theorem isSignal_bare (s : Sample) : isSignal (bare s) = isSignal s := by cases s <;> rfl

theorem bare_sampleOf (r : Option Resource) (s : Signal) : bare (sampleOf r s) = sampleOf none s := by cases s <;> rfl

theorem filter_map_bare (l : List Sample) : (l.filter isSignal).map bare = (l.map bare).filter isSignal := by
  induction l with
  | nil => rfl
  | cons s l ih =>
    rw [List.map_cons, List.filter_cons, List.filter_cons, isSignal_bare]
    split
    · rw [List.map_cons, ih]
    · exact ih

/-- C195: every metric, log record, span and profile of every request is checked, once, in the order in which they were sent,
and nothing else is: with what was sent, apart from the resource. -/
theorem signals_checked (rs : List Request) :
    ((checked rs).filter isSignal).map bare = (rs.flatMap Request.sent).map (fun x => sampleOf none x.2) := by
  unfold checked
  rw [filter_map_bare, attachAll_bare, ← filter_map_bare,
    filter_flatMap_eq isSignal ingest Request.sent (fun x => sampleOf (x.1.map resourceOf) x.2) ingest_signals, List.map_map]
  apply List.map_congr_left
  intro x _
  exact bare_sampleOf _ _

theorem forall2_map {α β : Type} {R : α → β → Prop} (f : α → β) (h : ∀ a, R a (f a)) : ∀ l : List α, Forall2 R l (l.map f)
  | [] => .nil
  | a :: l => .cons (h a) (forall2_map f h l)

theorem toElem_same (v : Any) (h : Scalar v) : ∃ e, SameElem v e ∧ toElem v = some e := by
  obtain ⟨e, he⟩ := h
  exact ⟨e, he, by cases he <;> rfl⟩

theorem filterMap_same : ∀ l : List Any, (∀ v ∈ l, Scalar v) → Forall2 SameElem l (l.filterMap toElem)
  | [], _ => .nil
  | v :: l, h => by
    obtain ⟨e, h1, h2⟩ := toElem_same v (h v (List.mem_cons_self ..))
    rw [List.filterMap_cons_some h2]
    exact .cons h1 (filterMap_same l (fun x hx => h x (List.mem_cons_of_mem _ hx)))

theorem attrOf_same (kv : KV) : SameAttr kv (attrOf kv) := by
  refine ⟨rfl, fun v hv hs => ?_, fun l hv hs => ?_⟩
  · obtain ⟨e, he, ht⟩ := toElem_same v hs
    refine ⟨e, he, ?_⟩
    unfold attrOf
    rw [hv]
    cases he <;> rfl
  · refine ⟨_, filterMap_same l hs, ?_⟩
    unfold attrOf
    rw [hv]
    rfl

theorem attrs_same (l : List KV) : Forall2 SameAttr l (l.map attrOf) := forall2_map _ attrOf_same l

theorem points_same (l : List PointMsg) : Forall2 SamePoint l (l.map pointOf) :=
  forall2_map _ (fun p => ⟨attrs_same p.attrs, forall2_map (fun e => ({ attrs := e.map attrOf } : Exemplar)) (fun e => attrs_same e) _⟩) l

theorem sampleOf_says (r : Option Resource) (s : Signal) : Says s (sampleOf r s) := by
  cases s with
  | log m => exact ⟨rfl, attrs_same _⟩
  | metric m =>
    refine ⟨rfl, rfl, ?_⟩
    change SameData m.data (instrumentOf m.data) (pointsOf m.data)
    cases m.data with
    | none => rfl
    | some d =>
      cases d with
      | sum b l => cases b <;> exact ⟨rfl, _, rfl, points_same l⟩
      | gauge l => exact ⟨rfl, _, rfl, points_same l⟩
      | histogram l => exact ⟨rfl, _, rfl, points_same l⟩
      | exponential l => exact ⟨rfl, _, rfl, points_same l⟩
      | summary => rfl
  | span m => exact ⟨rfl, attrs_same _, forall2_map _ (fun e => ⟨rfl, attrs_same _⟩) _,
      forall2_map (fun e => ({ attrs := e.map attrOf } : SpanLink)) (fun e => attrs_same e) _⟩
  | profile d m => trivial

theorem says_bare (s : Signal) (x : Sample) (h : Says s (bare x)) : Says s x := by
  cases s <;> cases x <;> exact h

theorem says_all : ∀ (l : List Sample) (m : List (Option (List KV) × Signal)),
    l.map bare = m.map (fun x => sampleOf none x.2) → Forall2 Says (m.map (·.2)) l
  | [], [], _ => .nil
  | [], _ :: _, h => nomatch h
  | _ :: _, [], h => nomatch h
  | x :: l, s :: m, h => by
    rw [List.map_cons, List.map_cons] at h
    injection h with h1 h2
    exact .cons (says_bare _ _ (by rw [h1]; exact sampleOf_says none s.2)) (says_all l m h2)

/-- C195: what is checked are the signals of the requests, one by one in their order, and each says what was sent: its name,
its unit, its instrument, its data points, events and links, and their attributes. -/
theorem signals_say (rs : List Request) : Forall2 Says ((rs.flatMap Request.sent).map (·.2)) ((checked rs).filter isSignal) :=
  says_all _ _ (signals_checked rs)

/-- The resource and the scopes of a part of a request. A scope counts if it is given or has a URL. -/
def Block.context {σ : Type} (b : Block σ) : List (List KV ⊕ Option (String × List KV)) :=
  (b.resource.toList.map .inl) ++ (b.scopes.filter (fun s => s.scope.isSome || s.url)).map (fun s => .inr s.scope)

def Request.context : Request → List (List KV ⊕ Option (String × List KV))
  | .logs l => l.flatMap Block.context
  | .metrics l => l.flatMap Block.context
  | .traces l => l.flatMap Block.context
  | .profiles _ l => l.flatMap Block.context

/-- The sample says what the resource or scope says. -/
def SaysContext : (List KV ⊕ Option (String × List KV)) → Sample → Prop
  | .inl attrs, .resource r => Forall2 SameAttr attrs r.attrs
  | .inr (some (name, attrs)), .scope s => s.name = name ∧ Forall2 SameAttr attrs s.attrs
  | .inr none, .scope s => s.attrs = []
  | _, _ => False

theorem block_context {σ : Type} (sample : Option Resource → σ → Sample) (h : ∀ r m, isSignal (sample r m) = true) (b : Block σ) :
    Forall2 SaysContext b.context ((blockSamples sample b).filter (fun s => !isSignal s)) := by
  unfold blockSamples Block.context
  dsimp only
  rw [List.filter_append]
  refine Forall2.append ?_ ?_
  · cases b.resource with
    | none => exact .nil
    | some r => exact .cons (attrs_same r) .nil
  · generalize b.resource.map resourceOf = r
    induction b.scopes with
    | nil => exact .nil
    | cons s l ih =>
      rw [List.flatMap_cons, List.filter_append, List.filter_cons]
      have hs : ((scopeSamples sample r s).filter (fun s => !isSignal s)) = (scopeOf s.scope s.url).toList.map .scope := by
        unfold scopeSamples
        rw [List.filter_append]
        have h1 : (s.signals.map (sample r)).filter (fun s => !isSignal s) = [] := by
          rw [List.filter_eq_nil_iff]
          intro x hx
          obtain ⟨m, _, rfl⟩ := List.mem_map.1 hx
          rw [h]; decide
        rw [h1, List.append_nil]
        cases scopeOf s.scope s.url <;> rfl
      rw [hs]
      unfold scopeOf
      cases hc : s.scope with
      | some x =>
        rw [if_pos (by simp)]
        refine .cons ?_ ih
        change SaysContext (.inr s.scope) _
        rw [hc]
        exact ⟨rfl, attrs_same _⟩
      | none =>
        cases hu : s.url with
        | true =>
          rw [if_pos (by simp)]
          refine .cons ?_ ih
          change SaysContext (.inr s.scope) _
          rw [hc]
          rfl
        | false => rw [if_neg (by simp)]; exact ih

theorem attachAll_context (l : List Sample) : ∀ cur, (attachAll cur l).filter (fun s => !isSignal s) = l.filter (fun s => !isSignal s) := by
  induction l with
  | nil => intro cur; rfl
  | cons s l ih =>
    intro cur
    unfold attachAll
    rw [List.filter_cons, List.filter_cons, ih]
    cases s <;> rfl

/-- C195: the resources and scopes that are checked are those that were sent, one by one in their order, and each says what
was sent. -/
theorem context_checked (rs : List Request) :
    Forall2 SaysContext (rs.flatMap Request.context) ((checked rs).filter (fun s => !isSignal s)) := by
  have blocks : ∀ {σ : Type} (sample : Option Resource → σ → Sample), (∀ r m, isSignal (sample r m) = true) → ∀ l : List (Block σ),
      Forall2 SaysContext (l.flatMap Block.context) ((l.flatMap (blockSamples sample)).filter (fun s => !isSignal s)) := by
    intro σ sample h l
    induction l with
    | nil => exact .nil
    | cons b l ih => rw [List.flatMap_cons, List.flatMap_cons, List.filter_append]; exact (block_context sample h b).append ih
  unfold checked
  rw [attachAll_context]
  induction rs with
  | nil => exact .nil
  | cons r rs ih =>
    rw [List.flatMap_cons, List.flatMap_cons, List.filter_append]
    refine Forall2.append ?_ ih
    cases r with
    | logs l => exact blocks logSample (fun _ _ => rfl) l
    | metrics l => exact blocks metricSample (fun _ _ => rfl) l
    | traces l => exact blocks spanSample (fun _ _ => rfl) l
    | profiles d l => exact blocks (profileSample d) (fun _ _ => rfl) l

theorem attachAll_append (l l' : List Sample) : ∀ cur,
    attachAll cur (l ++ l') = attachAll cur l ++ attachAll (l.foldl nextResource cur) l' := by
  induction l with
  | nil => intro _; rfl
  | cons s l ih => intro cur; simp only [List.cons_append, attachAll, List.foldl_cons, ih]

theorem attachAll_keep (cur : Option Resource) : ∀ l : List Sample, (∀ s ∈ l, nextResource cur s = cur ∧ attach cur s = s) →
    attachAll cur l = l := by
  intro l
  induction l with
  | nil => intro _; rfl
  | cons s l ih =>
    intro h
    obtain ⟨h1, h2⟩ := h s (List.mem_cons_self ..)
    simp only [attachAll, h1, h2, ih (fun x hx => h x (List.mem_cons_of_mem _ hx))]

theorem attachAll_block {σ : Type} (sample : Option Resource → σ → Sample) (mk : σ → Signal)
    (h : ∀ r m, sample r m = sampleOf r (mk m)) (b : Block σ) (hb : b.resource ≠ none) (cur : Option Resource) :
    attachAll cur (blockSamples sample b) = blockSamples sample b := by
  obtain ⟨kvs, hk⟩ := Option.ne_none_iff_exists'.1 hb
  unfold blockSamples
  rw [hk]
  change attachAll cur (Sample.resource (resourceOf kvs) :: b.scopes.flatMap (scopeSamples sample (some (resourceOf kvs)))) = _
  unfold attachAll
  change Sample.resource (resourceOf kvs) :: attachAll (some (resourceOf kvs)) _ = Sample.resource (resourceOf kvs) :: _
  rw [attachAll_keep]
  · rfl
  intro s hs
  obtain ⟨sc, _, hs⟩ := List.mem_flatMap.1 hs
  unfold scopeSamples at hs
  rcases List.mem_append.1 hs with hs | hs
  · obtain ⟨x, _, rfl⟩ := List.mem_map.1 hs
    exact ⟨rfl, rfl⟩
  · obtain ⟨m, _, rfl⟩ := List.mem_map.1 hs
    rw [h]
    cases mk m <;> exact ⟨rfl, rfl⟩

theorem attachAll_blocks {σ : Type} (sample : Option Resource → σ → Sample) (mk : σ → Signal)
    (h : ∀ r m, sample r m = sampleOf r (mk m)) (l : List (Block σ)) (hl : ∀ b ∈ l, b.resource ≠ none) : ∀ cur,
    attachAll cur (l.flatMap (blockSamples sample)) = l.flatMap (blockSamples sample) := by
  induction l with
  | nil => intro _; rfl
  | cons b l ih =>
    intro cur
    rw [List.flatMap_cons, attachAll_append, attachAll_block sample mk h b (hl b (List.mem_cons_self ..)),
      ih (fun x hx => hl x (List.mem_cons_of_mem _ hx))]

/-- C196: if every signal comes with its resource, then every signal is checked with the resource it was sent with. Missing:
signals without a resource (see `own_resource_refuted`). -/
theorem own_resource_partial (rs : List Request) (ho : ∀ r ∈ rs, r.Owned) :
    (checked rs).filter isSignal = (rs.flatMap Request.sent).map (fun x => sampleOf (x.1.map resourceOf) x.2) := by
  have key : ∀ (rs : List Request), (∀ r ∈ rs, r.Owned) → ∀ cur, attachAll cur (rs.flatMap ingest) = rs.flatMap ingest := by
    intro rs
    induction rs with
    | nil => intro _ _; rfl
    | cons r rs ih =>
      intro ho cur
      rw [List.flatMap_cons, attachAll_append, ih (fun x hx => ho x (List.mem_cons_of_mem _ hx))]
      congr 1
      have hr := ho r (List.mem_cons_self ..)
      cases r with
      | logs l => exact attachAll_blocks logSample .log (fun _ _ => rfl) l hr cur
      | metrics l => exact attachAll_blocks metricSample .metric (fun _ _ => rfl) l hr cur
      | traces l => exact attachAll_blocks spanSample .span (fun _ _ => rfl) l hr cur
      | profiles d l => exact attachAll_blocks (profileSample d) (.profile d) (fun _ _ => rfl) l hr cur
  unfold checked
  rw [key rs ho none]
  exact filter_flatMap_eq isSignal ingest Request.sent (fun x => sampleOf (x.1.map resourceOf) x.2) ingest_signals rs

/-- The claim of `own_resource_partial` without its restriction. -/
def OwnResource : Prop :=
  ∀ rs : List Request, (checked rs).filter isSignal = (rs.flatMap Request.sent).map (fun x => sampleOf (x.1.map resourceOf) x.2)

/-- Two requests of two services: the first says what its resource is, the second does not. -/
def twoServices : List Request :=
  [.metrics [{ resource := some [{ key := "service.name", value := some (.str "a") }]
               scopes := [{ signals := [{ name := "m" }] }] }],
   .logs [{ scopes := [{ signals := [{ eventName := "e" }] }] }]]

/-- The resource of the first one. -/
def serviceA : Resource := { attrs := [{ name := "service.name", value := some (.elem (.str "a")), typ := some .string }] }

/-- C196: false in general: a signal without a resource is checked with the resource of another one, which may be that of
another service. -/
theorem own_resource_refuted : ¬ OwnResource := by
  intro h
  have h1 := h twoServices
  have h2 : ((checked twoServices).filter isSignal)[1]? = some (.log { eventName := "e", resource := some serviceA }) := rfl
  rw [h1] at h2
  cases h2

/-- The first one alone. -/
def oneService : List Request := twoServices.take 1

example : ((checked oneService).filter isSignal).length = 1 ∧ ∀ r ∈ oneService, r.Owned := by
  refine ⟨rfl, ?_⟩
  intro r hr
  have hr : r ∈ [twoServices.head (by simp [twoServices])] := hr
  rw [List.mem_singleton.1 hr]
  intro b hb
  rw [List.mem_singleton.1 hb]
  exact fun h => nomatch h

/-- A request with all kinds of things in it. -/
def fullMetric : MetricMsg :=
  { name := "m", unit := "s", data := some (.sum true [{ attrs := [{ key := "a", value := some (.arr [.int 1, .int 2]) }], exemplars := [[{ key := "b" }]] }]) }

example : (checked [.metrics [{ scopes := [{ signals := [fullMetric] }] }]]).filter isSignal =
    [.metric { name := "m", instrument := .supported "counter", unit := "s", points := some (.number
      [{ attrs := [{ name := "a", value := some (.arr [.int 1, .int 2]), typ := some .ints }], exemplars := [{ attrs := [{ name := "b" }] }] }]) }] := rfl

/-! ### C197: types -/

/-- The type of a value that is sent. -/
def SentAs (v : Any) : PType → Prop
  | .string => ∃ s, v = .str s
  | .int => ∃ n, v = .int n
  | .double => (∃ f, v = .dbl f) ∨ v = .notFinite
  | .boolean => ∃ b, v = .bool b
  | .strings => ∃ l, v = .arr l ∧ l ≠ [] ∧ ∀ e ∈ l, ∃ s, e = .str s
  | .ints => ∃ l, v = .arr l ∧ l ≠ [] ∧ ∀ e ∈ l, ∃ n, e = .int n
  | .doubles => ∃ l, v = .arr l ∧ (∃ e ∈ l, (∃ f, e = .dbl f) ∨ e = .notFinite) ∧
      ∀ e ∈ l, (∃ n, e = .int n) ∨ (∃ f, e = .dbl f) ∨ e = .notFinite
  | .booleans => ∃ l, v = .arr l ∧ l ≠ [] ∧ ∀ e ∈ l, ∃ b, e = .bool b
  | .any => False

/-- A value for which there is a JSON value: no infinite or undefined doubles, and arrays without bytes, maps and
missing values. -/
def Plain : Any → Prop
  | .notFinite => False
  | .arr l => ∀ e ∈ l, e ≠ .notFinite ∧ e ≠ .bytes ∧ e ≠ .kvlist ∧ e ≠ .unset
  | _ => True

theorem toElem_plain (e : Any) (h : e ≠ .notFinite ∧ e ≠ .bytes ∧ e ≠ .kvlist ∧ e ≠ .unset) : ∃ x, toElem e = some x ∧ x ≠ .null := by
  obtain ⟨h1, h2, h3, h4⟩ := h
  cases e <;> first | exact absurd rfl h1 | exact absurd rfl h2 | exact absurd rfl h3 | exact absurd rfl h4 | exact ⟨_, rfl, by simp⟩

theorem toElem_some (e : Any) (x : Elem) (h : toElem e = some x) :
    ((∃ s, x = .str s) → ∃ s, e = .str s) ∧ ((∃ s, x = .int s) → ∃ s, e = .int s) ∧
    ((∃ s, x = .dbl s) → ∃ s, e = .dbl s) ∧ ((∃ s, x = .bool s) → ∃ s, e = .bool s) := by
  cases e <;> first | (cases h; done) | (injection h with h; subst h; simp)

/-- C197: the type weaver takes an attribute to have is that of the value that was sent. Missing: values that have no JSON
form, see `type_of_sent_refuted`. -/
theorem type_of_sent_partial (key : String) (v : Any) (hv : Plain v) (t : PType) :
    (attrOf { key, value := some v }).typ = some t ↔ SentAs v t := by
  have hval : (attrOf { key, value := some v }).typ = (toValue v).bind inferType := rfl
  rw [hval]
  cases v with
  | arr l =>
    have hp : ∀ e ∈ l, ∃ x, toElem e = some x ∧ x ≠ .null := fun e he => toElem_plain e (hv e he)
    change inferType (.arr (l.filterMap toElem)) = some t ↔ _
    rw [inferType_iff]
    have hnn : ∀ x ∈ l.filterMap toElem, x ≠ .null := by
      intro x hx
      obtain ⟨e, he, hex⟩ := List.mem_filterMap.1 hx
      obtain ⟨y, hy, hyn⟩ := hp e he
      rw [hex] at hy; injection hy with hy; subst hy; exact hyn
    have hne : (∃ e ∈ l.filterMap toElem, e ≠ .null) ↔ l ≠ [] := by
      constructor
      · rintro ⟨x, hx, _⟩ rfl; cases hx
      · intro hl
        cases l with
        | nil => exact absurd rfl hl
        | cons e l =>
          obtain ⟨x, hx, hxn⟩ := hp e (List.mem_cons_self ..)
          exact ⟨x, List.mem_filterMap.2 ⟨e, List.mem_cons_self .., hx⟩, hxn⟩
    have hall : ∀ (P : Elem → Prop) (Q : Any → Prop), (∀ e x, toElem e = some x → (P x ↔ Q e)) →
        ((∀ x ∈ l.filterMap toElem, x = .null ∨ P x) ↔ ∀ e ∈ l, Q e) := by
      intro P Q hPQ
      constructor
      · intro h e he
        obtain ⟨x, hx, hxn⟩ := hp e he
        rcases h x (List.mem_filterMap.2 ⟨e, he, hx⟩) with h | h
        · exact absurd h hxn
        · exact (hPQ e x hx).1 h
      · intro h x hx
        obtain ⟨e, he, hex⟩ := List.mem_filterMap.1 hx
        exact .inr ((hPQ e x hex).2 (h e he))
    have hstr : ∀ e x, toElem e = some x → ((∃ s, x = .str s) ↔ ∃ s, e = .str s) := by
      intro e x hx
      refine ⟨(toElem_some e x hx).1, ?_⟩
      rintro ⟨s, rfl⟩; injection hx with hx; exact ⟨s, hx.symm⟩
    have hint : ∀ e x, toElem e = some x → ((∃ s, x = .int s) ↔ ∃ s, e = .int s) := by
      intro e x hx
      refine ⟨(toElem_some e x hx).2.1, ?_⟩
      rintro ⟨s, rfl⟩; injection hx with hx; exact ⟨s, hx.symm⟩
    have hbool : ∀ e x, toElem e = some x → ((∃ s, x = .bool s) ↔ ∃ s, e = .bool s) := by
      intro e x hx
      refine ⟨(toElem_some e x hx).2.2.2, ?_⟩
      rintro ⟨s, rfl⟩; injection hx with hx; exact ⟨s, hx.symm⟩
    have hdbl : ∀ e x, toElem e = some x → ((∃ s, x = .dbl s) ↔ ∃ s, e = .dbl s) := by
      intro e x hx
      refine ⟨(toElem_some e x hx).2.2.1, ?_⟩
      rintro ⟨s, rfl⟩; injection hx with hx; exact ⟨s, hx.symm⟩
    have hnf : ∀ e ∈ l, e ≠ .notFinite := fun e he => (hv e he).1
    cases t with
    | strings =>
      unfold HasType SentAs
      constructor
      · rintro ⟨l', h1, h2, h3⟩; injection h1 with h1; subst h1
        exact ⟨l, rfl, hne.1 h2, (hall _ _ hstr).1 h3⟩
      · rintro ⟨l', h1, h2, h3⟩; injection h1 with h1; subst h1
        exact ⟨_, rfl, hne.2 h2, (hall _ _ hstr).2 h3⟩
    | ints =>
      unfold HasType SentAs
      constructor
      · rintro ⟨l', h1, h2, h3⟩; injection h1 with h1; subst h1
        exact ⟨l, rfl, hne.1 h2, (hall _ _ hint).1 h3⟩
      · rintro ⟨l', h1, h2, h3⟩; injection h1 with h1; subst h1
        exact ⟨_, rfl, hne.2 h2, (hall _ _ hint).2 h3⟩
    | booleans =>
      unfold HasType SentAs
      constructor
      · rintro ⟨l', h1, h2, h3⟩; injection h1 with h1; subst h1
        exact ⟨l, rfl, hne.1 h2, (hall _ _ hbool).1 h3⟩
      · rintro ⟨l', h1, h2, h3⟩; injection h1 with h1; subst h1
        exact ⟨_, rfl, hne.2 h2, (hall _ _ hbool).2 h3⟩
    | doubles =>
      unfold HasType SentAs
      have hnum : ∀ e x, toElem e = some x → (((∃ s, x = .int s) ∨ ∃ s, x = .dbl s) ↔ ((∃ s, e = .int s) ∨ ∃ s, e = .dbl s)) :=
        fun e x hx => or_congr (hint e x hx) (hdbl e x hx)
      constructor
      · rintro ⟨l', h1, ⟨f, h2⟩, h3⟩; injection h1 with h1; subst h1
        refine ⟨l, rfl, ?_, ?_⟩
        · obtain ⟨e, he, hex⟩ := List.mem_filterMap.1 h2
          exact ⟨e, he, .inl ((hdbl e _ hex).1 ⟨f, rfl⟩)⟩
        · intro e he
          rcases (hall _ _ hnum).1 h3 e he with h | h
          · exact .inl h
          · exact .inr (.inl h)
      · rintro ⟨l', h1, ⟨e, he, h2⟩, h3⟩; injection h1 with h1; subst h1
        refine ⟨_, rfl, ?_, (hall _ _ hnum).2 ?_⟩
        · rcases h2 with ⟨f, rfl⟩ | rfl
          · exact ⟨f, List.mem_filterMap.2 ⟨_, he, rfl⟩⟩
          · exact absurd rfl (hnf _ he)
        · intro e he
          rcases h3 e he with h | h | h
          · exact .inl h
          · exact .inr h
          · exact absurd h (hnf e he)
    | string => simp [HasType, SentAs]
    | int => simp [HasType, SentAs]
    | double => simp [HasType, SentAs]
    | boolean => simp [HasType, SentAs]
    | any => simp [HasType, SentAs]
  | notFinite => exact absurd hv (fun h => h)
  | str s => cases t <;> simp [toValue, toElem, inferType, SentAs]
  | int s => cases t <;> simp [toValue, toElem, inferType, SentAs]
  | dbl s => cases t <;> simp [toValue, toElem, inferType, SentAs]
  | bool s => cases t <;> simp [toValue, toElem, inferType, SentAs]
  | bytes => cases t <;> simp [toValue, toElem, SentAs]
  | kvlist => cases t <;> simp [toValue, toElem, SentAs]
  | unset => cases t <;> simp [toValue, toElem, SentAs]

/-- The claim of `type_of_sent_partial` without its restriction. -/
def TypeOfSent : Prop := ∀ (key : String) (v : Any) (t : PType), (attrOf { key, value := some v }).typ = some t ↔ SentAs v t

/-- C197: false in general: an array of numbers and byte strings is taken for an array of numbers. -/
theorem type_of_sent_refuted : ¬ TypeOfSent := by
  intro h
  obtain ⟨l, h1, _, h3⟩ := (h "a" (.arr [.int 1, .bytes]) .ints).1 rfl
  injection h1 with h1; subst h1
  obtain ⟨n, hn⟩ := h3 .bytes (by simp)
  cases hn

/-- Whether the attribute is reported to have a wrong type. -/
def Mismatch (a : SAttr) (d : AttrDef) (signal : Sample) : Prop :=
  ∃ fs f, typeAdvisor (.attribute a) signal (some d) none = .ok fs ∧ f ∈ fs ∧ f.id = "type_mismatch"

/-- C197: a value of a type that has a name and is not the declared one is reported. Missing: values that have no such type
(see `wrong_type_refuted`). -/
theorem wrong_type_partial (key : String) (v : Any) (hv : Plain v) (t p : PType) (ht : SentAs v t) (d : AttrDef)
    (hd : d.typ = .prim p) (hc : t.isCompatible p = false) (signal : Sample) : Mismatch (attrOf { key, value := some v }) d signal := by
  have h1 := (type_of_sent_partial key v hv t).2 ht
  have h2 : typeAdvisor (.attribute (attrOf { key, value := some v })) signal (some d) none =
      .ok (Verif.LiveCheck.typeFindings signal (attrOf { key, value := some v }) d t) := by
    unfold typeAdvisor
    dsimp only
    rw [h1]
  have h3 : ∃ f, Verif.LiveCheck.typeFindings signal (attrOf { key, value := some v }) d t = [f] ∧ f.id = "type_mismatch" := by
    unfold Verif.LiveCheck.typeFindings
    rw [hd]
    dsimp only
    rw [if_pos (by rw [hc]; rfl)]
    exact ⟨_, rfl, rfl⟩
  obtain ⟨f, h4, h5⟩ := h3
  exact ⟨_, f, h2, by rw [h4]; exact List.mem_singleton.2 rfl, h5⟩

example : Plain (.arr [.int 1]) ∧ SentAs (.arr [.int 1]) .ints ∧ PType.ints.isCompatible .string = false :=
  ⟨by intro e he; rw [List.mem_singleton.1 he]; exact ⟨(fun h => nomatch h), (fun h => nomatch h), (fun h => nomatch h), (fun h => nomatch h)⟩,
    ⟨_, rfl, (fun h => nomatch h), by intro e he; exact ⟨1, List.mem_singleton.1 he⟩⟩, rfl⟩

/-- The claim of `wrong_type_partial` for all values. -/
def WrongType : Prop :=
  ∀ (key : String) (v : Any) (p : PType) (d : AttrDef) (signal : Sample), d.typ = .prim p → p ≠ .any → ¬ SentAs v p →
    (p = .double → ¬ SentAs v .int) → (p = .doubles → ¬ SentAs v .ints) → Mismatch (attrOf { key, value := some v }) d signal

/-- C197: false in general: a byte string, a map or an array of different things is never reported. -/
theorem wrong_type_refuted : ¬ WrongType := by
  intro h
  obtain ⟨fs, f, h1, h2, _⟩ := h "a" .bytes .int { name := "a", typ := .prim .int } (.log { eventName := "" }) rfl
    (by decide) (by rintro ⟨n, hn⟩; cases hn) (fun h => nomatch h) (fun h => nomatch h)
  injection h1 with h1
  subst h1
  cases h2

/-! ### C198: profiles -/

/-- The entry of a table at an index. -/
def EntryAt {α : Type} (l : List α) (i : Int) (x : α) : Prop := ∃ n : Nat, i = n ∧ l[n]? = some x

theorem at?_iff {α : Type} (l : List α) (i : Int) (x : α) : at? l i = some x ↔ EntryAt l i x := by
  unfold at? EntryAt
  constructor
  · intro h
    split at h
    · cases h
    · exact ⟨i.toNat, by omega, h⟩
  · rintro ⟨n, rfl, h⟩
    rw [if_neg (by omega)]
    exact h

/-- C198: the attributes of a profile are those its indices stand for, in their order, if all indices are in the tables.
Missing: other indices (see `profile_attrs_refuted`). -/
theorem profile_attrs_partial (d : Dict) (m : ProfileMsg)
    (h : ∀ i ∈ m.indices, ∃ a key, EntryAt d.attrs i a ∧ EntryAt d.strings a.1 key) :
    (profileOf (some d) m).attrs.length = m.indices.length ∧
    ∀ (n : Nat) (i : Int) (a : Int × Option Any) (key : String), m.indices[n]? = some i → EntryAt d.attrs i a →
      EntryAt d.strings a.1 key → ∃ x, (profileOf (some d) m).attrs[n]? = some x ∧ SameAttr { key, value := a.2 } x := by
  have conv : ∀ (n : Nat) (i : Int) (a : Int × Option Any) (key : String), m.indices[n]? = some i → at? d.attrs i = some a →
      at? d.strings a.1 = some key → (profileOf (some d) m).attrs[n]? = some (attrOf { key, value := a.2 }) →
      ∃ x, (profileOf (some d) m).attrs[n]? = some x ∧ SameAttr { key, value := a.2 } x :=
    fun n i a key _ _ _ h => ⟨_, h, attrOf_same _⟩
  have h : ∀ i ∈ m.indices, ∃ a key, at? d.attrs i = some a ∧ at? d.strings a.1 = some key := fun i hi => by
    obtain ⟨a, key, h1, h2⟩ := h i hi
    exact ⟨a, key, (at?_iff ..).2 h1, (at?_iff ..).2 h2⟩
  suffices hk : (profileOf (some d) m).attrs.length = m.indices.length ∧
      ∀ (n : Nat) (i : Int) (a : Int × Option Any) (key : String), m.indices[n]? = some i → at? d.attrs i = some a →
        at? d.strings a.1 = some key → (profileOf (some d) m).attrs[n]? = some (attrOf { key, value := a.2 }) from
    ⟨hk.1, fun n i a key h1 h2 h3 => conv n i a key h1 ((at?_iff ..).2 h2) ((at?_iff ..).2 h3)
      (hk.2 n i a key h1 ((at?_iff ..).2 h2) ((at?_iff ..).2 h3))⟩
  clear conv
  unfold profileOf
  dsimp only
  revert h
  induction m.indices with
  | nil => intro _; exact ⟨rfl, fun n i _ _ hn => by cases hn⟩
  | cons i is ih =>
    intro h
    obtain ⟨a, key, h1, h2⟩ := h i (List.mem_cons_self ..)
    obtain ⟨k1, k2⟩ := ih (fun x hx => h x (List.mem_cons_of_mem _ hx))
    rw [List.filterMap_cons_some h1, List.map_cons]
    refine ⟨by rw [List.length_cons, List.length_cons, k1], ?_⟩
    intro n j b key' hn hb hk
    cases n with
    | zero =>
      rw [List.getElem?_cons_zero] at hn ⊢
      injection hn with hn; subst hn
      rw [h1] at hb; injection hb with hb; subst hb
      rw [hk]; rfl
    | succ n =>
      rw [List.getElem?_cons_succ] at hn ⊢
      exact k2 n j b key' hn hb hk

/-- C198: an attribute a profile is checked with is one that one of its indices stands for; if the index of its name is not in
the dictionary, its name is empty. -/
theorem profile_attrs_only (d : Option Dict) (m : ProfileMsg) (x : SAttr) (h : x ∈ (profileOf d m).attrs) :
    ∃ (d' : Dict) (i : Int) (a : Int × Option Any), d = some d' ∧ i ∈ m.indices ∧ EntryAt d'.attrs i a ∧
      ∃ key, SameAttr { key, value := a.2 } x ∧ (EntryAt d'.strings a.1 key ∨ ((∀ k, ¬ EntryAt d'.strings a.1 k) ∧ key = "")) := by
  cases d with
  | none => cases h
  | some d =>
    obtain ⟨a, ha, rfl⟩ := List.mem_map.1 h
    obtain ⟨i, hi, hia⟩ := List.mem_filterMap.1 ha
    refine ⟨d, i, a, rfl, hi, (at?_iff ..).1 hia, _, attrOf_same _, ?_⟩
    cases hk : at? d.strings a.1 with
    | some k => exact .inl ((at?_iff ..).1 hk)
    | none => exact .inr ⟨fun k h => (by rw [(at?_iff ..).2 h] at hk; cases hk), rfl⟩

/-- The claim of `profile_attrs_partial` without its restriction. -/
def ProfileAttrs : Prop := ∀ (d : Option Dict) (m : ProfileMsg), (profileOf d m).attrs.length = m.indices.length

/-- C198: false in general: attributes are dropped without a word when the dictionary is missing or does not have them. -/
theorem profile_attrs_refuted : ¬ ProfileAttrs := by
  intro h
  have := h none { indices := [0] }
  cases this

example : (profileOf (some { strings := ["", "a"], attrs := [(1, some (.int 1)), (7, some .bytes)] }) { indices := [1, 0, -1, 9] }).attrs
    = [{ name := "" }, { name := "a", value := some (.elem (.int 1)), typ := some .int }] := rfl

end Verif.Receiver.Ingest
