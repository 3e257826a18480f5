import Verif.Serve.Model
import Verif.Search.LookupProps
/-
What the HTTP server of `weaver serve` answers.
-/
namespace Verif.Serve
open Verif.Util Verif.Search

/-! ### C268: definitions by their name -/

/-- The definitions of a kind. -/
def definitions (r : Registry) : Kind → List Item
  | .attribute => r.attributes
  | .metric => r.metrics
  | .span => r.spans
  | .event => r.events
  | .entity => r.entities

/-- The segment of a kind in a path. -/
def segment : Kind → String
  | .attribute => "attribute"
  | .metric => "metric"
  | .span => "span"
  | .event => "event"
  | .entity => "entity"

/-- The request for a definition. -/
def itemRequest (k : Kind) (name : String) : Request := { segments := ["api", "v1", "registry", segment k, name] }

theorem kindOf_segment (k : Kind) : kindOf (segment k) = some k := by cases k <;> rfl

theorem route_item (k : Kind) {name : String} (hn : name ≠ "") :
    route ["api", "v1", "registry", segment k, name] = some (.item k name) := by
  cases k <;> simp [route, segment, kindOf, hn]

theorem answer_item {V D : Type} (u : Unicode) (st : State V D) (k : Kind) {name : String} (hn : name ≠ "") :
    answer u st (itemRequest k name) = match httpGet st.ctx k name with
      | some i => ⟨200, .item i⟩
      | none => ⟨404, .error none⟩ := by
  unfold answer
  rw [show (itemRequest k name).segments = ["api", "v1", "registry", segment k, name] from rfl, route_item k hn]
  rfl

theorem unique_definitions {r : Registry} (hu : Unique r) (k : Kind) : ((definitions r k).map Item.id).Nodup := by
  cases k
  · exact hu.attributes
  · exact hu.metrics
  · exact hu.spans
  · exact hu.events
  · exact hu.entities

theorem getLast_filter_unique {l : List Item} (h : (l.map Item.id).Nodup) {n : String} {i : Item} :
    LastNamed l n i ↔ i ∈ l ∧ i.id = n := by
  constructor
  · rintro ⟨a, b, rfl, h1, _⟩; exact ⟨by simp, h1⟩
  · rintro ⟨h1, rfl⟩; exact lastNamed_of_unique h h1

/-- The lookup of the server finds exactly the definition with the name. -/
theorem httpGet_iff {r : Registry} (hu : Unique r) (sep : String) (k : Kind) {n : String}
    (hs : n.toList.head? ≠ some '/') (i : Item) :
    httpGet (build r sep) k n = some i ↔ i ∈ definitions r k ∧ i.id = n := by
  obtain ⟨l1, l2, l3, l4, l5, l6⟩ := lookups r sep
  have sub : ∀ q : Item → Bool, ((r.attributes.filter q).map Item.id).Nodup :=
    fun q => List.Pairwise.sublist (List.Sublist.map _ List.filter_sublist) hu.attributes
  unfold httpGet
  rw [trimSlashes_id hs]
  cases k with
  | metric => exact ((l3 n).1 i).trans (getLast_filter_unique hu.metrics)
  | span => exact ((l4 n).1 i).trans (getLast_filter_unique hu.spans)
  | event => exact ((l5 n).1 i).trans (getLast_filter_unique hu.events)
  | entity => exact ((l6 n).1 i).trans (getLast_filter_unique hu.entities)
  | «attribute» =>
    dsimp only [definitions]
    cases h1 : getAttribute (build r sep) n with
    | some j =>
      have hj := (getLast_filter_unique (sub _)).1 (((l1 n).1 j).1 h1)
      have hjm := (List.mem_filter.1 hj.1).1
      simp only [Option.orElse_some]
      constructor
      · intro e; injection e with e; subst e; exact ⟨hjm, hj.2⟩
      · rintro ⟨hi, e⟩
        have a := lastNamed_iff.2 (lastNamed_of_unique hu.attributes hi)
        have b := lastNamed_iff.2 (lastNamed_of_unique hu.attributes hjm)
        rw [e] at a; rw [hj.2] at b
        rw [← a, ← b]
    | none =>
      have hno := ((l1 n).2).1 h1
      simp only [Option.orElse_none]
      rw [(l2 n).1 i, getLast_filter_unique (sub _), List.mem_filter]
      constructor
      · rintro ⟨⟨h, _⟩, e⟩; exact ⟨h, e⟩
      · rintro ⟨h, e⟩
        refine ⟨⟨h, ?_⟩, e⟩
        cases ht : i.template with
        | true => rfl
        | false => exact absurd e (hno i (List.mem_filter.2 ⟨h, by simp [ht]⟩))

/-- C268, as far as it holds: for a name that is not empty and does not begin with a slash, the server answers with 200 and the
definition of the kind with this name if there is one, and with 404 if there is none. -/
theorem definition_answered_partial {V D : Type} (u : Unicode) (st : State V D) (r : Registry) (hu : Unique r) (sep : String)
    (hc : st.ctx = build r sep) (k : Kind) (n : String) (hn : n ≠ "") (hs : n.toList.head? ≠ some '/') :
    (∀ i ∈ definitions r k, i.id = n → answer u st (itemRequest k n) = ⟨200, .item i⟩) ∧
    ((∀ i ∈ definitions r k, i.id ≠ n) → answer u st (itemRequest k n) = ⟨404, .error none⟩) := by
  rw [answer_item u st k hn, hc]
  refine ⟨fun i hi e => ?_, fun h => ?_⟩
  · rw [(httpGet_iff hu sep k hs i).2 ⟨hi, e⟩]
  · cases e : httpGet (build r sep) k n with
    | none => rfl
    | some i =>
      obtain ⟨h1, h2⟩ := (httpGet_iff hu sep k hs i).1 e
      exact absurd h2 (h i h1)

/-- A registry with one metric, named as given. -/
def one (name : String) : Registry := { metrics := [{ kind := .metric, id := name }] }

def noRun : String → Except (Err Unit) Unit := fun _ => .ok ()

/-- C268 does not hold for all names: the slash at the beginning of a name is lost. -/
theorem definition_answered_refuted : ¬ (∀ (u : Unicode) (st : State Unit Unit) (r : Registry), Unique r → ∀ sep,
    st.ctx = build r sep → ∀ (k : Kind) (n : String), n ≠ "" → ∀ i ∈ definitions r k, i.id = n →
    (answer u st (itemRequest k n)).status = 200) := by
  intro h
  have := h ⟨id, fun _ => false⟩ ⟨build (one "/m") ".", noRun, []⟩ (one "/m")
    ⟨by decide, by decide, by decide, by decide, by decide⟩ "." rfl .metric "/m" (by decide)
    { kind := .metric, id := "/m" } (by decide) rfl
  exact absurd this (by decide +kernel)

/-! ### C269: unknown paths -/

/-- A path of the interface for programs. -/
def IsApi (segments : List String) : Prop := ∃ rest, segments = "api" :: rest

/-- Without a user interface, a path that is no route is answered with 404. -/
theorem unknown_without_ui {V D : Type} (u : Unicode) (st : State V D) (r : Request) (hr : route r.segments = none)
    (hf : st.files = []) : (answer u st r).status = 404 := by
  simp [answer, hr, serveUi, hf]

/-- With one, every path that is no route is answered with 200. -/
theorem unknown_with_ui {V D : Type} (u : Unicode) (st : State V D) (r : Request) (hr : route r.segments = none)
    (hf : "index.html" ∈ st.files) : (answer u st r).status = 200 := by
  unfold answer
  rw [hr]
  dsimp only
  unfold serveUi
  rw [if_pos (c := st.files.contains "index.html" = true) (by simpa using hf)]
  split <;> rfl

/-- A file of the user interface is answered with this file, whatever the method. -/
theorem ui_file {V D : Type} (u : Unicode) (st : State V D) (r : Request) (hr : route r.segments = none)
    (hf : pathText r.segments ∈ st.files) : answer u st r = ⟨200, .file (pathText r.segments)⟩ := by
  simp [answer, hr, serveUi, hf]

/-- C269 does not hold: `GET /api/v1/registry/metrics/x`, with an `s` too many, is answered with 200 and a page, as is the
request for a metric with an empty name, and a `POST`. -/
theorem unknown_paths_refuted : ¬ (∀ (u : Unicode) (st : State Unit Unit) (r : Request), IsApi r.segments →
    route r.segments = none → (answer u st r).status = 404) := by
  intro h
  have := h ⟨id, fun _ => false⟩ ⟨build {} ".", noRun, ["index.html"]⟩
    { segments := ["api", "v1", "registry", "metrics", "x"] } ⟨_, rfl⟩ rfl
  exact absurd this (by decide +kernel)

/-- The status of each route: specification. -/
def expected {V D : Type} (st : State V D) (r : Request) : Route → Nat
  | .schema n => if trimSlashes n ∈ schemaNames then 200 else 404
  | .item k n => if (httpGet st.ctx k n).isSome then 200 else 404
  | .search => if r.search.isSome then 200 else 400
  | .filter => match r.filter with
    | none => 400
    | some f => if (st.run (f.getD ".")).isOk then 200 else 400
  | _ => 200

/-- C269, as far as it holds: the statuses of the paths that are routes. -/
theorem statuses_partial {V D : Type} (u : Unicode) (st : State V D) (r : Request) (rt : Route)
    (hr : route r.segments = some rt) : (answer u st r).status = if r.method = .other then 405 else expected st r rt := by
  unfold answer
  rw [hr]
  dsimp only
  by_cases hm : r.method = .other
  · rw [if_pos hm, if_pos hm]
  · rw [if_neg hm, if_neg hm]
    cases rt with
    | health => rfl
    | stats => rfl
    | openapi => rfl
    | schema n =>
      dsimp only [handle, expected]
      by_cases h : trimSlashes n ∈ schemaNames
      · rw [if_pos (by simpa using h), if_pos h]
      · rw [if_neg (by simpa using h), if_neg h]
    | item k n =>
      dsimp only [handle, expected]
      cases httpGet st.ctx k n <;> rfl
    | search =>
      dsimp only [handle, expected]
      cases r.search <;> rfl
    | filter =>
      dsimp only [handle, expected]
      cases r.filter with
      | none => rfl
      | some f =>
        dsimp only
        cases st.run (f.getD ".") <;> rfl

/-- The routes, by their paths. -/
theorem route_known (s : List String) (rt : Route) : route s = some rt ↔
    (s = ["health"] ∧ rt = .health) ∨ (s = ["api", "v1", "openapi.json"] ∧ rt = .openapi) ∨
    (∃ n, n ≠ "" ∧ s = ["api", "v1", "schema", n] ∧ rt = .schema n) ∨
    (s = ["api", "v1", "registry", "stats"] ∧ rt = .stats) ∨
    (s = ["api", "v1", "registry", "search"] ∧ rt = .search) ∨
    (s = ["api", "v1", "registry", "filter"] ∧ rt = .filter) ∨
    (∃ k n, n ≠ "" ∧ s = ["api", "v1", "registry", segment k, n] ∧ rt = .item k n) := by
  constructor
  · intro h
    unfold route at h
    split at h
    · injection h with h; exact .inl ⟨rfl, h.symm⟩
    · injection h with h; exact .inr (.inl ⟨rfl, h.symm⟩)
    · rename_i n
      split at h
      · cases h
      · rename_i hn; injection h with h; exact .inr (.inr (.inl ⟨n, hn, rfl, h.symm⟩))
    · injection h with h; exact .inr (.inr (.inr (.inl ⟨rfl, h.symm⟩)))
    · injection h with h; exact .inr (.inr (.inr (.inr (.inl ⟨rfl, h.symm⟩))))
    · injection h with h; exact .inr (.inr (.inr (.inr (.inr (.inl ⟨rfl, h.symm⟩)))))
    · rename_i k n
      split at h
      · cases h
      · rename_i hn
        right; right; right; right; right; right
        unfold kindOf at h
        split at h <;> simp only [Option.map_some, Option.map_none, Option.some.injEq, reduceCtorEq] at h <;> subst h
        · exact ⟨.attribute, n, hn, rfl, rfl⟩
        · exact ⟨.metric, n, hn, rfl, rfl⟩
        · exact ⟨.span, n, hn, rfl, rfl⟩
        · exact ⟨.event, n, hn, rfl, rfl⟩
        · exact ⟨.entity, n, hn, rfl, rfl⟩
    · cases h
  · rintro (⟨rfl, rfl⟩ | ⟨rfl, rfl⟩ | ⟨n, hn, rfl, rfl⟩ | ⟨rfl, rfl⟩ | ⟨rfl, rfl⟩ | ⟨rfl, rfl⟩ | ⟨k, n, hn, rfl, rfl⟩)
    · rfl
    · rfl
    · simp [route, hn]
    · rfl
    · rfl
    · rfl
    · exact route_item k hn

/-! ### C270: filters -/

/-- The details of an error, in order: specification. -/
inductive Details {D : Type} : Err D → List D → Prop where
  | filter (ds) : Details (.filter ds) ds
  | other : Details .other []
  | nil : Details (.compound []) []
  | cons {e es ds dss} (h : Details e ds) (ht : Details (.compound es) dss) : Details (.compound (e :: es)) (ds ++ dss)

mutual
theorem details_spec {D : Type} : ∀ e : Err D, Details e e.details
  | .filter ds => by rw [Err.details]; exact .filter ds
  | .other => by rw [Err.details]; exact .other
  | .compound es => by rw [Err.details]; exact detailsAll_spec es
theorem detailsAll_spec {D : Type} : ∀ es : List (Err D), Details (.compound es) (Err.detailsAll es)
  | [] => by rw [Err.detailsAll]; exact .nil
  | e :: es => by rw [Err.detailsAll]; exact .cons (details_spec e) (detailsAll_spec es)
end

/-- C270: the value of the filter, `.` if there is none, or 400 with all details of the errors if there are any. -/
theorem filter_answered {V D : Type} (u : Unicode) (st : State V D) (f : Option String) (m : Method) (hm : m ≠ .other) :
    let res := answer u st { method := m, segments := ["api", "v1", "registry", "filter"], filter := some f }
    (∀ v, st.run (f.getD ".") = .ok v → res = ⟨200, .value v⟩) ∧
    (∀ e, st.run (f.getD ".") = .error e → ∃ ds, Details e ds ∧ res.status = 400 ∧
      (ds = [] → res.body = .error none) ∧ (ds ≠ [] → res.body = .error (some ds))) := by
  dsimp only
  refine ⟨fun v h => by simp [answer, route, hm, handle, h], fun e h => ⟨e.details, details_spec e, ?_, fun hd => ?_, fun hd => ?_⟩⟩
  · simp [answer, route, hm, handle, h]
  · simp [answer, route, hm, handle, h, hd]
  · simp [answer, route, hm, handle, h, hd]

/-- `search` answers with the number of the results it lists, of at most a thousand, and with what was asked. -/
theorem search_answered {V D : Type} (u : Unicode) (st : State V D) (p : SearchParams) :
    ∃ total results, answer u st { segments := ["api", "v1", "registry", "search"], search := some p } =
        ⟨200, .found p.q total results.length p.offset results⟩ ∧
      (results, total) = search u st.ctx p.q p.kind p.stability p.hideDeprecated p.limit p.offset :=
  ⟨_, _, rfl, rfl⟩

/-! ### C271: origins -/

/-- Blanks at the beginning or the end. -/
def Trimmed (s t : Chars) : Prop :=
  ∃ a b, s = a ++ t ++ b ∧ (∀ c ∈ a, c.isWhitespace = true) ∧ (∀ c ∈ b, c.isWhitespace = true) ∧
    (∀ c r, t = c :: r → c.isWhitespace = false) ∧ (∀ c r, t = r ++ [c] → c.isWhitespace = false)

theorem mem_takeWhile {p : Char → Bool} {s : Chars} : ∀ c ∈ s.takeWhile p, p c = true := by
  induction s with
  | nil => simp
  | cons x s ih =>
    intro c hc
    rw [List.takeWhile_cons] at hc
    split at hc
    · rcases List.mem_cons.1 hc with h | h
      · subst h; assumption
      · exact ih c h
    · simp at hc

theorem dropWhile_head {p : Char → Bool} {s : Chars} : ∀ c r, s.dropWhile p = c :: r → p c = false := by
  induction s with
  | nil => simp
  | cons x s ih =>
    intro c r h
    rw [List.dropWhile_cons] at h
    split at h
    · exact ih c r h
    · injection h with h1 _
      subst h1
      simpa using ‹¬ p x = true›

theorem trim_spec (s : Chars) : Trimmed s (trim s) := by
  let d := s.dropWhile Char.isWhitespace
  refine ⟨s.takeWhile Char.isWhitespace, (d.reverse.takeWhile Char.isWhitespace).reverse, ?_, mem_takeWhile, ?_, ?_, ?_⟩
  · have h1 : trim s ++ (d.reverse.takeWhile Char.isWhitespace).reverse = d := by
      unfold trim
      rw [← List.reverse_append, List.takeWhile_append_dropWhile, List.reverse_reverse]
    rw [List.append_assoc, h1, List.takeWhile_append_dropWhile]
  · exact fun c hc => mem_takeWhile c (List.mem_reverse.1 hc)
  · intro c r h
    have h1 : trim s ++ (d.reverse.takeWhile Char.isWhitespace).reverse = d := by
      unfold trim
      rw [← List.reverse_append, List.takeWhile_append_dropWhile, List.reverse_reverse]
    rw [h, List.cons_append] at h1
    exact dropWhile_head c _ h1.symm
  · intro c r h
    unfold trim at h
    have h2 := congrArg List.reverse h
    rw [List.reverse_reverse, List.reverse_append] at h2
    exact dropWhile_head c r.reverse h2

/-- The origins of a list between commas. -/
def Listed (origins o : Chars) : Prop :=
  ∃ w, Word (fun c => decide (c = ',')) w origins ∧ trim w = o

/-- C271, as far as it holds: unless the server panics, pages of exactly the origins that are listed may read the answers, or of
all origins for `*`; without the option, of none. -/
theorem origins_partial (origins : Option Chars) (c : Cors) (h : cors origins = some c) (o : Chars) :
    c.allows o = true ↔ ∃ s, origins = some s ∧ (s = ['*'] ∨ Listed s o) := by
  unfold cors at h
  split at h
  · injection h with h; subst h; simp [Cors.allows]
  · rename_i s
    split at h
    · rename_i hs; injection h with h; subst h
      simp [Cors.allows, hs]
    · rename_i hs
      dsimp only at h
      split at h
      · injection h with h
        subst h
        simp only [Cors.allows, List.contains_iff_mem, List.mem_map, Option.some.injEq, exists_eq_left', hs, false_or,
          Listed, mem_splitWhen_iff]
      · cases h

/-- When the server panics. -/
theorem cors_panics (s : Chars) : cors (some s) = none ↔
    s ≠ ['*'] ∧ ∃ o, Listed s o ∧ (headerValue o = false ∨ o = ['*']) := by
  unfold cors
  dsimp only
  by_cases hs : s = ['*']
  · rw [if_pos hs]; simp [hs]
  · rw [if_neg hs]
    simp only [ne_eq, hs, not_false_eq_true, true_and]
    have hm : ∀ o, o ∈ (splitWhen (fun c => decide (c = ',')) s).map trim ↔ Listed s o := by
      intro o
      simp only [List.mem_map, Listed, mem_splitWhen_iff]
    constructor
    · intro h
      split at h
      · cases h
      · rename_i hn
        refine Classical.byContradiction fun hc => hn ⟨?_, ?_⟩
        · rw [List.all_eq_true]
          intro o ho
          cases hv : headerValue o with
          | true => rfl
          | false => exact absurd ⟨o, (hm o).1 ho, .inl hv⟩ hc
        · intro ho
          exact hc ⟨_, (hm _).1 ho, .inr rfl⟩
    · rintro ⟨o, ho, h⟩
      rw [if_neg]
      rintro ⟨h1, h2⟩
      have ho' := (hm o).2 ho
      rcases h with h | h
      · rw [List.all_eq_true] at h1
        rw [h1 o ho'] at h; cases h
      · subst h; exact h2 ho'

/-- C271 does not hold: `--cors-origins " *"`, with a blank, and `"http://a,*"` make the server panic, though only the start of
the server shows it. -/
theorem origins_refuted : ¬ (∀ origins : Option Chars, (cors origins).isSome = true) := by
  intro h
  exact absurd (h (some " *".toList)) (by decide +kernel)

example : cors (some "http://a, http://b".toList) = some (.only ["http://a".toList, "http://b".toList]) := by decide +kernel
example : cors (some "http://a,*".toList) = none := by decide +kernel
/-- Origins have no slash at the end: such an entry allows nothing. -/
example : (Cors.only ["http://a/".toList]).allows "http://a".toList = false := by decide +kernel

end Verif.Serve
