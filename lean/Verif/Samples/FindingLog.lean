import Verif.Util.Str
import Verif.LiveCheck.Model
/-
The log records of findings: crates/weaver_live_check/src/otlp_logger.rs and src/generated/{attributes,events}.rs.
-/
namespace Verif.Samples
open Verif.Util
open Verif.LiveCheck (Level SRef)

/-- `serde_json::Value`; `int` is a number that is an `i64` or a `u64`, `dbl` any other. -/
inductive J where
  | null
  | bool (b : Bool)
  | int (n : Int)
  | dbl (f : Nat)
  | str (s : String)
  | arr (l : List J)
  | obj (fields : List (String × J))

/-- `opentelemetry::logs::AnyValue`, what is made here. -/
inductive A where
  | bool (b : Bool)
  | int (n : Int)
  | dbl (f : Nat)
  | str (s : String)
  | list (l : List A)

/-! ### Model -/

mutual
/-- otlp_logger.rs:205-225 `json_value_to_any_value`, where `f64` converts the integers that are no `i64`. -/
def anyOf (f64 : Int → Nat) : J → Option A
  | .str s => some (.str s)
  | .int n => if -2^63 ≤ n ∧ n < 2^63 then some (.int n) else some (.dbl (f64 n))
  | .dbl f => some (.dbl f)
  | .bool b => some (.bool b)
  | .arr l => match anyOfList f64 l with
    | [] => none
    | a :: as => some (.list (a :: as))
  | .null => none
  | .obj _ => none
/-- otlp_logger.rs:216: the `filter_map`. -/
def anyOfList (f64 : Int → Nat) : List J → List A
  | [] => []
  | j :: l => match anyOf f64 j with
    | some a => a :: anyOfList f64 l
    | none => anyOfList f64 l
end

/-- `usize::to_string`. -/
def index (n : Nat) : Chars := Nat.toDigits 10 n

/-- otlp_logger.rs:232-236, 242-246: the prefix for a part. -/
def extend (pre key : Chars) : Chars := if pre = [] then key else pre ++ '.' :: key

mutual
/-- otlp_logger.rs:228-261 `flatten_json_recursive`: what is added to the attributes. -/
def flatten (f64 : Int → Nat) (pre : Chars) : J → List (Chars × A)
  | .obj fields => flattenFields f64 pre fields
  | .arr l => flattenElems f64 pre 0 l
  | j => if pre = [] then [] else match anyOf f64 j with
    | some a => [(pre, a)]
    | none => []
/-- otlp_logger.rs:231-238. -/
def flattenFields (f64 : Int → Nat) (pre : Chars) : List (String × J) → List (Chars × A)
  | [] => []
  | (k, j) :: l => flatten f64 (extend pre k.toList) j ++ flattenFields f64 pre l
/-- otlp_logger.rs:241-248. -/
def flattenElems (f64 : Int → Nat) (pre : Chars) (i : Nat) : List J → List (Chars × A)
  | [] => []
  | j :: l => flatten f64 (extend pre (index i)) j ++ flattenElems f64 pre (i + 1) l
end

/-- weaver_checker finding.rs `PolicyFinding`. -/
structure PFinding where
  id : String
  context : Option J := none
  message : String
  level : Level
  signalType : Option String := none
  signalName : Option String := none

/-- A log record. -/
structure Record where
  eventName : String
  severity : Nat
  severityText : String
  body : String
  attrs : List (Chars × A)

/-- generated/attributes.rs:58-107: the texts of the variants of `FindingId` without `Custom`. -/
def knownIds : List String :=
  ["missing_attribute", "template_attribute", "missing_metric", "missing_event", "deprecated", "type_mismatch", "not_stable",
   "unit_mismatch", "unexpected_instrument", "undefined_enum_variant", "required_attribute_not_present",
   "recommended_attribute_not_present", "opt_in_attribute_not_present", "conditionally_required_attribute_not_present",
   "entity_required_attribute_not_present", "entity_recommended_attribute_not_present", "entity_opt_in_attribute_not_present",
   "entity_conditionally_required_attribute_not_present", "entity_association_not_satisfied", "missing_namespace",
   "invalid_format", "illegal_namespace", "extends_namespace"]

/-- generated/attributes.rs:58-107 `FindingId`: one of those, or `Custom`. -/
inductive FindingId where
  | known (i : Nat)
  | custom (s : String)

/-- generated/attributes.rs:115-119 `From<String>`. -/
def FindingId.parse (s : String) : FindingId :=
  match knownIds.findIdx? (· = s) with
  | some i => .known i
  | none => .custom s

/-- The `Display` that strum derives. -/
def FindingId.text : FindingId → String
  | .known i => knownIds.getD i ""
  | .custom s => s

/-- otlp_logger.rs:155-163, and the `Display` of the levels (generated/attributes.rs:139-146). -/
def levelText : Level → String
  | .violation => "violation"
  | .improvement => "improvement"
  | .information => "information"

/-- otlp_logger.rs:166-172 `finding_level_to_severity`: number and name. -/
def severityOf : Level → Nat × String
  | .violation => (17, "ERROR")
  | .improvement => (13, "WARN")
  | .information => (9, "INFO")

/-- generated/attributes.rs:212-223: the texts of `SignalType`. -/
def signalTypes : List String := ["span", "resource", "metric", "log", "profile"]

/-- lib.rs:362-380 `sample_type`, as text (generated/attributes.rs:166-193). -/
def sampleTypeText : SRef → String
  | .attribute _ => "attribute"
  | .span _ => "span"
  | .spanEvent _ => "span_event"
  | .spanLink _ => "span_link"
  | .resource _ => "resource"
  | .scope _ => "instrumentation_scope"
  | .metric _ => "metric"
  | .numberPoint _ => "number_data_point"
  | .histogramPoint _ => "histogram_data_point"
  | .exponentialPoint _ => "exponential_histogram_data_point"
  | .exemplar _ => "exemplar"
  | .log _ => "log"
  | .profile _ => "profile"

/-- otlp_logger.rs:178-188 `flatten_resource_attributes`, of names and values. -/
def resourceAttrs (f64 : Int → Nat) (l : List (Chars × Option J)) : List (Chars × A) :=
  l.filterMap fun a => match a.2.bind (anyOf f64) with
    | some v => some (a.1, v)
    | none => none

/-- otlp_logger.rs:102-143 `emit_finding` and generated/events.rs:49-102 `populate_finding_log_record`. `resource` are the
attributes of the resource of the parent signal (lib.rs:403-411), if there is one. -/
def record (f64 : Int → Nat) (f : PFinding) (sample : SRef) (resource : Option (List (Chars × Option J))) : Record :=
  let context := match f.context with
    | some c => flatten f64 [] c
    | none => []
  let res := match resource with
    | some r => resourceAttrs f64 r
    | none => []
  { eventName := "weaver.live_check.finding"
    severity := (severityOf f.level).1
    severityText := (severityOf f.level).2
    body := f.message
    attrs :=
      context.map (fun p => ("weaver.finding.context".toList ++ '.' :: p.1, p.2)) ++
      [("weaver.finding.id".toList, .str (FindingId.parse f.id).text), ("weaver.finding.level".toList, .str (levelText f.level))] ++
      res.map (fun p => ("weaver.finding.resource.attribute".toList ++ '.' :: p.1, p.2)) ++
      [("weaver.finding.sample.type".toList, .str (sampleTypeText sample))] ++
      (match f.signalName with
        | some n => [("weaver.finding.signal.name".toList, .str n)]
        | none => []) ++
      (match f.signalType with
        | some t => if t ∈ signalTypes then [("weaver.finding.signal.type".toList, .str t)] else []
        | none => []) }

/-! ### Specification -/

/-- `Leaf j path x`: following the path (keys of objects, positions in arrays) in `j` leads to `x`, which is no object or array. -/
inductive Leaf : J → List Chars → J → Prop where
  | here {j : J} : (∀ l, j ≠ .arr l) → (∀ l, j ≠ .obj l) → Leaf j [] j
  | field {fields : List (String × J)} {k : String} {v x : J} {p : List Chars} :
    (k, v) ∈ fields → Leaf v p x → Leaf (.obj fields) (k.toList :: p) x
  | elem {l : List J} {i : Nat} {v x : J} {p : List Chars} : l[i]? = some v → Leaf v p x → Leaf (.arr l) (index i :: p) x

/-- The steps of a path with dots between them. -/
def dotted : List Chars → Chars
  | [] => []
  | [a] => a
  | a :: b :: l => a ++ '.' :: dotted (b :: l)

/-- Keys of objects, as they occur anywhere in the value. -/
inductive HasKey : J → String → Prop where
  | here {fields : List (String × J)} {k : String} {v : J} : (k, v) ∈ fields → HasKey (.obj fields) k
  | field {fields : List (String × J)} {k k' : String} {v : J} : (k, v) ∈ fields → HasKey v k' → HasKey (.obj fields) k'
  | elem {l : List J} {v : J} {k : String} : v ∈ l → HasKey v k → HasKey (.arr l) k

/-- Objects have one value for each key. -/
inductive Maps : J → Prop where
  | scalar {j : J} : (∀ l, j ≠ .arr l) → (∀ l, j ≠ .obj l) → Maps j
  | obj {fields : List (String × J)} : (fields.map (·.1)).Nodup → (∀ p ∈ fields, Maps p.2) → Maps (.obj fields)
  | arr {l : List J} : (∀ v ∈ l, Maps v) → Maps (.arr l)

/-! ### Flattening -/

theorem index_inj {m n : Nat} (h : index m = index n) : m = n := by
  have := congrArg (fun l => Nat.ofDigitChars 10 l 0) h
  simpa [index, Nat.ofDigitChars_toDigits] using this

theorem index_ne_nil (n : Nat) : index n ≠ [] := Nat.toDigits_ne_nil

theorem index_no_dot (n : Nat) : '.' ∉ index n := by
  intro h
  have := Nat.isDigit_of_mem_toDigits (by decide) (by decide) h
  revert this
  decide

/-- One more step at the end. -/
theorem dotted_concat {p : List Chars} (hp : p ≠ []) (k : Chars) : dotted (p ++ [k]) = dotted p ++ '.' :: k := by
  induction p with
  | nil => exact absurd rfl hp
  | cons a p ih =>
    cases p with
    | nil => rfl
    | cons b p =>
      rw [List.cons_append, List.cons_append, dotted, dotted, ← List.cons_append, ih (by simp)]
      simp

theorem dotted_ne_nil {p : List Chars} (hp : p ≠ []) (h : ∀ a, p.head? = some a → a ≠ []) : dotted p ≠ [] := by
  cases p with
  | nil => exact absurd rfl hp
  | cons a p =>
    have := h a rfl
    cases p with
    | nil => exact this
    | cons b p => unfold dotted; simp

theorem extend_dotted {p : List Chars} (h : ∀ a, p.head? = some a → a ≠ []) (k : Chars) : extend (dotted p) k = dotted (p ++ [k]) := by
  unfold extend
  by_cases hp : p = []
  · subst hp; rfl
  · rw [if_neg (dotted_ne_nil hp h), dotted_concat hp]

theorem head_append {p : List Chars} {k : Chars} (h : ∀ a, p.head? = some a → a ≠ []) (hk : p = [] → k ≠ []) :
    ∀ a, (p ++ [k]).head? = some a → a ≠ [] := by
  cases p with
  | nil => intro a ha; cases ha; exact hk rfl
  | cons b p => exact h

theorem flatten_scalar (f64 : Int → Nat) (pre : Chars) {j : J} (h1 : ∀ l, j ≠ .arr l) (h2 : ∀ l, j ≠ .obj l) :
    flatten f64 pre j = if pre = [] then [] else match anyOf f64 j with
      | some a => [(pre, a)]
      | none => [] := by
  cases j with
  | arr l => exact absurd rfl (h1 l)
  | obj l => exact absurd rfl (h2 l)
  | _ => rw [flatten] <;> simp

theorem scalar_iff (f64 : Int → Nat) (p : List Chars) (h : ∀ a, p.head? = some a → a ≠ []) (key : Chars) (a : A) (j : J)
    (h1 : ∀ l, j ≠ .arr l) (h2 : ∀ l, j ≠ .obj l) :
    ((key, a) ∈ flatten f64 (dotted p) j ↔
      ∃ path x, p ++ path ≠ [] ∧ Leaf j path x ∧ anyOf f64 x = some a ∧ key = dotted (p ++ path)) := by
  rw [flatten_scalar f64 _ h1 h2]
  have hleaf : ∀ path x, Leaf j path x ↔ path = [] ∧ x = j := by
    intro path x
    constructor
    · intro hl
      cases hl with
      | here => exact ⟨rfl, rfl⟩
      | field => exact absurd rfl (h2 _)
      | elem => exact absurd rfl (h1 _)
    · rintro ⟨rfl, rfl⟩; exact .here h1 h2
  by_cases hp : p = []
  · subst hp
    simp only [dotted, if_true, List.not_mem_nil, List.nil_append, false_iff, not_exists]
    rintro path x ⟨hne, hl, -⟩
    exact hne ((hleaf _ _).1 hl).1
  · rw [if_neg (dotted_ne_nil hp h)]
    constructor
    · intro hm
      cases ha : anyOf f64 j with
      | none => simp [ha] at hm
      | some b =>
        simp only [ha, List.mem_singleton, Prod.mk.injEq] at hm
        exact ⟨[], j, by simpa using hp, .here h1 h2, by rw [ha, hm.2], by rw [hm.1]; simp⟩
    · rintro ⟨path, x, -, hl, ha, rfl⟩
      obtain ⟨rfl, rfl⟩ := (hleaf _ _).1 hl
      simp [ha]
mutual
/-- What is at the top of a value has a key that is not empty, or there is a key already. -/
theorem flatten_iff (f64 : Int → Nat) (p : List Chars) (h : ∀ a, p.head? = some a → a ≠ []) (key : Chars) (a : A) : (j : J) →
    (p = [] → ∀ fields, j = .obj fields → ∀ q ∈ fields, q.1 ≠ "") →
    ((key, a) ∈ flatten f64 (dotted p) j ↔ ∃ path x, p ++ path ≠ [] ∧ Leaf j path x ∧ anyOf f64 x = some a ∧ key = dotted (p ++ path))
  | .obj fields, hk => by
    rw [flatten, fields_iff f64 p h key a fields (fun hp q hq => hk hp fields rfl q hq)]
    constructor
    · rintro ⟨k, v, path, x, hm, hl, ha, he⟩
      exact ⟨k.toList :: path, x, by simp, .field hm hl, ha, he⟩
    · rintro ⟨path, x, -, hl, ha, he⟩
      cases hl with
      | here h1 h2 => exact absurd rfl (h2 fields)
      | field hm hl => exact ⟨_, _, _, _, hm, hl, ha, he⟩
  | .arr l, hk => by
    rw [flatten, elems_iff f64 p h key a l 0]
    constructor
    · rintro ⟨i, v, path, x, hm, hl, ha, he⟩
      exact ⟨index i :: path, x, by simp, .elem hm hl, ha, by simpa using he⟩
    · rintro ⟨path, x, -, hl, ha, he⟩
      cases hl with
      | here h1 h2 => exact absurd rfl (h1 l)
      | elem hm hl => exact ⟨_, _, _, _, hm, hl, ha, by simpa using he⟩
  | .null, _ => scalar_iff f64 p h key a _ (by simp) (by simp)
  | .bool b, _ => scalar_iff f64 p h key a _ (by simp) (by simp)
  | .int b, _ => scalar_iff f64 p h key a _ (by simp) (by simp)
  | .dbl b, _ => scalar_iff f64 p h key a _ (by simp) (by simp)
  | .str b, _ => scalar_iff f64 p h key a _ (by simp) (by simp)

theorem fields_iff (f64 : Int → Nat) (p : List Chars) (h : ∀ a, p.head? = some a → a ≠ []) (key : Chars) (a : A) : (fields : List (String × J)) →
    (p = [] → ∀ q ∈ fields, q.1 ≠ "") →
    ((key, a) ∈ flattenFields f64 (dotted p) fields ↔
      ∃ k v path x, (k, v) ∈ fields ∧ Leaf v path x ∧ anyOf f64 x = some a ∧ key = dotted (p ++ k.toList :: path))
  | [], hk => by simp [flattenFields]
  | (k, j) :: l, hk => by
    have hk' : p = [] → k.toList ≠ [] := fun hp => by simpa using hk hp (k, j) (by simp)
    rw [flattenFields, List.mem_append, extend_dotted h k.toList,
      flatten_iff f64 (p ++ [k.toList]) (head_append h hk') key a j (fun hp => by simp at hp),
      fields_iff f64 p h key a l (fun hp q hq => hk hp q (by simp [hq]))]
    constructor
    · rintro (⟨path, x, -, hl, ha, he⟩ | ⟨k', v, path, x, hm, hl, ha, he⟩)
      · exact ⟨k, j, path, x, by simp, hl, ha, by simpa using he⟩
      · exact ⟨k', v, path, x, by simp [hm], hl, ha, he⟩
    · rintro ⟨k', v, path, x, hm, hl, ha, he⟩
      rcases List.mem_cons.1 hm with e | hm
      · cases e
        exact .inl ⟨path, x, by simp, hl, ha, by simpa using he⟩
      · exact .inr ⟨k', v, path, x, hm, hl, ha, he⟩

theorem elems_iff (f64 : Int → Nat) (p : List Chars) (h : ∀ a, p.head? = some a → a ≠ []) (key : Chars) (a : A) : (l : List J) → (i : Nat) →
    ((key, a) ∈ flattenElems f64 (dotted p) i l ↔
      ∃ n v path x, l[n]? = some v ∧ Leaf v path x ∧ anyOf f64 x = some a ∧ key = dotted (p ++ index (i + n) :: path))
  | [], i => by simp [flattenElems]
  | j :: l, i => by
    rw [flattenElems, List.mem_append, extend_dotted h (index i),
      flatten_iff f64 (p ++ [index i]) (head_append h fun _ => index_ne_nil i) key a j (fun hp => by simp at hp),
      elems_iff f64 p h key a l (i + 1)]
    constructor
    · rintro (⟨path, x, -, hl, ha, he⟩ | ⟨n, v, path, x, hm, hl, ha, he⟩)
      · exact ⟨0, j, path, x, by simp, hl, ha, by simpa using he⟩
      · exact ⟨n + 1, v, path, x, by simpa using hm, hl, ha, by rw [he]; congr 4; omega⟩
    · rintro ⟨n, v, path, x, hm, hl, ha, he⟩
      cases n with
      | zero =>
        simp only [List.getElem?_cons_zero, Option.some.injEq] at hm
        subst hm
        exact .inl ⟨path, x, by simp, hl, ha, by simpa using he⟩
      | succ n => exact .inr ⟨n, v, path, x, by simpa using hm, hl, ha, by rw [he]; congr 4; omega⟩

end

/-- C221. The context of a finding is kept: there is an attribute for every value in it, under the path to it, unless there is a
key that is empty at the top. Values that log records do not have (null) are left out. -/
theorem context_kept_partial (f64 : Int → Nat) (j : J) (hj : ∀ fields, j = .obj fields → ∀ q ∈ fields, q.1 ≠ "") (key : Chars) (a : A) :
    (key, a) ∈ flatten f64 [] j ↔ ∃ path x, path ≠ [] ∧ Leaf j path x ∧ anyOf f64 x = some a ∧ key = dotted path :=
  flatten_iff f64 [] (by simp) key a j fun _ => hj

/-- C221. What is under an empty key, or is all of the context, is lost. -/
theorem context_kept_refuted (f64 : Int → Nat) :
    flatten f64 [] (.obj [("", .str "x")]) = [] ∧ Leaf (.obj [("", .str "x")]) [[]] (.str "x") ∧
    flatten f64 [] (.str "x") = [] ∧ Leaf (.str "x") [] (.str "x") := by
  refine ⟨rfl, .field (k := "") (v := .str "x") (by simp) (.here (by simp) (by simp)), rfl, .here (by simp) (by simp)⟩

theorem dotted_split : {p : List Chars} → p ≠ [] → (∀ k ∈ p, '.' ∉ k) → splitWhen (fun c => decide (c = '.')) (dotted p) = p
  | [], h, _ => absurd rfl h
  | [a], _, hc => splitWhen_clean fun c hm => by
      simp only [decide_eq_false_iff_not]
      rintro rfl; exact hc a (by simp) hm
  | a :: b :: l, _, hc => by
    rw [dotted, splitWhen_append _ _ (by simp), dotted_split (by simp) fun k hk => hc k (by simp [hk]), splitWhen_clean]
    · rfl
    · intro c hm
      simp only [decide_eq_false_iff_not]
      rintro rfl; exact hc a (by simp) hm

theorem dotted_inj {p q : List Chars} (hp : p ≠ []) (hq : q ≠ []) (h1 : ∀ k ∈ p, '.' ∉ k) (h2 : ∀ k ∈ q, '.' ∉ k)
    (h : dotted p = dotted q) : p = q := by
  rw [← dotted_split hp h1, ← dotted_split hq h2, h]

/-- The steps of paths are keys and positions. -/
theorem leaf_steps {j x : J} {p : List Chars} (h : Leaf j p x) (hk : ∀ k, HasKey j k → '.' ∉ k.toList) : ∀ k ∈ p, '.' ∉ k := by
  induction h with
  | here => simp
  | field hm _ ih =>
    intro k hkm
    rcases List.mem_cons.1 hkm with rfl | hkm
    · exact hk _ (.here hm)
    · exact ih (fun k' h' => hk k' (.field hm h')) k hkm
  | elem hm _ ih =>
    intro k hkm
    rcases List.mem_cons.1 hkm with rfl | hkm
    · exact index_no_dot _
    · exact ih (fun k' h' => hk k' (.elem (List.mem_of_getElem? hm) h')) k hkm

theorem leaf_obj {l : List (String × J)} {x : J} {p : List Chars} (h : Leaf (.obj l) p x) :
    ∃ k v q, p = k.toList :: q ∧ (k, v) ∈ l ∧ Leaf v q x := by
  generalize he : J.obj l = j at h
  cases h with
  | here _ h2 => exact absurd he.symm (h2 l)
  | elem => exact nomatch he
  | field hm hl => cases he; exact ⟨_, _, _, rfl, hm, hl⟩

theorem leaf_arr {l : List J} {x : J} {p : List Chars} (h : Leaf (.arr l) p x) :
    ∃ i v q, p = index i :: q ∧ l[i]? = some v ∧ Leaf v q x := by
  generalize he : J.arr l = j at h
  cases h with
  | here h1 _ => exact absurd he.symm (h1 l)
  | field => exact nomatch he
  | elem hm hl => cases he; exact ⟨_, _, _, rfl, hm, hl⟩

/-- A path leads to one value. -/
theorem leaf_unique {j x y : J} {p : List Chars} (hm : Maps j) (h : Leaf j p x) (h' : Leaf j p y) : x = y := by
  induction h generalizing y with
  | here h1 h2 =>
    cases h' with
    | here => rfl
  | field hf _ ih =>
      obtain ⟨k', v', q', he, hf', hl'⟩ := leaf_obj h'
      obtain ⟨hkk, rfl⟩ := List.cons.inj he
      rw [← String.toList_injective hkk] at hf'
      cases hm with
      | scalar _ h2 => exact absurd rfl (h2 _)
      | obj hn hv =>
        have : ∀ {l : List (String × J)}, (l.map (·.1)).Nodup → ∀ {k v w}, (k, v) ∈ l → (k, w) ∈ l → v = w := by
          intro l
          induction l with
          | nil => intro _ k v w h; cases h
          | cons q l ihl =>
            intro hn k v w h1 h2
            simp only [List.map_cons, List.nodup_cons] at hn
            rcases List.mem_cons.1 h1 with e1 | h1 <;> rcases List.mem_cons.1 h2 with e2 | h2
            · rw [← e1] at e2; exact (congrArg Prod.snd e2).symm
            · exact absurd (List.mem_map.2 ⟨_, h2, by rw [← e1]⟩) hn.1
            · exact absurd (List.mem_map.2 ⟨_, h1, by rw [← e2]⟩) hn.1
            · exact ihl hn.2 h1 h2
        rw [← this hn hf hf'] at hl'
        exact ih (hv _ hf) hl'
  | elem hf _ ih =>
    obtain ⟨i, v, q, he, hf', hl'⟩ := leaf_arr h'
    cases hm with
    | scalar h1 _ => exact absurd rfl (h1 _)
    | arr hv =>
      obtain ⟨h1, rfl⟩ := List.cons.inj he
      have := index_inj h1
      subst this
      rw [hf] at hf'
      cases hf'
      exact ih (hv _ (List.mem_of_getElem? hf)) hl'

/-- C221. If no key has a dot in it, the attributes of the context have different keys. -/
theorem context_keys_partial (f64 : Int → Nat) (j : J) (hm : Maps j) (hj : ∀ fields, j = .obj fields → ∀ q ∈ fields, q.1 ≠ "")
    (hk : ∀ k, HasKey j k → '.' ∉ k.toList) (key : Chars) (a b : A) (ha : (key, a) ∈ flatten f64 [] j) (hb : (key, b) ∈ flatten f64 [] j) :
    a = b := by
  obtain ⟨p, x, hp, hl, hx, he⟩ := (context_kept_partial f64 j hj key a).1 ha
  obtain ⟨q, y, hq, hl', hy, he'⟩ := (context_kept_partial f64 j hj key b).1 hb
  have := dotted_inj hp hq (leaf_steps hl hk) (leaf_steps hl' hk) (he ▸ he')
  subst this
  rw [leaf_unique hm hl hl', hy] at hx
  exact (Option.some.inj hx).symm

/-- C221. With dots in keys there can be two values under one key. -/
theorem context_keys_refuted (f64 : Int → Nat) :
    flatten f64 [] (.obj [("a", .obj [("b", .str "x")]), ("a.b", .str "y")]) =
      [("a.b".toList, .str "x"), ("a.b".toList, .str "y")] := rfl

example : flatten (fun _ => 0) [] (.obj [("a", .arr [.null, .obj [("b", .int 3)]]), ("c", .bool true)]) =
    [("a.1.b".toList, .int 3), ("c".toList, .bool true)] := rfl

example : Maps (.obj [("a", .arr [.null])]) ∧ ∀ k, HasKey (.obj [("a", .arr [.null])]) k → '.' ∉ k.toList := by
  refine ⟨.obj (by decide) fun p hp => ?_, fun k hk => ?_⟩
  · simp only [List.mem_singleton] at hp; subst hp
    refine .arr fun v hv => ?_
    simp only [List.mem_singleton] at hv; subst hv
    exact .scalar (by simp) (by simp)
  · cases hk with
    | here h => simp only [List.mem_singleton, Prod.mk.injEq] at h; rw [h.1]; decide
    | field h hk =>
      simp only [List.mem_singleton, Prod.mk.injEq] at h
      rw [h.2] at hk
      cases hk with
      | elem h hk => simp only [List.mem_singleton] at h; subst h; cases hk

/-! ### Records -/

theorem id_text (s : String) : (FindingId.parse s).text = s := by
  unfold FindingId.parse
  cases h : knownIds.findIdx? (· = s) with
  | none => rfl
  | some i =>
    obtain ⟨hi, hs, -⟩ := List.findIdx?_eq_some_iff_getElem.1 h
    simp only [decide_eq_true_eq] at hs
    show knownIds.getD i "" = s
    rw [← hs, List.getD_eq_getElem?_getD, List.getElem?_eq_getElem hi, Option.getD_some]

/-- The attributes of a record, by key. -/
inductive RecordAttr (f64 : Int → Nat) (f : PFinding) (sample : SRef) (resource : Option (List (Chars × Option J))) : Chars → A → Prop where
  | context {c : J} {k : Chars} {a : A} : f.context = some c → (k, a) ∈ flatten f64 [] c →
    RecordAttr f64 f sample resource ("weaver.finding.context.".toList ++ k) a
  | id : RecordAttr f64 f sample resource "weaver.finding.id".toList (.str f.id)
  | level : RecordAttr f64 f sample resource "weaver.finding.level".toList (.str (levelText f.level))
  | resource {l : List (Chars × Option J)} {k : Chars} {v : J} {a : A} : resource = some l → (k, some v) ∈ l → anyOf f64 v = some a →
    RecordAttr f64 f sample resource ("weaver.finding.resource.attribute.".toList ++ k) a
  | sampleType : RecordAttr f64 f sample resource "weaver.finding.sample.type".toList (.str (sampleTypeText sample))
  | signalName {n : String} : f.signalName = some n → RecordAttr f64 f sample resource "weaver.finding.signal.name".toList (.str n)
  | signalType {t : String} : f.signalType = some t → t ∈ signalTypes →
    RecordAttr f64 f sample resource "weaver.finding.signal.type".toList (.str t)

mutual
/-- What a JSON value is as the value of an attribute: integers beyond 64 bits are floats, and arrays keep what has a value. -/
inductive Any (f64 : Int → Nat) : J → A → Prop where
  | str {s : String} : Any f64 (.str s) (.str s)
  | bool {b : Bool} : Any f64 (.bool b) (.bool b)
  | dbl {f : Nat} : Any f64 (.dbl f) (.dbl f)
  | int {n : Int} : -2^63 ≤ n → n < 2^63 → Any f64 (.int n) (.int n)
  | low {n : Int} : n < -2^63 → Any f64 (.int n) (.dbl (f64 n))
  | high {n : Int} : 2^63 ≤ n → Any f64 (.int n) (.dbl (f64 n))
  | list {l : List J} {as : List A} : AnyElems f64 l as → as ≠ [] → Any f64 (.arr l) (.list as)
/-- The values of the elements that have one. -/
inductive AnyElems (f64 : Int → Nat) : List J → List A → Prop where
  | nil : AnyElems f64 [] []
  | keep {j : J} {a : A} {l : List J} {as : List A} : Any f64 j a → AnyElems f64 l as → AnyElems f64 (j :: l) (a :: as)
  | skip {j : J} {l : List J} {as : List A} : NoAny f64 j → AnyElems f64 l as → AnyElems f64 (j :: l) as
/-- Null, objects, and arrays of nothing else have no value. -/
inductive NoAny (f64 : Int → Nat) : J → Prop where
  | null : NoAny f64 .null
  | obj {l : List (String × J)} : NoAny f64 (.obj l)
  | arr {l : List J} : AnyElems f64 l [] → NoAny f64 (.arr l)
end

mutual
theorem any_sound (f64 : Int → Nat) : (j : J) → (∀ a, anyOf f64 j = some a → Any f64 j a) ∧ (anyOf f64 j = none → NoAny f64 j)
  | .null => ⟨fun a h => by simp [anyOf] at h, fun _ => .null⟩
  | .bool b => ⟨fun a h => by simp only [anyOf, Option.some.injEq] at h; subst h; exact .bool, fun h => by simp [anyOf] at h⟩
  | .dbl f => ⟨fun a h => by simp only [anyOf, Option.some.injEq] at h; subst h; exact .dbl, fun h => by simp [anyOf] at h⟩
  | .str s => ⟨fun a h => by simp only [anyOf, Option.some.injEq] at h; subst h; exact .str, fun h => by simp [anyOf] at h⟩
  | .obj l => ⟨fun a h => by simp [anyOf] at h, fun _ => .obj⟩
  | .int n => by
    constructor
    · intro a h
      simp only [anyOf] at h
      split at h
      · rename_i hn; cases h; exact .int hn.1 hn.2
      · rename_i hn
        cases h
        by_cases h' : n < -2^63
        · exact .low h'
        · exact .high (by omega)
    · intro h
      simp only [anyOf] at h
      split at h <;> simp at h
  | .arr l => by
    have ih := anys_sound f64 l
    constructor
    · intro a h
      simp only [anyOf] at h
      split at h
      · simp at h
      · rename_i heq; cases h; rw [heq] at ih; exact .list ih (by simp)
    · intro h
      simp only [anyOf] at h
      split at h
      · rename_i heq; rw [heq] at ih; exact .arr ih
      · simp at h
theorem anys_sound (f64 : Int → Nat) : (l : List J) → AnyElems f64 l (anyOfList f64 l)
  | [] => .nil
  | j :: l => by
    have ih := any_sound f64 j
    have ihl := anys_sound f64 l
    simp only [anyOfList]
    split
    · rename_i a ha; exact .keep (ih.1 a ha) ihl
    · rename_i ha; exact .skip (ih.2 ha) ihl
end

mutual
theorem any_complete (f64 : Int → Nat) : {j : J} → {a : A} → Any f64 j a → anyOf f64 j = some a
  | _, _, .str => by simp [anyOf]
  | _, _, .bool => by simp [anyOf]
  | _, _, .dbl => by simp [anyOf]
  | _, _, .int h1 h2 => by simp only [anyOf]; rw [if_pos ⟨h1, h2⟩]
  | _, _, .low h => by simp only [anyOf]; rw [if_neg (by omega)]
  | _, _, .high h => by simp only [anyOf]; rw [if_neg (by omega)]
  | _, _, .list (as := as) h hne => by
    simp only [anyOf, anys_complete f64 h]
    cases as with
    | nil => exact absurd rfl hne
    | cons => rfl
theorem anys_complete (f64 : Int → Nat) : {l : List J} → {as : List A} → AnyElems f64 l as → anyOfList f64 l = as
  | _, _, .nil => by simp [anyOfList]
  | _, _, .keep h hl => by simp only [anyOfList, any_complete f64 h, anys_complete f64 hl]
  | _, _, .skip h hl => by simp only [anyOfList, noAny_complete f64 h, anys_complete f64 hl]
theorem noAny_complete (f64 : Int → Nat) : {j : J} → NoAny f64 j → anyOf f64 j = none
  | _, .null => by simp [anyOf]
  | _, .obj => by simp [anyOf]
  | _, .arr h => by simp only [anyOf, anys_complete f64 h]
end

/-- C221, C222. What JSON values become is as specified. -/
theorem any_iff (f64 : Int → Nat) (j : J) (a : A) : anyOf f64 j = some a ↔ Any f64 j a := ⟨(any_sound f64 j).1 a, any_complete f64⟩

/-- C222. The log record of a finding has the message as body, the severity of the level, and exactly these attributes. -/
theorem record_spec (f64 : Int → Nat) (f : PFinding) (sample : SRef) (resource : Option (List (Chars × Option J))) :
    let r := record f64 f sample resource
    r.eventName = "weaver.live_check.finding" ∧ r.body = f.message ∧
    (f.level = .violation → (r.severity, r.severityText) = (17, "ERROR")) ∧
    (f.level = .improvement → (r.severity, r.severityText) = (13, "WARN")) ∧
    (f.level = .information → (r.severity, r.severityText) = (9, "INFO")) ∧
    ∀ k a, (k, a) ∈ r.attrs ↔ RecordAttr f64 f sample resource k a := by
  have hsev : ((record f64 f sample resource).severity, (record f64 f sample resource).severityText) = severityOf f.level := rfl
  refine ⟨rfl, rfl, fun h => by rw [hsev, h]; rfl, fun h => by rw [hsev, h]; rfl, fun h => by rw [hsev, h]; rfl, fun k a => ?_⟩
  have hc : "weaver.finding.context".toList ++ ['.'] = "weaver.finding.context.".toList := by decide +kernel
  have hr : "weaver.finding.resource.attribute".toList ++ ['.'] = "weaver.finding.resource.attribute.".toList := by decide +kernel
  simp only [record, List.mem_append, id_text]
  constructor
  · rintro (((((h | h) | h) | h) | h) | h)
    · obtain ⟨⟨k', a'⟩, hm, he⟩ := List.mem_map.1 h
      simp only [Prod.mk.injEq] at he
      obtain ⟨rfl, rfl⟩ := he
      cases hx : f.context with
      | none => rw [hx] at hm; cases hm
      | some c =>
        rw [hx] at hm
        have := RecordAttr.context (f64 := f64) (sample := sample) (resource := resource) hx hm
        rwa [← hc, List.append_assoc] at this
    · simp only [List.mem_cons, Prod.mk.injEq, List.not_mem_nil, or_false] at h
      rcases h with ⟨rfl, rfl⟩ | ⟨rfl, rfl⟩
      · exact .id
      · exact .level
    · obtain ⟨⟨k', a'⟩, hm, he⟩ := List.mem_map.1 h
      simp only [Prod.mk.injEq] at he
      obtain ⟨rfl, rfl⟩ := he
      cases resource with
      | none => cases hm
      | some l =>
        obtain ⟨⟨n, v⟩, hl, hv⟩ := List.mem_filterMap.1 hm
        cases v with
        | none => exact nomatch hv
        | some v =>
          simp only [Option.bind_some] at hv
          cases ha : anyOf f64 v with
          | none => rw [ha] at hv; exact nomatch hv
          | some b =>
            rw [ha] at hv
            simp only [Option.some.injEq, Prod.mk.injEq] at hv
            obtain ⟨rfl, rfl⟩ := hv
            have := RecordAttr.resource (f := f) (sample := sample) (resource := some l) rfl hl ha
            rwa [← hr, List.append_assoc] at this
    · simp only [List.mem_singleton, Prod.mk.injEq] at h
      obtain ⟨rfl, rfl⟩ := h
      exact .sampleType
    · cases hn : f.signalName with
      | none => rw [hn] at h; cases h
      | some n =>
        rw [hn] at h
        simp only [List.mem_singleton, Prod.mk.injEq] at h
        obtain ⟨rfl, rfl⟩ := h
        exact .signalName hn
    · cases hn : f.signalType with
      | none => rw [hn] at h; cases h
      | some n =>
        rw [hn] at h
        dsimp only at h
        split at h
        · rename_i ht
          simp only [List.mem_singleton, Prod.mk.injEq] at h
          obtain ⟨rfl, rfl⟩ := h
          exact .signalType hn ht
        · cases h
  · intro h
    cases h with
    | @context c k a hx hm =>
      refine .inl (.inl (.inl (.inl (.inl (List.mem_map.2 ⟨(k, a), by rw [hx]; exact hm, ?_⟩)))))
      rw [← hc, List.append_assoc]; rfl
    | id => exact .inl (.inl (.inl (.inl (.inr (by simp)))))
    | level => exact .inl (.inl (.inl (.inl (.inr (by simp)))))
    | @resource l k v a hx hm ha =>
      subst hx
      refine .inl (.inl (.inl (.inr (List.mem_map.2 ⟨(k, a), List.mem_filterMap.2 ⟨(k, some v), hm, by simp [ha]⟩, ?_⟩))))
      rw [← hr, List.append_assoc]; rfl
    | sampleType => exact .inl (.inl (.inr (by simp)))
    | signalName hn => exact .inl (.inr (by rw [hn]; simp))
    | signalType hn ht => exact .inr (by rw [hn]; simp [ht])

/-- C222. The finding can be read off its record, apart from its context: no attribute of the context or the resource gets in the
way of the others. -/
theorem record_recovers (f64 : Int → Nat) (f : PFinding) (sample : SRef) (resource : Option (List (Chars × Option J))) (a : A) :
    let attrs := (record f64 f sample resource).attrs
    (("weaver.finding.id".toList, a) ∈ attrs ↔ a = .str f.id) ∧
    (("weaver.finding.level".toList, a) ∈ attrs ↔ a = .str (levelText f.level)) ∧
    (("weaver.finding.sample.type".toList, a) ∈ attrs ↔ a = .str (sampleTypeText sample)) ∧
    (("weaver.finding.signal.name".toList, a) ∈ attrs ↔ ∃ n, f.signalName = some n ∧ a = .str n) ∧
    (("weaver.finding.signal.type".toList, a) ∈ attrs ↔ ∃ t, f.signalType = some t ∧ t ∈ signalTypes ∧ a = .str t) := by
  have hs := (record_spec f64 f sample resource).2.2.2.2.2
  have key : ∀ {k : Chars}, (k, a) ∈ (record f64 f sample resource).attrs ↔ ∃ k', k' = k ∧ RecordAttr f64 f sample resource k' a :=
    fun {k} => by rw [hs]; exact ⟨fun h => ⟨k, rfl, h⟩, fun ⟨k', he, h⟩ => he ▸ h⟩
  dsimp only
  refine ⟨?_, ?_, ?_, ?_, ?_⟩
  all_goals
    rw [key]
    constructor
    · rintro ⟨k, he, h⟩
      cases h with
      | context => exact absurd (congrArg (fun l => l.take 16) he) (by simp)
      | resource => exact absurd (congrArg (fun l => l.take 16) he) (by simp)
      | _ => first | exact rfl | exact ⟨_, by assumption, rfl⟩ | exact ⟨_, by assumption, by assumption, rfl⟩ | exact absurd he (by decide)
  · rintro rfl; exact ⟨_, rfl, .id⟩
  · rintro rfl; exact ⟨_, rfl, .level⟩
  · rintro rfl; exact ⟨_, rfl, .sampleType⟩
  · rintro ⟨n, hn, rfl⟩; exact ⟨_, rfl, .signalName hn⟩
  · rintro ⟨n, hn, ht, rfl⟩; exact ⟨_, rfl, .signalType hn ht⟩

/-- The signal types that findings about samples have are among those of records. -/
theorem signal_types_known (s : LiveCheck.Sample) {t : String} (h : s.signalType = some t) : t ∈ signalTypes := by
  cases s <;> simp [LiveCheck.Sample.signalType] at h <;> subst h <;> decide

/-- C222. Levels can be told from their texts, and so can the kinds of samples. -/
theorem texts_differ : (∀ l m, levelText l = levelText m → l = m) ∧
    ∀ l m, (severityOf l).1 = (severityOf m).1 → l = m := by
  constructor <;> intro l m h <;> cases l <;> cases m <;> first | rfl | exact absurd h (by decide)

end Verif.Samples
