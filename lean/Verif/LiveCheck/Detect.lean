import Verif.Util.Str
/-
The resource of the findings that live check sends: crates/weaver_live_check/src/otlp_logger.rs:25-59. Parameters: the two
environment variables, the version of weaver. The resource of the SDK (opentelemetry_sdk, not in the repository) is `sdk`, a list
of names and values; what a detector finds overrides it (`Resource::merge`). The name is found by a text, as in the code.
-/
namespace Verif.LiveCheck.Detect
open Verif.Util

/-- The environment: `OTEL_SERVICE_NAME`, `OTEL_RESOURCE_ATTRIBUTES`; `none` if not set (or not Unicode). -/
structure Vars where
  serviceName : Option Chars
  attributes : Option Chars

/-- otlp_logger.rs:33-38: an entry `k=v` whose key is `service.name`. -/
def namesService (kv : Chars) : Bool :=
  match splitFirst ['='] kv with
  | some (k, _) => k = "service.name".toList
  | none => false

/-- otlp_logger.rs:30-38 `user_set_service_name`. -/
def userSet (v : Vars) : Bool :=
  v.serviceName.isSome || (match v.attributes with
    | some a => (splitWhen (· = ',') a).any namesService
    | none => false)

/-- otlp_logger.rs:28-51 `detect`. -/
def detect (version : Chars) (v : Vars) : List (String × Chars) :=
  (if userSet v then [] else [("service.name", "weaver".toList)]) ++
    [("service.criticality", "low".toList), ("service.version", version)]

/-- `Resource::merge`: what the detector finds, and the others of the SDK. -/
def merge (sdk own : List (String × Chars)) : List (String × Chars) :=
  own ++ sdk.filter fun e => !(own.any fun o => o.1 = e.1)

/-- otlp_logger.rs:54-59 `build_resource`. -/
def buildResource (sdk : List (String × Chars)) (version : Chars) (v : Vars) : List (String × Chars) :=
  merge sdk (detect version v)

/-! ## Specification -/

/-- The environment names the service: by its own variable, or by an entry `service.name=…` between commas. -/
def Named (v : Vars) : Prop :=
  v.serviceName ≠ none ∨ ∃ a x, v.attributes = some a ∧ Word (· = ',') ("service.name=".toList ++ x) a

/-! ## Properties -/

theorem namesService_iff (kv : Chars) : namesService kv = true ↔ ∃ x, kv = "service.name=".toList ++ x := by
  unfold namesService
  constructor
  · intro h
    split at h
    · rename_i k x hs
      have hk : k = "service.name".toList := of_decide_eq_true h
      have := splitFirst_eq hs
      rw [hk] at this
      exact ⟨x, by rw [this]; simp⟩
    · cases h
  · rintro ⟨x, rfl⟩
    rfl

/-- The user set the name exactly when the environment names the service. -/
theorem userSet_iff (v : Vars) : userSet v = true ↔ Named v := by
  unfold userSet Named
  rw [Bool.or_eq_true]
  refine or_congr (by cases v.serviceName <;> simp) ?_
  cases ha : v.attributes with
  | none => simp
  | some a =>
    simp only [List.any_eq_true, mem_splitWhen_iff, namesService_iff, Option.some.injEq]
    constructor
    · rintro ⟨kv, hw, x, rfl⟩; exact ⟨a, x, rfl, hw⟩
    · rintro ⟨_, x, rfl, hw⟩; exact ⟨_, hw, x, rfl⟩

theorem lookup_merge (sdk own : List (String × Chars)) (k : String) :
    (merge sdk own).lookup k = (own.lookup k).or (sdk.lookup k) := by
  unfold merge
  rw [List.lookup_append]
  cases ho : own.lookup k with
  | some x => simp
  | none =>
    simp only [Option.none_or]
    have hno : ∀ o ∈ own, o.1 ≠ k := by
      intro o hm hk
      have := List.lookup_eq_none_iff.mp ho o hm
      simp [hk] at this
    induction sdk with
    | nil => rfl
    | cons e sdk ih =>
      obtain ⟨n, x⟩ := e
      by_cases hk : n = k
      · subst hk
        have : (own.any fun o => decide (o.1 = n)) = false := by
          rw [List.any_eq_false]; intro o hm; simpa using hno o hm
        simp [this]
      · have hk' : (k == n) = false := by simpa using fun h => hk h.symm
        by_cases hf : (own.any fun o => decide (o.1 = n)) = true
        · simp only [List.filter_cons, hf, Bool.not_true, Bool.false_eq_true, if_false, List.lookup_cons, hk']
          exact ih
        · simp only [List.filter_cons, hf, Bool.not_false, if_true, List.lookup_cons, hk']
          exact ih

/-- **The service is named `weaver` unless the environment names it; then the name is that of the SDK.** -/
theorem service_name_partial (sdk : List (String × Chars)) (version : Chars) (v : Vars) :
    (¬ Named v → (buildResource sdk version v).lookup "service.name" = some "weaver".toList) ∧
    (Named v → (buildResource sdk version v).lookup "service.name" = sdk.lookup "service.name") := by
  unfold buildResource
  rw [lookup_merge, ← userSet_iff]
  unfold detect
  constructor
  · intro h; simp only [h]; rfl
  · intro h; rw [if_pos h]; rfl

/-- The version and the criticality are always those of weaver, also if the environment has others; the rest is of the SDK. -/
theorem other_attributes (sdk : List (String × Chars)) (version : Chars) (v : Vars) :
    (buildResource sdk version v).lookup "service.version" = some version ∧
    (buildResource sdk version v).lookup "service.criticality" = some "low".toList ∧
    ∀ k, k ∉ ["service.name", "service.version", "service.criticality"] →
      (buildResource sdk version v).lookup k = sdk.lookup k := by
  unfold buildResource
  refine ⟨?_, ?_, fun k hk => ?_⟩
  · rw [lookup_merge]; unfold detect; cases userSet v <;> rfl
  · rw [lookup_merge]; unfold detect; cases userSet v <;> rfl
  · rw [lookup_merge]
    simp only [List.mem_cons, List.not_mem_nil, or_false, not_or] at hk
    have h1 : (k == "service.name") = false := by simpa using hk.1
    have h2 : (k == "service.version") = false := by simpa using hk.2.1
    have h3 : (k == "service.criticality") = false := by simpa using hk.2.2
    unfold detect
    cases userSet v <;> simp [List.lookup_cons, h1, h2, h3]

/-- False: that a name of the environment always counts. With a space before the key, which the SDK trims, the name is not
seen, and `weaver` overrides it. -/
theorem spaced_name_refuted : (buildResource [("a", "b".toList), ("service.name", "shop".toList)] [] ⟨none, some "a=b, service.name=shop".toList⟩).lookup
    "service.name" = some "weaver".toList := by decide +kernel

/-- A version of the environment is overridden. -/
example : (buildResource [("service.version", "9".toList)] "0".toList
    ⟨none, some "service.version=9".toList⟩).lookup "service.version" = some "0".toList := by decide +kernel

example : Named ⟨none, some "a=b,service.name=shop".toList⟩ := (userSet_iff _).mp (by decide +kernel)
example : ¬ Named ⟨none, some "a=b,service.names=shop".toList⟩ := fun h => by
  have := (userSet_iff _).mpr h
  revert this
  decide +kernel

end Verif.LiveCheck.Detect
