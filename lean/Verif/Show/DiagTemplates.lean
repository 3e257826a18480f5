/-
Model of the default templates for diagnostics: defaults/diagnostic_templates/ansi/errors.txt.j2 and
gh_workflow_command/errors.txt.j2. Colours and indentation are left out; the lines are those that show something.
-/
namespace Verif.Show

/-- What the templates read of a message: `error.type` and `error.violation` of a policy violation, and
`diagnostic.ansi_message`, which every message has (crates/weaver_common/src/diagnostic.rs). -/
structure Violation where
  id : String
  message : String
  level : String
  context : List (String × String)
  provenance : String
deriving DecidableEq

structure DiagItem where
  violation : Option Violation
  ansi : String
deriving DecidableEq

/-- `error.type == "policy_violation"`. -/
def DiagItem.isViolation (d : DiagItem) : Bool := d.violation.isSome

/-- ansi/errors.txt.j2:4-13: the lines of one message. -/
def ansiBlock (d : DiagItem) : List String :=
  match d.violation with
  | some v => ["Violation: " ++ v.id, "  - Message   : " ++ v.message, "  - Level     : " ++ v.level, "  - Context   : "]
    ++ v.context.map (fun p => "    - " ++ p.1 ++ " : " ++ p.2) ++ ["  - Provenance: " ++ v.provenance]
  | none => [d.ansi]

/-- ansi/errors.txt.j2. -/
def ansiReport (ds : List DiagItem) : List String := "Diagnostic report:" :: ds.flatMap ansiBlock

/-- gh_workflow_command/errors.txt.j2:7. -/
def ghError (v : Violation) : String :=
  "::error file=" ++ v.provenance ++ ", title=" ++ v.id ++ "::message=" ++ v.message

/-- gh_workflow_command/errors.txt.j2. The second loop, line 14, is over `policy_violations` too. -/
def ghReport (ds : List DiagItem) : List String :=
  let policyViolations := ds.filter DiagItem.isViolation
  let otherDiagnostics := ds.filter fun d => !d.isViolation
  (if policyViolations ≠ [] then
    ["::group::Policy violation report"] ++ policyViolations.filterMap (fun d => d.violation.map ghError) ++ ["::endgroup::"]
   else [])
  ++ (if otherDiagnostics ≠ [] then
    ["::group::Diagnostic report"] ++ policyViolations.map DiagItem.ansi ++ ["::endgroup::"]
   else [])

/-! ### Properties -/

/-- **C302**: each message is shown in the terminal, in its place: a violation with its id, message, level, context and
provenance, another message as it is. -/
theorem ansiReport_shows (ds : List DiagItem) {d : DiagItem} (h : d ∈ ds) :
    (d.violation = none → d.ansi ∈ ansiReport ds) ∧
    ∀ v, d.violation = some v → "Violation: " ++ v.id ∈ ansiReport ds ∧ "  - Message   : " ++ v.message ∈ ansiReport ds ∧
      "  - Level     : " ++ v.level ∈ ansiReport ds ∧ "  - Provenance: " ++ v.provenance ∈ ansiReport ds ∧
      ∀ p ∈ v.context, "    - " ++ p.1 ++ " : " ++ p.2 ∈ ansiReport ds := by
  have key : ∀ x ∈ ansiBlock d, x ∈ ansiReport ds := fun x hx => List.mem_cons_of_mem _ (List.mem_flatMap.2 ⟨d, h, hx⟩)
  constructor
  · intro hv
    exact key _ (by simp [ansiBlock, hv])
  · intro v hv
    refine ⟨key _ (by simp [ansiBlock, hv]), key _ (by simp [ansiBlock, hv]), key _ (by simp [ansiBlock, hv]),
      key _ (by simp [ansiBlock, hv]), fun p hp => key _ ?_⟩
    simp only [ansiBlock, hv, List.mem_append, List.mem_map]
    exact .inl (.inr ⟨p, hp, rfl⟩)

/-- **C302**: the messages are shown in their order: the report of two lists is that of the first, then that of the second
without its title. -/
theorem ansiReport_order (as bs : List DiagItem) : ansiReport (as ++ bs) = ansiReport as ++ (ansiReport bs).tail := by
  simp [ansiReport]

/-- **C302**: of a policy violation a workflow has the command for an error. -/
theorem ghReport_violation_partial (ds : List DiagItem) {d : DiagItem} (h : d ∈ ds) {v : Violation}
    (hv : d.violation = some v) : ghError v ∈ ghReport ds := by
  have hm : d ∈ ds.filter DiagItem.isViolation := List.mem_filter.2 ⟨h, by simp [DiagItem.isViolation, hv]⟩
  have hne : ds.filter DiagItem.isViolation ≠ [] := List.ne_nil_of_mem hm
  simp only [ghReport, if_pos hne, List.mem_append, List.mem_filterMap]
  exact .inl (.inl (.inr ⟨d, hm, by simp [hv]⟩))

/-- **C302**: if all messages are violations, there is one command for each, in order, and nothing else. -/
theorem ghReport_violations_partial (vs : List (Violation × String)) (hne : vs ≠ []) :
    ghReport (vs.map fun p => ⟨some p.1, p.2⟩) =
      ["::group::Policy violation report"] ++ vs.map (fun p => ghError p.1) ++ ["::endgroup::"] := by
  have h1 : (vs.map fun p => (⟨some p.1, p.2⟩ : DiagItem)).filter DiagItem.isViolation
      = vs.map fun p => ⟨some p.1, p.2⟩ := List.filter_eq_self.2 (by
      intro a ha; obtain ⟨p, _, rfl⟩ := List.mem_map.1 ha; rfl)
  have h2 : (vs.map fun p => (⟨some p.1, p.2⟩ : DiagItem)).filter (fun d => !d.isViolation) = [] :=
    List.filter_eq_nil_iff.2 (by
      intro a ha; obtain ⟨p, _, rfl⟩ := List.mem_map.1 ha; simp [DiagItem.isViolation])
  simp only [ghReport, h1, h2]
  rw [if_pos (by simpa using hne), if_neg (by simp), List.append_nil, List.filterMap_map]
  congr 2
  exact (List.filterMap_eq_map (f := fun p : Violation × String => ghError p.1)) ▸ rfl

/-- **C302**: what the other messages say has no effect on the report for a workflow: it only tells whether there are any. -/
theorem ghReport_ignores_refuted (ds es : List DiagItem)
    (hv : ds.filter DiagItem.isViolation = es.filter DiagItem.isViolation)
    (hd : ∃ d ∈ ds, d.violation = none) (he : ∃ e ∈ es, e.violation = none) : ghReport ds = ghReport es := by
  have key : ∀ l : List DiagItem, (∃ d ∈ l, d.violation = none) → l.filter (fun d => !d.isViolation) ≠ [] := by
    rintro l ⟨d, hd, hn⟩
    exact List.ne_nil_of_mem (List.mem_filter.2 ⟨hd, by simp [DiagItem.isViolation, hn]⟩)
  simp only [ghReport, hv, if_pos (key ds hd), if_pos (key es he)]

/-- **C302**: an error that is not a policy violation is not shown in a workflow. -/
theorem ghReport_other_refuted : ∃ ds : List DiagItem, ∃ d ∈ ds, d.violation = none ∧ d.ansi = "file not found" ∧
    ghReport ds = ["::group::Diagnostic report", "::endgroup::"] :=
  ⟨[⟨none, "file not found"⟩], ⟨none, "file not found"⟩, by simp, rfl, rfl, by decide⟩

/-- **C302**: with such an error the violations are shown a second time, under its title. -/
theorem ghReport_twice_refuted : ∃ ds : List DiagItem, ghReport ds =
    ["::group::Policy violation report", "::error file=a.yaml, title=x::message=bad", "::endgroup::",
     "::group::Diagnostic report", "violation x", "::endgroup::"] ∧ ⟨none, "file not found"⟩ ∈ ds :=
  ⟨[⟨some ⟨"x", "bad", "violation", [], "a.yaml"⟩, "violation x"⟩, ⟨none, "file not found"⟩], by decide +kernel, by simp⟩

example : ansiReport [⟨some ⟨"x", "bad", "violation", [("attr", "a")], "a.yaml"⟩, ""⟩, ⟨none, "file not found"⟩] =
    ["Diagnostic report:", "Violation: x", "  - Message   : bad", "  - Level     : violation", "  - Context   : ",
     "    - attr : a", "  - Provenance: a.yaml", "file not found"] := by decide +kernel

end Verif.Show
