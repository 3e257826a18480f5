/-
Properties of crates/weaver_common: C19 (no error is lost), C20 (ordered floats), C31 (credentials),
C51 (exit status of a list of diagnostics).
-/
import Verif.Common.Model

namespace Verif.Common

/-! ## C19: no error is lost -/

/-- The single errors an error stands for. -/
def Err.leaves : Err → List (Nat × Option Severity)
  | .single i s => [(i, s)]
  | .compound es => es.attach.flatMap fun ⟨e, _⟩ => e.leaves

/-- The errors a result carries. -/
def WResult.errors {T : Type} : WResult T → List Err
  | .ok _ => []
  | .okWithNFEs _ es => es
  | .fatalErr e => [e]

theorem leaves_compound (es : List Err) : (Err.compound es).leaves = es.flatMap Err.leaves := by
  rw [Err.leaves]
  simp [List.flatMap_subtype]

/-- Aggregating errors into one compound error loses none of them and keeps their order. -/
theorem compound_keeps_every_error (es : List Err) : (Err.mkCompound es).leaves = es.flatMap Err.leaves := by
  unfold Err.mkCompound
  rw [leaves_compound]
  induction es with
  | nil => rfl
  | cons e es ih =>
    simp only [List.flatMap_cons, List.flatMap_append, ih]
    cases e with
    | single i s => simp [Err.leaves]
    | compound xs => simp [leaves_compound]

mutual
theorem toMsgs_leaves (future : Bool) : (e : Err) → (e.toMsgs future).map (·.err) = e.leaves.map fun (i, s) => Err.single i s
  | .single i s => by simp [Err.toMsgs, Err.leaves, Msg.new]
  | .compound es => by rw [Err.toMsgs, leaves_compound, toMsgsList_leaves future es]
theorem toMsgsList_leaves (future : Bool) : (es : List Err) →
    (Err.toMsgsList future es).map (·.err) = (es.flatMap Err.leaves).map fun (i, s) => Err.single i s
  | [] => rfl
  | e :: es => by
    rw [Err.toMsgsList, List.map_append, toMsgs_leaves future e, toMsgsList_leaves future es]
    simp
end

/-- The diagnostics printed for an error are exactly its single errors, in order, each once. -/
theorem messages_are_all_errors (future : Bool) (e : Err) :
    (e.toMsgs future).map (·.err) = e.leaves.map fun (i, s) => Err.single i s := toMsgs_leaves future e

/-- `into_result_failing_non_fatal` succeeds iff no error was recorded, and when it fails the error it returns stands
for exactly the recorded errors. -/
theorem failing_non_fatal_exact {T : Type} (r : WResult T) :
    (∀ t, r.intoResultFailingNonFatal = .ok t → r.errors = []) ∧
    (∀ e, r.intoResultFailingNonFatal = .error e → r.errors ≠ [] ∧ e.leaves = r.errors.flatMap Err.leaves) := by
  cases r with
  | ok t => simp [WResult.intoResultFailingNonFatal, WResult.errors]
  | fatalErr e => simp [WResult.intoResultFailingNonFatal, WResult.errors]
  | okWithNFEs t es =>
    match es with
    | [] => simp [WResult.intoResultFailingNonFatal, WResult.errors]
    | [e] => simp [WResult.intoResultFailingNonFatal, WResult.errors]
    | a :: b :: es =>
      refine ⟨by simp [WResult.intoResultFailingNonFatal], ?_⟩
      intro e he
      simp only [WResult.intoResultFailingNonFatal, Except.error.injEq] at he
      subst he
      exact ⟨by simp [WResult.errors], compound_keeps_every_error _⟩

example : ∃ t, (WResult.okWithNFEs (0 : Nat) []).intoResultFailingNonFatal = .ok t := ⟨0, rfl⟩
example : ∃ e, (WResult.okWithNFEs (0 : Nat) [.single 1 none, .single 2 none]).intoResultFailingNonFatal = .error e :=
  ⟨_, rfl⟩

/-- `handle_errors` succeeds iff there are no errors and otherwise reports all of them. -/
theorem handleErrors_exact (es : List Err) :
    (handleErrors es = none ↔ es = []) ∧ ∀ e, handleErrors es = some e → e.leaves = es.flatMap Err.leaves := by
  match es with
  | [] => simp [handleErrors]
  | [e] => simp [handleErrors]
  | a :: b :: es =>
    refine ⟨by simp [handleErrors], ?_⟩
    intro e he
    simp only [handleErrors, Option.some.injEq] at he
    subst he
    exact compound_keeps_every_error _

/-- What an operation adds to the errors recorded so far. -/
def ResOp.added {T : Type} : ResOp T → List Err
  | .extend es => es
  | _ => []

/-- Whether a chain of operations ever ignores `e` on purpose. -/
def ResOp.ignores {T : Type} (e : Err) : ResOp T → Bool
  | .ignore ign => ign e
  | _ => false

/-- What `captureWarnings` does to the error list and to the diagnostics. -/
theorem captureWarnings_spec {T : Type} (future : Bool) (r : WResult T) (d : List Msg) (hr : r.isFatal = false) :
    (r.captureWarnings future d).1.errors = r.errors.filter (fun e => !decide (e.severity = some .warning)) ∧
    (r.captureWarnings future d).2 =
      d ++ (r.errors.filter (fun e => decide (e.severity = some .warning))).map (Msg.new future) ∧
    (r.captureWarnings future d).1.isFatal = false := by
  cases r with
  | ok t => simp [WResult.captureWarnings, WResult.errors, WResult.isFatal]
  | fatalErr e => simp [WResult.isFatal] at hr
  | okWithNFEs t es =>
    simp only [WResult.captureWarnings]
    by_cases h : (es.filter fun e => !decide (e.severity = some .warning)).isEmpty = true
    · rw [if_pos h]
      simp only [List.isEmpty_iff] at h
      exact ⟨h.symm, rfl, rfl⟩
    · rw [if_neg h]
      exact ⟨rfl, rfl, rfl⟩

theorem ignore_spec {T : Type} (r : WResult T) (ign : Err → Bool) (hr : r.isFatal = false) :
    (r.ignore ign).errors = r.errors.filter (fun e => !ign e) ∧ (r.ignore ign).isFatal = false := by
  cases r with
  | ok t => simp [WResult.ignore, WResult.errors, WResult.isFatal]
  | fatalErr e => simp [WResult.isFatal] at hr
  | okWithNFEs t es =>
    simp only [WResult.ignore]
    by_cases h : (es.filter fun e => !ign e).isEmpty = true
    · rw [if_pos h]
      simp only [List.isEmpty_iff] at h
      exact ⟨h.symm, rfl⟩
    · rw [if_neg h]
      exact ⟨rfl, rfl⟩

/-- The errors accounted for by a state: those still in the result and those already turned into diagnostics. -/
def ResState.accounted {T : Type} (s : ResState T) : List Err := s.res.errors ++ s.diag.map (·.err)

theorem step_notFatal {T : Type} (future : Bool) (s : ResState T) (op : ResOp T) (h : s.res.isFatal = false) :
    (s.step future op).res.isFatal = false := by
  cases op with
  | extend es => cases hr : s.res <;> simp_all [ResState.step, WResult.extendNonFatalErrors, WResult.isFatal]
  | captureWarnings => exact (captureWarnings_spec future s.res s.diag h).2.2
  | ignore ign => exact (ignore_spec s.res ign h).2
  | inspect => exact h
  | map f => cases hr : s.res <;> simp_all [ResState.step, WResult.map, WResult.isFatal]

theorem step_accounted {T : Type} (future : Bool) (s : ResState T) (op : ResOp T) (h : s.res.isFatal = false)
    (e : Err) (hi : op.ignores e = false) :
    e ∈ (s.step future op).accounted ↔ e ∈ s.accounted ++ op.added := by
  cases op with
  | extend es =>
    cases hr : s.res <;>
      simp_all [ResState.step, WResult.extendNonFatalErrors, WResult.isFatal, ResState.accounted, WResult.errors,
        ResOp.added]
    · exact or_comm
    · grind
  | captureWarnings =>
    obtain ⟨h1, h2, _⟩ := captureWarnings_spec future s.res s.diag h
    simp only [ResState.step, ResState.accounted, h1, h2, ResOp.added, List.map_append, List.map_map,
      List.append_nil, List.mem_append, List.mem_filter, List.mem_map, Function.comp, Msg.new]
    constructor
    · rintro (⟨h, _⟩ | h | ⟨a, ⟨ha, _⟩, rfl⟩)
      · exact Or.inl h
      · exact Or.inr h
      · exact Or.inl ha
    · rintro (h | h)
      · by_cases hw : e.severity = some .warning
        · exact Or.inr (Or.inr ⟨e, ⟨h, by simpa using hw⟩, rfl⟩)
        · exact Or.inl ⟨h, by simpa using hw⟩
      · exact Or.inr (Or.inl h)
  | ignore ign =>
    have h1 := (ignore_spec s.res ign h).1
    simp only [ResOp.ignores] at hi
    simp [ResState.step, ResState.accounted, h1, ResOp.added, hi]
  | inspect => simp [ResState.step, WResult.inspect, ResOp.added]
  | map f =>
    cases hr : s.res <;> simp_all [ResState.step, WResult.map, ResState.accounted, WResult.errors, ResOp.added]

/-- Every error handed to a (non fatal) result, at the start or by any later operation, is at the end either still
carried by the result or among the captured diagnostics, unless an operation was explicitly asked to ignore it; and
no other error appears. For every chain of operations. -/
theorem no_error_lost {T : Type} (future : Bool) (s : ResState T) (ops : List (ResOp T)) (h : s.res.isFatal = false)
    (e : Err) (hi : ∀ op ∈ ops, op.ignores e = false) :
    e ∈ (ops.foldl (ResState.step future) s).accounted ↔ e ∈ s.accounted ∨ ∃ op ∈ ops, e ∈ op.added := by
  induction ops generalizing s with
  | nil => simp
  | cons op ops ih =>
    rw [List.foldl_cons, ih (s.step future op) (step_notFatal future s op h)
        (fun op' h' => hi op' (List.mem_cons_of_mem _ h')),
      step_accounted future s op h e (hi op (List.mem_cons_self ..))]
    simp only [List.mem_append, List.mem_cons, exists_eq_or_imp]
    rw [or_assoc]

example : (WResult.ok (0 : Nat)).isFatal = false ∧
    ∀ op ∈ [ResOp.extend (T := Nat) [.single 1 none], .captureWarnings], op.ignores (.single 1 none) = false := by
  simp [WResult.isFatal, ResOp.ignores]

/-- With operations that do not ignore anything, errors that are not warnings keep their order and multiplicity. -/
theorem non_warnings_kept_in_order {T : Type} (future : Bool) (s : ResState T) (ops : List (ResOp T))
    (h : s.res.isFatal = false) (hi : ∀ op ∈ ops, ∀ e, op.ignores e = false) :
    (ops.foldl (ResState.step future) s).res.errors.filter (fun e => !decide (e.severity = some .warning)) =
      (s.res.errors ++ ops.flatMap ResOp.added).filter (fun e => !decide (e.severity = some .warning)) := by
  induction ops generalizing s with
  | nil => simp
  | cons op ops ih =>
    rw [List.foldl_cons, ih (s.step future op) (step_notFatal future s op h)
        (fun op' h' => hi op' (List.mem_cons_of_mem _ h'))]
    have hstep : (s.step future op).res.errors.filter (fun e => !decide (e.severity = some .warning)) =
        (s.res.errors ++ op.added).filter (fun e => !decide (e.severity = some .warning)) := by
      cases op with
      | extend es =>
        cases hr : s.res <;>
          simp_all [ResState.step, WResult.extendNonFatalErrors, WResult.isFatal, WResult.errors, ResOp.added]
      | captureWarnings =>
        have := (captureWarnings_spec future s.res s.diag h).1
        simp [ResState.step, this, ResOp.added]
      | ignore ign =>
        have h1 := (ignore_spec s.res ign h).1
        have : ∀ e, ign e = false := fun e => hi (.ignore ign) (List.mem_cons_self ..) e
        simp [ResState.step, h1, ResOp.added, this]
      | inspect => simp [ResState.step, WResult.inspect, ResOp.added]
      | map f => cases hr : s.res <;> simp_all [ResState.step, WResult.map, WResult.errors, ResOp.added]
    simp only [List.filter_append, List.flatMap_cons] at hstep ⊢
    rw [hstep, List.append_assoc]

example : ∀ op ∈ [ResOp.extend (T := Nat) [.single 1 none], .captureWarnings], ∀ e, op.ignores e = false := by
  simp [ResOp.ignores]

/-- A fatal error stays the same fatal error through every chain of operations, and no diagnostics are captured. -/
theorem fatal_is_absorbing {T : Type} (future : Bool) (e : Err) (d : List Msg) (ops : List (ResOp T)) :
    ops.foldl (ResState.step future) ⟨.fatalErr e, d⟩ = ⟨.fatalErr e, d⟩ := by
  induction ops with
  | nil => rfl
  | cons op ops ih => cases op <;> exact ih

/-- `has_errors` and `num_errors` count exactly the carried errors. -/
theorem error_counts {T : Type} (r : WResult T) :
    (r.hasErrors = true ↔ r.errors ≠ []) ∧ r.numErrors = r.errors.length := by
  cases r <;> simp [WResult.hasErrors, WResult.errors, WResult.numErrors]

/-- Capturing all non fatal errors returns the value and appends one message per error, in order. -/
theorem capture_non_fatal_exact {T : Type} (future : Bool) (r : WResult T) (d : List Msg) :
    (∀ t, (r.captureNonFatalErrors future d).1 = .ok t →
        (r.captureNonFatalErrors future d).2.map (·.err) = d.map (·.err) ++ r.errors) ∧
    (∀ e, (r.captureNonFatalErrors future d).1 = .error e → r.errors = [e] ∧ (r.captureNonFatalErrors future d).2 = d) := by
  cases r with
  | ok t => simp [WResult.captureNonFatalErrors, WResult.errors]
  | okWithNFEs t es => simp [WResult.captureNonFatalErrors, WResult.errors, show (fun x : Msg => x.err) ∘ Msg.new future = id from rfl]
  | fatalErr e => simp [WResult.captureNonFatalErrors, WResult.errors]

example : ∃ t, ((WResult.okWithNFEs (0 : Nat) [.single 3 none]).captureNonFatalErrors false []).1 = .ok t := ⟨0, rfl⟩

/-! ## C51: exit status of a list of diagnostics -/

theorem filter_length_lt {α : Type} (p : α → Bool) (l : List α) :
    l.length - (l.filter p).length > 0 ↔ ∃ a ∈ l, p a = false := by
  induction l with
  | nil => simp
  | cons a l ih =>
    have := List.length_filter_le p l
    cases h : p a <;> simp [h] <;> omega

/-- The diagnostics count as a failure iff one of them is neither a warning nor an advice. -/
theorem hasError_iff (ms : List Msg) :
    hasError ms = true ↔ ∃ m ∈ ms, m.severity ≠ some .warning ∧ m.severity ≠ some .advice := by
  unfold hasError
  simp only [decide_eq_true_eq]
  rw [filter_length_lt]
  simp

/-- Warnings are the messages of errors with that severity; there are none in future mode. -/
theorem isWarning_iff (future : Bool) (e : Err) : (Msg.new future e).isWarning = true ↔ future = false ∧ e.severity = some .warning := by
  cases future <;> simp [Msg.isWarning, Msg.new]

/-- In future mode every reported error, whatever its declared severity, makes the command fail. -/
theorem future_mode_fails_on_anything (es : List Err) :
    hasError (es.map (Msg.new true)) = true ↔ es ≠ [] := by
  rw [hasError_iff]
  cases es <;> simp [Msg.new]

/-- Outside future mode, the command fails iff some error is declared neither warning nor advice. -/
theorem normal_mode_fails_on_errors (es : List Err) :
    hasError (es.map (Msg.new false)) = true ↔
      ∃ e ∈ es, e.severity ≠ some .warning ∧ e.severity ≠ some .advice := by
  rw [hasError_iff]
  simp only [List.mem_map]
  constructor
  · rintro ⟨_, ⟨e, he, rfl⟩, h⟩; exact ⟨e, he, by simpa [Msg.new] using h⟩
  · rintro ⟨e, he, h⟩; exact ⟨_, ⟨e, he, rfl⟩, by simpa [Msg.new] using h⟩

/-! ## C20: ordered floats -/

namespace F64

/-- Equality is an equivalence relation (NaN included). -/
theorem oeq_equivalence :
    (∀ a : F64, a.oeq a = true) ∧ (∀ a b : F64, a.oeq b = true → b.oeq a = true) ∧
    (∀ a b c : F64, a.oeq b = true → b.oeq c = true → a.oeq c = true) := by
  refine ⟨?_, ?_, ?_⟩
  · intro a; unfold oeq feq; cases a.isNan <;> simp
  · intro a b; unfold oeq feq; cases a.isNan <;> cases b.isNan <;> simp; exact fun h => h.symm
  · intro a b c; unfold oeq feq; cases a.isNan <;> cases b.isNan <;> cases c.isNan <;> simp
    exact fun h h' => h.trans h'

theorem ocmp_cases (a b : F64) :
    a.ocmp b = if a.isNan then (if b.isNan then .eq else .gt) else if b.isNan then .lt else compare a.key b.key := by
  unfold ocmp partialCmp; cases a.isNan <;> cases b.isNan <;> simp

theorem int_cmp (x y : Int) : compare x y = if x < y then .lt else if x = y then .eq else .gt := by
  rfl

/-- The comparison is a total order which agrees with equality: exactly one of less, equal, greater; antisymmetric;
transitive; and `cmp = Equal` iff `==`. NaN is the greatest element. -/
theorem ocmp_total_order :
    (∀ a b : F64, a.ocmp b = .eq ↔ a.oeq b = true) ∧
    (∀ a b : F64, a.ocmp b = .lt ↔ b.ocmp a = .gt) ∧
    (∀ a b c : F64, a.ocmp b ≠ .gt → b.ocmp c ≠ .gt → a.ocmp c ≠ .gt) ∧
    (∀ a b c : F64, a.ocmp b = .lt → b.ocmp c = .lt → a.ocmp c = .lt) ∧
    (∀ a b : F64, b.isNan = true → a.ocmp b ≠ .gt) := by
  refine ⟨?_, ?_, ?_, ?_, ?_⟩
  · intro a b; rw [ocmp_cases]; unfold oeq feq
    cases a.isNan <;> cases b.isNan <;> simp
  · intro a b; rw [ocmp_cases, ocmp_cases, int_cmp, int_cmp]
    cases a.isNan <;> cases b.isNan <;> simp
    grind
  · intro a b c; rw [ocmp_cases, ocmp_cases, ocmp_cases, int_cmp, int_cmp, int_cmp]
    cases a.isNan <;> cases b.isNan <;> cases c.isNan <;> simp
    grind
  · intro a b c; rw [ocmp_cases, ocmp_cases, ocmp_cases, int_cmp, int_cmp, int_cmp]
    cases a.isNan <;> cases b.isNan <;> cases c.isNan <;> simp
    grind
  · intro a b hb; rw [ocmp_cases, hb]
    cases a.isNan <;> simp

theorem key_inj {a b : F64} (h : a.key = b.key) (h0 : a.key ≠ 0) : a.bits = b.bits := by
  have ha := a.lt; have hb := b.lt
  unfold key at h h0
  split at h <;> split at h <;> simp_all <;> omega

theorem nanBits_isNan {a : F64} (h : a.bits = nanBits) : a.isNan = true := by
  unfold isNan; rw [h]; decide

/-- Equal values hash equally, and values that hash the same word are equal: hashing is consistent with `==`. -/
theorem ohash_iff_oeq (a b : F64) : a.ohash = b.ohash ↔ a.oeq b = true := by
  unfold ohash oeq feq
  cases ha : a.isNan <;> cases hb : b.isNan <;> simp
  · constructor
    · intro h
      split at h <;> split at h
      · rename_i h1 h2; rw [h1, h2]
      · rename_i h1 h2
        exfalso; apply h2; unfold key; rw [← h]; rfl
      · rename_i h1 h2
        exfalso; apply h1; unfold key; rw [h]; rfl
      · unfold key; rw [h]
    · intro h
      rw [h]
      split
      · rfl
      · rename_i hz
        exact key_inj h (by rw [h]; exact hz)
  · split
    · decide
    · intro h; rw [nanBits_isNan h] at ha; cases ha
  · split
    · decide
    · intro h; rw [nanBits_isNan h.symm] at hb; cases hb

/-- Positive and negative zero are equal and hash the same; so do two different NaN payloads. -/
example : (F64.mk 0 (by decide)).ohash = (F64.mk (2 ^ 63) (by decide)).ohash ∧
    (F64.mk 0x7FF8000000000000 (by decide)).ocmp (F64.mk 0xFFF8000000000001 (by decide)) = .eq ∧
    (F64.mk 0x3FF0000000000000 (by decide)).ocmp (F64.mk 0xBFF0000000000000 (by decide)) = .gt := by decide

end F64

/-! ## C31: credentials -/

/-- `r` is the rule a user expects for `url`: it is configured, it matches, no configured rule that matches has a
longer prefix, and it is the first one configured with that prefix. -/
def IsBestRule (rules : List Rule) (url : Bytes) (r : Rule) : Prop :=
  r ∈ rules ∧ r.urlPrefix <+: url ∧ (∀ r' ∈ rules, r'.urlPrefix <+: url → r'.urlPrefix.length ≤ r.urlPrefix.length) ∧
  rules.find? (fun r' => r'.urlPrefix == r.urlPrefix) = some r

theorem find?_of_filter_eq {α : Type} {p : α → Bool} {l₁ l₂ : List α} (h : l₁.filter p = l₂.filter p) :
    l₁.find? p = l₂.find? p := by
  rw [← List.head?_filter, ← List.head?_filter, h]

/-- The rule used for a URL is the one with the longest matching prefix (first configured in case of a tie). -/
theorem selectRule_longest (rules : List Rule) (url : Bytes) (r : Rule)
    (h : selectRule (sortRules rules) url = some r) : IsBestRule rules url r := by
  have hmem := List.mem_of_find?_eq_some h
  have hp : r.urlPrefix <+: url := by
    have := List.find?_some h; simpa using this
  have hlong : ∀ r' ∈ rules, r'.urlPrefix <+: url → r'.urlPrefix.length ≤ r.urlPrefix.length := by
    intro r' hr' hpre
    exact Util.find?_geKey_max (Util.sortBy_sorted (Util.geKey_totalPre _) _) h r' (Util.mem_sortBy.2 hr')
      (by simpa using hpre)
  refine ⟨Util.mem_sortBy.1 hmem, hp, hlong, ?_⟩
  have hstable : (sortRules rules).filter (fun r' => r'.urlPrefix == r.urlPrefix) =
      rules.filter (fun r' => r'.urlPrefix == r.urlPrefix) := by
    apply Util.sortBy_stable
    intro a _ b _ ha hb
    simp only [beq_iff_eq] at ha hb
    simp [Util.geKey, ha, hb]
  rw [← find?_of_filter_eq hstable]
  -- the first rule with this prefix in the sorted list is the first match for the url
  unfold selectRule at h
  rw [List.find?_eq_some_iff_append] at h ⊢
  obtain ⟨_, as, bs, heq, hno⟩ := h
  refine ⟨by simp, as, bs, heq, ?_⟩
  intro a ha
  have := hno a ha
  simp only [Bool.not_eq_eq_eq_not, Bool.not_true, beq_eq_false_iff_ne, ne_eq] at this ⊢
  intro hc
  rw [hc] at this
  exact absurd (List.isPrefixOf_iff_prefix.2 hp) (by simp [this])

/-- No rule is used iff no configured prefix matches the URL. -/
theorem selectRule_none (rules : List Rule) (url : Bytes) :
    selectRule (sortRules rules) url = none ↔ ∀ r ∈ rules, ¬ r.urlPrefix <+: url := by
  unfold selectRule sortRules
  rw [List.find?_eq_none]
  simp

example : selectRule (sortRules [⟨[1], .token [9]⟩, ⟨[1, 2], .token [8]⟩]) [1, 2, 3] = some ⟨[1, 2], .token [8]⟩ := by
  decide

/-- Where a token handed out for `url` may come from, when the lookup started at `startedAt`. -/
def Justified (rules : List Rule) (env : Bytes → Option Bytes) (issued : List Issue) (a : Answer) : Prop :=
  match a.token with
  | none => True
  | some t => ∃ r, IsBestRule rules a.url r ∧
      match r.source with
      | .token t' => t = t'
      | .tokenEnv name => env name = some t ∧ t ≠ []
      | .tokenCommand argv => ∃ i ∈ issued, i.argv = argv ∧ i.token = t ∧ a.startedAt < i.at_ + ttl

/-- Invariant of the shared resolver. -/
structure AuthInv (rules : List Rule) (env : Bytes → Option Bytes) (s : AuthState) : Prop where
  cached : ∀ e ∈ s.cache, ∃ i ∈ s.issued, i.argv = e.1 ∧ i.token = e.2.token ∧ e.2.fetchedAt ≤ i.at_ ∧ i.at_ ≤ s.clock
  pend : ∀ p ∈ s.pending, p.now ≤ s.clock ∧
    (∃ r, IsBestRule rules p.url r ∧ r.source = .tokenCommand p.argv) ∧
    (∀ t, p.result = some (some t) → ∃ i ∈ s.issued, i.argv = p.argv ∧ i.token = t ∧ p.now ≤ i.at_ ∧ i.at_ ≤ s.clock)
  ans : ∀ a ∈ s.answers, Justified rules env s.issued a

theorem Justified.mono {rules env issued issued' a} (h : Justified rules env issued a)
    (hsub : ∀ i ∈ issued, i ∈ issued') : Justified rules env issued' a := by
  unfold Justified at *
  split
  · trivial
  · rename_i t ht
    rw [ht] at h
    obtain ⟨r, hr, h⟩ := h
    refine ⟨r, hr, ?_⟩
    split <;> rename_i hs <;> rw [hs] at h
    · exact h
    · exact h
    · obtain ⟨i, hi, h⟩ := h
      exact ⟨i, hsub i hi, h⟩

theorem auth_step_inv (rules : List Rule) (env : Bytes → Option Bytes) (s : AuthState) (ev : AuthEvent)
    (h : AuthInv rules env s) : AuthInv rules env (s.step rules env ev) := by
  cases ev with
  | tick d =>
    refine ⟨?_, ?_, h.ans⟩
    · intro e he
      obtain ⟨i, hi, h1, h2, h3, h4⟩ := h.cached e he
      exact ⟨i, hi, h1, h2, h3, by simp only [AuthState.step]; omega⟩
    · intro p hp
      obtain ⟨h1, h2, h3⟩ := h.pend p hp
      refine ⟨by simp only [AuthState.step]; omega, h2, ?_⟩
      intro t ht
      obtain ⟨i, hi, ha, hb, hc, hd⟩ := h3 t ht
      exact ⟨i, hi, ha, hb, hc, by simp only [AuthState.step]; omega⟩
  | begin th url =>
    unfold AuthState.step
    simp only
    split
    · exact h
    · split
      · refine ⟨h.cached, h.pend, ?_⟩
        intro a ha
        rcases List.mem_cons.1 ha with rfl | ha
        · simp [Justified]
        · exact h.ans a ha
      · rename_i rule hrule
        have hbest := selectRule_longest rules url rule hrule
        split
        · rename_i t ht
          refine ⟨h.cached, h.pend, ?_⟩
          intro a ha
          rcases List.mem_cons.1 ha with rfl | ha
          · cases t with
            | none => simp [Justified]
            | some t =>
              refine ⟨rule, hbest, ?_⟩
              unfold startLookup at ht
              split at ht <;> rename_i hsrc
              · simp only [Start.answer.injEq, Option.some.injEq] at ht
                simp [hsrc, ht]
              · simp only [Start.answer.injEq] at ht
                have := Option.eq_some_of_filter_eq_some ht
                have h2 := Option.filter_eq_some_iff.1 ht
                simp only [hsrc]
                exact ⟨this, by simpa using h2.2⟩
              · rename_i argv
                split at ht
                · simp at ht
                · split at ht
                  · rename_i c hc
                    split at ht
                    · rename_i hlt
                      simp only [Start.answer.injEq, Option.some.injEq] at ht
                      simp only [hsrc]
                      unfold Cache.get at hc
                      simp only [Option.map_eq_some_iff] at hc
                      obtain ⟨e, he, rfl⟩ := hc
                      have hem := List.mem_of_find?_eq_some he
                      have hk := List.find?_some he
                      simp only [beq_iff_eq] at hk
                      obtain ⟨i, hi, h1, h2, h3, h4⟩ := h.cached e hem
                      refine ⟨i, hi, h1.trans hk, h2.trans ht, ?_⟩
                      unfold ttl at *; omega
                    · simp at ht
                  · simp at ht
          · exact h.ans a ha
        · rename_i argv now hrun
          refine ⟨h.cached, ?_, h.ans⟩
          intro p hp
          rcases List.mem_cons.1 hp with rfl | hp
          · unfold startLookup at hrun
            split at hrun <;> rename_i hsrc
            · simp at hrun
            · simp at hrun
            · rename_i argv'
              have hcase : argv = argv' ∧ now = s.clock := by
                split at hrun
                · simp at hrun
                · split at hrun
                  · split at hrun
                    · simp at hrun
                    · simp only [Start.run.injEq] at hrun; exact ⟨hrun.1.symm, hrun.2.symm⟩
                  · simp only [Start.run.injEq] at hrun; exact ⟨hrun.1.symm, hrun.2.symm⟩
              obtain ⟨rfl, rfl⟩ := hcase
              exact ⟨Nat.le_refl _, ⟨rule, hbest, hsrc⟩, by simp⟩
          · exact h.pend p hp
  | exec th result =>
    unfold AuthState.step
    simp only
    split
    · rename_i p hp
      have hpm := List.mem_of_find?_eq_some hp
      split
      · exact h
      · have hsub : ∀ i ∈ s.issued,
            i ∈ (match result with | some t => (⟨p.argv, t, s.clock⟩ : Issue) :: s.issued | none => s.issued) := by
          intro i hi; cases result <;> simp [hi]
        refine ⟨?_, ?_, fun a ha => (h.ans a ha).mono hsub⟩
        · intro e he
          obtain ⟨i, hi, hh⟩ := h.cached e he
          exact ⟨i, hsub i hi, hh⟩
        · intro q hq
          rcases List.mem_cons.1 hq with rfl | hq
          · obtain ⟨h1, h2, _⟩ := h.pend p hpm
            refine ⟨h1, h2, ?_⟩
            intro t ht
            simp only [Option.some.injEq] at ht
            subst ht
            exact ⟨_, List.mem_cons_self .., rfl, rfl, h1, Nat.le_refl _⟩
          · obtain ⟨h1, h2, h3⟩ := h.pend q (List.mem_filter.1 hq).1
            refine ⟨h1, h2, ?_⟩
            intro t ht
            obtain ⟨i, hi, hh⟩ := h3 t ht
            exact ⟨i, hsub i hi, hh⟩
    · exact h
  | finish th =>
    unfold AuthState.step
    simp only
    split
    · rename_i p hp
      have hpm := List.mem_of_find?_eq_some hp
      obtain ⟨h1, ⟨r, hr, hsrc⟩, h3⟩ := h.pend p hpm
      split
      · rename_i result hres
        refine ⟨?_, fun q hq => h.pend q (List.mem_filter.1 hq).1, ?_⟩
        · intro e he
          cases result with
          | none => exact h.cached e he
          | some t =>
            simp only [finishLookup] at he
            rcases List.mem_cons.1 he with rfl | he
            · obtain ⟨i, hi, ha, hb, hc, hd⟩ := h3 t hres
              exact ⟨i, hi, ha, hb, hc, hd⟩
            · exact h.cached e he
        · intro a ha
          rcases List.mem_cons.1 ha with rfl | ha
          · cases result with
            | none => simp [Justified, finishLookup]
            | some t =>
              obtain ⟨i, hi, ha, hb, hc, hd⟩ := h3 t hres
              refine ⟨r, hr, ?_⟩
              simp only [hsrc]
              exact ⟨i, hi, ha, hb, by unfold ttl; omega⟩
          · exact h.ans a ha
      · exact h
    · exact h

/-- For every configuration, environment and every interleaving of concurrent lookups: each token handed out belongs
to the longest configured prefix matching the URL; a literal or environment token is the configured one; and a
command token was really printed by that command, and no longer than the cache lifetime before the lookup began. -/
theorem every_token_justified (rules : List Rule) (env : Bytes → Option Bytes) (evs : List AuthEvent) :
    ∀ a ∈ (AuthState.run rules env evs).answers, Justified rules env (AuthState.run rules env evs).issued a := by
  have hgen : ∀ s, AuthInv rules env s → AuthInv rules env (evs.foldl (AuthState.step rules env) s) := by
    induction evs with
    | nil => exact fun s h => h
    | cons ev evs ih => exact fun s h => ih _ (auth_step_inv rules env s ev h)
  exact (hgen AuthState.init ⟨by simp [AuthState.init], by simp [AuthState.init], by simp [AuthState.init]⟩).ans

/-- A URL matched by no configured prefix never receives a token. -/
theorem no_token_without_rule (rules : List Rule) (env : Bytes → Option Bytes) (evs : List AuthEvent) (a : Answer)
    (ha : a ∈ (AuthState.run rules env evs).answers) (hno : ∀ r ∈ rules, ¬ r.urlPrefix <+: a.url) : a.token = none := by
  have h := every_token_justified rules env evs a ha
  unfold Justified at h
  split at h
  · assumption
  · obtain ⟨r, hr, _⟩ := h
    exact absurd hr.2.1 (hno r hr.1)

/-- Only tokens printed by a command are ever cached (a failed command caches nothing). -/
theorem only_issued_tokens_cached (rules : List Rule) (env : Bytes → Option Bytes) (evs : List AuthEvent) :
    ∀ e ∈ (AuthState.run rules env evs).cache,
      ∃ i ∈ (AuthState.run rules env evs).issued, i.argv = e.1 ∧ i.token = e.2.token := by
  have hgen : ∀ s, AuthInv rules env s → AuthInv rules env (evs.foldl (AuthState.step rules env) s) := by
    induction evs with
    | nil => exact fun s h => h
    | cons ev evs ih => exact fun s h => ih _ (auth_step_inv rules env s ev h)
  intro e he
  obtain ⟨i, hi, h1, h2, _⟩ :=
    (hgen AuthState.init ⟨by simp [AuthState.init], by simp [AuthState.init], by simp [AuthState.init]⟩).cached e he
  exact ⟨i, hi, h1, h2⟩

/-- A run with two threads, a cache hit, and an expired entry. -/
example :
    ((AuthState.run [⟨[1], .tokenCommand [[7]]⟩] (fun _ => none)
      [.begin 0 [1, 2], .begin 1 [1, 3], .exec 0 (some [9]), .finish 0, .begin 2 [1], .tick 40000, .begin 2 [1],
       .exec 1 none, .finish 1]).answers.map fun a => (a.url, a.token)) =
      [([1, 3], none), ([1], some [9]), ([1, 2], some [9])] := by decide

end Verif.Common
