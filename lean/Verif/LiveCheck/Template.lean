import Verif.LiveCheck.RunProps
/-
Model of the default report of the live check: defaults/live_check_templates/ansi/live_check_macros.j2. The texts of the
titles, the numbers of blanks and the statistics are left out.
-/
namespace Verif.LiveCheck

/-- live_check_macros.j2:60-65 and the loops over attributes: an attribute has a block of its own. -/
def attrBlocks (l : List SAttr) : List SRef := l.map .attribute

/-- live_check_macros.j2:110-120 `display_data_point`, with `display_exemplar` (lines 122-128). -/
def pointBlocks (mk : Point → SRef) (p : Point) : List SRef :=
  mk p :: attrBlocks p.attrs ++ p.exemplars.flatMap fun e => .exemplar e :: attrBlocks e.attrs

/-- live_check_macros.j2:130-136 `display_metric`: the loop over data points; a metric without them has `null` there, which
has no elements. -/
def pointsBlocks : Option Points → List SRef
  | none => []
  | some (.number l) => l.flatMap (pointBlocks .numberPoint)
  | some (.histogram l) => l.flatMap (pointBlocks .histogramPoint)
  | some (.exponential l) => l.flatMap (pointBlocks .exponentialPoint)

/-- live_check_macros.j2:154-185 `display_sample`: the things that have a block in the report, in order. Each block has the
lines of `display_advice` for the findings about the thing. -/
def blocks : Sample → List SRef
  | .span s => .span s :: attrBlocks s.attrs ++ s.events.flatMap (fun e => .spanEvent e :: attrBlocks e.attrs)
      ++ s.links.flatMap (fun l => .spanLink l :: attrBlocks l.attrs)
  | .attribute a => [.attribute a]
  | .spanEvent e => .spanEvent e :: attrBlocks e.attrs
  | .spanLink l => .spanLink l :: attrBlocks l.attrs
  | .resource r => .resource r :: attrBlocks r.attrs
  | .scope s => .scope s :: attrBlocks s.attrs
  | .metric m => .metric m :: pointsBlocks m.points
  | .log l => .log l :: attrBlocks l.attrs
  | .profile p => .profile p :: attrBlocks p.attrs

/-- The colours of names and levels. -/
inductive Tint where
  | green | yellow | red
deriving DecidableEq

/-- live_check_macros.j2:48-58 `display_advice`: a line for each finding, with the colour of its level. -/
def adviceLines (fs : List Finding) : List (Tint × Level × String) :=
  fs.map fun f => ((if f.level = .information then .green else if f.level = .improvement then .yellow else .red), f.level,
    f.message)

/-- live_check_macros.j2:187-195 `display_sample_header`: the colour of the name. -/
def nameTint (highest : Option Level) : Tint :=
  if highest = some .information ∨ highest = none then .green else if highest = some .improvement then .yellow else .red

/-- live_check_macros.j2:61 `{% if attribute.value %}`: is the value of an attribute shown? minijinja's truth: null, false,
0, empty texts and empty lists are false. `zero` tells which of the other numbers are 0 and which objects are empty. -/
def showsValue (zero : Elem → Bool) : Option Value → Bool
  | none => false
  | some (.arr l) => !l.isEmpty
  | some (.elem .null) => false
  | some (.elem (.bool b)) => b
  | some (.elem (.int n)) => decide (n ≠ 0)
  | some (.elem (.str s)) => decide (s ≠ "")
  | some (.elem e) => !zero e

/-! ### Properties -/

theorem map_attrOcc (c : Checker) (g : Option Signal) (s : Sample) (l : List SAttr) :
    (l.map (attrOcc c g s)).map Occ.ref = attrBlocks l := by
  simp [attrBlocks, attrOcc, Function.comp_def]

theorem map_withAttrs (c : Checker) (k : String) (r : SRef) (l : List SAttr) (g : Option Signal) (s : Sample) :
    (withAttrs c k r l g s).map Occ.ref = r :: attrBlocks l := by
  rw [withAttrs, List.map_cons, map_attrOcc]

theorem map_pointOccs (c : Checker) (mk : Point → SRef) (g : Option Signal) (s : Sample) (p : Point) :
    (pointOccs c mk g s p).map Occ.ref = pointBlocks mk p := by
  rw [pointOccs, List.map_append, map_withAttrs, List.map_flatMap, pointBlocks]
  simp only [map_withAttrs]

theorem map_pointsOccs (c : Checker) (g : Option Signal) (s : Sample) (p : Option Points) :
    (pointsOccs c g s p).map Occ.ref = pointsBlocks p := by
  match p with
  | none => rfl
  | some (.number l) => simp only [pointsOccs, pointsBlocks, List.map_flatMap, map_pointOccs]
  | some (.histogram l) => simp only [pointsOccs, pointsBlocks, List.map_flatMap, map_pointOccs]
  | some (.exponential l) => simp only [pointsOccs, pointsBlocks, List.map_flatMap, map_pointOccs]

/-- **C303**: everything that the live check looks at in a sample has one block in the report, and nothing else has. -/
theorem blocks_all (env : Env) (s : Sample) : (blocks s).Perm ((occs env s).map Occ.ref) := by
  cases s with
  | «attribute» a => exact .refl _
  | span x => simp only [blocks, occs, List.map_append, map_withAttrs, List.map_flatMap]; exact .refl _
  | spanEvent x => simp only [blocks, occs, map_withAttrs]; exact .refl _
  | spanLink x => simp only [blocks, occs, map_withAttrs]; exact .refl _
  | resource x => simp only [blocks, occs, map_withAttrs]; exact .refl _
  | scope x => simp only [blocks, occs, map_withAttrs]; exact .refl _
  | profile x => simp only [blocks, occs, map_withAttrs]; exact .refl _
  | metric m =>
    simp only [blocks, occs, List.map_append, map_pointsOccs, List.map_cons, List.map_nil]
    exact (List.perm_append_singleton _ _).symm
  | log l =>
    simp only [blocks, occs, List.map_append, map_attrOcc, List.map_cons, List.map_nil]
    exact (List.perm_append_singleton _ _).symm

/-- **C303**: after a run each result is shown: the blocks of the samples are those of the entries of the report. -/
theorem report_shown {env : Env} {noStats : Bool} {samples : List Sample} {st : St}
    (h : liveCheck env noStats samples = .ok st) :
    ((attachAll none samples).flatMap blocks).Perm (st.entries.map Entry.ref) := by
  have h1 : ((attachAll none samples).flatMap blocks).Perm (((attachAll none samples).flatMap (occs env)).map Occ.ref) := by
    generalize attachAll none samples = l
    induction l with
    | nil => exact .refl _
    | cons s l ih => rw [List.flatMap_cons, List.flatMap_cons, List.map_append]; exact (blocks_all env s).append ih
  refine h1.trans ?_
  have h2 := run_report h
  revert h2
  generalize (attachAll none samples).flatMap (occs env) = os
  generalize st.entries = es
  intro h2
  induction h2 with
  | nil => exact .refl _
  | cons hr _ ih => rw [List.map_cons, List.map_cons, hr.2.1]; exact ih.cons _

/-- **C303**: every finding about a thing has its line, in order, with its level and message. -/
theorem adviceLines_all (fs : List Finding) : (adviceLines fs).map (fun x => x.2) = fs.map fun f => (f.level, f.message) := by
  simp [adviceLines, Function.comp_def]

/-- **C303**: a name is red exactly if a finding is a violation, yellow exactly if the worst is an improvement. -/
theorem nameTint_red {r : Result} (h : ResOk r) : nameTint r.highest = .red ↔ ∃ f ∈ r.all, f.level = .violation := by
  obtain ⟨h0, h1⟩ := h
  match hh : r.highest with
  | none => simp [nameTint, h0.1 hh]
  | some .information =>
    obtain ⟨-, h3⟩ := h1 _ hh
    refine ⟨fun h => by simp [nameTint] at h, fun ⟨f, hf, hl⟩ => ?_⟩
    have := h3 f hf; rw [hl] at this; exact absurd this (by decide)
  | some .improvement =>
    obtain ⟨-, h3⟩ := h1 _ hh
    refine ⟨fun h => by simp [nameTint] at h, fun ⟨f, hf, hl⟩ => ?_⟩
    have := h3 f hf; rw [hl] at this; exact absurd this (by decide)
  | some .violation => exact ⟨fun _ => (h1 _ hh).1, fun _ => by simp [nameTint]⟩

theorem nameTint_yellow {r : Result} (h : ResOk r) : nameTint r.highest = .yellow ↔
    (∃ f ∈ r.all, f.level = .improvement) ∧ ∀ f ∈ r.all, f.level ≠ .violation := by
  obtain ⟨h0, h1⟩ := h
  match hh : r.highest with
  | none => simp [nameTint, h0.1 hh]
  | some .information =>
    obtain ⟨-, h3⟩ := h1 _ hh
    refine ⟨fun h => by simp [nameTint] at h, fun ⟨⟨f, hf, hl⟩, _⟩ => ?_⟩
    have := h3 f hf; rw [hl] at this; exact absurd this (by decide)
  | some .improvement =>
    obtain ⟨h2, h3⟩ := h1 _ hh
    refine ⟨fun _ => ⟨h2, fun f hf hl => ?_⟩, fun _ => by simp [nameTint]⟩
    have := h3 f hf; rw [hl] at this; exact absurd this (by decide)
  | some .violation =>
    obtain ⟨⟨f, hf, hl⟩, -⟩ := h1 _ hh
    exact ⟨fun h => by simp [nameTint] at h, fun ⟨_, h⟩ => absurd hl (h f hf)⟩

/-- **C303**: the line of a finding has the colour that a name has of which it is the worst finding. -/
theorem adviceLines_tint (fs : List Finding) : ∀ x ∈ adviceLines fs, x.1 = nameTint (some x.2.1) := by
  simp only [adviceLines, List.mem_map]
  rintro _ ⟨f, _, rfl⟩
  cases h : f.level <;> simp [nameTint]

/-- **C303**: the values false, 0 and "" are not shown, as if the attribute had none. -/
theorem value_unshown_refuted (zero : Elem → Bool) : showsValue zero (some (.elem (.bool false))) = false ∧
    showsValue zero (some (.elem (.int 0))) = false ∧ showsValue zero (some (.elem (.str ""))) = false := ⟨rfl, rfl, rfl⟩

/-- **C303**: other booleans, integers and texts are shown. -/
theorem value_shown_partial (zero : Elem → Bool) : showsValue zero (some (.elem (.bool true))) = true ∧
    (∀ n : Int, n ≠ 0 → showsValue zero (some (.elem (.int n))) = true) ∧
    (∀ s : String, s ≠ "" → showsValue zero (some (.elem (.str s))) = true) ∧
    ∀ e l, showsValue zero (some (.arr (e :: l))) = true :=
  ⟨rfl, fun n h => by simp [showsValue, h], fun s h => by simp [showsValue, h], fun _ _ => rfl⟩

/-- A metric with one data point, which has an attribute and an exemplar with one. -/
def pointSample : Point where
  attrs := [⟨"a", none, none⟩]
  exemplars := [⟨[⟨"b", none, none⟩]⟩]

example (n u : String) : blocks (.metric ⟨n, .supported "gauge", u, some (.number [pointSample]), none⟩) =
    [SRef.metric ⟨n, .supported "gauge", u, some (.number [pointSample]), none⟩, SRef.numberPoint pointSample,
     SRef.attribute ⟨"a", none, none⟩, SRef.exemplar ⟨[⟨"b", none, none⟩]⟩, SRef.attribute ⟨"b", none, none⟩] := rfl

example : ResOk { all := [{ id := "x", message := "m", level := .violation }], highest := some .violation } :=
  ⟨by simp, fun l h => by cases h; exact ⟨⟨_, List.mem_singleton.2 rfl, rfl⟩, by simp [level_le_refl]⟩⟩

end Verif.LiveCheck
