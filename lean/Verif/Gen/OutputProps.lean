import Verif.Gen.Output
import Verif.Gen.EngineProps

/-! Properties of the output processor. -/

namespace Verif.Gen
open Verif.Util

variable {V D : Type}

/-! ### Choice of the format -/

/-- There is a template directory with the name of the format. -/
def HasDir (embedded localDir : Option (String → Bool)) (format : String) : Prop :=
  ∃ exist, (localDir = some exist ∨ embedded = some exist) ∧ exist format = true

theorem hasTemplateDir_iff (embedded localDir : Option (String → Bool)) (format : String) :
    ((embedded.isSome || localDir.isSome) && hasTemplateDir embedded localDir format) = true ↔ HasDir embedded localDir format := by
  unfold hasTemplateDir HasDir
  cases embedded <;> cases localDir <;> simp [or_and_right, exists_or]

theorem ofName_mute : Format.ofName "mute" = none := by decide

section
variable (lower : String → String) (embedded localDir : Option (String → Bool)) (load : String → Option (Engine V))
  (format pre : String) (target : Target)

theorem loadTemplate_iff (k : Kind V) : loadTemplate embedded load format target = some k ↔
    embedded.isSome ∧ ∃ e, load format = some e ∧ k = .template e target := by
  unfold loadTemplate
  cases embedded with
  | none => simp
  | some f =>
    simp only [Option.map_eq_some_iff, Option.isSome_some, true_and]
    exact ⟨fun ⟨e, h, h'⟩ => ⟨e, h, h'.symm⟩, fun ⟨e, h, h'⟩ => ⟨e, h, h'.symm⟩⟩

/-- Nothing is written exactly if the target or the format says so. -/
theorem mute_iff : newKind lower embedded localDir load format pre target = some .mute ↔
    target = .mute ∨ lower format = "mute" := by
  unfold newKind
  by_cases h1 : target = .mute
  · simp [h1]
  · rw [if_neg h1]
    by_cases h2 : lower format = "mute"
    · simp [h2]
    · rw [if_neg h2]
      simp only [h1, h2, or_self, iff_false]
      split
      · rw [loadTemplate_iff]; rintro ⟨-, e, -, h⟩; cases h
      · split
        · exact fun h => nomatch h
        · rw [loadTemplate_iff]; rintro ⟨-, e, -, h⟩; cases h

/-- A built-in format is used exactly if it is named, in upper or lower case, and no template directory has the name. -/
theorem builtin_iff (f : Format) (pre' : String) (t : Target) (b : Bool) :
    newKind lower embedded localDir load format pre target = some (.builtin f pre' t b) ↔
      target ≠ .mute ∧ ¬ HasDir embedded localDir format ∧ Format.ofName (lower format) = some f ∧
      pre' = pre ∧ t = target ∧ b = false := by
  unfold newKind
  by_cases h1 : target = .mute
  · simp [h1]
  · rw [if_neg h1]
    by_cases h2 : lower format = "mute"
    · simp [h2, ofName_mute]
    · rw [if_neg h2]
      by_cases h3 : HasDir embedded localDir format
      · rw [if_pos ((hasTemplateDir_iff _ _ _).2 h3), loadTemplate_iff]
        constructor
        · rintro ⟨-, e, -, h⟩; cases h
        · rintro ⟨-, h, -⟩; exact absurd h3 h
      · rw [if_neg (fun h => h3 ((hasTemplateDir_iff _ _ _).1 h))]
        cases hn : Format.ofName (lower format) with
        | none =>
          dsimp only; rw [loadTemplate_iff]
          constructor
          · rintro ⟨-, e, -, h⟩; cases h
          · rintro ⟨-, -, h, -⟩; cases h
        | some g =>
          simp only [Option.some.injEq, Kind.builtin.injEq, ne_eq, h1, not_false_eq_true, h3, true_and]
          constructor
          · rintro ⟨a, b, c, d⟩; exact ⟨a, b.symm, c.symm, d.symm⟩
          · rintro ⟨a, b, c, d⟩; exact ⟨a, b.symm, c.symm, d.symm⟩

/-- Templates are used exactly if a template directory has the name of the format, or if it is no built-in one, and the
templates can be loaded; a template directory takes precedence over a built-in format. -/
theorem template_iff (e : Engine V) (t : Target) :
    newKind lower embedded localDir load format pre target = some (.template e t) ↔
      target ≠ .mute ∧ lower format ≠ "mute" ∧ (HasDir embedded localDir format ∨ Format.ofName (lower format) = none) ∧
      embedded.isSome ∧ load format = some e ∧ t = target := by
  unfold newKind
  by_cases h1 : target = .mute
  · simp [h1]
  · rw [if_neg h1]
    by_cases h2 : lower format = "mute"
    · simp [h2]
    · rw [if_neg h2]
      have fin : loadTemplate embedded load format target = some (.template e t) ↔
          embedded.isSome ∧ load format = some e ∧ t = target := by
        rw [loadTemplate_iff]
        constructor
        · rintro ⟨h, e', h', h''⟩; cases h''; exact ⟨h, h', rfl⟩
        · rintro ⟨h, h', rfl⟩; exact ⟨h, e, h', rfl⟩
      by_cases h3 : HasDir embedded localDir format
      · rw [if_pos ((hasTemplateDir_iff _ _ _).2 h3), fin]; simp [h1, h2, h3]
      · rw [if_neg (fun h => h3 ((hasTemplateDir_iff _ _ _).1 h))]
        cases hn : Format.ofName (lower format) with
        | none => dsimp only; rw [fin]; simp [h1, h2]
        | some g => simp [h3]

end

/-! ### Histories of a built-in format -/

variable (c : Codec D) (loc : List String → Chars → List String) (schedule : List (Job V) → List (Job V))

theorem history_cons (s : World × Kind V) (d : D) (ds : List D) : history c loc schedule s (d :: ds) =
    history c loc schedule ((generate c loc schedule s.1 s.2 d).1, (generate c loc schedule s.1 s.2 d).2.1) ds := rfl

theorem get_append (w : World) (p q : List String) (x : Chars) :
    (w.append p x).get q = if q = p then some ((w.get p).getD [] ++ x) else w.get q := by
  unfold World.append World.get
  dsimp only
  by_cases hq : q = p
  · subst hq; simp
  · rw [if_neg hq, List.find?_cons]
    have : ¬ p = q := fun he => hq he.symm
    simp only [this, decide_false]
    rw [find_filter_ne hq]

/-- What a call adds to the file. -/
def entry (f : Format) (text : Chars) : Chars := if f = .jsonl then text ++ ['\n'] else text

theorem entry_eq (f : Format) (text : Chars) : (if f.lines then text ++ ['\n'] else text) = entry f text := by
  cases f <;> rfl

theorem opened_step (f : Format) (pre : String) (target : Target) (p : List String) (hp : builtinFile f pre target = some p)
    (w : World) (d : D) :
    generate c loc schedule w (Kind.builtin f pre target true : Kind V) d =
      match c.ser f d with
      | none => (w, .builtin f pre target true, false)
      | some x => (w.append p (entry f x), .builtin f pre target true, true) := by
  unfold generate generateBuiltin
  dsimp only
  rw [hp]
  dsimp only
  rw [if_pos rfl]
  cases c.ser f d with
  | none => rfl
  | some x => dsimp only; unfold writeContent; dsimp only; rw [entry_eq]; rfl

theorem opened_history (f : Format) (pre : String) (target : Target) (p : List String) (hp : builtinFile f pre target = some p)
    (ds : List D) (w : World) (x : Chars) (hx : w.get p = some x) :
    let r := history c loc schedule (w, (Kind.builtin f pre target true : Kind V)) ds
    r.1.get p = some (x ++ (ds.filterMap fun d => (c.ser f d).map (entry f)).flatten) ∧
      (∀ q, q ≠ p → r.1.get q = w.get q) ∧ r.1.out = w.out ∧ r.1.err = w.err := by
  induction ds generalizing w x with
  | nil => simp [history, hx]
  | cons d ds ih =>
    dsimp only
    rw [history_cons]
    dsimp only
    rw [opened_step c loc schedule f pre target p hp]
    cases hs : c.ser f d with
    | none => dsimp only; rw [List.filterMap_cons]; simp only [hs, Option.map_none]; exact ih w x hx
    | some y =>
      dsimp only
      obtain ⟨h1, h2, h3, h4⟩ := ih (w.append p (entry f y)) (x ++ entry f y) (by rw [get_append, if_pos rfl, hx]; rfl)
      rw [List.filterMap_cons]
      simp only [hs, Option.map_some, List.flatten_cons]
      refine ⟨by rw [h1, List.append_assoc], fun q hq => ?_, h3, h4⟩
      rw [h2 q hq, get_append, if_neg hq]

/-- After one or more calls the file has what these calls wrote, one after the other, and nothing else; the other files and
the standard streams are not changed. -/
theorem history_file (f : Format) (pre : String) (target : Target) (p : List String) (hp : builtinFile f pre target = some p)
    (w : World) (hw : w.blocked p = false) (ds : List D) (hd : ds ≠ []) :
    let r := history c loc schedule (w, (Kind.builtin f pre target false : Kind V)) ds
    r.1.get p = some ((ds.filterMap fun d => (c.ser f d).map (entry f)).flatten) ∧
      (∀ q, q ≠ p → r.1.get q = w.get q) ∧ r.1.out = w.out ∧ r.1.err = w.err := by
  cases ds with
  | nil => exact absurd rfl hd
  | cons d ds =>
    dsimp only
    rw [history_cons]
    dsimp only
    have hsv : w.openFile p = some { w with files := (p, []) :: w.files.filter fun e => e.1 ≠ p } := by
      unfold World.openFile World.save; rw [hw]; rfl
    have hstep : (generate c loc schedule w (Kind.builtin f pre target false : Kind V) d) =
        generate c loc schedule { w with files := (p, []) :: w.files.filter fun e => e.1 ≠ p } (.builtin f pre target true) d := by
      unfold generate generateBuiltin
      dsimp only
      rw [hp]
      dsimp only
      rw [if_neg (by decide), hsv, if_pos rfl]
      rfl
    rw [hstep]
    have hg : ∀ q, World.get { w with files := (p, []) :: w.files.filter fun e => e.1 ≠ p } q =
        if q = p then some [] else w.get q := get_save (by unfold World.openFile at hsv; exact hsv)
    generalize ({ w with files := (p, []) :: w.files.filter fun e => e.1 ≠ p } : World) = w' at *
    have ho : w'.out = w.out ∧ w'.err = w.err := by
      obtain ⟨-, h⟩ := save_some (by unfold World.openFile at hsv; exact hsv)
      rw [h]; exact ⟨rfl, rfl⟩
    have := opened_history c loc schedule f pre target p hp (d :: ds) w' [] (by rw [hg, if_pos rfl])
    rw [history_cons] at this
    obtain ⟨h1, h2, h3, h4⟩ := this
    refine ⟨by simpa using h1, fun q hq => ?_, h3.trans ho.1, h4.trans ho.2⟩
    rw [h2 q hq, hg, if_neg hq]

/-- The lines of a text that ends with a line break. -/
def fileLines : Chars → List Chars
  | [] => []
  | x :: s =>
    match fileLines s with
    | l => if x = '\n' then [] :: l else match l with | [] => [[x]] | a :: l => (x :: a) :: l

theorem fileLines_append (a : Chars) (h : '\n' ∉ a) (s : Chars) : fileLines (a ++ '\n' :: s) = a :: fileLines s := by
  induction a with
  | nil => simp [fileLines]
  | cons x a ih =>
    have hx : x ≠ '\n' := fun he => h (he ▸ List.mem_cons_self)
    have := ih fun hm => h (List.mem_cons_of_mem _ hm)
    rw [List.cons_append, fileLines]
    simp only [hx, if_false, this]

/-- In the line oriented format the lines of the file are the serialized values of all the calls that succeeded, in order;
compact JSON has no line breaks. -/
theorem jsonl_lines (pre : String) (target : Target) (p : List String) (hp : builtinFile .jsonl pre target = some p)
    (w : World) (hw : w.blocked p = false) (ds : List D) (hd : ds ≠ []) (hc : ∀ d x, c.ser .jsonl d = some x → '\n' ∉ x) :
    ∃ text, (history c loc schedule (w, (Kind.builtin .jsonl pre target false : Kind V)) ds).1.get p = some text ∧
      fileLines text = ds.filterMap (c.ser .jsonl) := by
  refine ⟨_, (history_file c loc schedule .jsonl pre target p hp w hw ds hd).1, ?_⟩
  clear hd
  induction ds with
  | nil => rfl
  | cons d ds ih =>
    rw [List.filterMap_cons, List.filterMap_cons]
    cases hs : c.ser .jsonl d with
    | none => exact ih
    | some x =>
      simp only [Option.map_some, List.flatten_cons, entry, if_true]
      rw [List.append_assoc, List.singleton_append, fileLines_append x (hc d x hs)]
      exact congrArg _ ih

/-- With one call the file is the serialized value. -/
theorem file_document_partial (f : Format) (hf : f ≠ .jsonl) (pre : String) (target : Target) (p : List String)
    (hp : builtinFile f pre target = some p) (w : World) (hw : w.blocked p = false) (d : D) (x : Chars) (hx : c.ser f d = some x) :
    (history c loc schedule (w, (Kind.builtin f pre target false : Kind V)) [d]).1.get p = some x := by
  rw [(history_file c loc schedule f pre target p hp w hw [d] (by simp)).1]
  simp [hx, entry, hf]

/-- A codec for numbers. -/
def sampleCodec : Codec (Option Nat) where
  ser := fun _ d => d.map fun n => (toString n).toList
  js := fun _ => .null

/-- Two calls with JSON leave a file that is not the document of the last call, and cannot be told from that of a single
call with another value. -/
theorem file_document_refuted :
    (history sampleCodec (fun p _ => p) id (⟨[], [], []⟩, (Kind.builtin .json "x" (.file ["f"]) false : Kind Unit)) [some 1, some 2]).1.get ["f"]
      = some "12".toList ∧ sampleCodec.ser .json (some 12) = some "12".toList := by decide +kernel

/-- If the value cannot be serialized then an existing file is emptied. -/
theorem failure_keeps_refuted :
    let w : World := ⟨[(["f"], "old".toList)], [], []⟩
    let r := generate sampleCodec (fun p _ => p) id w (Kind.builtin .json "x" (.file ["f"]) false : Kind Unit) none
    r.2.2 = false ∧ w.get ["f"] = some "old".toList ∧ r.1.get ["f"] = some [] := by decide +kernel

/-- Once the file is open, and on the standard streams, a value that cannot be serialized changes nothing. -/
theorem failure_keeps_partial (f : Format) (pre : String) (target : Target) (opened : Bool) (w : World) (d : D)
    (h : opened = true ∨ builtinFile f pre target = none) (hd : c.ser f d = none) :
    let r := generate c loc schedule w (Kind.builtin f pre target opened : Kind V) d
    r.1 = w ∧ r.2.2 = false := by
  unfold generate generateBuiltin
  dsimp only
  rw [hd]
  rcases h with rfl | h
  · cases builtinFile f pre target <;> exact ⟨rfl, rfl⟩
  · rw [h]; exact ⟨rfl, rfl⟩

/-- On standard output each value is followed by a line break, in all formats, and is the text of `generate_to_string`. -/
theorem history_stdout (f : Format) (pre : String) (opened : Bool) (w : World) (ds : List D) :
    (history c loc schedule (w, (Kind.builtin f pre .stdout opened : Kind V)) ds).1 =
      { w with out := w.out ++
          (ds.filterMap fun d => (generateToString c (Kind.builtin f pre .stdout opened : Kind V) d).map (· ++ ['\n'])).flatten } := by
  induction ds generalizing w with
  | nil => simp [history]
  | cons d ds ih =>
    rw [history_cons]
    have hstep : generate c loc schedule w (Kind.builtin f pre .stdout opened : Kind V) d =
      match c.ser f d with
      | none => (w, .builtin f pre .stdout opened, false)
      | some x => ({ w with out := w.out ++ x ++ ['\n'] }, .builtin f pre .stdout opened, true) := by
      unfold generate generateBuiltin
      dsimp only [builtinFile]
      cases c.ser f d <;> simp [writeContent]
    dsimp only
    rw [hstep, List.filterMap_cons]
    unfold generateToString at ih ⊢
    dsimp only at ih ⊢
    cases c.ser f d with
    | none => exact ih w
    | some x => dsimp only; rw [ih]; simp [List.append_assoc]

/-! ### Where output goes -/

theorem run_file_streams {V : Type} (e : Engine V) (loc : Chars → List String) (w : World) (s : List (Job V)) :
    (e.run loc .file w s).1.out = w.out ∧ (e.run loc .file w s).1.err = w.err := by
  unfold Engine.run
  generalize hn : (w, 0) = s0
  have : w = s0.1 := by rw [← hn]
  rw [this]; clear hn this w
  induction s generalizing s0 with
  | nil => exact ⟨rfl, rfl⟩
  | cons j s ih =>
    rw [List.foldl_cons]
    have h := ih (e.step loc .file s0 j)
    have hs : (e.step loc .file s0 j).1.out = s0.1.out ∧ (e.step loc .file s0 j).1.err = s0.1.err := by
      rw [step_file]
      cases e.output loc j with
      | none => exact ⟨rfl, rfl⟩
      | some o =>
        dsimp only
        cases hsv : s0.1.save o.1 o.2 with
        | none => exact ⟨rfl, rfl⟩
        | some w' => obtain ⟨-, rfl⟩ := save_some hsv; exact ⟨rfl, rfl⟩
    exact ⟨h.1.trans hs.1, h.2.trans hs.2⟩

theorem run_stream_files {V : Type} (e : Engine V) (loc : Chars → List String) (d : Directive) (hd : d ≠ .file) (w : World) (s : List (Job V)) :
    (e.run loc d w s).1.files = w.files := by
  unfold Engine.run
  generalize hn : (w, 0) = s0
  have : w = s0.1 := by rw [← hn]
  rw [this]; clear hn this w
  induction s generalizing s0 with
  | nil => rfl
  | cons j s ih =>
    rw [List.foldl_cons, ih]
    unfold Engine.step Engine.evaluate
    cases e.render j j.template.fileName with
    | none => rfl
    | some r => cases d <;> first | rfl | exact absurd rfl hd

theorem openFile_streams {w w' : World} {p : List String} (h : w.openFile p = some w') : w'.out = w.out ∧ w'.err = w.err := by
  unfold World.openFile at h; obtain ⟨-, rfl⟩ := save_some h; exact ⟨rfl, rfl⟩

/-- File output writes nothing to the standard streams, and all other output changes no file. -/
theorem output_place (w : World) (k : Kind V) (d : D) :
    if isFileOutput k = true
    then (generate c loc schedule w k d).1.out = w.out ∧ (generate c loc schedule w k d).1.err = w.err
    else (generate c loc schedule w k d).1.files = w.files := by
  cases k with
  | mute => exact rfl
  | template e t =>
    cases t with
    | mute => exact rfl
    | stdout => exact run_stream_files e _ .stdout (fun h => nomatch h) _ _
    | stderr => exact run_stream_files e _ .stderr (fun h => nomatch h) _ _
    | file p => exact run_file_streams e _ _ _
    | dir p => exact run_file_streams e _ _ _
  | builtin f pre t opened =>
    have key : ∀ p, builtinFile f pre t = some p →
        (generate c loc schedule w (Kind.builtin f pre t opened : Kind V) d).1.out = w.out ∧
        (generate c loc schedule w (Kind.builtin f pre t opened : Kind V) d).1.err = w.err := by
      intro p hp
      unfold generate generateBuiltin
      dsimp only
      rw [hp]
      dsimp only
      cases opened with
      | true =>
        rw [if_pos rfl]; dsimp only
        cases c.ser f d <;> exact ⟨rfl, rfl⟩
      | false =>
        rw [if_neg (by decide)]
        cases ho : w.openFile p with
        | none => exact ⟨rfl, rfl⟩
        | some w' =>
          have := openFile_streams ho
          dsimp only
          cases c.ser f d with
          | none => exact this
          | some x => exact this
    cases t with
    | mute => unfold generate generateBuiltin; dsimp only [builtinFile, isFileOutput]; cases c.ser f d <;> simp [writeContent]
    | stdout => unfold generate generateBuiltin; dsimp only [builtinFile, isFileOutput]; cases c.ser f d <;> simp [writeContent]
    | stderr => unfold generate generateBuiltin; dsimp only [builtinFile, isFileOutput]; cases c.ser f d <;> simp [writeContent]
    | file p => exact key _ rfl
    | dir p => exact key _ rfl

/-- Muted output writes nothing and does not fail. -/
theorem mute_nothing (w : World) (d : D) :
    generate c loc schedule w (Kind.mute : Kind V) d = (w, .mute, true) ∧ generateToString c (Kind.mute : Kind V) d = some [] :=
  ⟨rfl, rfl⟩

/-- The content type tells the format. -/
theorem contentType_iff (k : Kind V) (f : Format) :
    contentType k = "application/" ++ f.extension ↔ ∃ pre t o, k = .builtin f pre t o := by
  cases k with
  | builtin g pre t o =>
    constructor
    · intro h
      have : g = f := by cases g <;> cases f <;> first | rfl | (exact absurd h (by simp only [contentType, Format.extension]; decide))
      subst this; exact ⟨pre, t, o, rfl⟩
    · rintro ⟨_, _, _, h⟩; cases h; cases f <;> (simp only [contentType, Format.extension]; decide)
  | template e t =>
    constructor
    · intro h; exact absurd h (by cases f <;> (simp only [contentType, Format.extension]; decide))
    · rintro ⟨_, _, _, h⟩; cases h
  | mute =>
    constructor
    · intro h; exact absurd h (by cases f <;> (simp only [contentType, Format.extension]; decide))
    · rintro ⟨_, _, _, h⟩; cases h

/-- The word `none` as directory mutes the output, in this spelling only. -/
theorem ofDir_mute_iff (split : String → List String) (p : Option String) : Target.ofDir split p = .mute ↔ p = some "none" := by
  cases p with
  | none => simp [Target.ofDir]
  | some p => by_cases h : p = "none" <;> simp [Target.ofDir, h]

example : (history sampleCodec (fun p _ => p) id (⟨[(["f", "x.jsonl"], "old".toList)], [], []⟩, (Kind.builtin .jsonl "x" (.dir ["f"]) false : Kind Unit))
    [some 1, none, some 23]).1.get ["f", "x.jsonl"] = some "1\n23\n".toList := by decide +kernel
example : newKind (V := Unit) (fun s => if s = "JSON" then "json" else s) (some fun _ => false) none (fun _ => none) "JSON" "x" .stdout =
    some (.builtin .json "x" .stdout false) := rfl
example : newKind (V := Unit) id (some fun f => f == "yaml") none (fun _ => some (sampleEngine [])) "yaml" "x" .stdout =
    some (.template (sampleEngine []) .stdout) := rfl

end Verif.Gen
