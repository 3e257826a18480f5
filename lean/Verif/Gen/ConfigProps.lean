import Verif.Gen.Config
import Verif.Forge.Text

namespace Verif.Gen
open Verif.Util

variable {V T F C : Type} (null : V → Bool)

/-! ### Layers -/

/-- The most specific setting: the last one that is given. -/
def lastGiven {α : Type} (l : List (Option α)) : Option α := l.reverse.findSome? id

theorem lastGiven_snoc {α : Type} (l : List (Option α)) (o : Option α) : lastGiven (l ++ [o]) = o.or (lastGiven l) := by
  unfold lastGiven
  rw [List.reverse_append]
  cases o <;> rfl

/-- The configurations one after the other, the least specific first. -/
def layered (layers : List (Config V T F)) : Config V T F := layers.foldl (Config.override null) .default

theorem layered_snoc (l : List (Config V T F)) (c : Config V T F) : layered null (l ++ [c]) = (layered null l).override null c := by
  simp [layered]

theorem snoc_induction {α : Type} {P : List α → Prop} (h0 : P []) (h1 : ∀ l a, P l → P (l ++ [a])) (l : List α) : P l := by
  have : ∀ l : List α, P l.reverse := by
    intro l
    induction l with
    | nil => exact h0
    | cons a l ih => rw [List.reverse_cons]; exact h1 _ _ ih
  simpa using this l.reverse

theorem if_or {α : Type} (a b : Option α) : (if a.isSome then a else b) = a.or b := by cases a <;> rfl

/-- Every single setting has the value of the most specific configuration that gives it, and the built-in value if none
does. -/
theorem settings_layered (layers : List (Config V T F)) :
    let c := layered null layers
    c.typeMapping = lastGiven (layers.map (·.typeMapping)) ∧
    c.textMaps = lastGiven (layers.map (·.textMaps)) ∧
    c.commentFormats = lastGiven (layers.map (·.commentFormats)) ∧
    c.defaultCommentFormat = lastGiven (layers.map (·.defaultCommentFormat)) ∧
    c.templates = lastGiven (layers.map (·.templates)) ∧
    c.acronyms = lastGiven (layers.map (·.acronyms)) ∧
    c.white.trimBlocks = lastGiven (layers.map (·.white.trimBlocks)) ∧
    c.white.lstripBlocks = lastGiven (layers.map (·.white.lstripBlocks)) ∧
    c.white.keepTrailingNewline = lastGiven (layers.map (·.white.keepTrailingNewline)) ∧
    c.syn.blockStart = (lastGiven (layers.map (·.syn.blockStart))).or (some "{%") ∧
    c.syn.blockEnd = (lastGiven (layers.map (·.syn.blockEnd))).or (some "%}") ∧
    c.syn.variableStart = (lastGiven (layers.map (·.syn.variableStart))).or (some "{{") ∧
    c.syn.variableEnd = (lastGiven (layers.map (·.syn.variableEnd))).or (some "}}") ∧
    c.syn.commentStart = (lastGiven (layers.map (·.syn.commentStart))).or (some "{#") ∧
    c.syn.commentEnd = (lastGiven (layers.map (·.syn.commentEnd))).or (some "#}") := by
  dsimp only
  induction layers using snoc_induction with
  | h0 => exact ⟨rfl, rfl, rfl, rfl, rfl, rfl, rfl, rfl, rfl, rfl, rfl, rfl, rfl, rfl, rfl⟩
  | h1 l c ih =>
    obtain ⟨h1, h2, h3, h4, h5, h6, h7, h8, h9, h10, h11, h12, h13, h14, h15⟩ := ih
    simp only [layered_snoc, List.map_append, List.map_cons, List.map_nil, lastGiven_snoc, Option.or_assoc]
    simp only [Config.override, Syntax.override, White.override, if_or, h1, h2, h3, h4, h5, h6, h7, h8, h9, h10, h11, h12, h13, h14, h15,
      and_self]

/-! ### Parameters -/

theorem aget_cons {W : Type} (x k : String) (v : W) (m : List (String × W)) :
    aget x ((k, v) :: m) = if k = x then some v else aget x m := rfl

theorem aget_aremove (k x : String) (m : List (String × V)) : aget x (aremove k m) = if x = k then none else aget x m := by
  induction m with
  | nil => simp [aremove, aget]
  | cons e m ih =>
    obtain ⟨y, v⟩ := e
    unfold aremove at ih ⊢
    rw [List.filter_cons]
    by_cases h : y = k
    · subst h
      simp only [ne_eq, not_true_eq_false, decide_false, Bool.false_eq_true, if_false, ih]
      by_cases hx : x = y
      · simp [hx]
      · rw [if_neg hx, if_neg hx, aget_cons, if_neg (Ne.symm hx)]
    · simp only [ne_eq, h, not_false_eq_true, decide_true, if_true]
      rw [aget_cons, aget_cons, ih]
      by_cases hy : y = x
      · subst hy; simp [h]
      · simp [hy]

theorem aget_setParam (p : Option (List (String × V))) (e : String × V) (x : String) :
    aget x ((setParam null p e).getD []) =
      if x = e.1 then (if null e.2 then none else some e.2) else aget x (p.getD []) := by
  unfold setParam
  by_cases hn : null e.2 = true
  · rw [if_pos hn, if_pos hn]
    cases p with
    | none => simp [aget]
    | some m => simp only [Option.map_some, Option.getD_some, aget_aremove]
  · rw [if_neg hn, if_neg hn]
    simp only [Option.getD_some, aget_bins]

theorem aget_foldl_setParam (l : List (String × V)) (hl : (l.map Prod.fst).Nodup) (p : Option (List (String × V))) (x : String) :
    aget x ((l.foldl (setParam null) p).getD []) =
      match aget x l with
      | some v => if null v then none else some v
      | none => aget x (p.getD []) := by
  induction l generalizing p with
  | nil => rfl
  | cons e l ih =>
    rw [List.map_cons, List.nodup_cons] at hl
    rw [List.foldl_cons, ih hl.2, aget_setParam]
    obtain ⟨k, v⟩ := e
    dsimp only
    rw [aget_cons]
    by_cases h : k = x
    · subst h
      rw [if_pos rfl, (aget_eq_none_iff).2 hl.1, if_pos rfl]
    · rw [if_neg h, if_neg (Ne.symm h)]

/-- The keys of a map are distinct. -/
def Config.Keyed (c : Config V T F) : Prop := ∀ l, c.params = some l → (l.map Prod.fst).Nodup

/-- What the most specific configuration that mentions a parameter says about it: a value, null, or nothing. -/
def mention (x : String) (layers : List (Config V T F)) : Option V :=
  lastGiven (layers.map fun c => aget x (c.params.getD []))

/-- A parameter has the value given by the most specific configuration that mentions it, and is not defined if that is
null or if none mentions it. -/
theorem params_layered (layers : List (Config V T F)) (hk : ∀ c ∈ layers, c.Keyed) (x : String) :
    aget x ((layered null layers).params.getD []) = (mention x layers).filter fun v => !null v := by
  induction layers using snoc_induction with
  | h0 => rfl
  | h1 l c ih =>
    have ih := ih (fun c hc => hk c (by simp [hc]))
    unfold mention at ih ⊢
    rw [layered_snoc, List.map_append, List.map_cons, List.map_nil, lastGiven_snoc]
    unfold Config.override
    dsimp only
    cases hp : c.params with
    | none => exact ih
    | some m =>
      dsimp only [Option.getD_some]
      rw [aget_foldl_setParam null m (hk c (by simp) m hp), ih]
      cases hg : aget x m with
      | none => rfl
      | some v => cases hv : null v <;> simp [Option.filter, hv]

/-! ### Reading files -/

/-- Resolution succeeds exactly if every file can be read as a configuration, and applies them in order. -/
theorem resolveFrom_iff (parse : C → Option (Config V T F)) (files : List C) (c : Config V T F) :
    resolveFrom null parse files = some c ↔ ∃ cs, files.mapM parse = some cs ∧ c = layered null cs := by
  have key : ∀ (files : List C) (s : Config V T F), files.foldlM (fun c f => (parse f).map (c.override null)) s = some c ↔
      ∃ cs, files.mapM parse = some cs ∧ c = cs.foldl (Config.override null) s := by
    intro files
    induction files with
    | nil => intro s; simp [eq_comm]
    | cons f files ih =>
      intro s
      rw [List.foldlM_cons, List.mapM_cons]
      cases hf : parse f with
      | none => simp
      | some d =>
        simp only [Option.map_some, Option.bind_eq_bind, Option.bind_some, ih]
        cases files.mapM parse with
        | none => simp
        | some cs => simp
  unfold resolveFrom
  split
  · rename_i h
    rw [List.isEmpty_iff] at h
    subst h
    simp [layered, eq_comm]
  · exact key files _

theorem ancestors_mem (p q : List String) : q ∈ ancestors p ↔ q <+: p := by
  induction p generalizing q with
  | nil => simp [ancestors]
  | cons a p ih =>
    simp only [ancestors, List.mem_append, List.mem_map, List.mem_singleton, ih]
    constructor
    · rintro (⟨r, h, rfl⟩ | rfl)
      · exact List.cons_prefix_cons.2 ⟨rfl, h⟩
      · exact List.nil_prefix
    · intro h
      cases q with
      | nil => exact .inr rfl
      | cons b q => obtain ⟨rfl, h'⟩ := List.cons_prefix_cons.1 h; exact .inl ⟨q, h', rfl⟩

theorem ancestors_sorted (p : List String) : (ancestors p).Pairwise fun a b => b.length < a.length := by
  induction p with
  | nil => simp [ancestors]
  | cons a p ih =>
    rw [ancestors, List.pairwise_append]
    refine ⟨List.pairwise_map.2 (ih.imp (by simp)), by simp, ?_⟩
    simp only [List.mem_map, List.mem_singleton]
    rintro _ ⟨r, _, rfl⟩ _ rfl
    simp

/-- The files read for a directory: the one of the home directory, then those of the directories above it from the
outermost to the innermost, then its own. -/
theorem collect_order (read : List String → Option C) (home : Option C) (path : List String) :
    ∃ dirs : List (List String), collect read home path = home.toList ++ dirs.filterMap read ∧
      (∀ d, d ∈ dirs ↔ d <+: path) ∧ dirs.Pairwise fun a b => a.length < b.length := by
  refine ⟨(ancestors path).reverse, ?_, fun d => by rw [List.mem_reverse, ancestors_mem], List.pairwise_reverse.2 (ancestors_sorted path)⟩
  unfold collect
  rw [List.reverse_append, List.filterMap_reverse]
  cases home <;> rfl

/-- The file of a directory decides over those above it: with the configurations of all the files valid, the setting of the
innermost directory that gives it is used. -/
theorem innermost_wins (parse : C → Option (Config V T F)) (read : List String → Option C) (home : Option C) (path : List String)
    (f : C) (c : Config V T F) (d : Config V T F) (hr : read path = some f) (hp : parse f = some d)
    (h : tryFromPath null parse read home path = some c) :
    (∀ m, d.templates = some m → c.templates = some m) ∧ (∀ m, d.acronyms = some m → c.acronyms = some m) ∧
    (∀ m, d.textMaps = some m → c.textMaps = some m) := by
  obtain ⟨cs, hcs, rfl⟩ := (resolveFrom_iff null parse _ c).1 h
  have hlast : ∃ init, collect read home path = init ++ [f] := by
    unfold collect
    cases path with
    | nil => exact ⟨home.toList.reverse, by simp [ancestors, hr]⟩
    | cons a p =>
      have : ∀ p : List String, ∃ t, ancestors p = p :: t := by
        intro p
        induction p with
        | nil => exact ⟨[], rfl⟩
        | cons a p ih => obtain ⟨t, ht⟩ := ih; exact ⟨t.map (a :: ·) ++ [[]], by simp [ancestors, ht]⟩
      obtain ⟨t, ht⟩ := this (a :: p)
      exact ⟨(t.filterMap read ++ home.toList).reverse, by rw [ht, List.filterMap_cons, hr]; simp⟩
  obtain ⟨init, hi⟩ := hlast
  rw [hi, List.mapM_append] at hcs
  cases hm : init.mapM parse with
  | none => rw [hm] at hcs; simp at hcs
  | some ds =>
    rw [hm] at hcs
    have : cs = ds ++ [d] := by simpa [hp] using hcs.symm
    subst this
    have hs := settings_layered null (ds ++ [d])
    simp only [List.map_append, List.map_cons, List.map_nil, lastGiven_snoc] at hs
    exact ⟨fun m hm => by rw [hs.2.2.2.2.1, hm]; rfl, fun m hm => by rw [hs.2.2.2.2.2.1, hm]; rfl, fun m hm => by rw [hs.2.1, hm]; rfl⟩

/-- Parents of a directory given by its absolute path are all read. -/
theorem parents_read_partial (read : List String → Option C) (home : Option C) (path d : List String) (f : C) (hd : d <+: path)
    (hr : read d = some f) : f ∈ collect read home path := by
  obtain ⟨dirs, h, hm, _⟩ := collect_order read home path
  rw [h]
  exact List.mem_append_right _ (List.mem_filterMap.2 ⟨d, (hm d).2 hd, hr⟩)

/-- With a relative path the directories above the working directory are not read. -/
theorem parents_read_refuted : ∃ (read : List String → Option String) (cwd path d : List String) (f : String),
    d <+: cwd ++ path ∧ read d = some f ∧ f ∉ collect (fun p => read (cwd ++ p)) none path ∧ f ∈ collect read none (cwd ++ path) :=
  ⟨fun p => if p = ["a"] then some "F" else none, ["a", "b"], ["c"], ["a"], "F", by decide, by decide, by decide, by decide⟩

/-! ### Project settings -/

variable (lower : Chars → Chars)

/-- The spelling an acronym filter uses for a word (`Verif.Forge.acronym`). -/
def spelling (acronyms : List Chars) (t : Chars) : Option Chars := acronyms.reverse.find? fun a => lower a = lower t

/-- The acronym filter replaces each token by its spelling. -/
theorem acronym_spelling (word : Char → Bool) (acronyms : List Chars) (s : Chars) :
    Forge.acronym word lower acronyms s = (Forge.tokens word s).flatMap fun t => (spelling lower acronyms t).getD t := rfl

/-- Acronyms that are distinct up to case. -/
def Distinct (l : List Chars) : Prop := l.Pairwise fun a b => lower a ≠ lower b

theorem spelling_distinct {l : List Chars} (h : Distinct lower l) (t a : Chars) :
    spelling lower l t = some a ↔ a ∈ l ∧ lower a = lower t := by
  unfold spelling
  constructor
  · intro hf
    exact ⟨List.mem_reverse.1 (List.mem_of_find?_eq_some hf), by simpa using List.find?_some hf⟩
  · rintro ⟨hm, ht⟩
    cases hf : l.reverse.find? fun a => lower a = lower t with
    | none => exact absurd ht (by simpa using List.find?_eq_none.1 hf a (List.mem_reverse.2 hm))
    | some b =>
      have hb := List.mem_reverse.1 (List.mem_of_find?_eq_some hf)
      have hbt : lower b = lower t := by simpa using List.find?_some hf
      have hall : ∀ l : List Chars, Distinct lower l → a ∈ l → b ∈ l → a = b := by
        intro l hl ha hb
        induction l with
        | nil => simp at ha
        | cons c l ih =>
          obtain ⟨h1, h2⟩ := List.pairwise_cons.1 hl
          rcases List.mem_cons.1 ha with rfl | ha' <;> rcases List.mem_cons.1 hb with rfl | hb'
          · rfl
          · exact absurd (ht.trans hbt.symm) (h1 _ hb')
          · exact absurd (hbt.trans ht.symm) (h1 _ ha')
          · exact ih h2 ha' hb'
      rw [hall l h hm hb]

theorem mergeAcronym_mem {l : List Chars} (h : Distinct lower l) (a b : Chars) :
    b ∈ mergeAcronym lower a l ↔ b = a ∨ (b ∈ l ∧ lower b ≠ lower a) := by
  induction l with
  | nil => simp [mergeAcronym]
  | cons c l ih =>
    obtain ⟨h1, h2⟩ := List.pairwise_cons.1 h
    unfold mergeAcronym
    split
    · rename_i hc
      rw [List.mem_cons]
      constructor
      · rintro (rfl | hb)
        · exact .inl rfl
        · exact .inr ⟨by simp [hb], fun e => h1 b hb (hc.trans e.symm)⟩
      · rintro (rfl | ⟨hb, hn⟩)
        · exact .inl rfl
        · rcases List.mem_cons.1 hb with rfl | hb
          · exact absurd hc hn
          · exact .inr hb
    · rename_i hc
      rw [List.mem_cons, ih h2]
      constructor
      · rintro (rfl | rfl | ⟨hb, hn⟩)
        · exact .inr ⟨by simp, hc⟩
        · exact .inl rfl
        · exact .inr ⟨by simp [hb], hn⟩
      · rintro (rfl | ⟨hb, hn⟩)
        · exact .inr (.inl rfl)
        · rcases List.mem_cons.1 hb with rfl | hb
          · exact .inl rfl
          · exact .inr (.inr ⟨hb, hn⟩)

theorem mergeAcronym_distinct {l : List Chars} (h : Distinct lower l) (a : Chars) : Distinct lower (mergeAcronym lower a l) := by
  induction l with
  | nil => simp [mergeAcronym, Distinct]
  | cons c l ih =>
    obtain ⟨h1, h2⟩ := List.pairwise_cons.1 h
    unfold mergeAcronym
    split
    · rename_i hc
      exact List.pairwise_cons.2 ⟨fun b hb e => h1 b hb (hc.trans e), h2⟩
    · rename_i hc
      refine List.pairwise_cons.2 ⟨fun b hb => ?_, ih h2⟩
      rcases (mergeAcronym_mem lower h2 a b).1 hb with rfl | ⟨hb, _⟩
      · exact hc
      · exact h1 b hb

/-- If the template package spells no acronym in two ways then the spelling of the project is used where it has one, and the
one of the package otherwise. -/
theorem project_acronyms_partial (own incoming : List Chars) (h : Distinct lower own) (t : Chars) :
    spelling lower ((mergeAcronyms lower (some own) (some incoming)).getD []) t =
      (spelling lower incoming t).or (spelling lower own t) := by
  have key : ∀ incoming own : List Chars, Distinct lower own →
      spelling lower (incoming.foldl (fun m a => mergeAcronym lower a m) own) t =
        (spelling lower incoming t).or (spelling lower own t) := by
    intro incoming
    induction incoming with
    | nil => intro own _; simp [spelling]
    | cons a l ih =>
      intro own h
      rw [List.foldl_cons, ih _ (mergeAcronym_distinct lower h a)]
      have hcons : spelling lower (a :: l) t = (spelling lower l t).or (if lower a = lower t then some a else none) := by
        unfold spelling
        rw [List.reverse_cons, List.find?_append]
        congr 1
        simp only [List.find?_cons, List.find?_nil]
        split <;> simp_all
      rw [hcons, Option.or_assoc]
      congr 1
      by_cases ha : lower a = lower t
      · rw [if_pos ha]
        exact (spelling_distinct lower (mergeAcronym_distinct lower h a) t a).2 ⟨(mergeAcronym_mem lower h a a).2 (.inl rfl), ha⟩
      · rw [if_neg ha, Option.none_or]
        apply Option.ext
        intro b
        rw [spelling_distinct lower (mergeAcronym_distinct lower h a), spelling_distinct lower h, mergeAcronym_mem lower h]
        constructor
        · rintro ⟨rfl | ⟨hb, _⟩, ht⟩
          · exact absurd ht ha
          · exact ⟨hb, ht⟩
        · rintro ⟨hb, ht⟩
          exact ⟨.inr ⟨hb, fun e => ha (e.symm.trans ht)⟩, ht⟩
  exact key incoming own h

/-- If the template package spells an acronym in two ways then the spelling of the project is not used. -/
theorem project_acronyms_refuted : ∃ own incoming : List Chars,
    spelling (List.map Char.toLower) incoming "api".toList = some "Api".toList ∧
    spelling (List.map Char.toLower) ((mergeAcronyms (List.map Char.toLower) (some own) (some incoming)).getD []) "api".toList = some "API".toList :=
  ⟨["aPi".toList, "API".toList], ["Api".toList], by decide, by decide⟩

example : mergeAcronyms (List.map Char.toLower) (some ["API".toList, "URL".toList]) (some ["Api".toList, "iOS".toList]) =
    some ["Api".toList, "URL".toList, "iOS".toList] := by decide
example : Distinct (List.map Char.toLower) ["API".toList, "URL".toList] := by unfold Distinct; decide

theorem aget_foldl_aset {W : Type} (l : List (String × W)) (m : List (String × W)) (x : String) :
    aget x (l.foldl (fun m e => aset e.1 e.2 m) m) = (aget x l.reverse).or (aget x m) := by
  have happ : ∀ a b : List (String × W), aget x (a ++ b) = (aget x a).or (aget x b) := by
    intro a b
    induction a with
    | nil => rfl
    | cons e a ih =>
      obtain ⟨k, v⟩ := e
      rw [List.cons_append, aget_cons, aget_cons]
      split
      · rfl
      · exact ih
  induction l generalizing m with
  | nil => rfl
  | cons e l ih =>
    rw [List.foldl_cons, ih, aget_aset, List.reverse_cons, happ, Option.or_assoc]
    congr 1
    obtain ⟨k, v⟩ := e
    rw [aget_cons]
    by_cases h : k = x
    · rw [if_pos h.symm, if_pos h]; rfl
    · rw [if_neg (Ne.symm h), if_neg h]; rfl

theorem aget_reverse {W : Type} {l : List (String × W)} (h : (l.map Prod.fst).Nodup) (x : String) : aget x l.reverse = aget x l := by
  apply Option.ext
  intro v
  have hr : (l.reverse.map Prod.fst).Nodup := by rw [List.map_reverse]; exact List.pairwise_reverse.2 (h.imp Ne.symm)
  constructor
  · intro hg; exact aget_of_mem_nodup h (List.mem_reverse.1 (aget_some_mem hg))
  · intro hg; exact aget_of_mem_nodup hr (List.mem_reverse.2 (aget_some_mem hg))

/-- A text map of the project replaces the one of the package with the same name, as a whole; the others are kept. -/
theorem project_textMaps (own incoming : List (String × List (String × String))) (h : (incoming.map Prod.fst).Nodup) (x : String) :
    aget x ((mergeTextMaps (some own) (some incoming)).getD []) = (aget x incoming).or (aget x own) := by
  show aget x (incoming.foldl (fun m e => aset e.1 e.2 m) own) = _
  rw [aget_foldl_aset, aget_reverse h]

/-- Without project settings nothing changes. -/
theorem project_none (own : Option (List Chars)) (maps : Option (List (String × List (String × String)))) :
    mergeAcronyms lower own none = own ∧ mergeTextMaps maps none = maps := ⟨rfl, rfl⟩

/-! ### Parameters of a template -/

/-- A parameter of the command line is the last one given there, else the one of the parameters file. -/
theorem cliParams_get (direct file : List (String × V)) (x : String) :
    aget x (cliParams direct file) = (aget x direct.reverse).or (aget x file) := aget_foldl_aset direct file x

theorem aget_foldl_bins (l : List (String × V)) (h : (l.map Prod.fst).Nodup) (m : List (String × V)) (x : String) :
    aget x (l.foldl (fun m e => bins e.1 e.2 m) m) = (aget x l).or (aget x m) := by
  induction l generalizing m with
  | nil => rfl
  | cons e l ih =>
    rw [List.map_cons, List.nodup_cons] at h
    rw [List.foldl_cons, ih h.2, aget_bins]
    obtain ⟨k, v⟩ := e
    rw [aget_cons]
    by_cases hk : k = x
    · subst hk
      rw [if_pos rfl, if_pos rfl, aget_eq_none_iff.2 h.1]
      rfl
    · rw [if_neg (Ne.symm hk), if_neg hk]

theorem aget_foldl_keep (l : List (String × V)) (h : (l.map Prod.fst).Nodup) (m : List (String × V)) (x : String) :
    aget x (l.foldl (fun m e => if (aget e.1 m).isSome then m else bins e.1 e.2 m) m) = (aget x m).or (aget x l) := by
  induction l generalizing m with
  | nil => simp [aget]
  | cons e l ih =>
    rw [List.map_cons, List.nodup_cons] at h
    rw [List.foldl_cons, ih h.2]
    obtain ⟨k, v⟩ := e
    rw [aget_cons]
    by_cases hk : k = x
    · subst hk
      rw [if_pos rfl, aget_eq_none_iff.2 h.1]
      cases hg : aget k m with
      | some w => simp [hg]
      | none => simp [aget_bins]
    · rw [if_neg hk]
      split
      · rfl
      · rw [aget_bins, if_neg (Ne.symm hk)]

/-- A parameter of a template is the one of the command line, else the one of the template, else the one of the
configuration. -/
theorem templateParams_get (cli : List (String × V)) (top own : Option (List (String × V))) (hc : (cli.map Prod.fst).Nodup)
    (ht : ((top.getD []).map Prod.fst).Nodup) (x : String) :
    aget x (templateParams cli top own) = (aget x cli).or ((aget x (own.getD [])).or (aget x (top.getD []))) := by
  unfold templateParams
  rw [aget_foldl_keep _ ht, aget_foldl_bins _ hc, Option.or_assoc]

/-- Templates see their parameters, and all of them under the name `params`, which is reserved. -/
theorem initParams_get (all : List (String × V) → V) (l : List (String × V)) :
    (aget "params" l = none → ∃ out, initParams all (some l) = some out ∧ aget "params" out = some (all l) ∧
      ∀ x, x ≠ "params" → aget x out = aget x l) ∧
    (∀ v, aget "params" l = some v → initParams all (some l) = none) := by
  constructor
  · intro h
    refine ⟨bins "params" (all l) l, by simp [initParams, h], by rw [aget_bins, if_pos rfl], fun x hx => by rw [aget_bins, if_neg hx]⟩
  · intro v h; simp [initParams, h]

/-- A parameter of a snippet is the one of the command line, else the one of the configuration. -/
theorem snippetParams_get (cli : List (String × V)) (top : Option (List (String × V))) (hc : (cli.map Prod.fst).Nodup) (x : String) :
    aget x (snippetParams cli top) = (aget x cli).or (aget x (top.getD [])) := aget_foldl_bins cli hc _ x

/-- Null removes a parameter in a configuration file. -/
theorem null_removes_partial (layers : List (Config V T F)) (hk : ∀ c ∈ layers, c.Keyed) (c : Config V T F) (hc : c.Keyed) (x : String) (v : V)
    (h : aget x (c.params.getD []) = some v) (hv : null v = true) : aget x ((layered null (layers ++ [c])).params.getD []) = none := by
  rw [params_layered null _ (by simpa [or_imp, forall_and] using ⟨hk, hc⟩)]
  unfold mention
  rw [List.map_append, List.map_cons, List.map_nil, lastGiven_snoc, h]
  simp [Option.filter, hv]

/-- Null in the parameters of a template, or on the command line, does not remove the parameter of the configuration: the
template sees null. -/
theorem null_removes_refuted : ∃ (own top : List (String × Option String)),
    aget "x" own = some none ∧ aget "x" top = some (some "v") ∧ aget "x" (templateParams [] (some top) (some own)) = some none ∧
    aget "x" (templateParams own (some top) none) = some none :=
  ⟨[("x", none)], [("x", some "v")], by decide, by decide, by decide, by decide⟩

/-! ### Examples -/

/-- A home configuration, one of a parent and one of the directory. -/
def exLayers : List (Config (Option String) String Unit) :=
  [{ params := some [("a", some "1"), ("b", some "2")], acronyms := some ["API".toList] },
   { params := some [("b", none), ("c", some "3")], defaultCommentFormat := some "java" },
   { params := some [("c", some "4")], syn := { blockStart := some "<%" } }]

example : ∀ c ∈ exLayers, c.Keyed := by
  intro c hc l h
  simp only [exLayers, List.mem_cons, List.not_mem_nil, or_false] at hc
  rcases hc with rfl | rfl | rfl <;> (cases h; decide)
example : (layered Option.isNone exLayers).params = some [("a", some "1"), ("c", some "4")] := by decide
example : (layered Option.isNone exLayers).syn.blockStart = some "<%" ∧ (layered Option.isNone exLayers).acronyms = some ["API".toList] := by decide
example : collect (fun p => if p.length = 1 then none else some p) (some ["home"]) ["a", "b"] = [["home"], [], ["a", "b"]] := by decide
example : templateParams [("x", 1)] (some [("x", 2), ("y", 2), ("z", 2)]) (some [("x", 3), ("y", 3)]) = [("x", 1), ("y", 3), ("z", 2)] := by decide

end Verif.Gen
