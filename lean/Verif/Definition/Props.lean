import Verif.Definition.Model
import Verif.Policy.EngineProps
import Verif.Archive.Props
import Verif.Util.Forall2

/-!
# Definition files of a registry: properties
-/

namespace Verif.Definition
open Verif.Util Verif.Fs Verif.Policy

/-! ### Specification -/

/-- The file with the path `rel` below the directory `dir` is a definition file with the content `c`: a YAML file that is
not a manifest, neither hidden nor in a hidden directory. Links to files count. -/
structure DefinitionFile (fs : Node) (cwd dir : List String) (rel : List String) (c : String) : Prop where
  below : rel ≠ []
  there : ∃ e, fs.at (dir ++ rel) = some e
  shown : ∀ n ∈ rel, Shown n
  content : readFile fs cwd (absolute (dir ++ rel)) = .ok c
  named : ∃ n b, rel.getLast? = some n ∧ b ≠ [] ∧ (n.toList = b ++ ".yaml".toList ∨ n.toList = b ++ ".yml".toList) ∧
    n ≠ "schema-next.yaml" ∧ n ≠ "manifest.yaml" ∧ n ≠ "registry_manifest.yaml"

/-- The registry is a directory. -/
structure IsDirectory (fs : Node) (cwd : List String) (root : Chars) (dir : List String) : Prop where
  tidy : Tidy fs
  nonempty : root ≠ []
  found : canonicalize fs cwd (Path.ofChars root) = .ok dir
  isDir : ∃ es, fs.at dir = some (.dir es)

/-- The order in which results arrive is some order of all of them. -/
def Fair (schedule : List (List String) → List (List String)) : Prop := ∀ l, (schedule l).Perm l

/-- A path that ends with a slash is also shown to the user with one. -/
def Sound (loc : Place) : Prop := loc.root.getLast? = some '/' → loc.repr.getLast? = some '/'

/-! ### The walk -/

theorem text_head {rel : List String} (h : rel ≠ []) (hp : ∀ n ∈ rel, Plain n) : (text rel).head? ≠ some '/' := by
  have := congrArg Path.abs (ofChars_text h hp)
  simpa [Path.ofChars] using this

theorem pathText_drop {root : Chars} {rel : List String} (h : rel ≠ []) (hp : ∀ n ∈ rel, Plain n) :
    (pathText root rel).drop root.length = if root = [] ∨ root.getLast? = some '/' then text rel else '/' :: text rel := by
  unfold pathText Archive.joinText
  rw [if_neg h, if_neg (text_head h hp)]
  split <;> simp

theorem provenance_some {loc : Place} (hs : Sound loc) (hr : loc.root ≠ []) {rel : List String} (h : rel ≠ [])
    (hp : ∀ n ∈ rel, Plain n) : ∃ p, provenance loc (pathText loc.root rel) = some p := by
  unfold provenance
  dsimp only
  rw [pathText_drop h hp]
  split
  · exact ⟨_, rfl⟩
  · rename_i hn
    rw [if_neg (fun h => h.elim hr fun h => hn (hs h))]
    exact ⟨_, by dsimp only; rw [if_pos (by decide)]⟩

theorem isFile_iff (fs : Node) (cwd : List String) (p : Path) : isFile fs cwd p = true ↔ ∃ c, readFile fs cwd p = .ok c := by
  unfold isFile readFile
  cases canonicalize fs cwd p with
  | error e => simp
  | ok q =>
    dsimp only
    cases fs.at q with
    | none => simp
    | some d => cases d <;> simp

theorem extension_iff {s e : Chars} (he : e ≠ []) (hd : '.' ∉ e) : extension s = e ↔ ∃ b, b ≠ [] ∧ s = b ++ '.' :: e := by
  constructor
  · intro h; obtain ⟨c, h1, h2, -⟩ := extension_some h he; exact ⟨c, h1, h2⟩
  · rintro ⟨b, hb, rfl⟩; exact extension_ext hb hd

theorem isDefinition_iff {fs : Node} {cwd dir : List String} {root : Chars} {rel : List String} (hne : rel ≠ []) :
    isDefinition fs cwd dir root rel = true ↔ ∃ c, readFile fs cwd (absolute (dir ++ rel)) = .ok c ∧
      ∃ n b, rel.getLast? = some n ∧ b ≠ [] ∧ (n.toList = b ++ ".yaml".toList ∨ n.toList = b ++ ".yml".toList) ∧
        n ≠ "schema-next.yaml" ∧ n ≠ "manifest.yaml" ∧ n ≠ "registry_manifest.yaml" := by
  obtain ⟨n, hn⟩ : ∃ n, rel.getLast? = some n := by
    cases h : rel.getLast? with
    | none => exact absurd (List.getLast?_eq_none_iff.1 h) hne
    | some n => exact ⟨n, rfl⟩
  have hname : nameOf root rel = n.toList := by unfold nameOf; rw [hn]
  have hinj : ∀ s : String, (n.toList != s.toList) = true ↔ n ≠ s := fun s => by
    rw [bne_iff_ne]; exact ⟨fun h e => h (by rw [e]), fun h e => h (String.toList_injective e)⟩
  have hext : (extension n.toList == "yaml".toList || extension n.toList == "yml".toList) = true ↔
      ∃ b, b ≠ [] ∧ (n.toList = b ++ ".yaml".toList ∨ n.toList = b ++ ".yml".toList) := by
    rw [Bool.or_eq_true, beq_iff_eq, beq_iff_eq, extension_iff (by decide) (by decide), extension_iff (by decide) (by decide)]
    constructor
    · rintro (⟨b, h, e⟩ | ⟨b, h, e⟩)
      · exact ⟨b, h, .inl e⟩
      · exact ⟨b, h, .inr e⟩
    · rintro ⟨b, h, e | e⟩
      · exact .inl ⟨b, h, e⟩
      · exact .inr ⟨b, h, e⟩
  unfold isDefinition
  dsimp only
  rw [hname, Bool.and_eq_true, Bool.and_eq_true, Bool.and_eq_true, Bool.and_eq_true, hext, hinj, hinj, hinj, isFile_iff]
  constructor
  · rintro ⟨⟨⟨⟨⟨c, hc⟩, b, hb, he⟩, h1⟩, h2⟩, h3⟩
    exact ⟨c, hc, n, b, hn, hb, he, h1, h2, h3⟩
  · rintro ⟨c, hc, m, b, hm, hb, he, h1, h2, h3⟩
    rw [hn] at hm; cases hm
    exact ⟨⟨⟨⟨⟨c, hc⟩, b, hb, he⟩, h1⟩, h2⟩, h3⟩

theorem readFile_dir {fs : Node} {cwd dir : List String} {es : List (String × Node)} (hroot : ∃ r, fs = .dir r)
    (h : fs.at dir = some (.dir es)) : readFile fs cwd (absolute dir) = .error .isADirectory := by
  obtain ⟨r, hr⟩ := hroot
  unfold readFile
  rw [canonicalize_absolute hr h (by trivial)]
  dsimp only
  rw [h]

theorem at_dir_root {fs : Node} {dir : List String} {es : List (String × Node)} (h : fs.at dir = some (.dir es)) : ∃ r, fs = .dir r := by
  cases fs with
  | dir r => exact ⟨r, rfl⟩
  | file c => cases dir with
    | nil => cases h
    | cons a b => cases h
  | link t => cases dir with
    | nil => cases h
    | cons a b => cases h

/-- The definition files the walk finds are those of the specification. -/
theorem found_mem {fs : Node} {cwd dir : List String} {root : Chars} (hd : IsDirectory fs cwd root dir)
    (hh : hidden (rootName root) = false) (rel : List String) :
    rel ∈ (visited fs dir root).filter (isDefinition fs cwd dir root) ↔ ∃ c, DefinitionFile fs cwd dir rel c := by
  obtain ⟨es, hes⟩ := hd.isDir
  have ht := (tidy_at hd.tidy hes).1
  have hv : rel ∈ visited fs dir root ↔ (∃ e, fs.at (dir ++ rel) = some e) ∧ ∀ n ∈ rel, Shown n := by
    unfold visited
    rw [hh, hes, if_neg (by decide)]
    dsimp only
    rw [visible_mem ht]
    constructor
    · rintro ⟨r, rfl, ⟨e, he⟩, h⟩
      exact ⟨⟨e, by rw [at_append, hes]; exact he⟩, h⟩
    · rintro ⟨⟨e, he⟩, h⟩
      refine ⟨rel, rfl, ⟨e, ?_⟩, h⟩
      rw [at_append, hes] at he; exact he
  rw [List.mem_filter, hv]
  by_cases hne : rel = []
  · subst hne
    constructor
    · rintro ⟨-, h⟩
      have : isFile fs cwd (absolute (dir ++ [])) = true := by
        unfold isDefinition at h
        dsimp only at h
        simp only [Bool.and_eq_true] at h
        exact h.1.1.1.1
      obtain ⟨c, hc⟩ := (isFile_iff ..).1 this
      rw [List.append_nil, readFile_dir (at_dir_root hes) hes] at hc
      cases hc
    · rintro ⟨c, h⟩; exact absurd rfl h.below
  · rw [isDefinition_iff hne]
    constructor
    · rintro ⟨⟨he, hs⟩, c, hc, hn⟩; exact ⟨c, hne, he, hs, hc, hn⟩
    · rintro ⟨c, h⟩; exact ⟨⟨h.there, h.shown⟩, c, h.content, h.named⟩

/-! ### Reading -/

theorem collect_ok {σ ε : Type} {rs : List (Result σ ε)} (hp : ∀ r ∈ rs, r.isPanic = false) {S S' : List (σ × Chars)} {N N' : List ε}
    (h : collect rs S N = .ok (S', N')) : ∃ ts : List (σ × Chars × List ε), rs = ts.map (fun t => .ok t.1 t.2.1 t.2.2) ∧
      S' = S ++ ts.map (fun t => (t.1, t.2.1)) ∧ N' = N ++ ts.flatMap (fun t => t.2.2) := by
  induction rs generalizing S N with
  | nil => cases h; exact ⟨[], rfl, by simp, by simp⟩
  | cons r rs ih =>
    have ih := fun {S N} => @ih (fun r hr => hp r (by simp [hr])) S N
    cases r with
    | panic => exact absurd (hp _ (List.mem_cons_self ..)) (by simp [Result.isPanic])
    | fatal e => cases h
    | ok s p n =>
      obtain ⟨ts, h1, h2, h3⟩ := ih h
      exact ⟨(s, p, n) :: ts, by rw [h1]; rfl, by rw [h2]; simp, by rw [h3]; simp⟩

theorem collect_error {σ ε : Type} {rs : List (Result σ ε)} {S : List (σ × Chars)} {N : List ε} {e : ε}
    (h : collect rs S N = .error e) : .fatal e ∈ rs := by
  induction rs generalizing S N with
  | nil => cases h
  | cons r rs ih =>
    cases r with
    | panic => exact List.mem_cons_of_mem _ (ih h)
    | fatal e' => cases h; exact List.mem_cons_self ..
    | ok s p n => exact List.mem_cons_of_mem _ (ih h)

theorem collect_total {σ ε : Type} {rs : List (Result σ ε)} (h : ∀ r ∈ rs, ∃ s p n, r = .ok s p n) (S : List (σ × Chars)) (N : List ε) :
    ∃ x, collect rs S N = .ok x := by
  induction rs generalizing S N with
  | nil => exact ⟨_, rfl⟩
  | cons r rs ih =>
    obtain ⟨s, p, n, rfl⟩ := h r (List.mem_cons_self ..)
    exact ih (fun r hr => h r (List.mem_cons_of_mem _ hr)) _ _

theorem DefinitionFile.plain {fs : Node} {cwd dir rel : List String} {c : String} (ht : Tidy fs)
    (h : DefinitionFile fs cwd dir rel c) : ∀ n ∈ rel, Plain n := by
  obtain ⟨e, he⟩ := h.there
  intro n hn
  exact (tidy_at ht he).2 n (List.mem_append_right _ hn)

theorem readOne_file {σ ε ι : Type} {w : World σ ε ι} {loc : Place} {dir : List String} {missing : ε} {rel : List String} {c : String}
    (hs : Sound loc) (hr : loc.root ≠ []) (ht : Tidy w.fs) (h : DefinitionFile w.fs w.cwd dir rel c) :
    ∃ p, provenance loc (pathText loc.root rel) = some p ∧ readOne w loc dir missing rel =
      match w.parse (pathText loc.root rel) c with
      | .error e => .fatal e
      | .ok x => .ok x.1 p x.2 := by
  obtain ⟨p, hp⟩ := provenance_some hs hr h.below (h.plain ht)
  refine ⟨p, hp, ?_⟩
  unfold readOne
  rw [hp]
  dsimp only
  rw [h.content]
  dsimp only
  cases w.parse (pathText loc.root rel) c <;> rfl

/-- The files that are read, in the order of the schedule. -/
theorem order_mem {fs : Node} {cwd dir : List String} {root : Chars} (hd : IsDirectory fs cwd root dir)
    (hh : hidden (rootName root) = false) {schedule} (hf : Fair schedule) :
    let rels := (schedule (visited fs dir root)).filter (isDefinition fs cwd dir root)
    rels.Nodup ∧ ∀ rel, rel ∈ rels ↔ ∃ c, DefinitionFile fs cwd dir rel c := by
  have hp := (hf (visited fs dir root)).filter (isDefinition fs cwd dir root)
  refine ⟨hp.nodup_iff.2 ?_, fun rel => by rw [← found_mem hd hh]; exact hp.mem_iff⟩
  obtain ⟨es, hes⟩ := hd.isDir
  unfold visited
  rw [hh, hes, if_neg (by decide)]
  exact (visible_nodup (tidy_at hd.tidy hes).1 []).filter _

theorem load_eq {σ ε ι : Type} {w : World σ ε ι} {loc : Place} {dir : List String} {missing : ε} {schedule}
    (hd : IsDirectory w.fs w.cwd loc.root dir) (hs : Sound loc) (hh : hidden (rootName loc.root) = false) (hf : Fair schedule) :
    let rels := (schedule (visited w.fs dir loc.root)).filter (isDefinition w.fs w.cwd dir loc.root)
    (∀ r ∈ rels.map (readOne w loc dir missing), r.isPanic = false) ∧
    load w loc missing schedule = match collect (rels.map (readOne w loc dir missing)) [] [] with
      | .error e => .fatal e
      | .ok x => .ok ⟨x.1, importsOf w x.1, x.2⟩ := by
  have hnp : ∀ r ∈ ((schedule (visited w.fs dir loc.root)).filter (isDefinition w.fs w.cwd dir loc.root)).map (readOne w loc dir missing),
      r.isPanic = false := by
    intro r hr
    obtain ⟨rel, hrel, rfl⟩ := List.mem_map.1 hr
    obtain ⟨c, hc⟩ := ((order_mem hd hh hf).2 rel).1 hrel
    obtain ⟨p, -, h⟩ := readOne_file (missing := missing) hs hd.nonempty hd.tidy hc
    rw [h]
    cases w.parse (pathText loc.root rel) c <;> rfl
  refine ⟨hnp, ?_⟩
  unfold load
  rw [if_neg hd.nonempty, hd.found]
  dsimp only
  unfold loadOrder
  dsimp only
  rw [if_neg]
  · rfl
  · rw [Bool.not_eq_true, List.any_eq_false]
    intro r hr; rw [hnp r hr]; decide

/-- What a successful load of a registry directory gives. -/
structure Complete {σ ε ι : Type} (w : World σ ε ι) (loc : Place) (dir : List String) (l : Loaded σ ε ι) : Prop where
  /-- The definitions are those of the definition files, one of each file, with the path of the file. -/
  specs : ∃ rels : List (List String), rels.Nodup ∧ (∀ rel, rel ∈ rels ↔ ∃ c, DefinitionFile w.fs w.cwd dir rel c) ∧
    Forall2 (fun rel s => ∃ c nfes, DefinitionFile w.fs w.cwd dir rel c ∧ w.parse (pathText loc.root rel) c = .ok (s.1, nfes) ∧
      provenance loc (pathText loc.root rel) = some s.2) rels l.specs
  /-- The messages are those about the files. -/
  nfes : ∀ m, m ∈ l.nfes ↔ ∃ rel c s nfes, DefinitionFile w.fs w.cwd dir rel c ∧
    w.parse (pathText loc.root rel) c = .ok (s, nfes) ∧ m ∈ nfes
  /-- The imports are those of the definitions. -/
  imports : ∀ i p, (i, p) ∈ l.imports ↔ ∃ s, (s, p) ∈ l.specs ∧ w.imports s = some i

/-- A load of a directory that succeeds gives all definition files, whatever the schedule is. Not shown: registries whose
path is hidden. -/
theorem load_complete_partial {σ ε ι : Type} {w : World σ ε ι} {loc : Place} {dir : List String} {missing : ε} {schedule}
    (hd : IsDirectory w.fs w.cwd loc.root dir) (hs : Sound loc) (hh : hidden (rootName loc.root) = false) (hf : Fair schedule)
    {l : Loaded σ ε ι} (h : load w loc missing schedule = .ok l) : Complete w loc dir l := by
  obtain ⟨hnp, he⟩ := load_eq (missing := missing) hd hs hh hf
  obtain ⟨hnd, hmem⟩ := order_mem hd hh hf
  rw [he] at h
  generalize (schedule (visited w.fs dir loc.root)).filter (isDefinition w.fs w.cwd dir loc.root) = rels at hnp hnd hmem h
  cases hc : collect (rels.map (readOne w loc dir missing)) [] [] with
  | error e => rw [hc] at h; cases h
  | ok x =>
    rw [hc] at h
    cases h
    obtain ⟨S, N⟩ := x
    obtain ⟨ts, h1, h2, h3⟩ := collect_ok hnp hc
    rw [List.nil_append] at h2 h3
    subst h2 h3
    have hall : Forall2 (fun rel (t : σ × Chars × List ε) => ∃ c, DefinitionFile w.fs w.cwd dir rel c ∧
        w.parse (pathText loc.root rel) c = .ok (t.1, t.2.2) ∧ provenance loc (pathText loc.root rel) = some t.2.1) rels ts := by
      have hm : ∀ rel ∈ rels, ∃ c, DefinitionFile w.fs w.cwd dir rel c := fun rel hr => (hmem rel).1 hr
      clear hmem hnd hc hnp
      induction rels generalizing ts with
      | nil =>
        cases ts with
        | nil => exact .nil
        | cons t ts => cases h1
      | cons rel rels ih =>
        cases ts with
        | nil => cases h1
        | cons t ts =>
          rw [List.map_cons, List.map_cons, List.cons.injEq] at h1
          refine .cons ?_ (ih ts h1.2 fun rel hr => hm rel (List.mem_cons_of_mem _ hr))
          obtain ⟨c, hc⟩ := hm rel (List.mem_cons_self ..)
          obtain ⟨p, hp, hr⟩ := readOne_file (missing := missing) hs hd.nonempty hd.tidy hc
          rw [hr] at h1
          refine ⟨c, hc, ?_⟩
          cases hparse : w.parse (pathText loc.root rel) c with
          | error e => rw [hparse] at h1; cases h1.1
          | ok x =>
            rw [hparse] at h1
            have := h1.1
            simp only [Result.ok.injEq] at this
            rw [hp, this.2.1, ← this.1, ← this.2.2]
            exact ⟨rfl, rfl⟩
    refine ⟨⟨rels, hnd, hmem, ?_⟩, ?_, ?_⟩
    · clear h1 hc hnp hnd hmem
      induction hall with
      | nil => exact .nil
      | cons h _ ih =>
        obtain ⟨c, h1, h2, h3⟩ := h
        exact .cons ⟨c, _, h1, h2, h3⟩ ih
    · intro m
      rw [List.mem_flatMap]
      constructor
      · rintro ⟨t, ht, hm⟩
        obtain ⟨rel, hr, c, h1, h2, -⟩ := hall.mem_right ht
        exact ⟨rel, c, t.1, t.2.2, h1, h2, hm⟩
      · rintro ⟨rel, c, s, nfes, hfile, hparse, hm⟩
        obtain ⟨t, ht, c', h1, h2, -⟩ := hall.mem_left ((hmem rel).2 ⟨c, hfile⟩)
        have : c' = c := by have := h1.content; rw [hfile.content] at this; cases this; rfl
        subst this
        rw [hparse] at h2
        cases h2
        exact ⟨t, ht, hm⟩
    · intro i p
      unfold importsOf
      rw [List.mem_filterMap]
      constructor
      · rintro ⟨s, hs, h⟩
        cases hi : w.imports s.1 with
        | none => rw [hi] at h; cases h
        | some j => rw [hi] at h; cases h; exact ⟨s.1, hs, hi⟩
      · rintro ⟨s, hs, hi⟩
        exact ⟨(s, p), hs, by rw [hi]; rfl⟩

/-- Loading a directory succeeds if and only if every definition file can be read. -/
theorem load_ok_iff {σ ε ι : Type} {w : World σ ε ι} {loc : Place} {dir : List String} {missing : ε} {schedule}
    (hd : IsDirectory w.fs w.cwd loc.root dir) (hs : Sound loc) (hh : hidden (rootName loc.root) = false) (hf : Fair schedule) :
    (∃ l, load w loc missing schedule = .ok l) ↔
      ∀ rel c, DefinitionFile w.fs w.cwd dir rel c → ∃ x, w.parse (pathText loc.root rel) c = .ok x := by
  constructor
  · rintro ⟨l, h⟩ rel c hfile
    obtain ⟨⟨rels, -, hmem, hall⟩, -, -⟩ := load_complete_partial hd hs hh hf h
    obtain ⟨s, -, c', nfes, h1, h2, -⟩ := hall.mem_left ((hmem rel).2 ⟨c, hfile⟩)
    have : c' = c := by have := h1.content; rw [hfile.content] at this; cases this; rfl
    subst this
    exact ⟨_, h2⟩
  · intro h
    obtain ⟨-, he⟩ := load_eq (missing := missing) hd hs hh hf
    obtain ⟨-, hmem⟩ := order_mem hd hh hf
    rw [he]
    obtain ⟨x, hx⟩ := collect_total (rs := ((schedule (visited w.fs dir loc.root)).filter
      (isDefinition w.fs w.cwd dir loc.root)).map (readOne w loc dir missing)) (by
        intro r hr
        obtain ⟨rel, hrel, rfl⟩ := List.mem_map.1 hr
        obtain ⟨c, hc⟩ := (hmem rel).1 hrel
        obtain ⟨p, -, h2⟩ := readOne_file (missing := missing) hs hd.nonempty hd.tidy hc
        obtain ⟨x, hx⟩ := h rel c hc
        rw [h2, hx]
        exact ⟨_, _, _, rfl⟩) [] []
    rw [hx]
    exact ⟨_, rfl⟩

/-- A failed load of a directory reports the error of one of the files. -/
theorem load_not_ok {σ ε ι : Type} {w : World σ ε ι} {loc : Place} {dir : List String} {missing : ε} {schedule}
    (hd : IsDirectory w.fs w.cwd loc.root dir) (hs : Sound loc) (hh : hidden (rootName loc.root) = false) (hf : Fair schedule) :
    (∃ l, load w loc missing schedule = .ok l) ∨ ∃ e rel c, load w loc missing schedule = .fatal e ∧
      DefinitionFile w.fs w.cwd dir rel c ∧ w.parse (pathText loc.root rel) c = .error e := by
  obtain ⟨-, he⟩ := load_eq (missing := missing) hd hs hh hf
  obtain ⟨-, hmem⟩ := order_mem hd hh hf
  rw [he]
  cases hc : collect (((schedule (visited w.fs dir loc.root)).filter
      (isDefinition w.fs w.cwd dir loc.root)).map (readOne w loc dir missing)) [] [] with
  | ok x => exact .inl ⟨_, rfl⟩
  | error e =>
    obtain ⟨rel, hrel, hr⟩ := List.mem_map.1 (collect_error hc)
    obtain ⟨c, hfile⟩ := (hmem rel).1 hrel
    obtain ⟨p, -, h2⟩ := readOne_file (missing := missing) hs hd.nonempty hd.tidy hfile
    rw [h2] at hr
    refine .inr ⟨e, rel, c, rfl, hfile, ?_⟩
    cases hp : w.parse (pathText loc.root rel) c with
    | error e' => rw [hp] at hr; cases hr; rfl
    | ok x => rw [hp] at hr; cases hr

/-- A registry path that does not exist is an error. -/
theorem load_missing {σ ε ι : Type} {w : World σ ε ι} {loc : Place} {missing : ε} {schedule}
    (h : loc.root = [] ∨ ∃ e, canonicalize w.fs w.cwd (Path.ofChars loc.root) = .error e) :
    load w loc missing schedule = .walkError := by
  unfold load
  split
  · rfl
  · rename_i hr
    rcases h with h | ⟨e, h⟩
    · exact absurd h hr
    · rw [h]

/-- The schedule changes only the order of the definitions and of the messages. -/
theorem load_schedule {σ ε ι : Type} {w : World σ ε ι} {loc : Place} {missing : ε} {s₁ s₂} (h1 : Fair s₁) (h2 : Fair s₂)
    {l : Loaded σ ε ι} (h : load w loc missing s₁ = .ok l) :
    ∃ l', load w loc missing s₂ = .ok l' ∧ l.specs.Perm l'.specs ∧ l.imports.Perm l'.imports ∧ l.nfes.Perm l'.nfes := by
  unfold load at h ⊢
  split at h
  · cases h
  · rename_i hr
    rw [if_neg hr]
    cases hc : canonicalize w.fs w.cwd (Path.ofChars loc.root) with
    | error e => rw [hc] at h; cases h
    | ok dir =>
      rw [hc] at h
      dsimp only at h ⊢
      have hp : ((s₁ (visited w.fs dir loc.root)).filter (isDefinition w.fs w.cwd dir loc.root)).map (readOne w loc dir missing) |>.Perm
          (((s₂ (visited w.fs dir loc.root)).filter (isDefinition w.fs w.cwd dir loc.root)).map (readOne w loc dir missing)) :=
        (((h1 _).trans (h2 _).symm).filter _).map _
      unfold loadOrder at h ⊢
      dsimp only at h ⊢
      generalize ((s₁ (visited w.fs dir loc.root)).filter (isDefinition w.fs w.cwd dir loc.root)).map (readOne w loc dir missing) = rs at h hp
      generalize ((s₂ (visited w.fs dir loc.root)).filter (isDefinition w.fs w.cwd dir loc.root)).map (readOne w loc dir missing) = rs' at hp ⊢
      split at h
      · cases h
      · rename_i hnp
        rw [Bool.not_eq_true, List.any_eq_false] at hnp
        have hnp' : ∀ r ∈ rs', r.isPanic = false := fun r hr => by simpa using hnp r (hp.mem_iff.2 hr)
        rw [if_neg (by rw [Bool.not_eq_true, List.any_eq_false]; intro r hr; rw [hnp' r hr]; decide)]
        cases hcol : collect rs [] [] with
        | error e => rw [hcol] at h; cases h
        | ok x =>
          rw [hcol] at h
          cases h
          obtain ⟨S, N⟩ := x
          obtain ⟨ts, e1, e2, e3⟩ := collect_ok (fun r hr => by simpa using hnp r hr) hcol
          obtain ⟨x', hx'⟩ := collect_total (rs := rs') (by
            intro r hr
            have := hp.mem_iff.2 hr
            rw [e1] at this
            obtain ⟨t, -, rfl⟩ := List.mem_map.1 this
            exact ⟨_, _, _, rfl⟩) [] []
          rw [hx']
          obtain ⟨S', N'⟩ := x'
          obtain ⟨ts', e1', e2', e3'⟩ := collect_ok hnp' hx'
          rw [List.nil_append] at e2 e3 e2' e3'
          subst e2 e3 e2' e3'
          have hts : ts.Perm ts' := by
            rw [e1, e1'] at hp
            have hg : ∀ l : List (σ × Chars × List ε), (l.map (fun t => (Result.ok t.1 t.2.1 t.2.2 : Result σ ε))).filterMap
                (fun r => match r with | .ok a b c => some (a, b, c) | _ => none) = l := by
              intro l
              induction l with
              | nil => rfl
              | cons t l ih => simp only [List.map_cons, List.filterMap_cons]; rw [ih]
            have := hp.filterMap (fun r => match r with | .ok a b c => some (a, b, c) | _ => none)
            rwa [hg, hg] at this
          exact ⟨_, rfl, hts.map _, (hts.map _).filterMap _, hts.flatMap_right _⟩

/-! ### An example -/

/-- A directory with definitions, a manifest and other files. -/
def exFs : Node := .dir [
  ("home", .dir [
    ("reg", .dir [
      ("manifest.yaml", .file "M"),
      ("a.yaml", .file "A"),
      ("README.md", .file "R"),
      (".git", .dir [("b.yaml", .file "G")]),
      ("sub", .dir [("b.yml", .file "B"), (".c.yaml", .file "C"), ("l.yaml", .link ⟨true, [.cur, .name "x.txt"]⟩)])])]),
  ("x.txt", .file "X")]

/-- A parser that rejects `Z` and gives a message about `B`. -/
def exWorld (cwd : List String) : World String String String :=
  ⟨exFs, cwd, fun _ c => if c = "Z" then .error "bad" else .ok (c, if c = "B" then ["old"] else []), fun s => if s = "A" then some "i" else none⟩

theorem exFs_tidy : Tidy exFs := by
  unfold exFs
  repeat' first
    | exact .file _
    | exact .link _
    | refine .dir _ (by decide) (by unfold Plain; decide) ?_
    | simp only [List.mem_cons, List.not_mem_nil, or_false, forall_eq_or_imp, forall_eq]
    | constructor

theorem exDirectory : IsDirectory exFs [] "/home/reg".toList ["home", "reg"] :=
  ⟨exFs_tidy, by decide, by decide +kernel, ⟨_, rfl⟩⟩

example : Sound ⟨"/home/reg".toList, "/home/reg".toList⟩ ∧ hidden (rootName "/home/reg".toList) = false ∧ Fair id ∧
    load (exWorld []) ⟨"/home/reg".toList, "/home/reg".toList⟩ "gone" id = .ok
      ⟨[("A", "/home/reg/a.yaml".toList), ("B", "/home/reg/sub/b.yml".toList), ("X", "/home/reg/sub/l.yaml".toList)],
       [("i", "/home/reg/a.yaml".toList)], ["old"]⟩ :=
  ⟨fun h => h, by decide +kernel, fun _ => .refl _, by decide +kernel⟩

theorem exFile : DefinitionFile exFs ["home", "reg"] ["home", "reg"] ["a.yaml"] "A" :=
  ⟨by decide, ⟨_, rfl⟩, (by intro n hn r; rw [List.mem_singleton] at hn; subst hn; intro h; cases h), by decide +kernel,
    "a.yaml", "a".toList, rfl, by decide, .inl (by decide), by decide, by decide, by decide⟩

/-! ### Hidden registries -/

/-- A registry whose path has a hidden name, or is `.` or `..`, is loaded without error and without definitions. -/
theorem hidden_empty {σ ε ι : Type} {w : World σ ε ι} {loc : Place} {dir : List String} {missing : ε} {schedule}
    (hd : IsDirectory w.fs w.cwd loc.root dir) (hh : hidden (rootName loc.root) = true) (hf : Fair schedule) :
    load w loc missing schedule = .ok {} := by
  unfold load
  rw [if_neg hd.nonempty, hd.found]
  dsimp only
  unfold visited
  rw [hh, if_pos rfl, List.perm_nil.1 (hf [])]
  rfl

/-- The registry in the current directory has definitions, and none of them is loaded. -/
theorem load_complete_refuted : ∃ (w : World String String String) (dir : List String), IsDirectory w.fs w.cwd ".".toList dir ∧
    (∃ rel c, DefinitionFile w.fs w.cwd dir rel c) ∧ ∀ schedule, Fair schedule → load w ⟨".".toList, ".".toList⟩ "gone" schedule = .ok {} :=
  have hd : IsDirectory (exWorld ["home", "reg"]).fs (exWorld ["home", "reg"]).cwd ".".toList ["home", "reg"] :=
    ⟨exFs_tidy, by decide, by decide +kernel, ⟨_, rfl⟩⟩
  ⟨exWorld ["home", "reg"], ["home", "reg"], hd, ⟨["a.yaml"], "A", exFile⟩,
    fun _ hf => hidden_empty (loc := ⟨".".toList, ".".toList⟩) hd (by decide +kernel) hf⟩

example : hidden (rootName ".".toList) = true ∧ hidden (rootName "..".toList) = true ∧ hidden (rootName "./".toList) = true ∧
    hidden (rootName "a/.semconv".toList) = true ∧ hidden (rootName "./model".toList) = false ∧
    hidden (rootName "/home/reg/".toList) = false := by decide +kernel

/-! ### Panics -/

/-- Loading a directory never panics if the registry path is shown with a slash at the end when it has one. -/
theorem no_panic_partial {σ ε ι : Type} {w : World σ ε ι} {loc : Place} {dir : List String} {missing : ε} {schedule}
    (hd : IsDirectory w.fs w.cwd loc.root dir) (hs : Sound loc) (hf : Fair schedule) : load w loc missing schedule ≠ .panic := by
  cases hh : hidden (rootName loc.root) with
  | true => rw [hidden_empty hd hh hf]; exact nofun
  | false =>
    rcases load_not_ok (missing := missing) hd hs hh hf with ⟨l, h⟩ | ⟨e, _, _, h, -⟩
    · rw [h]; exact nofun
    · rw [h]; exact nofun

/-- A registry path that is a YAML file, which is read as the manifest, makes loading panic unless the file has one of the
names of manifests. -/
theorem file_panics {σ ε ι : Type} {w : World σ ε ι} {root : Chars} {dir : List String} {missing : ε} {schedule} {c : String}
    {n : String} {b : Chars} (hf : Fair schedule) (hr : root ≠ []) (hc : canonicalize w.fs w.cwd (Path.ofChars root) = .ok dir)
    (hroot : ∃ r, w.fs = .dir r) (hat : w.fs.at dir = some (.file c)) (hn : fileName (Path.ofChars root) = some n)
    (hy : b ≠ []) (he : n.toList = b ++ ".yaml".toList ∨ n.toList = b ++ ".yml".toList) (hb : Shown n)
    (h1 : n ≠ "schema-next.yaml") (h2 : n ≠ "manifest.yaml") (h3 : n ≠ "registry_manifest.yaml")
    (hl : root.getLast? ≠ some '/') : load w ⟨root, root⟩ missing schedule = .panic := by
  have hhid : hidden (rootName root) = false := by
    unfold rootName; rw [hn]; exact (shown_iff n).1 hb
  have hext : (extension n.toList == "yaml".toList || extension n.toList == "yml".toList) = true := by
    rw [Bool.or_eq_true, beq_iff_eq, beq_iff_eq, extension_iff (by decide) (by decide), extension_iff (by decide) (by decide)]
    exact he.imp (fun h => ⟨b, hy, h⟩) (fun h => ⟨b, hy, h⟩)
  have hfile : isFile w.fs w.cwd (absolute (dir ++ [])) = true := by
    obtain ⟨r, hr⟩ := hroot
    rw [List.append_nil]
    unfold isFile
    rw [canonicalize_absolute hr hat (by trivial)]
    dsimp only
    rw [hat]
  have hdef : isDefinition w.fs w.cwd dir root [] = true := by
    have hinj : ∀ s : String, n ≠ s → (n.toList != s.toList) = true := fun s h => by
      rw [bne_iff_ne]; exact fun e => h (String.toList_injective e)
    unfold isDefinition
    have : nameOf root [] = n.toList := by unfold nameOf; rw [hn]; rfl
    dsimp only
    rw [this, hfile, hext, hinj _ h1, hinj _ h2, hinj _ h3]
    rfl
  unfold load
  rw [if_neg hr, hc]
  dsimp only
  have hv : visited w.fs dir root = [[]] := by
    unfold visited; rw [hhid, hat]; rfl
  rw [hv, List.perm_singleton.1 (hf [[]])]
  unfold loadOrder
  dsimp only
  rw [List.filter_cons, if_pos hdef]
  have hprov : readOne w ⟨root, root⟩ dir missing [] = .panic := by
    unfold readOne provenance pathText
    simp [hl]
  simp [hprov, Result.isPanic]

/-- A registry given by the path of its manifest panics, or is loaded without its definitions. -/
theorem no_panic_refuted : ∃ (fs : Node) (w : World String String String), Tidy fs ∧ w.fs = fs ∧
    manifestPath fs [] "/r/m.yaml".toList = some (Path.ofChars "/r/m.yaml".toList) ∧
    (∀ schedule, Fair schedule → load w ⟨"/r/m.yaml".toList, "/r/m.yaml".toList⟩ "gone" schedule = .panic) := by
  refine ⟨.dir [("r", .dir [("m.yaml", .file "M"), ("a.yaml", .file "A")])],
    ⟨.dir [("r", .dir [("m.yaml", .file "M"), ("a.yaml", .file "A")])], [], fun _ c => .ok (c, []), fun _ => none⟩, ?_, rfl,
    by decide +kernel, fun schedule hf => ?_⟩
  · repeat' first
      | exact .file _
      | refine .dir _ (by decide) (by unfold Plain; decide) ?_
      | simp only [List.mem_cons, List.not_mem_nil, or_false, forall_eq_or_imp, forall_eq]
      | constructor
  · exact file_panics (dir := ["r", "m.yaml"]) (c := "M") (n := "m.yaml") (b := "m".toList) hf (by decide) (by decide +kernel) ⟨_, rfl⟩
      rfl (by decide +kernel) (by decide) (.inl (by decide)) (by intro r h; cases h) (by decide) (by decide) (by decide) (by decide)

/-- A registry given by its manifest file is loaded without the definitions beside the manifest. -/
theorem manifest_registry_refuted : ∃ (w : World String String String) (dir : List String),
    IsDirectory w.fs w.cwd "/home/reg".toList dir ∧
    manifestPath w.fs w.cwd "/home/reg".toList = some (Path.ofChars "/home/reg/manifest.yaml".toList) ∧
    manifestPath w.fs w.cwd "/home/reg/manifest.yaml".toList = some (Path.ofChars "/home/reg/manifest.yaml".toList) ∧
    (∃ rel c, DefinitionFile w.fs w.cwd dir rel c) ∧
    load w ⟨"/home/reg/manifest.yaml".toList, "/home/reg/manifest.yaml".toList⟩ "gone" id = .ok {} := by
  refine ⟨exWorld ["home", "reg"], ["home", "reg"], ⟨exFs_tidy, by decide, by decide +kernel, ⟨_, rfl⟩⟩, by decide +kernel,
    by decide +kernel, ⟨["a.yaml"], "A", exFile⟩, by decide +kernel⟩

open Classical in
/-- In a directory, `manifest.yaml` is the manifest if it exists; if not, `registry_manifest.yaml` is. -/
theorem manifest_choice {fs : Node} {cwd : List String} {root : Chars} (hd : isFile fs cwd (Path.ofChars root) = false) :
    let m := (Path.ofChars root).push ⟨false, [.name "manifest.yaml"]⟩
    let l := (Path.ofChars root).push ⟨false, [.name "registry_manifest.yaml"]⟩
    manifestPath fs cwd root =
      if ∃ q, canonicalize fs cwd m = .ok q then some m else if ∃ q, canonicalize fs cwd l = .ok q then some l else none := by
  have e : ∀ p, pathExists fs cwd p = true ↔ ∃ q, canonicalize fs cwd p = .ok q := by
    intro p; unfold pathExists; cases canonicalize fs cwd p <;> simp
  have h1 : Path.ofChars "manifest.yaml".toList = ⟨false, [.name "manifest.yaml"]⟩ := by decide +kernel
  have h2 : Path.ofChars "registry_manifest.yaml".toList = ⟨false, [.name "registry_manifest.yaml"]⟩ := by decide +kernel
  dsimp only
  unfold manifestPath
  rw [hd, if_neg (by decide)]
  dsimp only
  rw [h1, h2]
  simp only [e]

example : manifestPath exFs [] "/home/reg".toList = some ⟨true, [.cur, .name "home", .name "reg", .name "manifest.yaml"]⟩ := by
  decide +kernel

/-! ### The path of a definition file -/

open Verif.Common in
/-- The local path and the shown path of a registry path. -/
def placeOf (tmp : Chars) (v : VPath) : Place := ⟨Archive.located tmp v, v.print⟩

theorem provenance_eq {loc : Place} (hm : loc.root.getLast? = some '/' ↔ loc.repr.getLast? = some '/') (hr : loc.root ≠ [])
    (hr' : loc.repr ≠ []) {rel : List String} (h : rel ≠ []) (hp : ∀ n ∈ rel, Plain n) :
    provenance loc (pathText loc.root rel) = some (Archive.joinText loc.repr (text rel)) := by
  unfold provenance
  dsimp only
  rw [pathText_drop h hp]
  unfold Archive.joinText
  rw [if_neg (text_head h hp)]
  by_cases hl : loc.repr.getLast? = some '/'
  · rw [if_pos hl, if_pos (.inr (hm.2 hl)), if_pos (.inr hl)]
  · rw [if_neg hl, if_neg (fun h => h.elim hr fun h => hl (hm.1 h)), if_neg (fun h => h.elim hr' hl)]
    dsimp only
    rw [if_pos (by decide)]

/-- The file of a local registry is shown with its own path. -/
theorem provenance_local {p : Chars} (hp0 : p ≠ []) {tmp : Chars} {rel : List String} (h : rel ≠ []) (hp : ∀ n ∈ rel, Plain n) :
    provenance (placeOf tmp (.localFolder p)) (pathText p rel) = some (pathText p rel) := by
  have := provenance_eq (loc := ⟨p, p⟩) Iff.rfl hp0 hp0 h hp
  unfold pathText at this ⊢
  rw [if_neg h] at this ⊢
  exact this

theorem getLast_append_ne {a b : Chars} (h : b ≠ []) : (a ++ b).getLast? = b.getLast? := by
  rw [List.getLast?_append]
  cases hb : b.getLast? with
  | none => exact absurd (List.getLast?_eq_none_iff.1 hb) h
  | some c => rfl

theorem print_sub_last (a : Chars) (s : Chars) : (a ++ Common.printSub (some s)).getLast? = some ']' := by
  rw [getLast_append_ne (by simp [Common.printSub])]
  unfold Common.printSub
  rw [getLast_append_ne (by simp)]
  rfl

theorem archive_last {p : Chars} (h : Common.isArchive p = true) : p.getLast? ≠ some '/' := by
  unfold Common.isArchive at h
  rw [Bool.or_eq_true, List.isSuffixOf_iff_suffix, List.isSuffixOf_iff_suffix] at h
  rcases h with ⟨a, rfl⟩ | ⟨a, rfl⟩
  · rw [getLast_append_ne (by decide)]; decide
  · rw [getLast_append_ne (by decide)]; decide

open Verif.Common in
/-- The registry path is not one whose files get a wrong path: a sub folder of a clone does not end with a slash, and nor
does the path of a clone without sub folder. -/
def WellShown : VPath → Prop
  | .localFolder _ => True
  | .localArchive _ _ => True
  | .remoteArchive _ _ => True
  | .gitRepo u r none => (VPath.gitRepo u r none).print.getLast? ≠ some '/'
  | .gitRepo _ _ (some s) => ∃ c, s.getLast? = some c ∧ c ≠ '/'
  | .remoteFile _ => False

open Verif.Common in
/-- A definition file of a fetched registry is shown with the registry path followed by the path of the file in it. Not
shown: the registry paths that are not `WellShown`. -/
theorem provenance_partial {s : Chars} {v : VPath} (hv : VPath.parse s = some v) (hw : WellShown v) {tmp : Chars} (ht : tmp ≠ [])
    (htl : tmp.getLast? ≠ some '/') {rel : List String} (h : rel ≠ []) (hp : ∀ n ∈ rel, Plain n) :
    provenance (placeOf tmp v) (pathText (placeOf tmp v).root rel) = some (Archive.joinText v.print (text rel)) := by
  obtain ⟨c, hc, rfl⟩ := Option.map_eq_some_iff.1 hv
  have hsrc : c.1 ≠ [] := by
    unfold captures at hc
    split at hc
    · cases hc
    · have : ∀ s : Chars, ∀ x, shortest matchRef s = some x → x.1 ≠ [] := by
        intro s x hx
        cases s with
        | nil => cases hx
        | cons a r =>
          unfold shortest at hx
          split at hx
          · cases hx; simp
          · obtain ⟨y, -, rfl⟩ := Option.map_eq_some_iff.1 hx; simp
      exact this _ _ hc
  generalize hcl : classify c.1 c.2.1 c.2.2 = v at hw ⊢
  have harch : ∀ p sub, (v = .localArchive p sub ∨ v = .remoteArchive p sub) → p ≠ [] ∧ isArchive p = true := by
    intro p sub hvp
    unfold classify at hcl
    split at hcl
    · split at hcl
      · rename_i ha; rcases hvp with rfl | rfl <;> cases hcl; exact ⟨hsrc, ha⟩
      · split at hcl <;> rcases hvp with rfl | rfl <;> cases hcl
    · split at hcl
      · rename_i ha; rcases hvp with rfl | rfl <;> cases hcl; exact ⟨hsrc, ha⟩
      · rcases hvp with rfl | rfl <;> cases hcl
  have harchLast : ∀ p sub, p ≠ [] → isArchive p = true → (p ++ printSub sub).getLast? ≠ some '/' ∧ p ++ printSub sub ≠ [] := by
    intro p sub hp0 ha
    refine ⟨?_, by simp [hp0]⟩
    cases sub with
    | none => simpa [printSub] using archive_last ha
    | some t => rw [print_sub_last]; decide
  cases v with
  | localFolder p =>
    have hp0 : p ≠ [] := by
      unfold classify at hcl
      split at hcl
      · split at hcl
        · cases hcl
        · split at hcl <;> cases hcl
      · split at hcl <;> cases hcl
        exact hsrc
    exact provenance_eq (loc := ⟨p, p⟩) Iff.rfl hp0 hp0 h hp
  | localArchive p sub =>
    obtain ⟨h1, h2⟩ := harch p sub (.inl rfl)
    obtain ⟨h3, h4⟩ := harchLast p sub h1 h2
    exact provenance_eq (loc := ⟨tmp, p ++ printSub sub⟩) ⟨fun h => absurd h htl, fun h => absurd h h3⟩ ht h4 h hp
  | remoteArchive p sub =>
    obtain ⟨h1, h2⟩ := harch p sub (.inr rfl)
    obtain ⟨h3, h4⟩ := harchLast p sub h1 h2
    exact provenance_eq (loc := ⟨tmp, p ++ printSub sub⟩) ⟨fun h => absurd h htl, fun h => absurd h h3⟩ ht h4 h hp
  | gitRepo u r sub =>
    have hu : (VPath.gitRepo u r sub).print ≠ [] := by
      have : u ≠ [] := by
        unfold classify at hcl
        split at hcl
        · split at hcl
          · cases hcl
          · split at hcl <;> cases hcl
            exact hsrc
        · split at hcl <;> cases hcl
      simp [VPath.print, this]
    cases sub with
    | none => exact provenance_eq (loc := ⟨tmp, (VPath.gitRepo u r none).print⟩) ⟨fun h => absurd h htl, fun h => absurd h hw⟩ ht hu h hp
    | some t =>
      obtain ⟨c, hc, hne⟩ := hw
      have ht0 : t ≠ [] := by rintro rfl; cases hc
      have hjl : (Archive.joinText tmp t).getLast? ≠ some '/' := by
        have : (Archive.joinText tmp t).getLast? = t.getLast? := by
          unfold Archive.joinText
          split
          · rfl
          · split
            · exact getLast_append_ne ht0
            · rw [show tmp ++ '/' :: t = (tmp ++ ['/']) ++ t by simp]; exact getLast_append_ne ht0
        rw [this, hc]
        simpa using hne
      have hj0 : Archive.joinText tmp t ≠ [] := by
        unfold Archive.joinText
        split
        · exact ht0
        · split <;> simp [ht]
      exact provenance_eq (loc := ⟨Archive.joinText tmp t, (VPath.gitRepo u r (some t)).print⟩) ⟨fun h => absurd h hjl, fun h => by
        exfalso
        have e : (VPath.gitRepo u r (some t)).print = (u ++ printRef r) ++ printSub (some t) := by simp [VPath.print]
        dsimp only at h
        rw [e, print_sub_last] at h
        cases h⟩ hj0 hu h hp
  | remoteFile u => exact absurd hw id

open Verif.Common in
example : ∃ v, VPath.parse "https://h/r.git@v1[model]".toList = some v ∧ WellShown v ∧
    provenance (placeOf "/tmp/x".toList v) "/tmp/x/model/a/b.yaml".toList = some "https://h/r.git@v1[model]/a/b.yaml".toList :=
  ⟨.gitRepo "https://h/r.git".toList (some "v1".toList) (some "model".toList), by decide +kernel, ⟨'l', by decide, by decide⟩, by decide +kernel⟩

open Verif.Common in
/-- If the sub folder of a clone ends with a slash, the paths of its files lose their first character: two files are shown
with the same path, and a file whose name starts with a letter that is not ASCII makes loading panic. -/
theorem provenance_refuted : ∃ v, VPath.parse "https://h/r.git[model/]".toList = some v ∧
    provenance (placeOf "/tmp/x".toList v) (pathText (placeOf "/tmp/x".toList v).root ["ab.yaml"]) = some "https://h/r.git[model/]/b.yaml".toList ∧
    provenance (placeOf "/tmp/x".toList v) (pathText (placeOf "/tmp/x".toList v).root ["bb.yaml"]) = some "https://h/r.git[model/]/b.yaml".toList ∧
    provenance (placeOf "/tmp/x".toList v) (pathText (placeOf "/tmp/x".toList v).root ["é.yaml"]) = none :=
  ⟨.gitRepo "https://h/r.git".toList none (some "model/".toList), by decide +kernel, by decide +kernel, by decide +kernel, by decide +kernel⟩

end Verif.Definition
