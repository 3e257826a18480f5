import Verif.Schema.Props
import Verif.Util.Forall2
import Verif.Gen.EngineProps
import Verif.Fs.Props

/-! Properties of registry manifests. -/

namespace Verif.Schema
open Verif.Util Verif.Common

/-! ### Reading a manifest -/

/-- The place of a dependency: absent, or a text that can be parsed. -/
inductive PathOk : Option YVal → Option VPath → Prop
  | absent : PathOk none none
  | null : PathOk (some .null) none
  | text (t : Chars) (p : VPath) : VPath.parse t = some p → PathOk (some (.text t)) (some p)

/-- The dependency an entry of a manifest stands for: it has a schema URL, or, in manifests of the first version, a name and a
place and nothing else. -/
inductive DepOk (lib : Lib) : Bool → RawDep → Dep → Prop
  | url (strict : Bool) (d : RawDep) (t : Chars) (u : SchemaUrl) (p : Option VPath) : d.schemaUrl = some (.text t) →
      SchemaUrl.new lib t = .ok u → PathOk d.path p → DepOk lib strict d ⟨u, p⟩
  | named (d : RawDep) (n t : Chars) (u : SchemaUrl) (p : VPath) : d.schemaUrl = none → d.name = some (.text n) → d.extra = false →
      d.path = some (.text t) → VPath.parse t = some p → SchemaUrl.fromNameVersion lib n unknownVersion = .ok u →
      DepOk lib false d ⟨u, some p⟩

theorem readPath_iff (o : Option YVal) (p : Option VPath) : readPath o = some p ↔ PathOk o p := by
  constructor
  · intro h
    cases o with
    | none => cases h; exact .absent
    | some v =>
      cases v with
      | null => cases h; exact .null
      | text t =>
        obtain ⟨q, hq, rfl⟩ := Option.map_eq_some_iff.1 h
        exact .text t q hq
      | other => cases h
  · intro h
    cases h with
    | absent => rfl
    | null => rfl
    | text t q hq => unfold readPath; dsimp only; rw [hq]; rfl

theorem parseDep_iff (lib : Lib) (strict : Bool) (d : RawDep) (x : Dep) : parseDep lib strict d = some x ↔ DepOk lib strict d x := by
  constructor
  · intro h
    unfold parseDep at h
    cases hu : d.schemaUrl with
    | some v =>
      rw [hu] at h
      cases v with
      | null => cases h
      | other => cases h
      | text t =>
        dsimp only at h
        cases hn : SchemaUrl.new lib t with
        | error e => rw [hn] at h; cases h
        | ok u =>
          cases hp : readPath d.path with
          | none => rw [hn, hp] at h; cases h
          | some p =>
            rw [hn, hp] at h
            cases h
            exact .url strict d t u p hu hn ((readPath_iff _ _).1 hp)
    | none =>
      rw [hu] at h
      dsimp only at h
      cases hnm : d.name with
      | none => rw [hnm] at h; cases h
      | some v =>
        rw [hnm] at h
        cases v with
        | null => cases h
        | other => cases h
        | text n =>
          dsimp only at h
          cases strict with
          | true => cases h
          | false =>
            rw [if_neg (by decide)] at h
            cases he : d.extra with
            | true => rw [he] at h; cases h
            | false =>
              rw [he, if_neg (by decide)] at h
              cases hp : d.path with
              | none => rw [hp] at h; cases h
              | some v =>
                rw [hp] at h
                cases v with
                | null => cases h
                | other => cases h
                | text t =>
                  dsimp only at h
                  cases hv : VPath.parse t with
                  | none => rw [hv] at h; cases h
                  | some p =>
                    rw [hv] at h
                    cases hf : SchemaUrl.fromNameVersion lib n unknownVersion with
                    | error e => rw [hf] at h; cases h
                    | ok u => rw [hf] at h; cases h; exact .named d n t u p hu hnm he hp hv hf
  · intro h
    cases h with
    | url _ _ t u p h1 h2 h3 =>
      unfold parseDep
      rw [h1]
      dsimp only
      rw [h2, (readPath_iff _ _).2 h3]
    | named _ n t u p h1 h2 h3 h4 h5 h6 =>
      unfold parseDep
      rw [h1]
      dsimp only
      rw [h2]
      dsimp only
      rw [if_neg (by decide), h3, if_neg (by decide), h4]
      dsimp only
      rw [h5, h6]

theorem mapM_forall2 {α β : Type} (f : α → Option β) (l : List α) (r : List β) :
    l.mapM f = some r ↔ Forall2 (fun a b => f a = some b) l r := by
  rw [Verif.Gen.mapM_some]
  constructor
  · intro h
    induction l generalizing r with
    | nil => cases r with
      | nil => exact .nil
      | cons => simp at h
    | cons a l ih =>
      cases r with
      | nil => simp at h
      | cons b r =>
        simp only [List.map_cons, List.cons.injEq] at h
        exact .cons h.1 (ih r h.2)
  · intro h
    induction h with
    | nil => rfl
    | cons h1 _ ih => rw [List.map_cons, List.map_cons, h1, ih]

theorem deps_iff (lib : Lib) (strict : Bool) (l : List RawDep) (r : List Dep) :
    l.mapM (parseDep lib strict) = some r ↔ Forall2 (DepOk lib strict) l r := by
  rw [mapM_forall2]
  constructor
  · intro h
    induction h with
    | nil => exact .nil
    | cons h1 _ ih => exact .cons ((parseDep_iff _ _ _ _).1 h1) ih
  · intro h
    induction h with
    | nil => exact .nil
    | cons h1 _ ih => exact .cons ((parseDep_iff _ _ _ _).2 h1) ih

/-- The three kinds of manifest: published ones, definitions with a schema URL, and old definitions with a base URL and a
version. With each the warnings about deprecated syntax. -/
inductive Reads {S : Type} (lib : Lib) : Raw S → Manifest S → List Warning → Prop
  | published (r : Raw S) (t : Chars) (u : SchemaUrl) (deps : List Dep) (v : Chars) : r.fileFormat = some "manifest/2.0".toList →
      r.schemaUrl = some t → SchemaUrl.new lib t = .ok u → Forall2 (DepOk lib true) r.dependencies deps →
      r.resolvedRegistryUri = some v → Reads lib r ⟨u, r.description, deps, r.stability, some v⟩ []
  | publishedOld (r : Raw S) (t : Chars) (u : SchemaUrl) (deps : List Dep) (v : Chars) : r.fileFormat = some "manifest/2.0".toList →
      r.schemaUrl = some t → SchemaUrl.new lib t = .ok u → Forall2 (DepOk lib true) r.dependencies deps →
      r.resolvedRegistryUri = none → r.resolvedSchemaUri = some v →
      Reads lib r ⟨u, r.description, deps, r.stability, some v⟩ [.resolvedSchemaUri]
  | definition (r : Raw S) (t : Chars) (u : SchemaUrl) (deps : List Dep) : r.fileFormat = none → r.schemaUrl = some t →
      SchemaUrl.new lib t = .ok u → Forall2 (DepOk lib true) r.dependencies deps →
      Reads lib r ⟨u, r.description, deps, r.stability, none⟩ []
  | definitionOld (r : Raw S) (b v : Chars) (u : SchemaUrl) (deps : List Dep) : r.fileFormat = none → r.schemaUrl = none →
      r.schemaBaseUrl = some b → r.semconvVersion = some v → SchemaUrl.fromNameVersion lib b v = .ok u →
      Forall2 (DepOk lib false) r.dependencies deps → Reads lib r ⟨u, r.description, deps, r.stability, none⟩ [.semconvVersion]

/-- A manifest is accepted exactly if it is one of the three kinds. -/
theorem manifest_iff {S : Type} (lib : Lib) (r : Raw S) (m : Manifest S) (w : List Warning) :
    r.toManifest lib = some (m, w) ↔ Reads lib r m w := by
  constructor
  · intro h
    unfold Raw.toManifest at h
    cases hs : r.schemaUrl with
    | none =>
      rw [hs] at h
      dsimp only [readUrl] at h
      by_cases hf : r.fileFormat = some publicationFormat
      · rw [if_pos hf] at h; cases h
      · rw [if_neg hf] at h
        cases hff : r.fileFormat with
        | some x => rw [hff] at h; cases h
        | none =>
          rw [hff] at h
          dsimp only at h
          cases hb : r.schemaBaseUrl with
          | none => rw [hb] at h; cases h
          | some b =>
            cases hv : r.semconvVersion with
            | none => rw [hb, hv] at h; cases h
            | some v =>
              rw [hb, hv] at h
              dsimp only at h
              cases hu : SchemaUrl.fromNameVersion lib b v with
              | error e => rw [hu] at h; cases h
              | ok u =>
                rw [hu] at h
                dsimp only at h
                cases hd : r.dependencies.mapM (parseDep lib false) with
                | none => rw [hd] at h; cases h
                | some deps => rw [hd] at h; cases h; exact .definitionOld r b v u deps hff hs hb hv hu ((deps_iff _ _ _ _).1 hd)
    | some t =>
      rw [hs] at h
      dsimp only [readUrl] at h
      cases hu : SchemaUrl.new lib t with
      | error e => rw [hu] at h; cases h
      | ok u =>
        rw [hu] at h
        dsimp only at h
        by_cases hf : r.fileFormat = some publicationFormat
        · rw [if_pos hf] at h
          cases hd : r.dependencies.mapM (parseDep lib true) with
          | none => rw [hd] at h; cases h
          | some deps =>
            rw [hd] at h
            dsimp only at h
            cases h1 : r.resolvedRegistryUri with
            | some v => rw [h1] at h; cases h; exact .published r t u deps v hf hs hu ((deps_iff _ _ _ _).1 hd) h1
            | none =>
              cases h2 : r.resolvedSchemaUri with
              | none => rw [h1, h2] at h; cases h
              | some v => rw [h1, h2] at h; cases h; exact .publishedOld r t u deps v hf hs hu ((deps_iff _ _ _ _).1 hd) h1 h2
        · rw [if_neg hf] at h
          cases hff : r.fileFormat with
          | some x => rw [hff] at h; cases h
          | none =>
            rw [hff] at h
            dsimp only at h
            cases hd : r.dependencies.mapM (parseDep lib true) with
            | none => rw [hd] at h; cases h
            | some deps => rw [hd] at h; cases h; exact .definition r t u deps hff hs hu ((deps_iff _ _ _ _).1 hd)
  · intro h
    unfold Raw.toManifest
    cases h with
    | published t u deps v h1 h2 h3 h4 h5 =>
      rw [h2]; dsimp only [readUrl]; rw [h3]; dsimp only
      rw [if_pos (show r.fileFormat = some publicationFormat from h1), (deps_iff _ _ _ _).2 h4]; dsimp only; rw [h5]
    | publishedOld t u deps v h1 h2 h3 h4 h5 h6 =>
      rw [h2]; dsimp only [readUrl]; rw [h3]; dsimp only
      rw [if_pos (show r.fileFormat = some publicationFormat from h1), (deps_iff _ _ _ _).2 h4]; dsimp only; rw [h5, h6]
    | definition t u deps h1 h2 h3 h4 =>
      rw [h2]; dsimp only [readUrl]; rw [h3]; dsimp only
      rw [h1, if_neg (by simp), (deps_iff _ _ _ _).2 h4]
    | definitionOld b v u deps h1 h2 h3 h4 h5 h6 =>
      rw [h2]; dsimp only [readUrl]
      rw [h1, if_neg (by simp)]; dsimp only; rw [h3, h4]; dsimp only; rw [h5]; dsimp only; rw [(deps_iff _ _ _ _).2 h6]

/-- What reading a file reports: the old name of the file, and the deprecated fields whose values are used. -/
theorem fromFile_iff {S : Type} (lib : Lib) (legacy : Bool) (r : Raw S) (m : Manifest S) (w : List Warning) :
    fromFile lib legacy r = some (m, w) ↔ ∃ w', Reads lib r m w' ∧ w = (if legacy then [.legacyFile] else []) ++ w' := by
  unfold fromFile
  cases h : r.toManifest lib with
  | none =>
    simp only [reduceCtorEq, false_iff]
    rintro ⟨w', hr, -⟩
    rw [← manifest_iff, h] at hr
    cases hr
  | some x =>
    obtain ⟨m', w'⟩ := x
    have hr := (manifest_iff _ _ _ _).1 h
    dsimp only
    constructor
    · intro he; cases he; exact ⟨w', hr, rfl⟩
    · rintro ⟨w'', hr', rfl⟩
      rw [← manifest_iff, h] at hr'
      cases hr'; rfl

theorem warnings_used_partial {S : Type} (lib : Lib) (legacy : Bool) (r : Raw S) (m : Manifest S) (w : List Warning)
    (h : fromFile lib legacy r = some (m, w)) :
    w.Nodup ∧ (.legacyFile ∈ w ↔ legacy = true) ∧ (.semconvVersion ∈ w ↔ r.schemaUrl = none) ∧
      (.resolvedSchemaUri ∈ w ↔ r.fileFormat = some "manifest/2.0".toList ∧ r.resolvedRegistryUri = none) := by
  obtain ⟨w', hr, rfl⟩ := (fromFile_iff _ _ _ _ _).1 h
  cases hr with
  | published t u deps v h1 h2 h3 h4 h5 => cases legacy <;> simp [h2, h5]
  | publishedOld t u deps v h1 h2 h3 h4 h5 h6 => cases legacy <;> simp [h1, h2, h5]
  | definition t u deps h1 h2 h3 h4 => cases legacy <;> simp [h1, h2]
  | definitionOld b v u deps h1 h2 h3 h4 h5 h6 => cases legacy <;> simp [h1, h2]

/-! ### Publishing -/

/-- A manifest can be published exactly if every dependency has a version. The published one has the same schema URL,
description, stability and dependencies, without the places of the dependencies. -/
theorem publish_iff {S : Type} (m p : Manifest S) (uri : Chars) :
    publish m uri = some p ↔ (∀ d ∈ m.dependencies, d.schemaUrl.version ≠ "unknown".toList) ∧
      p.schemaUrl = m.schemaUrl ∧ p.description = m.description ∧ p.stability = m.stability ∧ p.resolved = some uri ∧
      p.dependencies = m.dependencies.map fun d => ⟨d.schemaUrl, none⟩ := by
  have key : ∀ l : List Dep, ∀ r, (l.mapM fun d => if d.versioned then some { d with path := none } else none) = some r ↔
      (∀ d ∈ l, d.schemaUrl.version ≠ "unknown".toList) ∧ r = l.map fun d => ⟨d.schemaUrl, none⟩ := by
    intro l r
    rw [Verif.Gen.mapM_some]
    have hv : ∀ d : Dep, d.versioned = true ↔ d.schemaUrl.version ≠ "unknown".toList := by
      intro d; unfold Dep.versioned unknownVersion; simp
    induction l generalizing r with
    | nil => cases r <;> simp
    | cons d l ih =>
      cases r with
      | nil => simp
      | cons x r =>
        rw [List.map_cons, List.map_cons, List.cons.injEq, propext (ih r)]
        by_cases hd : d.versioned = true
        · rw [if_pos hd]
          have := (hv d).1 hd
          simp only [List.forall_mem_cons, List.map_cons, List.cons.injEq, Option.some.injEq]
          constructor
          · rintro ⟨rfl, h1, rfl⟩; exact ⟨⟨this, h1⟩, rfl, rfl⟩
          · rintro ⟨⟨-, h1⟩, rfl, rfl⟩; exact ⟨rfl, h1, rfl⟩
        · rw [if_neg hd]
          simp only [reduceCtorEq, false_and, false_iff, List.forall_mem_cons]
          rintro ⟨⟨h1, -⟩, -⟩
          exact hd ((hv d).2 h1)
  unfold publish
  cases h : (m.dependencies.mapM fun d => if d.versioned then some { d with path := none } else none) with
  | none =>
    simp only [reduceCtorEq, false_iff]
    rintro ⟨h1, -⟩
    rw [(key _ _).2 ⟨h1, rfl⟩] at h
    cases h
  | some deps =>
    obtain ⟨h1, rfl⟩ := (key _ _).1 h
    obtain ⟨a, b, c, d, e⟩ := p
    simp only [Option.some.injEq, Manifest.mk.injEq]
    constructor
    · rintro ⟨rfl, rfl, rfl, rfl, rfl⟩; exact ⟨h1, rfl, rfl, rfl, rfl, rfl⟩
    · rintro ⟨-, rfl, rfl, rfl, rfl, rfl⟩; exact ⟨rfl, rfl, rfl, rfl, rfl⟩

theorem dep_canonical {lib : Lib} {strict : Bool} {d : RawDep} {x : Dep} (h : DepOk lib strict d x) :
    ∃ t, SchemaUrl.new lib t = .ok x.schemaUrl := by
  cases h with
  | url _ _ t u p h1 h2 h3 => exact ⟨t, h2⟩
  | named _ n t u p h1 h2 h3 h4 h5 h6 =>
    unfold SchemaUrl.fromNameVersion at h6
    split at h6
    · cases h6
    · split at h6
      · exact ⟨_, h6⟩
      · exact ⟨_, h6⟩

theorem reads_canonical {S : Type} {lib : Lib} {r : Raw S} {m : Manifest S} {w : List Warning} (h : Reads lib r m w) :
    (∃ t, SchemaUrl.new lib t = .ok m.schemaUrl) ∧ ∀ d ∈ m.dependencies, ∃ t, SchemaUrl.new lib t = .ok d.schemaUrl := by
  have key : ∀ strict : Bool, ∀ l : List RawDep, ∀ r : List Dep, Forall2 (DepOk lib strict) l r → ∀ d ∈ r, ∃ t, SchemaUrl.new lib t = .ok d.schemaUrl := by
    intro strict l r h
    induction h with
    | nil => simp
    | cons h1 _ ih =>
      intro d hd
      rcases List.mem_cons.1 hd with rfl | hd
      · exact dep_canonical h1
      · exact ih d hd
  cases h with
  | published t u deps v h1 h2 h3 h4 h5 => exact ⟨⟨t, h3⟩, key _ _ _ h4⟩
  | publishedOld t u deps v h1 h2 h3 h4 h5 h6 => exact ⟨⟨t, h3⟩, key _ _ _ h4⟩
  | definition t u deps h1 h2 h3 h4 => exact ⟨⟨t, h3⟩, key _ _ _ h4⟩
  | definitionOld b v u deps h1 h2 h3 h4 h5 h6 =>
    refine ⟨?_, key _ _ _ h6⟩
    unfold SchemaUrl.fromNameVersion at h5
    split at h5
    · cases h5
    · split at h5
      · exact ⟨_, h5⟩
      · exact ⟨_, h5⟩

/-- A published manifest that is written and read again is the same, without warnings, whatever manifest it was made from. -/
theorem publish_roundtrip {S : Type} (lib : Lib) (legacy : Bool) (r : Raw S) (m p : Manifest S) (w : List Warning) (uri : Chars)
    (h : fromFile lib legacy r = some (m, w)) (hp : publish m uri = some p) : fromFile lib false p.write = some (p, []) := by
  obtain ⟨w', hr, -⟩ := (fromFile_iff _ _ _ _ _).1 h
  obtain ⟨⟨t, ht⟩, hd⟩ := reads_canonical hr
  obtain ⟨-, h1, h2, h3, h4, h5⟩ := (publish_iff _ _ _).1 hp
  rw [fromFile_iff]
  refine ⟨[], ?_, rfl⟩
  obtain ⟨pu, pd, pds, ps, pr⟩ := p
  simp only at h1 h2 h3 h4 h5
  subst h1 h2 h3 h4 h5
  refine .published _ m.schemaUrl.url m.schemaUrl _ uri rfl rfl (new_idem lib t _ ht) ?_ rfl
  unfold Manifest.write
  dsimp only
  revert hd
  generalize m.dependencies = l
  intro hd
  induction l with
  | nil => exact .nil
  | cons d l ih =>
    refine .cons ?_ (ih fun x hx => hd x (List.mem_cons_of_mem _ hx))
    obtain ⟨t', ht'⟩ := hd d List.mem_cons_self
    exact .url _ _ d.schemaUrl.url _ _ rfl (new_idem lib t' _ ht') .absent

/-- A dependency given by a name has no version, so the manifest cannot be published. -/
theorem named_not_published {S : Type} (lib : Lib) (hl : lib.Faithful) (legacy : Bool) (r : Raw S) (m : Manifest S) (w : List Warning)
    (uri : Chars) (h : fromFile lib legacy r = some (m, w)) (d : RawDep) (hd : d ∈ r.dependencies) (host : Chars) (segs : List Chars)
    (hh : PlainHost host) (hs : ∀ g ∈ segs, PlainSegment g) (hn : d.name = some (.text (host ++ pathText segs)))
    (hu : d.schemaUrl = none) : publish m uri = none := by
  have key : ∀ strict : Bool, ∀ l : List RawDep, ∀ r : List Dep, Forall2 (DepOk lib strict) l r → d ∈ l →
      ∃ x ∈ r, x.schemaUrl.version = "unknown".toList := by
    intro strict l r h
    induction h with
    | nil => simp
    | @cons a b l r h1 _ ih =>
      intro hm
      rcases List.mem_cons.1 hm with rfl | hm
      · refine ⟨b, List.mem_cons_self, ?_⟩
        cases h1 with
        | url _ _ t u p h1 h2 h3 => rw [hu] at h1; cases h1
        | named _ n t u p h1 h2 h3 h4 h5 h6 =>
          rw [hn] at h2
          cases h2
          rw [fromNameVersion_plain lib hl host segs unknownVersion hh hs
            ⟨by decide, by decide, by decide, by decide⟩] at h6
          cases h6
          rfl
      · obtain ⟨x, hx, h⟩ := ih hm
        exact ⟨x, List.mem_cons_of_mem _ hx, h⟩
  obtain ⟨w', hr, -⟩ := (fromFile_iff _ _ _ _ _).1 h
  have : ∃ x ∈ m.dependencies, x.schemaUrl.version = "unknown".toList := by
    cases hr with
    | published t u deps v h1 h2 h3 h4 h5 => exact key _ _ _ h4 hd
    | publishedOld t u deps v h1 h2 h3 h4 h5 h6 => exact key _ _ _ h4 hd
    | definition t u deps h1 h2 h3 h4 => exact key _ _ _ h4 hd
    | definitionOld b v u deps h1 h2 h3 h4 h5 h6 => exact key _ _ _ h6 hd
  obtain ⟨x, hx, hv⟩ := this
  cases hp : publish m uri with
  | none => rfl
  | some p => exact absurd hv (((publish_iff _ _ _).1 hp).1 x hx)

/-! ### A library -/

/-- A small URL library. -/
def sampleLib : Lib where
  parse s :=
    match splitFirst "://".toList s with
    | some (scheme, rest) => some ⟨scheme, rest.dropWhile (· ≠ '/'), true⟩
    | none => none
  alnum := Char.isAlphanum
  white := Char.isWhitespace

theorem sampleLib_faithful : sampleLib.Faithful where
  plain scheme host segs hs hh hne _ := by
    have hsp : splitFirst "://".toList (urlText scheme host segs) = some (scheme, host ++ pathText segs) := by
      unfold urlText
      rcases hs with rfl | rfl <;> simp [splitFirst, dropPrefix?]
    have hdw : (host ++ pathText segs).dropWhile (fun c => decide (c ≠ '/')) = pathText segs := by
      have hn := hh.no_slash
      clear hsp hh
      induction host with
      | nil =>
        cases segs with
        | nil => exact absurd rfl hne
        | cons g gs => rfl
      | cons c host ih =>
        have hc : c ≠ '/' := fun he => hn (by rw [he]; simp)
        rw [List.cons_append, List.dropWhile_cons_of_pos (by simpa using hc)]
        exact ih fun hm => hn (List.mem_cons_of_mem _ hm)
    unfold sampleLib
    dsimp only
    rw [hsp]
    dsimp only
    rw [hdw]
  letters c hc := by
    unfold lower at hc
    unfold sampleLib
    simp only [Bool.and_eq_true, decide_eq_true_eq] at hc
    simp only [Char.isAlphanum, Char.isAlpha, Char.isLower, Bool.or_eq_true, Bool.and_eq_true, decide_eq_true_eq]
    exact .inl (.inr hc)
  punct := by decide
  white c hc := by
    unfold sampleLib
    dsimp only
    unfold Char.isWhitespace
    have : c ≠ ' ' ∧ c ≠ '\t' ∧ c ≠ '\r' ∧ c ≠ '\n' := by
      refine ⟨?_, ?_, ?_, ?_⟩ <;> rintro rfl <;> exact absurd hc (by decide)
    simp [this]

/-! ### Names and versions -/

/-- Plain URLs with the same scheme, name and version are the same. -/
theorem name_version_partial (lib : Lib) (hl : lib.Faithful) (scheme h1 h2 : Chars) (i1 i2 : List Chars) (v1 v2 : Chars)
    (hs : scheme = "http".toList ∨ scheme = "https".toList) (p1 : PlainHost h1) (p2 : PlainHost h2) (q1 : ∀ g ∈ i1, PlainSegment g)
    (q2 : ∀ g ∈ i2, PlainSegment g) (r1 : PlainSegment v1) (r2 : PlainSegment v2) (u1 u2 : SchemaUrl)
    (e1 : SchemaUrl.new lib (urlText scheme h1 (i1 ++ [v1])) = .ok u1) (e2 : SchemaUrl.new lib (urlText scheme h2 (i2 ++ [v2])) = .ok u2)
    (hn : u1.name = u2.name) (hv : u1.version = u2.version) : u1 = u2 := by
  have a := new_plain lib hl scheme h1 i1 v1 hs p1 q1 r1 0
  have b := new_plain lib hl scheme h2 i2 v2 hs p2 q2 r2 0
  rw [List.replicate_zero, List.append_nil] at a b
  rw [a] at e1
  rw [b] at e2
  cases e1
  cases e2
  simp only at hn hv
  subst hv
  unfold urlText
  rw [pathText_last, pathText_last, List.append_assoc, List.append_assoc _ h2, ← List.append_assoc h1, ← List.append_assoc h2, hn]

/-- Two schema URLs that differ only in the scheme have the same name and version. -/
theorem name_version_refuted (lib : Lib) (hl : lib.Faithful) : ∃ u v : SchemaUrl,
    SchemaUrl.new lib "http://acme.com/reg/1.0.0".toList = .ok u ∧ SchemaUrl.new lib "https://acme.com/reg/1.0.0".toList = .ok v ∧
    u.name = v.name ∧ u.version = v.version ∧ u ≠ v := by
  have hh : PlainHost "acme.com".toList := .more "acme".toList "com".toList ⟨⟨'a', "cme".toList, rfl, by decide⟩, by decide, by decide⟩
    (.one _ ⟨⟨'c', "om".toList, rfl, by decide⟩, by decide, by decide⟩)
  have hi : ∀ g ∈ ["reg".toList], PlainSegment g := by
    intro g hg
    rw [List.mem_singleton] at hg
    rw [hg]
    exact ⟨by decide, by decide, by decide⟩
  have hv : PlainSegment "1.0.0".toList := ⟨by decide, by decide, by decide⟩
  have a := new_plain lib hl "http".toList _ _ _ (.inl rfl) hh hi hv 0
  have b := new_plain lib hl "https".toList _ _ _ (.inr rfl) hh hi hv 0
  refine ⟨_, _, a, b, rfl, rfl, by decide⟩

/-- A blank before the URL, which the URL library ignores, makes part of the scheme part of the name. -/
theorem blank_before_refuted (lib : Lib) (hl : lib.Faithful)
    (h : lib.parse " https://acme.com/1.0.0".toList = some ⟨"https".toList, "/1.0.0".toList, true⟩) :
    ∃ u, SchemaUrl.new lib " https://acme.com/1.0.0".toList = .ok u ∧ u.name = "s://acme.com".toList := by
  have hs : lib.alnum 's' = true := hl.letters 's' (by decide)
  have ht : trimSlashes " https://acme.com/1.0.0".toList = " https://acme.com/1.0.0".toList := trimSlashes_of_last (by decide)
  unfold SchemaUrl.new
  dsimp only
  rw [ht, h]
  dsimp only
  have e : (((" https://acme.com/1.0.0".toList).drop "https".toList.length).dropWhile fun c => !(lib.alnum c || c = '[')) =
      "s://acme.com/1.0.0".toList := by
    show (('s' :: "://acme.com/1.0.0".toList).dropWhile fun c => !(lib.alnum c || c = '[')) = _
    rw [List.dropWhile_cons_of_neg (by simp [hs])]
    rfl
  rw [e, if_neg (by decide), if_neg (by decide)]
  exact ⟨⟨" https://acme.com/1.0.0".toList, "s://acme.com".toList, "1.0.0".toList⟩, by decide +kernel, rfl⟩

/-- Deprecated fields that are not used are not reported: here the version contradicts the schema URL. -/
theorem warnings_refuted (lib : Lib) (hl : lib.Faithful) : ∃ (r : Raw Unit) (m : Manifest Unit), r.semconvVersion = some "2.0.0".toList ∧
    r.schemaBaseUrl = some "https://other.org".toList ∧ fromFile lib false r = some (m, []) ∧ m.schemaUrl.version = "1.0.0".toList := by
  have hh : PlainHost "acme.com".toList := .more "acme".toList "com".toList ⟨⟨'a', "cme".toList, rfl, by decide⟩, by decide, by decide⟩
    (.one _ ⟨⟨'c', "om".toList, rfl, by decide⟩, by decide, by decide⟩)
  have hv : PlainSegment "1.0.0".toList := ⟨by decide, by decide, by decide⟩
  have a := new_plain lib hl "https".toList _ [] _ (.inr rfl) hh (by simp) hv 0
  refine ⟨{ schemaUrl := some "https://acme.com/1.0.0".toList
            semconvVersion := some "2.0.0".toList
            schemaBaseUrl := some "https://other.org".toList
            stability := () }, _, rfl, rfl,
    (fromFile_iff _ _ _ _ _).2 ⟨[], .definition _ _ _ [] rfl rfl a .nil, rfl⟩, rfl⟩

/-! ### The hypotheses are met -/

example : SchemaUrl.fromNameVersion sampleLib "acme.com/reg".toList "1.2.0".toList =
    .ok ⟨"https://acme.com/reg/1.2.0".toList, "acme.com/reg".toList, "1.2.0".toList⟩ :=
  fromNameVersion_plain sampleLib sampleLib_faithful "acme.com".toList ["reg".toList] "1.2.0".toList
    (.more "acme".toList "com".toList ⟨⟨'a', "cme".toList, rfl, by decide⟩, by decide, by decide⟩
      (.one _ ⟨⟨'c', "om".toList, rfl, by decide⟩, by decide, by decide⟩))
    (by intro g hg; rw [List.mem_singleton] at hg; rw [hg]; exact ⟨by decide, by decide, by decide⟩)
    ⟨by decide, by decide, by decide⟩

example : ∃ m p : Manifest Unit, fromFile sampleLib true
    { schemaBaseUrl := some "https://acme.com/".toList, semconvVersion := some "1.0".toList, stability := (),
      dependencies := [{ schemaUrl := some (.text "https://otel.io/semconv/1.30.0".toList), path := some (.text "../semconv".toList) }] } =
        some (m, [.legacyFile, .semconvVersion]) ∧ publish m "resolved.yaml".toList = some p ∧
      p.dependencies = [⟨⟨"https://otel.io/semconv/1.30.0".toList, "otel.io/semconv".toList, "1.30.0".toList⟩, none⟩] := by
  refine ⟨⟨⟨"https://acme.com/1.0".toList, "acme.com".toList, "1.0".toList⟩, none,
      [⟨⟨"https://otel.io/semconv/1.30.0".toList, "otel.io/semconv".toList, "1.30.0".toList⟩, some (.localFolder "../semconv".toList)⟩], (), none⟩,
    ⟨⟨"https://acme.com/1.0".toList, "acme.com".toList, "1.0".toList⟩, none,
      [⟨⟨"https://otel.io/semconv/1.30.0".toList, "otel.io/semconv".toList, "1.30.0".toList⟩, none⟩], (), some "resolved.yaml".toList⟩, ?_, ?_, rfl⟩
  · decide +kernel
  · decide +kernel

end Verif.Schema
