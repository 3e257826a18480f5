import Verif.Commands.EffectProps

/-!
# Packages
-/

namespace Verif.Commands
open Verif.Util Verif.Policy Verif.Schema

variable {S : Type}

/-- With `--v2` the registry is of version 2, so that the conversion in package.rs:127-130 is never used. -/
theorem loaded_v2 {env : Env} {cfg : Config} (hv : cfg.v2 = true) {repo : Repo} {diag : List Msg} {r : Resolved}
    (h : (repo.loadAndResolve env cfg diag).1 = .ok r) : r.isV2 = true := by
  obtain ⟨hr, -, -⟩ := loadAndResolve_ok.1 h
  generalize r.isV2 = b at hr ⊢
  cases hr with
  | v1 _ _ h _ => rw [hv] at h; cases h
  | converted _ _ _ _ => rfl
  | v2 _ _ _ => rfl

/-- All that has to be right for a package, apart from the file system: the URI, `--v2`, a registry with a manifest of
definitions that can be loaded and has no error, and dependencies that all have a version. -/
structure Packable (env : Env) (cfg : Config) (uri : Option Chars) (main : Option (Repo × Option (Manifest S) × List Msg))
    (repo : Repo) (m : Manifest S) (fetched : List Msg) (u : Chars) (t : Val) : Prop where
  uri : uri = some u
  v2 : cfg.v2 = true
  main : main = some (repo, some m, fetched)
  definition : m.resolved = none
  ready : Ready cfg repo true t
  force : ∃ o, InForce cfg repo o
  clean : ∀ x, Finds env cfg repo fetched t true x → ¬IsError env.future x
  versions : ∀ d ∈ m.dependencies, d.schemaUrl.version ≠ "unknown".toList

/-- The manifest in a package: that of the registry, with the URI and without the places of the dependencies. -/
def Published (m p : Manifest S) (u : Chars) : Prop :=
  p.schemaUrl = m.schemaUrl ∧ p.description = m.description ∧ p.stability = m.stability ∧ p.resolved = some u ∧
    p.dependencies = m.dependencies.map fun d => ⟨d.schemaUrl, none⟩

theorem writePackage_frame (io : Io) (doc : Val) (p : Manifest S) (d : Dir S) {x : String} (h1 : x ≠ "resolved.yaml")
    (h2 : x ≠ "manifest.yaml") : (writePackage io doc p d).1 x = d x := by
  obtain ⟨mk, w1, w2⟩ := io
  unfold writePackage writeYaml
  cases w1 <;> cases w2 <;> simp [h1, h2]

theorem writePackage_true (io : Io) (doc : Val) (p : Manifest S) (d : Dir S) :
    (writePackage io doc p d).2 = true ↔ io.first = .ok ∧ io.second = .ok := by
  obtain ⟨mk, w1, w2⟩ := io
  unfold writePackage writeYaml
  cases w1 <;> cases w2 <;> simp

theorem writePackage_files (io : Io) (doc : Val) (p : Manifest S) (d : Dir S) (h1 : io.first = .ok) (h2 : io.second = .ok) :
    (writePackage io doc p d).1 "resolved.yaml" = some (.resolved doc) ∧ (writePackage io doc p d).1 "manifest.yaml" = some (.manifest p) := by
  obtain ⟨mk, w1, w2⟩ := io
  cases h1; cases h2
  unfold writePackage writeYaml
  constructor <;> simp

/-- `package`, as one step: either it cannot be packed, then the directory is as before and there is an error; or it is written. -/
theorem package_cases {env : Env} (hf : Fair env) (cfg : Config) (uri : Option Chars)
    (main : Option (Repo × Option (Manifest S) × List Msg)) (doc : Val) (io : Io) (dir : Dir S) :
    ((package env cfg uri main doc io dir).1 = dir ∧
      (∃ ms, (package env cfg uri main doc io dir).2 = .error ms ∧ bad env.future ms = true) ∧
      (io.mkdir = false ∨ ¬∃ repo m fetched u t, Packable env cfg uri main repo m fetched u t)) ∨
    (∃ repo m fetched u t p diag, Packable env cfg uri main repo m fetched u t ∧ Published m p u ∧ publish m u = some p ∧ io.mkdir = true ∧
      (∀ x, x ∈ diag ↔ Finds env cfg repo fetched t true x) ∧
      package env cfg uri main doc io dir = match writePackage io doc p dir with
        | (dir, false) => (dir, .error [fatal "OutputWrite"])
        | (dir, true) => (dir, .ok ⟨0, diag⟩)) := by
  unfold package
  cases uri with
  | none => exact .inl ⟨rfl, ⟨_, rfl, fatal_bad _ _ _⟩, .inr (by rintro ⟨_, _, _, _, _, h⟩; cases h.uri)⟩
  | some u =>
    dsimp only
    cases hv : cfg.v2 with
    | false =>
      rw [if_pos rfl]
      exact .inl ⟨rfl, ⟨_, rfl, fatal_bad _ _ _⟩, .inr (by rintro ⟨_, _, _, _, _, h⟩; have := h.v2; rw [hv] at this; cases this)⟩
    | true =>
      rw [if_neg (by decide)]
      cases main with
      | none => exact .inl ⟨rfl, ⟨_, rfl, fatal_bad _ _ _⟩, .inr (by rintro ⟨_, _, _, _, _, h⟩; cases h.main)⟩
      | some x =>
        obtain ⟨repo, m, fetched⟩ := x
        cases m with
        | none => exact .inl ⟨rfl, ⟨_, rfl, fatal_bad _ _ _⟩, .inr (by rintro ⟨_, _, _, _, _, h⟩; cases h.main)⟩
        | some m =>
          dsimp only
          cases hm : m.resolved with
          | some y =>
            simp only [Option.isSome_some, if_true]
            refine .inl ⟨trivial, ⟨_, rfl, fatal_bad _ _ _⟩, .inr ?_⟩
            rintro ⟨_, _, _, _, _, h⟩
            cases h.main
            have := h.definition
            rw [hm] at this
            cases this
          | none =>
            simp only [Option.isSome_none, Bool.false_eq_true, if_false]
            have hload : loadMain env cfg (some (repo, fetched)) = match repo.loadAndResolve env cfg fetched with
              | (.error m, _) => .error m
              | (.ok r, diag) => .ok (r, diag) := rfl
            generalize hx : repo.loadAndResolve env cfg fetched = x at hload
            obtain ⟨x1, d1⟩ := x
            cases x1 with
            | error e =>
              obtain ⟨⟨z, rfl⟩, hn⟩ := loadMain_error hload
              refine .inl ⟨rfl, ⟨_, rfl, fatal_bad _ _ _⟩, .inr ?_⟩
              rintro ⟨_, _, _, _, t, h⟩
              cases h.main
              exact hn ⟨_, _, _, t, rfl, h.ready, h.force⟩
            | ok r =>
              obtain ⟨repo', fetched', hc, -, ho, -, hs⟩ := loadMain_ok hf hload
              have hv2 : r.isV2 = true := loaded_v2 (env := env) hv (repo := repo) (diag := fetched) (by rw [hx])
              have hcm := hc.1
              cases hcm
              have hc' := hc
              rw [hv2] at hc'
              dsimp only
              cases hb : bad env.future (d1 ++ r.afterPolicy env) with
              | true =>
                rw [if_pos rfl]
                refine .inl ⟨rfl, ⟨_, rfl, hb⟩, .inr ?_⟩
                rintro ⟨_, _, _, _, t, h⟩
                cases h.main
                obtain ⟨-, -, -, rfl⟩ := complete_unique hc' ⟨rfl, h.ready, h.force⟩
                obtain ⟨y, hy, he⟩ := (bad_iff _ _).1 hb
                exact h.clean y ((hs y).1 hy) he
              | false =>
                rw [if_neg (by decide)]
                cases hio : io.mkdir with
                | false => rw [if_pos rfl]; exact .inl ⟨rfl, ⟨_, rfl, fatal_bad _ _ _⟩, .inl rfl⟩
                | true =>
                  rw [if_neg (by decide)]
                  cases hp : publish m u with
                  | none =>
                    refine .inl ⟨rfl, ⟨_, rfl, fatal_bad _ _ _⟩, .inr ?_⟩
                    rintro ⟨_, _, _, _, t, h⟩
                    cases h.main
                    cases h.uri
                    rw [(publish_iff m ⟨m.schemaUrl, m.description, m.dependencies.map fun d => ⟨d.schemaUrl, none⟩, m.stability, some u⟩ u).2
                      ⟨h.versions, rfl, rfl, rfl, rfl, rfl⟩] at hp
                    cases hp
                  | some p =>
                    obtain ⟨h1, h2⟩ := (publish_iff _ _ _).1 hp
                    refine .inr ⟨repo, m, fetched, u, r.template, p, _, ?_, h2, hp, rfl, hs, rfl⟩
                    exact ⟨rfl, hv, rfl, hm, hc'.2.1, ⟨_, ho⟩, fun x hx => not_bad hb ((hs x).2 hx), h1⟩

/-- C235. The exit code of `package` is 0 exactly if the registry can be packed and the files can be written. Then the
directory has the resolved registry and the manifest that belongs to it, and the warnings are shown. -/
theorem package_passes {env : Env} (hf : Fair env) (cfg : Config) (uri : Option Chars)
    (main : Option (Repo × Option (Manifest S) × List Msg)) (doc : Val) (io : Io) (dir : Dir S) (rendered : Bool) :
    ((process env.future rendered (package env cfg uri main doc io dir).2).1 = 0 ↔
      (∃ repo m fetched u t, Packable env cfg uri main repo m fetched u t) ∧ io.mkdir = true ∧ io.first = .ok ∧ io.second = .ok) ∧
    ∀ repo m fetched u t, Packable env cfg uri main repo m fetched u t → io.mkdir = true → io.first = .ok → io.second = .ok →
      (package env cfg uri main doc io dir).1 "resolved.yaml" = some (.resolved doc) ∧
      (∃ p, (package env cfg uri main doc io dir).1 "manifest.yaml" = some (.manifest p) ∧ Published m p u) ∧
      ∀ x, x ∈ (process env.future true (package env cfg uri main doc io dir).2).2 ↔ Finds env cfg repo fetched t true x := by
  rcases package_cases hf cfg uri main doc io dir with ⟨-, ⟨ms, h2, hb⟩, h3⟩ | ⟨repo, m, fetched, u, t, p, diag, hk, hp, -, hio, hs, he⟩
  · constructor
    · rw [h2, bad_one hb]
      refine iff_of_false (by decide) ?_
      rintro ⟨h4, h5, -⟩
      rcases h3 with h3 | h3
      · rw [h3] at h5; cases h5
      · exact h3 h4
    · intro repo m fetched u t hk hio _ _
      rcases h3 with h3 | h3
      · rw [h3] at hio; cases hio
      · exact absurd ⟨_, _, _, _, _, hk⟩ h3
  · rw [he]
    have ht := writePackage_true io doc p dir
    have hfiles := writePackage_files io doc p dir
    generalize writePackage io doc p dir = w at ht hfiles
    obtain ⟨d, b⟩ := w
    cases b with
    | false =>
      constructor
      · dsimp only
        rw [process_fatal]
        refine iff_of_false (by decide) ?_
        rintro ⟨-, -, h⟩
        have := ht.2 h
        cases this
      · intro _ _ _ _ _ _ _ h1 h2
        have := ht.2 ⟨h1, h2⟩
        cases this
    | true =>
      obtain ⟨h1, h2⟩ := ht.1 rfl
      obtain ⟨f1, f2⟩ := hfiles h1 h2
      constructor
      · exact iff_of_true rfl ⟨⟨_, _, _, _, _, hk⟩, hio, h1, h2⟩
      · intro repo' m' fetched' u' t' hk' _ _ _
        have e1 := hk.main.symm.trans hk'.main
        cases e1
        have e2 := hk.uri.symm.trans hk'.uri
        cases e2
        obtain ⟨-, rfl⟩ := ready_unique hk.ready hk'.ready
        exact ⟨f1, ⟨p, f2, hp⟩, fun x => by rw [← hs]; simp [process]⟩

/-- C235. Other files are never touched, and if the registry cannot be packed then nothing is. -/
theorem package_frame {env : Env} (hf : Fair env) (cfg : Config) (uri : Option Chars)
    (main : Option (Repo × Option (Manifest S) × List Msg)) (doc : Val) (io : Io) (dir : Dir S) :
    (∀ x, x ≠ "resolved.yaml" → x ≠ "manifest.yaml" → (package env cfg uri main doc io dir).1 x = dir x) ∧
    ((¬∃ repo m fetched u t, Packable env cfg uri main repo m fetched u t) → (package env cfg uri main doc io dir).1 = dir) := by
  rcases package_cases hf cfg uri main doc io dir with ⟨h1, -, -⟩ | ⟨repo, m, fetched, u, t, p, diag, hk, -, -, -, -, he⟩
  · rw [h1]; exact ⟨fun _ _ _ => rfl, fun _ => rfl⟩
  · constructor
    · intro x h1 h2
      rw [he, ← writePackage_frame io doc p dir h1 h2]
      generalize writePackage io doc p dir = w
      obtain ⟨d, b⟩ := w
      cases b <;> rfl
    · intro h; exact absurd ⟨_, _, _, _, _, hk⟩ h

/-- C235. The manifest of a package that was made from a manifest in a file is read back as it is, without warnings. -/
theorem package_read_back {env : Env} (hf : Fair env) (cfg : Config) (uri : Option Chars) (repo : Repo) (m : Manifest S)
    (fetched : List Msg) (doc : Val) (io : Io) (dir : Dir S) (lib : Lib) (legacy : Bool) (raw : Raw S) (w : List Warning)
    (hread : fromFile lib legacy raw = some (m, w)) (p : Manifest S)
    (h : (package env cfg uri (some (repo, some m, fetched)) doc io dir).2 = .ok e)
    (hp : (package env cfg uri (some (repo, some m, fetched)) doc io dir).1 "manifest.yaml" = some (.manifest p)) :
    fromFile lib false p.write = some (p, []) := by
  rcases package_cases hf cfg uri (some (repo, some m, fetched)) doc io dir with ⟨-, ⟨ms, h2, -⟩, -⟩ |
    ⟨repo', m', fetched', u, t, p', diag, hk, -, hpub, -, -, he⟩
  · rw [h] at h2; cases h2
  · have := hk.main
    cases this
    rw [he] at h hp
    have ht := writePackage_true io doc p' dir
    have hfiles := writePackage_files io doc p' dir
    generalize writePackage io doc p' dir = x at h hp ht hfiles
    obtain ⟨d, b⟩ := x
    cases b with
    | false => cases h
    | true =>
      obtain ⟨h1, h2⟩ := ht.1 rfl
      obtain ⟨-, f2⟩ := hfiles h1 h2
      dsimp only at hp f2
      rw [f2] at hp
      cases hp
      exact publish_roundtrip lib legacy raw m p w u hread hpub

/-! ### A package -/

def exManifest (version : String) : Manifest Unit where
  schemaUrl := ⟨("https://x.y/" ++ version).toList, "x.y".toList, version.toList⟩
  description := none
  dependencies := []
  stability := ()
  resolved := none

def packRepo : Repo where
  path := "registry"
  engine := none
  load := some (.resolved, [])
  resolve := some (.v1, [.other "w" (some .warning)])
  template1 := none
  toV2 := some (.atom "t2", [])
  template2 := none

theorem ex_packable : Packable exEnv ⟨true, true⟩ (some "u".toList) (some (packRepo, some (exManifest "2"), [])) packRepo (exManifest "2") []
    "u".toList (.atom "t2") where
  uri := rfl
  v2 := rfl
  main := rfl
  definition := rfl
  ready := .converted rfl rfl rfl rfl
  force := ⟨none, .skipped rfl⟩
  clean := by
    intro x hx he
    have hmild : Mild x := by
      cases hx with
      | fetched h => cases h
      | said h =>
        cases h with
        | load h h' => cases h; cases h'
        | resolve h h' => cases h; rw [List.mem_singleton.1 h']; exact .inl rfl
        | toV2 _ _ h h' => cases h; cases h'
        | template2 h _ _ => cases h
        | flagMissing h _ => cases h
        | unsupported h _ _ =>
          cases h with
          | loaded h _ => cases h
        | before h _ _ _ _ =>
          cases h with
          | loaded h _ => cases h
      | judged _ h =>
        cases h with
        | after h _ =>
          cases h with
          | loaded h _ => cases h
        | comparison h _ _ =>
          cases h with
          | loaded h _ => cases h
    rcases he with he | he
    · cases he
    · exact he hmild
  versions := by intro d hd; cases hd

/-- C235. The full claim: after a run the directory has a resolved registry and a manifest that belong together, if it had before. -/
def PackageWhole : Prop :=
  ∀ (env : Env) (cfg : Config) (uri : Option Chars) (main : Option (Repo × Option (Manifest Unit) × List Msg)) (doc : Val) (io : Io)
    (dir : Dir Unit), Fair env →
    (package env cfg uri main doc io dir).1 "resolved.yaml" = dir "resolved.yaml" ∨
    ∃ p, (package env cfg uri main doc io dir).1 "manifest.yaml" = some (.manifest p) ∧ ∃ repo m fetched u, main = some (repo, some m, fetched) ∧
      uri = some u ∧ Published m p u

/-- It is false: if the manifest cannot be written then the resolved registry is the new one and the manifest the old one. -/
theorem package_whole_refuted : ¬PackageWhole := by
  intro h
  have := h exEnv ⟨true, true⟩ (some "u".toList) (some (packRepo, some (exManifest "2"), [])) (.atom "new") ⟨true, .ok, .noCreate⟩
    (fun p => if p = "resolved.yaml" then some (.resolved (.atom "old")) else if p = "manifest.yaml" then some (.manifest (exManifest "1")) else none)
    exEnv_fair
  rcases this with h | ⟨p, h1, repo, m, fetched, u, h2, -, h3⟩
  · have h4 : (package exEnv ⟨true, true⟩ (some "u".toList) (some (packRepo, some (exManifest "2"), [])) (.atom "new") ⟨true, .ok, .noCreate⟩
      (fun p => if p = "resolved.yaml" then some (.resolved (.atom "old")) else if p = "manifest.yaml" then some (.manifest (exManifest "1")) else none)).1
        "resolved.yaml" = some (.resolved (.atom "new")) := by rfl
    rw [h4] at h
    simp at h
  · have h4 : (package exEnv ⟨true, true⟩ (some "u".toList) (some (packRepo, some (exManifest "2"), [])) (.atom "new") ⟨true, .ok, .noCreate⟩
      (fun p => if p = "resolved.yaml" then some (.resolved (.atom "old")) else if p = "manifest.yaml" then some (.manifest (exManifest "1")) else none)).1
        "manifest.yaml" = some (.manifest (exManifest "1")) := by rfl
    rw [h4] at h1
    cases h1
    cases h2
    have := h3.2.2.2.1
    cases this

end Verif.Commands
