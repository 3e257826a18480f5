import Verif.Engine.Props
import Verif.Loader.Props
/-
What resolving a loaded registry gives: its URL, the registries it lists, errors, messages and termination
(C167 – C171).
-/
namespace Verif.Engine
open Verif.Util Verif.Resolver Verif.Loader
variable {B : Type}

/-! ### What is loaded -/

/-- What loading a registry gives: the cached schema of its URL; or its definition files with one loaded registry for each
declared dependency; or the published schema. -/
theorem load_cases {h : Host B} {r : Repo} {c : Cache B} {i : Item B} {ns : List Note} (hl : load h r c = .ok (i, ns)) :
    (∃ s, Lru.peek r.url c = some s ∧ i = .ready s) ∨
    (Lru.peek r.url c = none ∧ (r.manifest = none ∨ r.resolvedUri = none) ∧ ∃ is, i = .source r is) ∨
    (Lru.peek r.url c = none ∧ ∃ deps uri s, r.manifest = some deps ∧ r.resolvedUri = some uri ∧
      h.published uri = .ok s ∧ i = .ready s) := by
  unfold load at hl
  cases hr : loadRoot (h.world c) r with
  | error e => rw [hr] at hl; cases hl
  | ok res =>
    rw [hr] at hl; simp only at hl
    have hm := load_tree_faithful (h.world c) r res hr
    have hnone : (h.world c).cached r.url = false → Lru.peek r.url c = none := by
      intro hc; simpa [Host.world] using hc
    have hsrc : ∀ ts, attach h c (.unresolved r ts) = .ok i → ∃ is, i = .source r is := by
      intro ts h1
      simp only [attach] at h1
      cases ha : attachAll h c ts with
      | error m => rw [ha] at h1; cases h1
      | ok is =>
        rw [ha] at h1
        simp only [Except.ok.injEq] at h1
        exact ⟨is, h1.symm⟩
    have hok : attach h c res.1.tree = .ok i := by
      cases ha : attach h c res.1.tree with
      | error m => rw [ha] at hl; cases hl
      | ok i' =>
        rw [ha] at hl
        simp only [Except.ok.injEq, Prod.mk.injEq] at hl
        rw [hl.1]
    clear hl
    generalize ht : res.1.tree = t at hm hok
    cases hm with
    | cached _ hc =>
      simp only [attach] at hok
      cases hp : Lru.peek r.url c with
      | none => simp [Host.world, hp] at hc
      | some s =>
        rw [hp] at hok
        simp only [Except.ok.injEq] at hok
        exact .inl ⟨s, rfl, hok.symm⟩
    | plain _ hc hman => exact .inr (.inl ⟨hnone hc, .inl hman, hsrc _ hok⟩)
    | published _ deps uri us hc hman hu hres =>
      simp only [attach] at hok
      cases hp : h.published uri with
      | error m => rw [hp] at hok; cases hok
      | ok s =>
        rw [hp] at hok
        simp only [Except.ok.injEq] at hok
        exact .inr (.inr ⟨hnone hc, deps, uri, s, hman, hu, hp, hok.symm⟩)
    | expanded _ deps ts he _ => exact .inr (.inl ⟨hnone he.1, .inr he.2.2, hsrc _ hok⟩)

/-! ### The URL of what is resolved -/

/-- The outcome of resolving definition files. -/
theorem source_ok {h : Host B} {n : Nat} {r : Repo} {is : List (Item B)} {c c' : Cache B} {s : Schema B} {ms : List Note}
    (hr : resolveLoaded h n (.source r is) c = some (.ok (s, ms), c')) :
    ∃ m rs c1 ss b, n = m + 1 ∧ resolveAll (resolveDep h m) is c = some (rs, c1) ∧ settled rs = .ok ss ∧
      h.build r ss (chosenOf ss) (fun u => Lru.peek u c1) = .ok b ∧
      s = { url := ownUrl r, deps := builtFrom ss, body := b.1 } ∧ ms = b.2.map .text ∧
      c' = Lru.put h.cap (ownUrl r) s c1 := by
  cases n with
  | zero => simp [resolveLoaded] at hr
  | succ n =>
    simp only [resolveLoaded] at hr
    rcases h1 : resolveAll (resolveDep h n) is c with _ | ⟨rs, c1⟩
    · rw [h1] at hr; cases hr
    · rw [h1] at hr; simp only at hr
      cases h3 : settled rs with
      | error e => rw [h3] at hr; simp at hr
      | ok ss =>
        rw [h3] at hr
        simp only [Option.some.injEq] at hr
        unfold finish at hr
        cases hb : h.build r ss (chosenOf ss) (fun u => Lru.peek u c1) with
        | error m => rw [hb] at hr; simp at hr
        | ok b =>
          rw [hb] at hr
          simp only [Prod.mk.injEq, Except.ok.injEq] at hr
          obtain ⟨⟨rfl, rfl⟩, rfl⟩ := hr
          exact ⟨n, rs, c1, ss, b, rfl, h1, h3, hb, rfl, rfl, rfl⟩

theorem resolveLoaded_url {h : Host B} {n : Nat} {i : Item B} {c c' : Cache B} {s : Schema B} {ms : List Note}
    (hr : resolveLoaded h n i c = some (.ok (s, ms), c')) : s.url = i.url := by
  cases i with
  | ready s' =>
    cases n with
    | zero => simp [resolveLoaded] at hr
    | succ n =>
      simp only [resolveLoaded, Option.some.injEq, Prod.mk.injEq, Except.ok.injEq] at hr
      rw [← hr.1.1]; rfl
  | source r is =>
    obtain ⟨m, rs, c1, ss, b, _, _, _, _, rfl, _⟩ := source_ok hr
    rfl

theorem resolveDep_cases {h : Host B} {n : Nat} {i : Item B} {c : Cache B} {q : Res B × Cache B}
    (hr : resolveDep h (n + 1) i c = some q) :
    (∃ s, Lru.peek i.url c = some s ∧ q = (.ok (s, []), (Lru.get i.url c).2)) ∨
    (Lru.peek i.url c = none ∧ h.override i.url = none ∧ resolveLoaded h n i c = some q) ∨
    (Lru.peek i.url c = none ∧ ∃ path, h.override i.url = some path ∧
      ((∃ m, h.fetch { url := i.url, path := path } = .error m ∧ q = (.error (.definition m), c)) ∨
       (∃ fr e, h.fetch { url := i.url, path := path } = .ok fr ∧ load h fr.1 c = .error e ∧ q = (.error e, c)) ∨
       (∃ fr p, h.fetch { url := i.url, path := path } = .ok fr ∧ load h fr.1 c = .ok p ∧
         resolveLoaded h n p.1 c = some q))) := by
  simp only [resolveDep] at hr
  have hfst := Lru.get_fst i.url c
  rcases hget : Lru.get i.url c with ⟨o, c'⟩
  rw [hget] at hr hfst
  simp only at hfst
  cases o with
  | some s =>
    simp only [Option.some.injEq] at hr
    exact .inl ⟨s, hfst.symm, hr.symm⟩
  | none =>
    simp only at hr
    refine .inr ?_
    cases ho : h.override i.url with
    | none => rw [ho] at hr; exact .inl ⟨hfst.symm, rfl, hr⟩
    | some path =>
      rw [ho] at hr; simp only at hr
      refine .inr ⟨hfst.symm, path, rfl, ?_⟩
      cases hf : h.fetch { url := i.url, path := path } with
      | error m =>
        rw [hf] at hr; simp only [Option.some.injEq] at hr
        exact .inl ⟨m, rfl, hr.symm⟩
      | ok fr =>
        rw [hf] at hr; simp only at hr
        cases hl : load h fr.1 c with
        | error e =>
          rw [hl] at hr; simp only [Option.some.injEq] at hr
          exact .inr (.inl ⟨fr, e, rfl, hl, hr.symm⟩)
        | ok p => rw [hl] at hr; exact .inr (.inr ⟨fr, p, rfl, hl, hr⟩)

theorem dep_url {c c' : Cache B} (hc : Keyed c) {h : Host B} {n : Nat} {i : Item B} {s : Schema B} {ms : List Note}
    (ho : h.override i.url = none) (hr : resolveDep h n i c = some (.ok (s, ms), c')) : s.url = i.url := by
  cases n with
  | zero => simp [resolveDep] at hr
  | succ n =>
    rcases resolveDep_cases hr with ⟨s', hp, e⟩ | ⟨_, _, hl⟩ | ⟨_, path, hp, _⟩
    · simp only [Prod.mk.injEq, Except.ok.injEq] at e
      rw [e.1.1]
      exact hc _ (Lru.peek_some_mem hp)
    · exact resolveLoaded_url hl
    · rw [ho] at hp; cases hp

/-- C167, without a redirection: a dependency resolves to a schema of its own URL, in every history. -/
theorem dependency_url_partial {cap : Nat} {c c' : Cache B} (hc : Reached cap c) (h : Host B) (n : Nat) (i : Item B)
    (s : Schema B) (ms : List Note) (ho : h.override i.url = none)
    (hr : resolveDep h n i c = some (.ok (s, ms), c')) : s.url = i.url := dep_url (reached_keyed hc) ho hr

theorem loadAndResolve_ok {h : Host B} {n : Nat} {visit : Item B → Bool} {r : Repo} {c c' : Cache B} {s : Schema B}
    {ms : List Note} (hr : loadAndResolve h n visit r c = some (.ok (s, ms), c')) :
    ∃ i ns ms', load h r c = .ok (i, ns) ∧ visit i = true ∧ resolveLoaded h n i c = some (.ok (s, ms'), c') ∧
      ms = ns ++ ms' := by
  unfold loadAndResolve at hr
  cases hl : load h r c with
  | error e => rw [hl] at hr; simp at hr
  | ok p =>
    rw [hl] at hr; simp only at hr
    split at hr
    · rename_i hv
      rcases hq : resolveLoaded h n p.1 c with _ | ⟨o, c2⟩
      · rw [hq] at hr; cases hr
      · rw [hq] at hr
        cases o with
        | error e => simp at hr
        | ok q =>
          simp only [Option.some.injEq, Prod.mk.injEq, Except.ok.injEq] at hr
          obtain ⟨⟨rfl, rfl⟩, rfl⟩ := hr
          exact ⟨p.1, p.2, q.2, rfl, hv, hq, rfl⟩
    · simp at hr

/-- C167, for definition registries with a manifest: the schema has the URL of the manifest, in every history. -/
theorem loaded_url_partial {cap : Nat} {c c' : Cache B} (hc : Reached cap c) (h : Host B) (n : Nat)
    (visit : Item B → Bool) (r : Repo) (s : Schema B) (ms : List Note) (hm : r.manifest.isSome = true)
    (hu : r.resolvedUri = none) (hr : loadAndResolve h n visit r c = some (.ok (s, ms), c')) : s.url = r.url := by
  obtain ⟨i, ns, ms', hl, _, hq, _⟩ := loadAndResolve_ok hr
  have hurl := resolveLoaded_url hq
  rcases load_cases hl with ⟨s', hp, rfl⟩ | ⟨_, _, is, rfl⟩ | ⟨_, deps, uri, s', _, hu', _⟩
  · rw [hurl]
    exact reached_keyed hc _ (Lru.peek_some_mem hp)
  · rw [hurl]
    simp [Item.url, ownUrl, hm]
  · rw [hu] at hu'; cases hu'

/-! ### What a schema was built from -/

/-- The dependencies are resolved one after the other, from one state of the engine to another, to these schemas. -/
inductive Resolved (h : Host B) : List (Item B) → Cache B → List (Schema B) → Cache B → Prop
  | nil (c) : Resolved h [] c [] c
  | cons {i is c s ms c1 ss c2} (n) : resolveDep h n i c = some (.ok (s, ms), c1) → Resolved h is c1 ss c2 →
      Resolved h (i :: is) c (s :: ss) c2

theorem settled_ok {rs : List (Res B)} {ss : List (Schema B)} (h : settled rs = .ok ss) :
    Forall2 (fun r s => ∃ ms, r = .ok (s, ms)) rs ss := by
  induction rs generalizing ss with
  | nil => simp only [settled, Except.ok.injEq] at h; subst h; exact .nil
  | cons r rs ih =>
    cases r with
    | error e => simp [settled] at h
    | ok p =>
      simp only [settled] at h
      cases hs : settled rs with
      | error e => rw [hs] at h; cases h
      | ok ss' =>
        rw [hs] at h
        simp only [Except.ok.injEq] at h
        subst h
        exact .cons ⟨p.2, rfl⟩ (ih hs)

theorem resolveAll_resolved {h : Host B} {n : Nat} (is : List (Item B)) :
    ∀ c rs c' ss, resolveAll (resolveDep h n) is c = some (rs, c') → settled rs = .ok ss → Resolved h is c ss c' := by
  induction is with
  | nil =>
    intro c rs c' ss h hs
    simp only [resolveAll, Option.some.injEq, Prod.mk.injEq] at h
    obtain ⟨rfl, rfl⟩ := h
    simp only [settled, Except.ok.injEq] at hs
    subst hs
    exact .nil c
  | cons i is ih =>
    intro c rs c' ss hr hs
    simp only [resolveAll] at hr
    rcases h1 : resolveDep h n i c with _ | ⟨r, c1⟩
    · rw [h1] at hr; cases hr
    · rw [h1] at hr; simp only at hr
      rcases h2 : resolveAll (resolveDep h n) is c1 with _ | ⟨rs', c2⟩
      · rw [h2] at hr; cases hr
      · rw [h2] at hr
        simp only [Option.some.injEq, Prod.mk.injEq] at hr
        obtain ⟨rfl, rfl⟩ := hr
        cases r with
        | error e => simp [settled] at hs
        | ok p =>
          simp only [settled] at hs
          cases h3 : settled rs' with
          | error e => rw [h3] at hs; cases hs
          | ok ss' =>
            rw [h3] at hs
            simp only [Except.ok.injEq] at hs
            subst hs
            exact .cons (ms := p.2) n h1 (ih c1 rs' c2 ss' h2 h3)

theorem mem_builtFrom (ss : List (Schema B)) (u : SchemaUrl) :
    u ∈ builtFrom ss ↔ ∃ d ∈ ss, u = d.url ∨ u ∈ d.deps := by
  simp [builtFrom, List.mem_eraseDups]

theorem forall2_comp {α β γ : Type} {R : α → β → Prop} {S : β → γ → Prop} {l : List α} {m : List β} {k : List γ}
    (h1 : Forall2 R l m) (h2 : Forall2 S m k) : Forall2 (fun a d => ∃ b, R a b ∧ S b d) l k := by
  induction h1 generalizing k with
  | nil => cases h2; exact .nil
  | cons h _ ih =>
    cases h2 with
    | cons h' t' => exact .cons ⟨_, h, h'⟩ (ih t')

/-- C168: a resolved registry was built from one schema for each of its loaded dependencies, resolved in order, and lists
exactly their URLs and what they list; its content is what resolution makes of its files and these schemas. -/
theorem dependencies_listed {h : Host B} {n : Nat} {r : Repo} {is : List (Item B)} {c c' : Cache B} {s : Schema B}
    {ms : List Note} (hr : resolveLoaded h n (.source r is) c = some (.ok (s, ms), c')) :
    ∃ ss c1 b, Resolved h is c ss c1 ∧ (∀ u, u ∈ s.deps ↔ ∃ d ∈ ss, u = d.url ∨ u ∈ d.deps) ∧
      h.build r ss (chosenOf ss) (fun u => Lru.peek u c1) = .ok b ∧ s.body = b.1 := by
  obtain ⟨m, rs, c1, ss, b, _, h1, h2, h3, rfl, _⟩ := source_ok hr
  exact ⟨ss, c1, b, resolveAll_resolved is c rs c1 ss h1 h2, fun u => mem_builtFrom ss u, h3, rfl⟩

theorem settled_error {rs : List (Res B)} {e : Err} :
    settled rs = .error e ↔ ∃ oks rest, rs = oks ++ .error e :: rest ∧ ∀ r ∈ oks, ∃ p, r = .ok p := by
  induction rs with
  | nil => simp [settled]
  | cons r rs ih =>
    cases r with
    | error e' =>
      simp only [settled, Except.error.injEq]
      constructor
      · rintro rfl; exact ⟨[], rs, rfl, by simp⟩
      · rintro ⟨oks, rest, e1, h⟩
        cases oks with
        | nil => simp only [List.nil_append, List.cons.injEq, Except.error.injEq] at e1; exact e1.1
        | cons o oks =>
          simp only [List.cons_append, List.cons.injEq] at e1
          obtain ⟨p, hp⟩ := h o (by simp)
          rw [← e1.1] at hp; cases hp
    | ok p =>
      simp only [settled]
      constructor
      · intro h
        cases hs : settled rs with
        | error e' =>
          rw [hs] at h
          simp only [Except.error.injEq] at h
          subst h
          obtain ⟨oks, rest, e1, h⟩ := ih.1 hs
          exact ⟨.ok p :: oks, rest, by simp [e1], by
            intro r hr
            rcases List.mem_cons.1 hr with rfl | hr
            · exact ⟨p, rfl⟩
            · exact h r hr⟩
        | ok ss => rw [hs] at h; cases h
      · rintro ⟨oks, rest, e1, h⟩
        cases oks with
        | nil => simp at e1
        | cons o oks =>
          simp only [List.cons_append, List.cons.injEq] at e1
          rw [ih.2 ⟨oks, rest, e1.2, fun r hr => h r (by simp [hr])⟩]

/-- C168: if a dependency fails, the registry fails, with the error of the first dependency that fails; the others have
been resolved all the same. -/
theorem dependency_fails {h : Host B} {n : Nat} {r : Repo} {is : List (Item B)} {c c' : Cache B} {e : Err}
    {oks rest : List (Res B)} (hall : resolveAll (resolveDep h n) is c = some (oks ++ .error e :: rest, c'))
    (hok : ∀ r ∈ oks, ∃ p, r = .ok p) : resolveLoaded h (n + 1) (.source r is) c = some (.error e, c') := by
  simp only [resolveLoaded, hall]
  rw [settled_error.2 ⟨oks, rest, rfl, hok⟩]

/-! ### Messages -/

/-- C169, what is reported: the messages of a registry resolved from its files are those of loading it (with its
dependencies) and those of its own resolution. -/
theorem messages_partial {h : Host B} {n : Nat} {visit : Item B → Bool} {r : Repo} {c c' : Cache B} {s : Schema B}
    {ms : List Note} (hr : loadAndResolve h n visit r c = some (.ok (s, ms), c')) (hc : Lru.peek r.url c = none)
    (hu : r.resolvedUri = none) :
    ∃ i ns ss lookup b, load h r c = .ok (i, ns) ∧ h.build r ss (chosenOf ss) lookup = .ok b ∧ s.body = b.1 ∧
      ms = ns ++ b.2.map .text := by
  obtain ⟨i, ns, ms', hl, _, hq, rfl⟩ := loadAndResolve_ok hr
  rcases load_cases hl with ⟨s', hp, _⟩ | ⟨_, _, is, rfl⟩ | ⟨_, deps, uri, s', _, hu', _⟩
  · rw [hc] at hp; cases hp
  · obtain ⟨m, rs, c1, ss, b, _, _, _, h4, rfl, rfl, _⟩ := source_ok hq
    exact ⟨_, ns, ss, _, b, hl, h4, rfl, rfl⟩
  · rw [hu] at hu'; cases hu'

theorem load_inv {h : Host B} {r : Repo} {c : Cache B} {i : Item B} {ns : List Note} (hl : load h r c = .ok (i, ns)) :
    ∃ res, loadRoot (h.world c) r = .ok res ∧ ns = res.1.nfes.map .text ++ res.2.map .upgraded := by
  unfold load at hl
  cases hr : loadRoot (h.world c) r with
  | error e => rw [hr] at hl; cases hl
  | ok res =>
    rw [hr] at hl; dsimp only at hl
    split at hl
    · cases hl
    · injection hl with hl
      injection hl with _ hl
      exact ⟨res, rfl, hl.symm⟩

/-- C169: what loading reports are the non fatal errors of every registry in the graph of the registry loaded, and the
upgrades the loader announces; all of it is reported for the registry. -/
theorem loading_messages {h : Host B} {n : Nat} {visit : Item B → Bool} {r : Repo} {c c' : Cache B} {s : Schema B}
    {ms : List Note} (hr : loadAndResolve h n visit r c = some (.ok (s, ms), c')) :
    (∀ l x m, Path (h.world c) r l x → OwnNfe (h.world c) x m → Note.text m ∈ ms) ∧
    ∃ res, loadRoot (h.world c) r = .ok res ∧ ∀ u, Note.upgraded u ∈ ms ↔ u ∈ res.2 := by
  obtain ⟨i, ns, ms', hl, _, hq, rfl⟩ := loadAndResolve_ok hr
  obtain ⟨res, hres, rfl⟩ := load_inv hl
  refine ⟨?_, res, hres, ?_⟩
  · intro l x m hp hm
    have := (load_reports_all_warnings _ r res hres m).2 ⟨l, x, hp, hm⟩
    simp [this]
  · intro u
    have : Note.upgraded u ∉ ms' := by
      cases i with
      | ready s' =>
        cases n with
        | zero => simp [resolveLoaded] at hq
        | succ n =>
          simp only [resolveLoaded, Option.some.injEq, Prod.mk.injEq, Except.ok.injEq] at hq
          rw [← hq.1.2]; simp
      | source r is =>
        obtain ⟨m, rs, c1, ss, b, _, _, _, _, _, rfl, _⟩ := source_ok hq
        simp
    simp [this]

/-- C07 in the engine: the registries that a published schema lists take part in the check of versions, also those that
are not loaded: two versions of one registry that are met in the graph or listed by a published schema of it are the same
or compatible. -/
theorem published_versions_checked {h : Host B} {r : Repo} {c : Cache B} {i : Item B} {ns : List Note}
    (hl : load h r c = .ok (i, ns)) {l l' : List Repo} {x y : Repo} {uri : String} {deps : List Dep} {s : Schema B}
    (hp : Path (h.world c) r l x) (hc : Lru.peek x.url c = none) (hm : x.manifest = some deps)
    (hu : x.resolvedUri = some uri) (hs : h.published uri = .ok s) (hp' : Path (h.world c) r l' y)
    {u : SchemaUrl} (hmem : u ∈ s.deps) (hn : u.name = y.url.name) : u = y.url ∨ Compatible u y.url := by
  obtain ⟨res, hres, _⟩ := load_inv hl
  refine ((load_succeeds_iff _ r).1 ⟨res, hres⟩).2.2.2 l x u l' y y.url hp (.inr ⟨?_, deps, uri, s.deps, hm, hu, ?_, hmem⟩) hp'
    (.inl rfl) hn
  · simp [Host.world, hc]
  · simp [Host.world, hs]

/-- C168: resolution is given, for every registry listed, the greatest version that is listed, if the versions listed of
each registry agree in the major version. -/
theorem versions_given {h : Host B} {n : Nat} {r : Repo} {is : List (Item B)} {c c' : Cache B} {s : Schema B}
    {ms : List Note} (hr : resolveLoaded h n (.source r is) c = some (.ok (s, ms), c'))
    (hv : ∀ u ∈ s.deps, ∀ v ∈ s.deps, u.name = v.name → u = v ∨ Compatible u v) :
    ∃ ss chosen lookup b, h.build r ss chosen lookup = .ok b ∧ s.body = b.1 ∧
      ∀ u ∈ s.deps, ∃ v ∈ s.deps, aget u.name chosen = some v ∧ v.name = u.name ∧
        (v = u ∨ ∃ vv vu, v.sv = some vv ∧ u.sv = some vu ∧ vv.major = vu.major ∧ VerLe vu vv) := by
  obtain ⟨m, rs, c1, ss, b, _, h1, h2, h3, rfl, _⟩ := source_ok hr
  refine ⟨ss, chosenOf ss, _, b, h3, rfl, ?_⟩
  have hmem : ∀ u, u ∈ builtFrom ss ↔ u ∈ ss.flatMap fun s => s.url :: s.deps := by
    intro u; unfold builtFrom; simp
  obtain ⟨ch, hch⟩ := (loader_accepts_iff (ss.flatMap fun s => s.url :: s.deps)).2
    (fun a ha b hb => hv a ((hmem a).2 ha) b ((hmem b).2 hb))
  obtain ⟨k1, k2⟩ := loader_chooses_latest _ _ hch
  intro u hu
  obtain ⟨v, hv1, hv2⟩ := k2 u ((hmem u).1 hu)
  obtain ⟨k3, k4⟩ := k1 _ _ hv1
  refine ⟨v, (hmem v).2 k3, ?_, k4, hv2⟩
  unfold chosenOf
  rw [resolver_choice_partial _ _ hch]
  exact hv1

/-! ### Termination -/

theorem resolveAll_mono {f g : Item B → Cache B → Option (Res B × Cache B)}
    (hfg : ∀ i c r, f i c = some r → g i c = some r) (is : List (Item B)) :
    ∀ c rs, resolveAll f is c = some rs → resolveAll g is c = some rs := by
  induction is with
  | nil => intro c rs h; exact h
  | cons i is ih =>
    intro c rs h
    simp only [resolveAll] at h ⊢
    cases h1 : f i c with
    | none => rw [h1] at h; cases h
    | some r =>
      rw [h1] at h; simp only at h
      rw [hfg _ _ _ h1]; simp only
      cases h2 : resolveAll f is r.2 with
      | none => rw [h2] at h; cases h
      | some rs' => rw [h2] at h; rw [ih _ _ h2]; exact h

theorem run_mono (h : Host B) (n : Nat) :
    (∀ i c r, resolveLoaded h n i c = some r → resolveLoaded h (n + 1) i c = some r) ∧
    (∀ i c r, resolveDep h n i c = some r → resolveDep h (n + 1) i c = some r) := by
  induction n with
  | zero => exact ⟨fun i c r hr => by simp [resolveLoaded] at hr, fun i c r hr => by simp [resolveDep] at hr⟩
  | succ n ih =>
    refine ⟨fun i c r hr => ?_, fun i c r hr => ?_⟩
    · cases i with
      | ready s => exact hr
      | source rp is =>
        simp only [resolveLoaded] at hr
        rw [resolveLoaded]
        cases h1 : resolveAll (resolveDep h n) is c with
        | none => rw [h1] at hr; cases hr
        | some rs => rw [h1] at hr; rw [resolveAll_mono ih.2 is c rs h1]; exact hr
    · simp only [resolveDep] at hr
      rw [resolveDep]
      rcases hget : Lru.get i.url c with ⟨o, c'⟩
      rw [hget] at hr
      cases o with
      | some s => exact hr
      | none =>
        simp only at hr ⊢
        cases ho : h.override i.url with
        | none => rw [ho] at hr; exact ih.1 _ _ _ hr
        | some path =>
          rw [ho] at hr; simp only at hr ⊢
          cases hf : h.fetch { url := i.url, path := path } with
          | error m => rw [hf] at hr; exact hr
          | ok fr =>
            rw [hf] at hr; simp only at hr ⊢
            cases hl : load h fr.1 c with
            | error e => rw [hl] at hr; exact hr
            | ok p => rw [hl] at hr; exact ih.1 _ _ _ hr

theorem resolveLoaded_le {h : Host B} {n m : Nat} (hnm : n ≤ m) {i : Item B} {c : Cache B} {r : Res B × Cache B}
    (hr : resolveLoaded h n i c = some r) : resolveLoaded h m i c = some r := by
  obtain ⟨k, rfl⟩ := Nat.exists_eq_add_of_le hnm
  induction k with
  | zero => exact hr
  | succ k ih => exact (run_mono h (n + k)).1 _ _ _ (ih (by omega))

theorem resolveDep_le {h : Host B} {n m : Nat} (hnm : n ≤ m) {i : Item B} {c : Cache B} {r : Res B × Cache B}
    (hr : resolveDep h n i c = some r) : resolveDep h m i c = some r := by
  obtain ⟨k, rfl⟩ := Nat.exists_eq_add_of_le hnm
  induction k with
  | zero => exact hr
  | succ k ih => exact (run_mono h (n + k)).2 _ _ _ (ih (by omega))

/-- `j` is a dependency, direct or not, of the loaded registry. -/
inductive Within (j : Item B) : Item B → Prop
  | direct {r is} : j ∈ is → Within j (.source r is)
  | deeper {r is k} : k ∈ is → Within j k → Within j (.source r is)

/-- The redirections lead somewhere: every redirected URL has a rank, and what it is redirected to depends only on
redirected URLs of lower rank. -/
def Ranked (h : Host B) (rank : SchemaUrl → Nat) : Prop :=
  ∀ u path fr c i ns, h.override u = some path → h.fetch { url := u, path := path } = .ok fr →
    load h fr.1 c = .ok (i, ns) → ∀ j, Within j i → (h.override j.url).isSome = true → rank j.url < rank u

theorem resolveAll_ends {h : Host B} (is : List (Item B)) (he : ∀ i ∈ is, ∀ c, ∃ n r, resolveDep h n i c = some r) :
    ∀ c, ∃ n rs, resolveAll (resolveDep h n) is c = some rs := by
  induction is with
  | nil => intro c; exact ⟨0, _, rfl⟩
  | cons i is ih =>
    intro c
    obtain ⟨n, r, hr⟩ := he i (by simp) c
    obtain ⟨m, rs, hrs⟩ := ih (fun j hj => he j (by simp [hj])) r.2
    refine ⟨max n m, (r.1 :: rs.1, rs.2), ?_⟩
    simp only [resolveAll]
    rw [resolveDep_le (Nat.le_max_left n m) hr]; simp only
    rw [resolveAll_mono (fun i c r h => resolveDep_le (Nat.le_max_right n m) h) is _ _ hrs]

theorem source_ends {h : Host B} (r : Repo) (is : List (Item B))
    (he : ∀ i ∈ is, ∀ c, ∃ n r, resolveDep h n i c = some r) : ∀ c, ∃ n q, resolveLoaded h n (.source r is) c = some q := by
  intro c
  obtain ⟨n, rs, hrs⟩ := resolveAll_ends is he c
  refine ⟨n + 1, ?_⟩
  simp only [resolveLoaded, hrs]
  cases settled rs.1 with
  | error e => exact ⟨_, rfl⟩
  | ok ss => exact ⟨_, rfl⟩

/-- Resolving a dependency ends if resolving the loaded registry does, and what it is redirected to does. -/
theorem dep_ends {h : Host B} (i : Item B) (h1 : ∀ c, ∃ n q, resolveLoaded h n i c = some q)
    (h2 : ∀ path fr c p, h.override i.url = some path → h.fetch { url := i.url, path := path } = .ok fr →
      load h fr.1 c = .ok p → ∃ n q, resolveLoaded h n p.1 c = some q) : ∀ c, ∃ n q, resolveDep h n i c = some q := by
  intro c
  rcases hget : Lru.get i.url c with ⟨o, c'⟩
  cases o with
  | some s => exact ⟨1, _, by simp only [resolveDep, hget]; rfl⟩
  | none =>
    cases ho : h.override i.url with
    | none =>
      obtain ⟨n, q, hq⟩ := h1 c
      exact ⟨n + 1, q, by simp only [resolveDep, hget, ho]; exact hq⟩
    | some path =>
      cases hf : h.fetch { url := i.url, path := path } with
      | error m => exact ⟨1, _, by simp only [resolveDep, hget, ho, hf]; rfl⟩
      | ok fr =>
        cases hl : load h fr.1 c with
        | error e => exact ⟨1, _, by simp only [resolveDep, hget, ho, hf, hl]; rfl⟩
        | ok p =>
          obtain ⟨n, q, hq⟩ := h2 path fr c p ho hf hl
          exact ⟨n + 1, q, by simp only [resolveDep, hget, ho, hf, hl]; exact hq⟩

mutual
theorem ends_item (h : Host B) (rank : SchemaUrl → Nat) (k : Nat)
    (ih : ∀ u path fr c p, rank u < k → h.override u = some path → h.fetch { url := u, path := path } = .ok fr →
      load h fr.1 c = .ok p → ∃ n q, resolveLoaded h n p.1 c = some q) :
    ∀ i : Item B, (∀ j, Within j i → (h.override j.url).isSome = true → rank j.url < k) →
      ∀ c, ∃ n q, resolveLoaded h n i c = some q
  | .ready s, _ => fun c => ⟨1, _, rfl⟩
  | .source r is, hw => source_ends r is (ends_items h rank k ih is (fun j hj => hw j (.direct hj))
      (fun j i hi hj => hw j (.deeper hi hj)))
termination_by structural i => i
theorem ends_items (h : Host B) (rank : SchemaUrl → Nat) (k : Nat)
    (ih : ∀ u path fr c p, rank u < k → h.override u = some path → h.fetch { url := u, path := path } = .ok fr →
      load h fr.1 c = .ok p → ∃ n q, resolveLoaded h n p.1 c = some q) :
    ∀ is : List (Item B), (∀ i ∈ is, (h.override i.url).isSome = true → rank i.url < k) →
      (∀ j, ∀ i ∈ is, Within j i → (h.override j.url).isSome = true → rank j.url < k) →
      ∀ i ∈ is, ∀ c, ∃ n q, resolveDep h n i c = some q
  | [], _, _ => fun i hi => by simp at hi
  | a :: is, h1, h2 => fun i hi => by
    have ha := dep_ends a (ends_item h rank k ih a (fun j hj => h2 j a (by simp) hj))
        (fun path fr c p ho => ih a.url path fr c p (h1 a (by simp) (by simp [ho])) ho)
    rcases List.mem_cons.1 hi with hi | hi
    · rw [hi]; exact ha
    · exact ends_items h rank k ih is (fun i hi => h1 i (by simp [hi])) (fun j i hi => h2 j i (by simp [hi])) i hi
termination_by structural is => is
end

theorem ends_ranked {h : Host B} {rank : SchemaUrl → Nat} (hr : Ranked h rank) : ∀ k : Nat,
    ∀ i : Item B, (∀ j, Within j i → (h.override j.url).isSome = true → rank j.url < k) →
      ∀ c, ∃ n q, resolveLoaded h n i c = some q := by
  intro k
  induction k with
  | zero => exact ends_item h rank 0 (fun u path fr c p hu => by omega)
  | succ k ih =>
    refine ends_item h rank (k + 1) (fun u path fr c p hu ho hf hl => ?_)
    exact ih p.1 (fun j hj hoj => by have := hr u path fr c p.1 p.2 ho hf hl j hj hoj; omega) c

/-- The redirected URLs are finitely many. -/
theorem rank_bound (h : Host B) (rank : SchemaUrl → Nat) :
    ∃ k, ∀ u, (h.override u).isSome = true → rank u < k := by
  unfold Host.override
  generalize h.overrides = os
  induction os with
  | nil => exact ⟨0, by simp [Lru.peek]⟩
  | cons p os ih =>
    obtain ⟨k, hk⟩ := ih
    refine ⟨max k (rank p.1 + 1), fun u hu => ?_⟩
    simp only [Lru.peek] at hu
    split at hu
    · rename_i e; subst e; omega
    · have := hk u hu; omega

/-- C170, if the redirections can be ranked: loading and resolving a registry ends, in every state. -/
theorem load_ends_partial {h : Host B} {rank : SchemaUrl → Nat} (hr : Ranked h rank) (visit : Item B → Bool) (r : Repo)
    (c : Cache B) : ∃ n, ∀ m, n ≤ m → (loadAndResolve h m visit r c).isSome = true := by
  unfold loadAndResolve
  cases hl : load h r c with
  | error e => exact ⟨0, by simp⟩
  | ok p =>
    obtain ⟨k, hk⟩ := rank_bound h rank
    obtain ⟨n, q, hq⟩ := ends_ranked hr k p.1 (fun j _ hj => hk _ hj) c
    refine ⟨n, fun m hm => ?_⟩
    simp only
    rw [resolveLoaded_le hm hq]
    split
    · obtain ⟨o, c'⟩ := q
      cases o <;> simp
    · simp

/-- C170, if the redirections can be ranked: a request is answered, in every state. -/
theorem request_ends_partial {h : Host B} {rank : SchemaUrl → Nat} (hr : Ranked h rank) (u : SchemaUrl) (c : Cache B) :
    ∃ n, ∀ m, n ≤ m → (request h m u c).isSome = true := by
  unfold request
  rcases Lru.get u c with ⟨o, c'⟩
  cases o with
  | some s => exact ⟨0, by simp⟩
  | none =>
    simp only
    cases h.fetch { url := u, path := (h.override u).getD "" } with
    | error m => exact ⟨0, by simp⟩
    | ok fr =>
      obtain ⟨n, hn⟩ := load_ends_partial hr (fun _ => true) fr.1 c
      refine ⟨n, fun m hm => ?_⟩
      obtain ⟨q, hq⟩ := Option.isSome_iff_exists.1 (hn m hm)
      simp only [hq]
      obtain ⟨o, c'⟩ := q
      cases o with
      | error e => simp
      | ok p => simp only; split <;> simp

/-- Without redirections there is nothing to rank. -/
theorem ranked_none {h : Host B} (hn : h.overrides = []) : Ranked h (fun _ => 0) := by
  intro u path fr c i ns ho
  simp [Host.override, hn, Lru.peek] at ho

end Verif.Engine
