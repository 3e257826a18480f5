import Verif.Engine.FreshProps
/-
Declared dependencies, redirections, and how answers depend on history (C167 – C174).
-/
namespace Verif.Engine
open Verif.Util Verif.Resolver Verif.Loader
variable {B : Type}

/-! ### Declared dependencies -/

theorem attach_url {h : Host B} {c : Cache B} (hc : Keyed c) {x : Repo} {t : Tree} {i : Item B}
    (hm : Mirrors (h.world c) x t) (ha : attach h c t = .ok i) (h1 : x.manifest.isSome = true)
    (h2 : x.resolvedUri = none) : i.url = x.url := by
  have hsrc : ∀ ts, attach h c (.unresolved x ts) = .ok i → i.url = x.url := by
    intro ts h
    simp only [attach] at h
    cases he : attachAll _ c ts with
    | error m => rw [he] at h; cases h
    | ok is =>
      rw [he] at h
      simp only [Except.ok.injEq] at h
      subst h
      simp [Item.url, ownUrl, h1]
  cases hm with
  | cached _ hcache =>
    simp only [attach] at ha
    cases hp : Lru.peek x.url c with
    | none => rw [hp] at ha; cases ha
    | some s =>
      rw [hp] at ha
      simp only [Except.ok.injEq] at ha
      subst ha
      exact hc _ (Lru.peek_some_mem hp)
  | plain _ _ hman => exact hsrc _ ha
  | published _ deps uri us _ _ hu _ => rw [h2] at hu; cases hu
  | expanded _ deps ts _ _ => exact hsrc _ ha

theorem attachAll_url {h : Host B} {c : Cache B} {ds : List Dep} {ts : List Tree}
    (hm : MirrorsAll (h.world c) ds ts) : ∀ {is : List (Item B)}, attachAll h c ts = .ok is →
    Forall2 (fun d i => ∃ x nf t, h.fetch d = .ok (x, nf) ∧ Mirrors (h.world c) x t ∧ attach h c t = .ok i) ds is := by
  induction ts generalizing ds with
  | nil =>
    intro is ha
    cases hm
    simp only [attachAll, Except.ok.injEq] at ha
    subst ha; exact .nil
  | cons t ts ih =>
    intro is ha
    cases hm with
    | cons x nf hf hx hrest =>
      simp only [attachAll] at ha
      cases h1 : attach h c t with
      | error m => rw [h1] at ha; cases ha
      | ok i =>
        rw [h1] at ha; simp only at ha
        cases h2 : attachAll h c ts with
        | error m => rw [h2] at ha; cases ha
        | ok is' =>
          rw [h2] at ha
          simp only [Except.ok.injEq] at ha
          subst ha
          exact .cons ⟨x, nf, t, hf, hx, h1⟩ (ih hrest h2)

theorem load_declared {h : Host B} {r : Repo} {c : Cache B} {i : Item B} {ns : List Note} (hl : load h r c = .ok (i, ns))
    (hc : Lru.peek r.url c = none) {deps : List Dep} (hm : r.manifest = some deps) (hu : r.resolvedUri = none) :
    ∃ is, i = .source r is ∧
      Forall2 (fun d i => ∃ x nf t, h.fetch d = .ok (x, nf) ∧ Mirrors (h.world c) x t ∧ attach h c t = .ok i) deps is := by
  unfold load at hl
  cases hr : loadRoot (h.world c) r with
  | error e => rw [hr] at hl; cases hl
  | ok res =>
    rw [hr] at hl; simp only at hl
    have hmir := load_tree_faithful (h.world c) r res hr
    have hok : attach h c res.1.tree = .ok i := by
      cases ha : attach h c res.1.tree with
      | error m => rw [ha] at hl; cases hl
      | ok i' =>
        rw [ha] at hl
        simp only [Except.ok.injEq, Prod.mk.injEq] at hl
        rw [hl.1]
    clear hl
    generalize ht : res.1.tree = t at hmir hok
    cases hmir with
    | cached _ hcache => simp [Host.world, hc] at hcache
    | plain _ _ hman => rw [hm] at hman; cases hman
    | published _ deps uri us _ _ hu' _ => rw [hu] at hu'; cases hu'
    | expanded _ deps' ts he hall =>
      have e : deps' = deps := by have := he.2.1; rw [hm] at this; simpa using this.symm
      subst e
      simp only [attach] at hok
      cases ha : attachAll h c ts with
      | error m => rw [ha] at hok; cases hok
      | ok is =>
        rw [ha] at hok
        simp only [Except.ok.injEq] at hok
        exact ⟨is, hok.symm, attachAll_url hall ha⟩

theorem resolved_mem {h : Host B} {is : List (Item B)} {c c' : Cache B} {ss : List (Schema B)}
    (hr : Resolved h is c ss c') : Keyed c → ∀ i ∈ is, h.override i.url = none → ∃ s ∈ ss, s.url = i.url := by
  induction hr with
  | nil c => intro _ i hi; simp at hi
  | cons n h1 _ ih =>
    intro hk i hi ho
    rcases List.mem_cons.1 hi with rfl | hi
    · exact ⟨_, by simp, dep_url hk ho h1⟩
    · obtain ⟨s, hs, e⟩ := ih ((run_kept (kept_keyed h) n).2 _ _ _ h1 hk) i hi ho
      exact ⟨s, by simp [hs], e⟩

/-- C168, where the declared place has it: a declared dependency whose place holds a definition registry of that URL, not
redirected, is listed by the resolved registry, in every history. -/
theorem declared_listed_partial {cap : Nat} {c c' : Cache B} (hc : Reached cap c) (h : Host B) (n : Nat)
    (visit : Item B → Bool) (r : Repo) (s : Schema B) (ms : List Note) (deps : List Dep) (hm : r.manifest = some deps)
    (hu : r.resolvedUri = none) (hnew : Lru.peek r.url c = none)
    (hr : loadAndResolve h n visit r c = some (.ok (s, ms), c')) (d : Dep) (hd : d ∈ deps) (x : Repo) (nf : List String)
    (hf : h.fetch d = .ok (x, nf)) (hx : x.url = d.url) (hxm : x.manifest.isSome = true) (hxu : x.resolvedUri = none)
    (ho : h.override d.url = none) : d.url ∈ s.deps := by
  obtain ⟨i, ns, ms', hl, _, hq, _⟩ := loadAndResolve_ok hr
  obtain ⟨is, rfl, hall⟩ := load_declared hl hnew hm hu
  obtain ⟨ss, c1, b, hres, hlist, _⟩ := dependencies_listed hq
  obtain ⟨i, hi, x', nf', t, hf', hmir, hat⟩ := hall.mem_left hd
  rw [hf] at hf'
  simp only [Except.ok.injEq, Prod.mk.injEq] at hf'
  obtain ⟨rfl, rfl⟩ := hf'
  have hk := reached_keyed hc
  have hurl : i.url = d.url := (attach_url hk hmir hat hxm hxu).trans hx
  obtain ⟨s', hs', e⟩ := resolved_mem hres hk i hi (by rw [hurl]; exact ho)
  exact (hlist d.url).2 ⟨s', hs', .inl (by rw [e, hurl])⟩

/-! ### Redirections -/

/-- What is found, and what the engine remembers, without the messages. -/
def found (q : Option (Res B × Cache B)) : Option (Except Err (Schema B) × Cache B) :=
  q.map fun p => (match p.1 with | .ok r => .ok r.1 | .error e => .error e, p.2)

/-- C171: a dependency that is redirected and not cached is resolved to what is at the place it is redirected to, whatever
was loaded for it. -/
theorem redirected {h : Host B} {i : Item B} {c : Cache B} {path : String} {x : Repo} {nf : List String}
    (hc : Lru.peek i.url c = none) (ho : h.override i.url = some path)
    (hf : h.fetch { url := i.url, path := path } = .ok (x, nf)) (n : Nat) :
    found (resolveDep h (n + 1) i c) = found (loadAndResolve h n (fun _ => true) x c) := by
  have hget : Lru.get i.url c = (none, c) := by unfold Lru.get; rw [hc]
  simp only [resolveDep, hget, ho, hf]
  unfold loadAndResolve
  cases hl : load h x c with
  | error e => rfl
  | ok p =>
    simp only [↓reduceIte]
    rcases resolveLoaded h n p.1 c with _ | ⟨o, c'⟩
    · rfl
    · cases o <;> rfl

/-- C174, for definition registries with a manifest: a registry that is at its URL, or where its URL is redirected to, can
be requested: the request gives what loading and resolving it gives. -/
theorem request_loads_partial {cap : Nat} {c c1 : Cache B} (hc : Reached cap c) (h : Host B) (n : Nat) (u : SchemaUrl)
    (hnew : Lru.peek u c = none) (x : Repo) (nf : List String)
    (hf : h.fetch { url := u, path := (h.override u).getD "" } = .ok (x, nf)) (hx : x.url = u)
    (hxm : x.manifest.isSome = true) (hxu : x.resolvedUri = none) (s : Schema B) (ms : List Note)
    (hr : loadAndResolve h n (fun _ => true) x c = some (.ok (s, ms), c1)) :
    ∃ c2, request h n u c = some (.ok (s, nf.map .text ++ ms), c2) := by
  have hurl := loaded_url_partial hc h n _ x s ms hxm hxu hr
  have hget : Lru.get u c = (none, c) := by unfold Lru.get; rw [hnew]
  unfold request
  rw [hget]
  simp only [hf, hr]
  rw [if_neg (by simp [hurl, hx])]
  exact ⟨_, rfl⟩

/-! ### Concrete engines -/

private def url (n : String) : SchemaUrl := { name := n, tail := "1.0.0", sv := some ⟨1, 0, 0, 0⟩ }
private def plainBuild : Repo → List (Schema String) → Chosen → (SchemaUrl → Option (Schema String)) →
    Except String (String × List String) := fun r _ _ _ => .ok (r.files, if r.files = "noisy" then ["deprecated"] else [])
/-- An engine over a table of places. -/
private def engine (places : List (String × Repo)) (overrides : List (SchemaUrl × String) := [])
    (files : List (String × Schema String) := []) : Host String where
  cap := 4
  cap_pos := by decide
  overrides := overrides
  fetch := fun d => match aget (if d.path = "" then d.url.name else d.path) places with
    | some r => .ok (r, [])
    | none => .error "404"
  definition := fun _ => .ok []
  published := fun uri => match aget uri files with
    | some s => .ok s
    | none => .error "404"
  build := plainBuild
private def all : Item String → Bool := fun _ => true
private def rA : Repo := { url := url "a", manifest := some [], files := "a" }
private def rB : Repo := { url := url "b", manifest := some [{ url := url "a", path := "a" }], files := "b" }
private def rM : Repo :=
  { url := url "m", manifest := some [{ url := url "b", path := "b" }, { url := url "a", path := "a" }], files := "m" }
private def e1 : Host String := engine [("a", rA), ("b", rB)]
private def sA : Schema String := { url := url "a", deps := [], body := "a" }
private def sB : Schema String := { url := url "b", deps := [url "a"], body := "b" }
private def sM : Schema String := { url := url "m", deps := [url "b", url "a"], body := "m" }

/-- A registry with two dependencies, one of them shared, in a new engine: the shared one is resolved once. -/
example : loadAndResolve e1 9 all rM [] =
    some (.ok (sM, []), [(url "m", sM), (url "a", sA), (url "b", sB)]) := rfl

/-- It is then served from the cache, and can be shown. -/
example : request e1 0 (url "b") [(url "m", sM), (url "a", sA), (url "b", sB)] =
    some (.ok (sB, []), [(url "b", sB), (url "m", sM), (url "a", sA)]) := rfl
example : view e1 3 sM [(url "m", sM), (url "a", sA), (url "b", sB)] =
    some (.ok (.node sM [.node sB [.node sA []], .node sA []], []), [(url "a", sA), (url "b", sB), (url "m", sM)]) := rfl

/-- The loaded registry of the example agrees with itself, and everything in it is a definition registry. -/
private def iA : Item String := .source rA []
private def iB : Item String := .source rB [iA]
private def iM : Item String := .source rM [iB, iA]
example : load e1 rM [] = .ok (iM, []) := rfl

private theorem part_iA {j : Item String} (h : Part j iA) : j = iA := by
  rcases h with rfl | h
  · rfl
  · cases h with
    | direct h => cases h
    | deeper h => cases h

private theorem part_iB {j : Item String} (h : Part j iB) : j = iB ∨ j = iA := by
  rcases h with rfl | h
  · exact .inl rfl
  · cases h with
    | direct h => exact .inr (by simpa using h)
    | deeper h1 h2 =>
      simp only [List.mem_cons, List.not_mem_nil, or_false] at h1
      subst h1
      exact .inr (part_iA (.inr h2))

private theorem part_iM {j : Item String} (h : Part j iM) : j = iM ∨ j = iB ∨ j = iA := by
  rcases h with rfl | h
  · exact .inl rfl
  · cases h with
    | direct h => exact .inr (by simpa using h)
    | deeper h1 h2 =>
      simp only [List.mem_cons, List.not_mem_nil, or_false] at h1
      rcases h1 with rfl | rfl
      · exact .inr (part_iB (.inr h2))
      · exact .inr (.inr (part_iA (.inr h2)))

private theorem agree_iM : Agree iM := by
  intro j k hj hk e u
  have : j = k := by
    rcases part_iM hj with rfl | rfl | rfl <;> rcases part_iM hk with rfl | rfl | rfl <;>
      first | rfl | (exact absurd e (by decide))
  rw [this]

private theorem sources_iM : Sources iM := by
  intro j hj
  rcases part_iM hj with rfl | rfl | rfl
  · exact ⟨_, _, rfl⟩
  · exact ⟨_, _, rfl⟩
  · exact ⟨_, _, rfl⟩

/-- `shown_partial` and `dependencies_complete_partial` apply. -/
example (h' : Host String) : ∃ m v c'', v.url = url "m" ∧ Whole v ∧
    view h' m sM [(url "m", sM), (url "a", sA), (url "b", sB)] = some (.ok (v, []), c'') :=
  shown_partial (h := e1) rfl (n := 9) (visit := all) (r := rM) (i := iM) rfl agree_iM sources_iM
    (ks := [url "m", url "b", url "a"])
    (fun j hj => by rcases part_iM hj with rfl | rfl | rfl <;> decide) (by decide) rfl h'
example : ∀ u, u ∈ sM.deps ↔ Listed u iM :=
  dependencies_complete_partial (h := e1) rfl (n := 9) (visit := all) (r := rM) (i := iM) (s := sM) rfl agree_iM rfl

/-- `declared_listed_partial` and `request_loads_partial` apply. -/
example : url "b" ∈ sM.deps :=
  declared_listed_partial (cap := 4) .new e1 9 all rM sM [] _ rfl rfl rfl rfl { url := url "b", path := "b" } (by decide)
    rB [] rfl rfl rfl rfl rfl
example : ∃ c2, request e1 9 (url "b") [] = some (.ok (sB, []), c2) :=
  request_loads_partial (cap := 4) .new e1 9 (url "b") rfl rB [] rfl rfl rfl rfl sB [] (c1 := [(url "b", sB), (url "a", sA)]) rfl

/-! ### What does not hold -/

private def rDev : Repo := { url := url "dev", manifest := some [{ url := url "a", path := "a" }], files := "dev" }
private def e2 : Host String := engine [("a", rA), ("dev", rDev), ("b", rB)] [(url "a", "dev")]

private theorem e2_load : load e2 rDev [] = .ok (.source rDev [iA], []) := rfl

private theorem e2_dep (n : Nat) : resolveDep e2 n iA [] = none ∧ resolveDep e2 (n + 1) iA [] = none := by
  induction n with
  | zero => exact ⟨rfl, rfl⟩
  | succ n ih =>
    refine ⟨ih.2, ?_⟩
    show (match load e2 rDev [] with
      | .error e => some (.error e, [])
      | .ok p => resolveLoaded e2 (n + 1) p.1 []) = none
    rw [e2_load]
    simp only [resolveLoaded, resolveAll]
    rw [ih.1]

/-- C170, refuted: if a URL is redirected to a registry of another URL that depends on it, resolution never ends. -/
theorem ends_refuted : ∃ (h : Host String) (r : Repo), ∀ n, loadAndResolve h n (fun _ => true) r [] = none := by
  refine ⟨e2, rB, fun n => ?_⟩
  have hl : load e2 rB [] = .ok (iB, []) := rfl
  have : resolveLoaded e2 n iB [] = none := by
    cases n with
    | zero => rfl
    | succ n =>
      unfold iB
      simp only [resolveLoaded, resolveAll]
      rw [(e2_dep n).1]
  unfold loadAndResolve
  rw [hl]
  simp only [this, ↓reduceIte]

private def e3 : Host String := engine [("local", rA), ("b", rB)] [(url "a", "local")]

/-- C171, refuted: a redirection does not make the original place unnecessary: a dependency that is only available where
its URL is redirected to can be requested, but the registry that depends on it cannot be loaded. -/
theorem redirection_enough_refuted : ∃ (h : Host String) (r : Repo) (d : Dep) (s : Schema String) (c : Cache String),
    r.manifest = some [d] ∧ (∃ path, h.override d.url = some path) ∧ request h 9 d.url [] = some (.ok (s, []), c) ∧
    ∀ n c, ∃ m, loadAndResolve h n (fun _ => true) r c = some (.error (.load (.other m)), c) ∨ Lru.peek r.url c ≠ none := by
  refine ⟨e3, rB, { url := url "a", path := "a" }, sA, [(url "a", sA)], rfl, ⟨"local", rfl⟩, rfl, ?_⟩
  intro n c
  refine ⟨"404", ?_⟩
  cases hp : Lru.peek rB.url c with
  | some s => exact .inr (by simp)
  | none =>
    refine .inl ?_
    have hcached : (e3.world c).cached rB.url = false := by simp [Host.world, hp]
    have hl : loadRoot (e3.world c) rB = .error (.other "404") := by
      unfold loadRoot maxDepth
      rw [Loader.load]
      simp only [List.not_mem_nil, ↓reduceIte, hcached]
      rfl
    unfold loadAndResolve load
    rw [hl]

private def rOther : Repo := { url := url "other", manifest := some [], files := "other" }
private def e4 : Host String := engine [("a", rOther), ("b", rB)]
private def e5 : Host String := engine [("a", rA), ("dev", rOther), ("b", rB)] [(url "a", "dev")]

/-- `redirected` applies. -/
example : found (resolveDep e5 9 iA []) = found (loadAndResolve e5 8 all rOther []) :=
  redirected (path := "dev") (x := rOther) (nf := []) rfl rfl rfl 8

/-- `messages_partial` and `dependency_fails` apply. -/
example : ∃ i ns ss lookup b, load e1 rM [] = .ok (i, ns) ∧ e1.build rM ss (chosenOf ss) lookup = .ok b ∧ sM.body = b.1 ∧
    [] = ns ++ b.2.map .text := messages_partial (n := 9) (visit := all) (s := sM) rfl rfl rfl
/-- `versions_given` and `loading_messages` apply. -/
example : ∃ ss chosen lookup b, e1.build rM ss chosen lookup = .ok b ∧ sM.body = b.1 ∧
    ∀ u ∈ sM.deps, ∃ v ∈ sM.deps, aget u.name chosen = some v ∧ v.name = u.name ∧
      (v = u ∨ ∃ vv vu, v.sv = some vv ∧ u.sv = some vu ∧ vv.major = vu.major ∧ VerLe vu vv) :=
  versions_given (n := 9) (is := [iB, iA]) (c := []) (ms := []) (c' := [(url "m", sM), (url "a", sA), (url "b", sB)]) rfl
    (by
      intro u hu v hv hn
      simp only [sM, List.mem_cons, List.not_mem_nil, or_false] at hu hv
      rcases hu with rfl | rfl <;> rcases hv with rfl | rfl <;> first | exact .inl rfl | exact absurd hn (by decide))
private def eNoisy : Host String := { e1 with definition := fun f => if f = "a" then .ok ["odd"] else .ok [] }
example : ∀ l x m, Path (eNoisy.world []) rM l x → OwnNfe (eNoisy.world []) x m → Note.text m ∈ [Note.text "odd", .text "odd"] :=
  (loading_messages (n := 9) (visit := all) (s := sM) (c' := [(url "m", sM), (url "a", sA), (url "b", sB)]) rfl).1
/-- `published_versions_checked` applies: a published dependency that lists the version of `a` that is loaded, or another
with the same major version; it does not load if it lists one with another major version. -/
private def rP : Repo := { url := url "p", manifest := some [], resolvedUri := some "p", files := "p" }
private def rQ : Repo :=
  { url := url "q", manifest := some [{ url := url "p", path := "p" }, { url := url "a", path := "a" }], files := "q" }
private def urlV (n : String) (v : Nat) : SchemaUrl := { name := n, tail := toString v ++ ".9.0", sv := some ⟨v, 9, 0, 0⟩ }
private def eP (v : Nat) : Host String :=
  engine [("a", rA), ("p", rP)] [] [("p", { url := url "p", deps := [urlV "a" v], body := "p" })]
example : (load (eP 1) rQ []).toOption.isSome = true ∧ (load (eP 2) rQ []).toOption.isSome = false := ⟨rfl, rfl⟩
private def eFail : Host String := { e1 with build := fun r _ _ _ => if r.files = "a" then .error "bad" else .ok (r.files, []) }
example : resolveLoaded eFail 9 iB [] = some (.error (.build "bad"), []) :=
  dependency_fails (oks := []) (rest := []) (n := 8) rfl (by simp)

/-- A redirection to a registry without dependencies: `load_ends_partial` and `request_ends_partial` apply. -/
example : Ranked e5 (fun _ => 0) := by
  intro u path fr c i ns ho hf hl j hj hj2
  have hu : u = url "a" ∧ path = "dev" := by
    unfold Host.override e5 engine at ho
    by_cases h : url "a" = u
    · subst h
      exact ⟨rfl, by simpa [Lru.peek] using ho.symm⟩
    · simp [Lru.peek, h] at ho
  obtain ⟨rfl, rfl⟩ := hu
  have hfr : fr = (rOther, []) := by
    have : e5.fetch { url := url "a", path := "dev" } = .ok (rOther, []) := rfl
    rw [this] at hf
    simpa using hf.symm
  subst hfr
  rcases load_cases hl with ⟨s', hp, rfl⟩ | ⟨_, _, is, rfl⟩ | ⟨_, deps, uri, s', _, hu', _⟩
  · cases hj
  · rename_i hp _
    obtain ⟨is', e, hall⟩ := load_declared hl hp rfl rfl
    cases hall
    cases e
    cases hj with
    | direct h => cases h
    | deeper h => cases h
  · cases hu'
example : (loadAndResolve e5 9 all rB []).isSome = true ∧ (request e5 9 (url "b") []).isSome = true := ⟨rfl, rfl⟩

/-- C168, refuted: the place of a declared dependency may hold a registry of another URL; the resolved registry then lists
that one and not the declared one. -/
theorem declared_listed_refuted : ∃ (h : Host String) (r : Repo) (d : Dep) (s : Schema String) (c : Cache String),
    r.manifest = some [d] ∧ h.overrides = [] ∧ loadAndResolve h 9 (fun _ => true) r [] = some (.ok (s, []), c) ∧
    d.url ∉ s.deps :=
  ⟨e4, rB, { url := url "a", path := "a" }, { url := url "b", deps := [url "other"], body := "b" }, _, rfl, rfl, rfl,
    by decide⟩

/-- C167, refuted: a redirected dependency may resolve to a schema of another URL. -/
theorem dependency_url_refuted : ∃ (h : Host String) (i : Item String) (s : Schema String) (c : Cache String),
    resolveDep h 9 i [] = some (.ok (s, []), c) ∧ s.url ≠ i.url :=
  ⟨e5, iA, { url := url "other", deps := [], body := "other" }, _, rfl, by decide⟩

private def rPub : Repo := { url := url "p", manifest := some [], resolvedUri := some "p.yaml" }
private def sPub : Schema String := { url := url "q", deps := [], body := "published" }
private def e6 : Host String := engine [("p", rPub)] [] [("p.yaml", sPub)]

/-- C167, refuted: the schema behind a publication manifest may have another URL than the manifest. -/
theorem loaded_url_refuted : ∃ (h : Host String) (r : Repo) (s : Schema String) (c : Cache String),
    r.manifest.isSome = true ∧ loadAndResolve h 9 (fun _ => true) r [] = some (.ok (s, []), c) ∧ s.url ≠ r.url :=
  ⟨e6, rPub, sPub, _, rfl, rfl, by decide⟩

private def rNoisy : Repo := { url := url "a", manifest := some [], files := "noisy" }
private def e7 : Host String := engine [("a", rNoisy), ("b", rB)]

/-- C169, refuted: what the resolution of a dependency reports is not reported for the registry that depends on it. -/
theorem messages_refuted : ∃ (h : Host String) (r x : Repo) (d : Dep) (s t : Schema String) (c c' : Cache String) (m : Note),
    r.manifest = some [d] ∧ h.fetch d = .ok (x, []) ∧ loadAndResolve h 9 (fun _ => true) x [] = some (.ok (t, [m]), c') ∧
    loadAndResolve h 9 (fun _ => true) r [] = some (.ok (s, []), c) :=
  ⟨e7, rB, rNoisy, { url := url "a", path := "a" }, sB, { url := url "a", deps := [], body := "noisy" }, _, _,
    .text "deprecated", rfl, rfl, rfl, rfl⟩

private def rOne : Repo := { url := { name := "unknown", tail := "unknown", sv := none }, files := "one" }
private def rTwo : Repo := { url := { name := "unknown", tail := "unknown", sv := none }, files := "two" }

/-- C173, refuted: of two registries without a manifest, an engine gives the first one's schema for both. -/
theorem history_load_refuted : ∃ (h : Host String) (r r' : Repo) (s s' : Schema String) (c c' : Cache String),
    loadAndResolve h 9 (fun _ => true) r [] = some (.ok (s, []), c) ∧
    loadAndResolve h 9 (fun _ => true) r' [] = some (.ok (s', []), c') ∧ s ≠ s' ∧
    loadAndResolve h 9 (fun _ => true) r' c = some (.ok (s, []), c) :=
  ⟨e1, rOne, rTwo, { url := rOne.url, deps := [], body := "one" }, { url := rOne.url, deps := [], body := "two" }, _, _,
    rfl, rfl, by decide, rfl⟩

private def sOther : Schema String := { url := url "a", deps := [], body := "not a" }
private def e8 : Host String := engine [("a", rA), ("p", rPub)] [] [("p.yaml", sOther)]

/-- C173, refuted: a request that fails changes what a later request for another URL is answered. -/
theorem history_request_refuted : ∃ (h : Host String) (u v : SchemaUrl) (s s' : Schema String) (e : Err) (c c' c'' : Cache String),
    request h 9 u [] = some (.ok (s, []), c) ∧ request h 9 v c = some (.error e, c') ∧
    request h 9 u c' = some (.ok (s', []), c'') ∧ s ≠ s' :=
  ⟨e8, url "a", url "p", sA, sOther, .mismatch (url "p") (url "a"), _, _, _, rfl, rfl, rfl, by decide⟩

private def a2 : SchemaUrl := { name := "a", tail := "2.0.0", sv := some ⟨2, 0, 0, 0⟩ }
private def rA2 : Repo := { url := a2, manifest := some [], files := "a2" }
private def rN : Repo :=
  { url := url "n", manifest := some [{ url := url "b", path := "b" }, { url := a2, path := "a2" }], files := "n" }
private def e9 : Host String := engine [("a", rA), ("b", rB), ("a2", rA2)]

/-- C173, refuted: two incompatible versions of a registry in the dependencies are an error in a new engine, and are not
noticed by an engine that has resolved one of the dependencies before. -/
theorem history_conflict_refuted : ∃ (h : Host String) (r x : Repo) (t s : Schema String) (ex : ConflictErr) (c c' : Cache String),
    loadAndResolve h 9 (fun _ => true) r [] = some (.error (.load (.conflict ex)), []) ∧
    loadAndResolve h 9 (fun _ => true) x [] = some (.ok (t, []), c) ∧
    loadAndResolve h 9 (fun _ => true) r c = some (.ok (s, []), c') :=
  ⟨e9, rN, rB, sB, { url := url "n", deps := [url "b", url "a", a2], body := "n" }, .incompatible (url "a") a2, _, _,
    rfl, rfl, rfl⟩

private def sSelf : Schema String := { url := url "p", deps := [url "p"], body := "published" }
private def e10 : Host String := engine [("p", rPub)] [] [("p.yaml", sSelf)]

private theorem e10_view (n : Nat) : view e10 n sSelf [(url "p", sSelf)] = none := by
  induction n with
  | zero => rfl
  | succ n ih =>
    simp only [view, viewAll, sSelf]
    have : request e10 n (url "p") [(url "p", sSelf)] = some (.ok (sSelf, []), [(url "p", sSelf)]) := rfl
    simp only [sSelf] at this ih
    rw [this]
    simp only [ih]

/-- C172, refuted: a published schema that lists itself resolves, and showing it never ends. -/
theorem shown_ends_refuted : ∃ (h : Host String) (r : Repo) (s : Schema String) (c : Cache String),
    loadAndResolve h 9 (fun _ => true) r [] = some (.ok (s, []), c) ∧ ∀ n, view h n s c = none :=
  ⟨e10, rPub, sSelf, [(url "p", sSelf)], rfl, e10_view⟩

private def sDeep : Schema String := { url := url "p", deps := [url "gone"], body := "published" }
private def rUse : Repo := { url := url "u", manifest := some [{ url := url "p", path := "p" }], files := "u" }
private def e11 : Host String := engine [("p", rPub)] [] [("p.yaml", sDeep)]

/-- C172, refuted: a registry that resolves cannot be shown if a published dependency lists a registry that cannot be
fetched from its URL. -/
theorem shown_refuted : ∃ (h : Host String) (r : Repo) (s : Schema String) (c c' : Cache String) (e : Err),
    loadAndResolve h 9 (fun _ => true) r [] = some (.ok (s, []), c) ∧ view h 9 s c = some (.error e, c') :=
  ⟨e11, rUse, { url := url "u", deps := [url "p", url "gone"], body := "u" }, _, _, .definition "404", rfl, rfl⟩

private def uHttp : SchemaUrl := { scheme := "http://", name := "a", tail := "1.0.0", sv := some ⟨1, 0, 0, 0⟩ }
private def rHttp : Repo := { url := uHttp, files := "a" }
private def e12 : Host String := engine [("a", rHttp)]

/-- C174, refuted: a registry without a manifest that can be fetched from its `http` URL and resolved cannot be requested. -/
theorem request_loads_refuted : ∃ (h : Host String) (u : SchemaUrl) (x : Repo) (s : Schema String) (c c' : Cache String),
    h.fetch { url := u } = .ok (x, []) ∧ x.url = u ∧ loadAndResolve h 9 (fun _ => true) x [] = some (.ok (s, []), c) ∧
    request h 9 u [] = some (.error (.mismatch u s.url), c') :=
  ⟨e12, uHttp, rHttp, { url := url "a", deps := [], body := "a" }, _, _, rfl, rfl, rfl, rfl⟩

end Verif.Engine
