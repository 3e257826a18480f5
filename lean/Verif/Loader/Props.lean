import Verif.Loader.Model
import Verif.Resolver.VersionProps
/-
C07: loading a registry with its dependencies.
-/
namespace Verif.Loader
open Verif.Util Verif.Resolver

/-! ### Specification -/

/-- The loader goes through the dependencies `deps` that the registry declares: it is not taken from the cache, has a
manifest, and is not published in resolved form. -/
def Expanded (w : World) (r : Repo) (deps : List Dep) : Prop :=
  w.cached r.url = false ∧ r.manifest = some deps ∧ r.resolvedUri = none

/-- `x` is the registry found for a dependency declared by `r`. -/
def Step (w : World) (r x : Repo) : Prop :=
  ∃ deps d nf, Expanded w r deps ∧ d ∈ deps ∧ w.fetch d = .ok (x, nf)

/-- `Path w r l x`: following declared dependencies, one gets from `r` to `x`, and `l` are the registries met before
`x`. -/
inductive Path (w : World) : Repo → List Repo → Repo → Prop
  | here (r) : Path w r [] r
  | step {r y l x} : Step w r y → Path w y l x → Path w r (r :: l) x

/-- Two declarations of one registry in one manifest can be reconciled. -/
def DeclOk (a b : Dep) : Prop :=
  a.url.name = b.url.name → a.isVersioned = true ∧ b.isVersioned = true ∧ Compatible a.url b.url

/-- Nothing goes wrong with the registry itself: its own files or resolved schema can be read, its dependencies can be
fetched, and those it declares twice can be reconciled. -/
def LocalOk (w : World) (r : Repo) : Prop :=
  w.cached r.url = false →
    (r.manifest = none → ∃ ns, w.definition r.files = .ok ns) ∧
    (∀ deps uri, r.manifest = some deps → r.resolvedUri = some uri → ∃ us, w.resolved uri = .ok us) ∧
    (∀ deps, r.manifest = some deps → r.resolvedUri = none →
      (∀ d ∈ deps, ∃ fr, w.fetch d = .ok fr) ∧ deps.Pairwise DeclOk ∧ ∃ ns, w.definition r.files = .ok ns)

/-- The schema URLs a registry contributes: its own, and those its published resolved schema says it depends on. -/
def Noted (w : World) (r : Repo) (u : SchemaUrl) : Prop :=
  u = r.url ∨ (w.cached r.url = false ∧ ∃ deps uri us, r.manifest = some deps ∧ r.resolvedUri = some uri ∧
    w.resolved uri = .ok us ∧ u ∈ us)

def names (l : List Repo) : List String := l.map (fun r => r.url.name)

/-! ### Lemmas -/

theorem noteAllStrict_append (us vs : List SchemaUrl) (c : Chosen) :
    noteAllStrict c (us ++ vs) = match noteAllStrict c us with
      | .ok c' => noteAllStrict c' vs
      | .error e => .error e := by
  induction us generalizing c with
  | nil => rfl
  | cons u us ih =>
    simp only [List.cons_append, noteAllStrict]
    cases noteStrict c u with
    | error e => rfl
    | ok d => exact ih d

/-- The URLs met by the loader, in order. -/
def trace (w : World) : Nat → Repo → List SchemaUrl
  | 0, _ => []
  | n + 1, r => r.url ::
    (if w.cached r.url then []
     else match r.manifest with
      | none => []
      | some deps => match r.resolvedUri with
        | some uri => (match w.resolved uri with | .ok us => us | .error _ => [])
        | none => deps.flatMap fun d => match w.fetch d with | .ok fr => trace w n fr.1 | .error _ => [])

/-- What has to hold below `r`, with a budget of `n` levels and the names `chain` above. -/
def Good (w : World) (n : Nat) (chain : List String) (r : Repo) : Prop :=
  ∀ l x, Path w r l x → l.length < n ∧ x.url.name ∉ chain ++ names l ∧ LocalOk w x

theorem good_zero (w : World) (chain : List String) (r : Repo) : ¬ Good w 0 chain r := by
  intro h; have := (h [] r (.here r)).1; simp at this

theorem good_succ (w : World) (n : Nat) (chain : List String) (r : Repo) :
    Good w (n + 1) chain r ↔ r.url.name ∉ chain ∧ LocalOk w r ∧
      ∀ x, Step w r x → Good w n (chain ++ [r.url.name]) x := by
  constructor
  · intro h
    refine ⟨?_, (h [] r (.here r)).2.2, ?_⟩
    · have := (h [] r (.here r)).2.1; simpa [names] using this
    · intro x hx l y hp
      have := h (r :: l) y (.step hx hp)
      refine ⟨by simpa using this.1, ?_, this.2.2⟩
      have h2 := this.2.1
      simpa [names, List.append_assoc] using h2
  · rintro ⟨h1, h2, h3⟩ l x hp
    cases hp with
    | here => exact ⟨by simp, by simpa [names] using h1, h2⟩
    | step hs hp =>
      rename_i y l
      have := h3 _ hs l x hp
      refine ⟨by simpa using this.1, ?_, this.2.2⟩
      simpa [names, List.append_assoc] using this.2.1

/-- All declarations accepted, starting from `seen`. -/
def declAll (seen : List (String × Dep)) : List Dep → Prop
  | [] => True
  | d :: ds => ∃ s, noteDeclared seen d = .ok s ∧ declAll s ds

theorem compatible_trans {a b c : SchemaUrl} (h1 : Compatible a b) (h2 : Compatible b c) : Compatible a c := by
  obtain ⟨va, vb, e1, e2, e3⟩ := h1
  obtain ⟨vb', vc, f1, f2, f3⟩ := h2
  rw [e2] at f1; cases f1
  exact ⟨va, vc, e1, f2, e3.trans f3⟩

theorem compatible_symm {a b : SchemaUrl} (h : Compatible a b) : Compatible b a := by
  obtain ⟨va, vb, e1, e2, e3⟩ := h; exact ⟨vb, va, e2, e1, e3.symm⟩

theorem checkCompat_ok (p d : Dep) (hn : p.url.name = d.url.name) :
    checkCompat p d = .ok () ↔ p.isVersioned = true ∧ d.isVersioned = true ∧ Compatible p.url d.url := by
  unfold checkCompat
  cases h1 : p.isVersioned with
  | false => simp
  | true =>
    cases h2 : d.isVersioned with
    | false => simp
    | true =>
      simp only [Bool.not_true, Bool.or_self, Bool.false_eq_true, if_false, true_and]
      cases hr : resolveVersions p.url d.url with
      | error e =>
        have := (conflict_error_iff p.url d.url).1 ⟨e, hr⟩
        simp only [reduceCtorEq, false_iff]
        rcases this with h | h
        · exact absurd hn h
        · exact h
      | ok u =>
        simp only [true_iff]
        have hne : ¬ ∃ e, resolveVersions p.url d.url = .error e := by rintro ⟨e, he⟩; rw [hr] at he; cases he
        rw [conflict_error_iff] at hne
        simp only [not_or, Classical.not_not] at hne
        exact hne.2

theorem declAll_iff (ds : List Dep) : ∀ seen : List (String × Dep),
    (∀ n p, aget n seen = some p → p.url.name = n) →
    (declAll seen ds ↔ (∀ d ∈ ds, ∀ p, aget d.url.name seen = some p → DeclOk p d) ∧ ds.Pairwise DeclOk) := by
  induction ds with
  | nil => intro seen _; simp [declAll]
  | cons d ds ih =>
    intro seen hs
    simp only [declAll, List.pairwise_cons]
    unfold noteDeclared
    cases hg : aget d.url.name seen with
    | some p =>
      have hn := hs _ _ hg
      simp only
      cases hc : checkCompat p d with
      | error e =>
        simp only [reduceCtorEq, false_and, exists_false, false_iff, not_and]
        intro h
        have h' := h d (by simp) p hg
        have := (checkCompat_ok p d hn).2 (h' hn)
        rw [hc] at this; cases this
      | ok _ =>
        have hok := (checkCompat_ok p d hn).1 hc
        simp only [Except.ok.injEq, exists_eq_left', ih seen hs]
        constructor
        · rintro ⟨h1, h2⟩
          refine ⟨?_, ?_, h2⟩
          · intro x hx q hq
            rcases List.mem_cons.1 hx with rfl | hx
            · rw [hg] at hq; cases hq; exact fun _ => hok
            · exact h1 x hx q hq
          · intro x hx hxn
            have := h1 x hx p (by rw [← hxn]; exact hg) (hn.trans hxn)
            exact ⟨hok.2.1, this.2.1, compatible_trans (compatible_symm hok.2.2) this.2.2⟩
        · rintro ⟨h1, _, h3⟩
          exact ⟨fun x hx => h1 x (by simp [hx]), h3⟩
    | none =>
      simp only [Except.ok.injEq, exists_eq_left']
      rw [ih _ (by
        intro n p hp; rw [aget_aset] at hp
        by_cases hnn : n = d.url.name
        · rw [if_pos hnn] at hp; cases hp; exact hnn.symm
        · rw [if_neg hnn] at hp; exact hs n p hp)]
      constructor
      · rintro ⟨h1, h2⟩
        refine ⟨?_, ?_, h2⟩
        · intro x hx q hq
          rcases List.mem_cons.1 hx with rfl | hx
          · rw [hg] at hq; cases hq
          · by_cases hxn : x.url.name = d.url.name
            · rw [hxn, hg] at hq; cases hq
            · exact h1 x hx q (by rw [aget_aset, if_neg hxn]; exact hq)
        · intro x hx hxn
          exact h1 x hx d (by rw [aget_aset, if_pos hxn.symm]) hxn
      · rintro ⟨h1, h2, h3⟩
        refine ⟨?_, h3⟩
        intro x hx q hq
        rw [aget_aset] at hq
        by_cases hxn : x.url.name = d.url.name
        · rw [if_pos hxn] at hq; cases hq; exact h2 x hx
        · rw [if_neg hxn] at hq; exact h1 x (by simp [hx]) q hq

theorem declAll_nil_iff (ds : List Dep) : declAll [] ds ↔ ds.Pairwise DeclOk := by
  rw [declAll_iff ds [] (by simp [aget])]; simp [aget]

theorem loadDeps_iff (w : World) (rec : Repo → Chosen → Except LErr Loaded) (G : Repo → Prop)
    (tr : Repo → List SchemaUrl)
    (H : ∀ x c c', (∃ l, rec x c = .ok l ∧ l.chosen = c') ↔ G x ∧ noteAllStrict c (tr x) = .ok c') (ds : List Dep) :
    ∀ (st : DepsState) (c' : Chosen), (∃ st', loadDeps w rec ds st = .ok st' ∧ st'.chosen = c') ↔
      declAll st.seen ds ∧ (∀ d ∈ ds, ∃ fr, w.fetch d = .ok fr ∧ G fr.1) ∧
      noteAllStrict st.chosen (ds.flatMap fun d => match w.fetch d with | .ok fr => tr fr.1 | .error _ => []) =
        .ok c' := by
  induction ds with
  | nil => intro st c'; simp [loadDeps, declAll, noteAllStrict]
  | cons d ds ih =>
    intro st c'
    simp only [loadDeps, declAll, List.flatMap_cons, noteAllStrict_append]
    cases hd : noteDeclared st.seen d with
    | error e => simp
    | ok s =>
      simp only [Except.ok.injEq, exists_eq_left']
      cases hf : w.fetch d with
      | error m => simp [hf]
      | ok fr =>
        simp only
        cases hr : rec fr.1 st.chosen with
        | error e =>
          simp only [reduceCtorEq, false_and, exists_false, false_iff, not_and]
          intro _ h1 h2
          obtain ⟨fr', h3, h4⟩ := h1 d (by simp)
          rw [hf] at h3; cases h3
          cases hn : noteAllStrict st.chosen (tr fr.1) with
          | error e' => rw [hn] at h2; cases h2
          | ok c =>
            obtain ⟨l, hl, _⟩ := (H fr.1 st.chosen c).2 ⟨h4, hn⟩
            rw [hr] at hl; cases hl
        | ok l =>
          obtain ⟨hG, hn⟩ := (H fr.1 st.chosen l.chosen).1 ⟨l, hr, rfl⟩
          simp only [hn]
          rw [ih]
          simp only [List.mem_cons, forall_eq_or_imp]
          constructor
          · rintro ⟨h1, h2, h3⟩; exact ⟨h1, ⟨⟨fr, hf, hG⟩, h2⟩, h3⟩
          · rintro ⟨h1, ⟨_, h2⟩, h3⟩; exact ⟨h1, h2, h3⟩

theorem finishDefinition_iff (w : World) (r : Repo) (ts : List Tree) (ns : List String) (c c' : Chosen) :
    (∃ l, finishDefinition w r ts ns c = .ok l ∧ l.chosen = c') ↔ (∃ ms, w.definition r.files = .ok ms) ∧ c = c' := by
  unfold finishDefinition
  cases w.definition r.files with
  | error m => simp
  | ok ms => simp

theorem load_iff (w : World) : ∀ (n : Nat) (chain : List String) (r : Repo) (c c' : Chosen),
    (∃ l, load w n chain r c = .ok l ∧ l.chosen = c') ↔
      Good w n chain r ∧ noteAllStrict c (trace w n r) = .ok c' := by
  intro n
  induction n with
  | zero => intro chain r c c'; simp [load, good_zero]
  | succ n ih =>
    intro chain r c c'
    rw [good_succ]
    simp only [load, trace]
    by_cases hin : r.url.name ∈ chain
    · simp [hin]
    · rw [if_neg hin]
      simp only [hin, not_false_eq_true, true_and, noteAllStrict]
      unfold noteUrl
      cases hn : noteStrict c r.url with
      | error e => simp
      | ok c1 =>
        simp only
        by_cases hcache : w.cached r.url = true
        · have hlocal : LocalOk w r := fun h => by rw [hcache] at h; cases h
          have hstep : ∀ x, ¬ Step w r x := by
            rintro x ⟨_, _, _, ⟨h, _, _⟩, _, _⟩; rw [hcache] at h; cases h
          rw [if_pos hcache, if_pos hcache]
          simp only [noteAllStrict, Except.ok.injEq, exists_eq_left', hlocal, true_and]
          constructor
          · intro h; exact ⟨fun x hx => absurd hx (hstep x), h⟩
          · exact fun h => h.2
        · rw [if_neg hcache, if_neg hcache]
          have hcf : w.cached r.url = false := by simpa using hcache
          cases hm : r.manifest with
          | none =>
            simp only
            rw [finishDefinition_iff]
            simp only [noteAllStrict, Except.ok.injEq]
            constructor
            · rintro ⟨h1, rfl⟩
              refine ⟨⟨?_, ?_⟩, rfl⟩
              · intro _; exact ⟨fun _ => h1, by simp [hm], by simp [hm]⟩
              · rintro x ⟨_, _, _, ⟨_, h, _⟩, _, _⟩; rw [hm] at h; cases h
            · rintro ⟨⟨h1, _⟩, rfl⟩; exact ⟨(h1 hcf).1 hm, rfl⟩
          | some deps =>
            simp only
            cases hu : r.resolvedUri with
            | some uri =>
              simp only
              cases hres : w.resolved uri with
              | error m =>
                simp only [reduceCtorEq, false_and, exists_false, false_iff, not_and]
                rintro ⟨h1, _⟩
                obtain ⟨us, h2⟩ := (h1 hcf).2.1 deps uri hm hu
                rw [hres] at h2; cases h2
              | ok us =>
                simp only
                unfold noteUrls
                cases hns : noteAllStrict c1 us with
                | error e => simp
                | ok c2 =>
                  simp only [Except.ok.injEq, exists_eq_left']
                  constructor
                  · intro h
                    refine ⟨⟨?_, ?_⟩, h⟩
                    · intro _
                      refine ⟨by simp [hm], ?_, by simp [hu]⟩
                      intro deps' uri' _ h2; rw [hu] at h2; cases h2; exact ⟨us, hres⟩
                    · rintro x ⟨_, _, _, ⟨_, _, h⟩, _, _⟩; rw [hu] at h; cases h
                  · exact fun h => h.2
            | none =>
              simp only
              have key := loadDeps_iff w (load w n (chain ++ [r.url.name])) (Good w n (chain ++ [r.url.name]))
                (trace w n) (fun x c c' => ih _ x c c') deps { chosen := c1 }
              simp only [declAll_nil_iff] at key
              constructor
              · rintro ⟨l, hl, rfl⟩
                cases hd : loadDeps w (load w n (chain ++ [r.url.name])) deps { chosen := c1 } with
                | error e => rw [hd] at hl; cases hl
                | ok st =>
                  rw [hd] at hl
                  simp only at hl
                  obtain ⟨k1, k2, k3⟩ := (key st.chosen).1 ⟨st, hd, rfl⟩
                  obtain ⟨hdef, hch⟩ := (finishDefinition_iff w r st.trees st.nfes st.chosen l.chosen).1 ⟨l, hl, rfl⟩
                  refine ⟨⟨?_, ?_⟩, by rw [← hch]; exact k3⟩
                  · intro _
                    refine ⟨by simp [hm], by simp [hu], ?_⟩
                    intro deps' h1 _; rw [hm] at h1; cases h1
                    exact ⟨fun d hd => by obtain ⟨fr, h, _⟩ := k2 d hd; exact ⟨fr, h⟩, k1, hdef⟩
                  · rintro x ⟨deps', d, nf, ⟨_, h1, _⟩, h2, h3⟩
                    rw [hm] at h1; cases h1
                    obtain ⟨fr, h4, h5⟩ := k2 d h2
                    rw [h3] at h4; cases h4; exact h5
              · rintro ⟨⟨h1, h2⟩, h3⟩
                obtain ⟨hf, hp, hdef⟩ := (h1 hcf).2.2 deps hm hu
                obtain ⟨st, hst, hch⟩ := (key c').2 ⟨hp, fun d hd => by
                  obtain ⟨fr, h⟩ := hf d hd
                  exact ⟨fr, h, h2 fr.1 ⟨deps, d, fr.2, ⟨hcf, hm, hu⟩, hd, h⟩⟩, h3⟩
                rw [hst]
                exact (finishDefinition_iff w r st.trees st.nfes st.chosen c').2 ⟨hdef, hch⟩

theorem trace_noted (w : World) : ∀ (n : Nat) (r : Repo) (u : SchemaUrl), u ∈ trace w n r →
    ∃ l x, Path w r l x ∧ Noted w x u := by
  intro n
  induction n with
  | zero => intro r u h; simp [trace] at h
  | succ n ih =>
    intro r u h
    simp only [trace, List.mem_cons] at h
    rcases h with rfl | h
    · exact ⟨[], r, .here r, .inl rfl⟩
    · by_cases hc : w.cached r.url = true
      · simp [hc] at h
      · rw [if_neg hc] at h
        have hcf : w.cached r.url = false := by simpa using hc
        cases hm : r.manifest with
        | none => rw [hm] at h; simp at h
        | some deps =>
          rw [hm] at h; simp only at h
          cases hu : r.resolvedUri with
          | some uri =>
            rw [hu] at h; simp only at h
            cases hr : w.resolved uri with
            | error m => rw [hr] at h; simp at h
            | ok us => rw [hr] at h; exact ⟨[], r, .here r, .inr ⟨hcf, deps, uri, us, hm, hu, hr, h⟩⟩
          | none =>
            rw [hu] at h; simp only [List.mem_flatMap] at h
            obtain ⟨d, hd, h⟩ := h
            cases hf : w.fetch d with
            | error m => rw [hf] at h; simp at h
            | ok fr =>
              rw [hf] at h
              obtain ⟨l, x, hp, hn⟩ := ih fr.1 u h
              exact ⟨r :: l, x, .step ⟨deps, d, fr.2, ⟨hcf, hm, hu⟩, hd, hf⟩ hp, hn⟩

theorem noted_trace (w : World) {r : Repo} {l : List Repo} {x : Repo} (hp : Path w r l x) (u : SchemaUrl)
    (hn : Noted w x u) : ∀ n, l.length < n → u ∈ trace w n r := by
  induction hp with
  | here r =>
    intro n hlt
    obtain ⟨n, rfl⟩ : ∃ m, n = m + 1 := ⟨n - 1, by simp at hlt; omega⟩
    rcases hn with rfl | ⟨hc, deps, uri, us, hm, hu, hr, h⟩
    · simp [trace]
    · simp [trace, hc, hm, hu, hr, h]
  | step hs hp ih =>
    rename_i a b k
    intro n hlt
    obtain ⟨n, rfl⟩ : ∃ m, n = m + 1 := ⟨n - 1, by simp at hlt; omega⟩
    obtain ⟨deps, d, nf, ⟨hc, hm, hu⟩, hd, hf⟩ := hs
    simp only [trace, List.mem_cons]
    right
    rw [if_neg (by simp [hc]), hm, hu]
    simp only [List.mem_flatMap]
    exact ⟨d, hd, by rw [hf]; exact ih hn n (by simpa using hlt)⟩

theorem loadRoot_ok_iff (w : World) (r : Repo) (c : Chosen) :
    (∃ l ups, loadRoot w r = .ok (l, ups) ∧ l.chosen = c) ↔
      Good w maxDepth [] r ∧ noteAllStrict [] (trace w maxDepth r) = .ok c := by
  rw [← load_iff]
  unfold loadRoot
  cases h : load w maxDepth [] r [] with
  | error e => simp
  | ok l => simp

/-! ### Theorems -/

/-- C07: the load of a registry succeeds exactly when every chain of declared dependencies has at most ten registries
and never meets a registry name twice, nothing goes wrong with any registry reached, and any two different schema URLs
of one registry name met anywhere in the graph are semantic versions with the same major version. The graph may be
infinite or cyclic. -/
theorem load_succeeds_iff (w : World) (r : Repo) :
    (∃ res, loadRoot w r = .ok res) ↔
      (∀ l x, Path w r l x → l.length + 1 ≤ 10) ∧
      (∀ l x, Path w r l x → x.url.name ∉ names l) ∧
      (∀ l x, Path w r l x → LocalOk w x) ∧
      (∀ l x u l' y v, Path w r l x → Noted w x u → Path w r l' y → Noted w y v → u.name = v.name →
        u = v ∨ Compatible u v) := by
  have h1 : (∃ res, loadRoot w r = .ok res) ↔
      Good w maxDepth [] r ∧ ∃ c, noteAllStrict [] (trace w maxDepth r) = .ok c := by
    constructor
    · rintro ⟨res, h⟩
      obtain ⟨h1, h2⟩ := (loadRoot_ok_iff w r res.1.chosen).1 ⟨res.1, res.2, h, rfl⟩
      exact ⟨h1, _, h2⟩
    · rintro ⟨h1, c, h2⟩
      obtain ⟨l, ups, h, _⟩ := (loadRoot_ok_iff w r c).2 ⟨h1, h2⟩
      exact ⟨_, h⟩
  rw [h1, loader_accepts_iff]
  constructor
  · rintro ⟨hg, hc⟩
    refine ⟨fun l x hp => ?_, fun l x hp => ?_, fun l x hp => (hg l x hp).2.2, ?_⟩
    · have := (hg l x hp).1; unfold maxDepth at this; omega
    · simpa using (hg l x hp).2.1
    · intro l x u l' y v hp hu hp' hv
      exact hc u (noted_trace w hp u hu _ (hg l x hp).1) v (noted_trace w hp' v hv _ (hg l' y hp').1)
  · rintro ⟨ha, hb, hc, hd⟩
    refine ⟨fun l x hp => ⟨?_, by simpa using hb l x hp, hc l x hp⟩, ?_⟩
    · have := ha l x hp; unfold maxDepth; omega
    · intro u hu v hv
      obtain ⟨l, x, hp, hn⟩ := trace_noted w _ r u hu
      obtain ⟨l', y, hp', hn'⟩ := trace_noted w _ r v hv
      exact hd l x u l' y v hp hn hp' hn'

/-- C07: a dependency cycle (a chain that meets a registry name again) is always an error. -/
theorem cycle_fails (w : World) (r : Repo) (l : List Repo) (x : Repo) (hp : Path w r l x)
    (hc : x.url.name ∈ names l) : ∃ e, loadRoot w r = .error e := by
  cases h : loadRoot w r with
  | error e => exact ⟨e, rfl⟩
  | ok res => exact absurd hc (((load_succeeds_iff w r).1 ⟨res, h⟩).2.1 l x hp)

/-- C07: a chain of eleven registries is always an error. -/
theorem deep_chain_fails (w : World) (r : Repo) (l : List Repo) (x : Repo) (hp : Path w r l x)
    (hc : 10 ≤ l.length) : ∃ e, loadRoot w r = .error e := by
  cases h : loadRoot w r with
  | error e => exact ⟨e, rfl⟩
  | ok res => have := ((load_succeeds_iff w r).1 ⟨res, h⟩).1 l x hp; omega

/-- C07: two incompatible versions of one registry anywhere in the graph are always an error. -/
theorem incompatible_versions_fail (w : World) (r : Repo) (l l' : List Repo) (x y : Repo) (u v : SchemaUrl)
    (hp : Path w r l x) (hu : Noted w x u) (hp' : Path w r l' y) (hv : Noted w y v) (hn : u.name = v.name)
    (hne : u ≠ v) (hc : ¬ Compatible u v) : ∃ e, loadRoot w r = .error e := by
  cases h : loadRoot w r with
  | error e => exact ⟨e, rfl⟩
  | ok res =>
    rcases ((load_succeeds_iff w r).1 ⟨res, h⟩).2.2.2 l x u l' y v hp hu hp' hv hn with h | h
    · exact absurd h hne
    · exact absurd h hc

/-- C07, C05: after a successful load the version selected for a registry name is the greatest of those met in the
whole graph, and it is one of them. -/
theorem load_selects_latest (w : World) (r : Repo) (res : Loaded × List Upgrade) (h : loadRoot w r = .ok res) :
    (∀ n c, aget n res.1.chosen = some c → c.name = n ∧ ∃ l x, Path w r l x ∧ Noted w x c) ∧
    (∀ l x u, Path w r l x → Noted w x u → ∃ c, aget u.name res.1.chosen = some c ∧
      (c = u ∨ ∃ vc vu, c.sv = some vc ∧ u.sv = some vu ∧ vc.major = vu.major ∧ VerLe vu vc)) := by
  obtain ⟨hg, hn⟩ := (loadRoot_ok_iff w r res.1.chosen).1 ⟨res.1, res.2, h, rfl⟩
  obtain ⟨h1, h2⟩ := loader_chooses_latest _ _ hn
  refine ⟨fun n c hc => ?_, fun l x u hp hu => ?_⟩
  · obtain ⟨h3, h4⟩ := h1 n c hc; exact ⟨h4, trace_noted w _ r c h3⟩
  · exact h2 u (noted_trace w hp u hu _ (hg l x hp).1)

/-! ### What each error means -/

/-- The reason behind a fatal error, for a load of `r` with a budget of `n` levels, the names `chain` above it and the
URLs `seen` met before. -/
def Explains (w : World) (n : Nat) (chain : List String) (seen : List SchemaUrl) (r : Repo) : LErr → Prop
  | .maximumDependencyDepth => ∃ l x, Path w r l x ∧ l.length = n ∧ (chain ++ names l).Nodup
  | .circularDependency m ch => ∃ l x, Path w r l x ∧ x.url.name = m ∧ m ∈ chain ++ names l ∧
      ch = chain ++ names l ++ [m] ∧ (chain ++ names l).Nodup
  | .conflict _ =>
      (∃ u v, u ≠ v ∧ u.name = v.name ∧ ¬ Compatible u v ∧
        (u ∈ seen ∨ ∃ l x, Path w r l x ∧ Noted w x u) ∧ (∃ l x, Path w r l x ∧ Noted w x v)) ∨
      (∃ l x deps, Path w r l x ∧ Expanded w x deps ∧ ¬ deps.Pairwise DeclOk)
  | .unversionedDependencyConflict m => ∃ l x deps, Path w r l x ∧ Expanded w x deps ∧ ¬ deps.Pairwise DeclOk ∧
      ∃ d ∈ deps, d.isVersioned = false ∧ d.url.name = m
  | .other m => ∃ l x, Path w r l x ∧ w.cached x.url = false ∧
      (((x.manifest = none ∨ x.resolvedUri = none) ∧ w.definition x.files = .error m) ∨
       (∃ deps uri, x.manifest = some deps ∧ x.resolvedUri = some uri ∧ w.resolved uri = .error m) ∨
       ∃ deps, Expanded w x deps ∧ ∃ d ∈ deps, w.fetch d = .error m)

/-- A conflict found while recording URLs comes from two of them. -/
theorem noteAllStrict_error (us : List SchemaUrl) (seen : List SchemaUrl) (c : Chosen) (e : ConflictErr)
    (hi : ChosenInv seen c) (h : noteAllStrict c us = .error e) :
    ∃ u v, u ≠ v ∧ u.name = v.name ∧ ¬ Compatible u v ∧ (u ∈ seen ∨ u ∈ us) ∧ v ∈ us := by
  induction us generalizing seen c with
  | nil => simp [noteAllStrict] at h
  | cons u us ih =>
    simp only [noteAllStrict] at h
    cases hs : noteStrict c u with
    | ok c' =>
      rw [hs] at h
      obtain ⟨a, b, h1, h2, h3, h4, h5⟩ := ih (seen ++ [u]) c' (noteStrict_inv seen c c' u hi hs) h
      refine ⟨a, b, h1, h2, h3, ?_, by simp [h5]⟩
      rcases h4 with h4 | h4
      · rcases List.mem_append.1 h4 with h4 | h4
        · exact .inl h4
        · exact .inr (by simp at h4; simp [h4])
      · exact .inr (by simp [h4])
    | error e' =>
      unfold noteStrict at hs
      cases hg : aget u.name c with
      | none => rw [hg] at hs; simp at hs
      | some prev =>
        rw [hg] at hs; simp only at hs
        obtain ⟨hm, hn⟩ := hi.isSeen _ _ hg
        by_cases hpu : prev = u
        · rw [if_neg (by simp [hpu])] at hs; cases hs
        · rw [if_pos hpu] at hs
          cases hr : resolveVersions prev u with
          | ok x => rw [hr] at hs; cases hs
          | error e2 =>
            refine ⟨prev, u, hpu, hn, ?_, .inl hm, by simp⟩
            rcases (conflict_error_iff prev u).1 ⟨e2, hr⟩ with h1 | h1
            · exact absurd hn h1
            · exact h1

/-- Moving an explanation up one level. -/
theorem explains_up (w : World) (n : Nat) (chain : List String) (seen0 seen : List SchemaUrl) (r x : Repo)
    (hs : Step w r x) (hseen : ∀ u ∈ seen, u ∈ seen0 ∨ ∃ l y, Path w r l y ∧ Noted w y u) (e : LErr)
    (h : Explains w n (chain ++ [r.url.name]) seen x e) : Explains w (n + 1) chain seen0 r e := by
  have happ : ∀ l, chain ++ [r.url.name] ++ names l = chain ++ names (r :: l) := by intro l; simp [names]
  cases e with
  | maximumDependencyDepth =>
    obtain ⟨l, y, hp, hl, hn⟩ := h
    exact ⟨r :: l, y, .step hs hp, by simp [hl], by rw [← happ]; exact hn⟩
  | circularDependency m ch =>
    obtain ⟨l, y, hp, h1, h2, h3, h4⟩ := h
    exact ⟨r :: l, y, .step hs hp, h1, by rw [← happ]; exact h2, by rw [← happ]; exact h3, by rw [← happ]; exact h4⟩
  | conflict e =>
    rcases h with ⟨u, v, h1, h2, h3, h4, l, y, hp, hn⟩ | ⟨l, y, deps, hp, h⟩
    · refine .inl ⟨u, v, h1, h2, h3, ?_, r :: l, y, .step hs hp, hn⟩
      rcases h4 with h4 | ⟨l', y', hp', hn'⟩
      · exact hseen u h4
      · exact .inr ⟨r :: l', y', .step hs hp', hn'⟩
    · exact .inr ⟨r :: l, y, deps, .step hs hp, h⟩
  | unversionedDependencyConflict m =>
    obtain ⟨l, y, deps, hp, h⟩ := h
    exact ⟨r :: l, y, deps, .step hs hp, h⟩
  | other m =>
    obtain ⟨l, y, hp, h⟩ := h
    exact ⟨r :: l, y, .step hs hp, h⟩

theorem loadDeps_error (w : World) (n : Nat) (chain : List String) (r : Repo) (deps : List Dep)
    (hexp : Expanded w r deps) (seen0 : List SchemaUrl) (rec : Repo → Chosen → Except LErr Loaded)
    (Hok : ∀ x seen c l, rec x c = .ok l → ChosenInv seen c → ∃ us, ChosenInv (seen ++ us) l.chosen ∧
      ∀ u ∈ us, ∃ l y, Path w x l y ∧ Noted w y u)
    (Herr : ∀ x seen c e, rec x c = .error e → ChosenInv seen c → Explains w n (chain ++ [r.url.name]) seen x e)
    (ds : List Dep) : ∀ (pre : List Dep), deps = pre ++ ds → ∀ (seen : List SchemaUrl) (st : DepsState) (e : LErr),
      (declAll st.seen ds → deps.Pairwise DeclOk) →
      (∀ n p, aget n st.seen = some p → p ∈ pre ∧ p.url.name = n) →
      ChosenInv seen st.chosen → (∀ u ∈ seen, u ∈ seen0 ∨ ∃ l y, Path w r l y ∧ Noted w y u) →
      (¬ declAll st.seen ds → ¬ deps.Pairwise DeclOk) →
      loadDeps w rec ds st = .error e → Explains w (n + 1) chain seen0 r e := by
  induction ds with
  | nil => intro pre _ seen st e _ _ _ _ _ h; simp [loadDeps] at h
  | cons d ds ih =>
    intro pre hpre seen st e hdecl hnames hinv hseen hndecl h
    have hmem : d ∈ deps := by rw [hpre]; simp
    simp only [loadDeps] at h
    cases hd : noteDeclared st.seen d with
    | error e' =>
      rw [hd] at h; simp only [Except.error.injEq] at h; subst h
      have hnp : ¬ deps.Pairwise DeclOk := hndecl (by simp [declAll, hd])
      unfold noteDeclared at hd
      cases hg : aget d.url.name st.seen with
      | none => rw [hg] at hd; cases hd
      | some p =>
        rw [hg] at hd; simp only at hd
        cases hcc : checkCompat p d with
        | ok _ => rw [hcc] at hd; cases hd
        | error e2 =>
          rw [hcc] at hd; simp only [Except.error.injEq] at hd; subst hd
          obtain ⟨hpm, hpn⟩ := hnames _ _ hg
          unfold checkCompat at hcc
          by_cases hv : (!p.isVersioned || !d.isVersioned) = true
          · rw [if_pos hv] at hcc; simp only [Except.error.injEq] at hcc; subst hcc
            refine ⟨[], r, deps, .here r, hexp, hnp, ?_⟩
            simp only [Bool.or_eq_true, Bool.not_eq_true'] at hv
            rcases hv with hv | hv
            · exact ⟨p, by rw [hpre]; simp [hpm], hv, hpn⟩
            · exact ⟨d, hmem, hv, rfl⟩
          · rw [if_neg hv] at hcc
            cases hr : resolveVersions p.url d.url with
            | ok _ => rw [hr] at hcc; cases hcc
            | error e3 =>
              rw [hr] at hcc; simp only [Except.error.injEq] at hcc; subst hcc
              exact .inr ⟨[], r, deps, .here r, hexp, hnp⟩
    | ok s =>
      rw [hd] at h; simp only at h
      cases hf : w.fetch d with
      | error m =>
        rw [hf] at h; simp only [Except.error.injEq] at h; subst h
        exact ⟨[], r, .here r, hexp.1, .inr (.inr ⟨deps, hexp, d, hmem, hf⟩)⟩
      | ok fr =>
        rw [hf] at h; simp only at h
        have hstep : Step w r fr.1 := ⟨deps, d, fr.2, hexp, hmem, hf⟩
        cases hr : rec fr.1 st.chosen with
        | error e' =>
          rw [hr] at h; simp only [Except.error.injEq] at h; subst h
          exact explains_up w n chain seen0 seen r fr.1 hstep hseen _ (Herr _ _ _ _ hr hinv)
        | ok l =>
          rw [hr] at h; simp only at h
          obtain ⟨us, hus, hno⟩ := Hok _ _ _ _ hr hinv
          refine ih (pre ++ [d]) (by simp [hpre]) (seen ++ us) _ e ?_ ?_ hus ?_ ?_ h
          · intro hda; exact hdecl ⟨s, hd, hda⟩
          · intro m p hp
            unfold noteDeclared at hd
            cases hg : aget d.url.name st.seen with
            | none =>
              rw [hg] at hd; simp only [Except.ok.injEq] at hd; subst hd
              rw [aget_aset] at hp
              by_cases hm : m = d.url.name
              · rw [if_pos hm] at hp; cases hp; exact ⟨by simp, hm.symm⟩
              · rw [if_neg hm] at hp; obtain ⟨h1, h2⟩ := hnames m p hp; exact ⟨by simp [h1], h2⟩
            | some q =>
              rw [hg] at hd; simp only at hd
              cases hcc : checkCompat q d with
              | error e2 => rw [hcc] at hd; cases hd
              | ok _ =>
                rw [hcc] at hd; simp only [Except.ok.injEq] at hd; subst hd
                obtain ⟨h1, h2⟩ := hnames m p hp; exact ⟨by simp [h1], h2⟩
          · intro u hu
            rcases List.mem_append.1 hu with hu | hu
            · exact hseen u hu
            · obtain ⟨l', y, hp, hn⟩ := hno u hu
              exact .inr ⟨r :: l', y, .step hstep hp, hn⟩
          · intro hnd
            refine hndecl ?_
            rintro ⟨s', hs', hda⟩
            rw [hd] at hs'; cases hs'; exact hnd hda

theorem load_error (w : World) : ∀ (n : Nat) (chain : List String) (r : Repo) (seen : List SchemaUrl) (c : Chosen)
    (e : LErr), chain.Nodup → ChosenInv seen c → load w n chain r c = .error e →
    Explains w n chain seen r e := by
  intro n
  induction n with
  | zero =>
    intro chain r seen c e hch _ h
    simp only [load, Except.error.injEq] at h; subst h
    exact ⟨[], r, .here r, rfl, by simpa [names] using hch⟩
  | succ n ih =>
    intro chain r seen c e hch hinv h
    simp only [load] at h
    by_cases hin : r.url.name ∈ chain
    · rw [if_pos hin] at h; simp only [Except.error.injEq] at h; subst h
      exact ⟨[], r, .here r, rfl, by simpa [names] using hin, by simp [names], by simpa [names] using hch⟩
    · rw [if_neg hin] at h
      unfold noteUrl at h
      cases hn : noteStrict c r.url with
      | error e' =>
        rw [hn] at h; simp only [Except.error.injEq] at h; subst h
        have : noteAllStrict c [r.url] = .error e' := by simp [noteAllStrict, hn]
        obtain ⟨u, v, h1, h2, h3, h4, h5⟩ := noteAllStrict_error [r.url] seen c e' hinv this
        simp only [List.mem_singleton] at h4 h5
        refine .inl ⟨u, v, h1, h2, h3, ?_, [], r, .here r, .inl h5⟩
        rcases h4 with h4 | h4
        · exact .inl h4
        · exact .inr ⟨[], r, .here r, .inl h4⟩
      | ok c1 =>
        rw [hn] at h; simp only at h
        have hinv1 := noteStrict_inv seen c c1 r.url hinv hn
        by_cases hcache : w.cached r.url = true
        · rw [if_pos hcache] at h; cases h
        · rw [if_neg hcache] at h
          have hcf : w.cached r.url = false := by simpa using hcache
          cases hm : r.manifest with
          | none =>
            rw [hm] at h; simp only at h
            unfold finishDefinition at h
            cases hd : w.definition r.files with
            | error m =>
              rw [hd] at h; simp only [Except.error.injEq] at h; subst h
              exact ⟨[], r, .here r, hcf, .inl ⟨.inl hm, hd⟩⟩
            | ok ms => rw [hd] at h; cases h
          | some deps =>
            rw [hm] at h; simp only at h
            cases hu : r.resolvedUri with
            | some uri =>
              rw [hu] at h; simp only at h
              cases hres : w.resolved uri with
              | error m =>
                rw [hres] at h; simp only [Except.error.injEq] at h; subst h
                exact ⟨[], r, .here r, hcf, .inr (.inl ⟨deps, uri, hm, hu, hres⟩)⟩
              | ok us =>
                rw [hres] at h; simp only at h
                unfold noteUrls at h
                cases hns : noteAllStrict c1 us with
                | ok c2 => rw [hns] at h; cases h
                | error e' =>
                  rw [hns] at h; simp only [Except.error.injEq] at h; subst h
                  obtain ⟨u, v, h1, h2, h3, h4, h5⟩ := noteAllStrict_error us _ c1 e' hinv1 hns
                  have hno : ∀ x ∈ us, Noted w r x := fun x hx => .inr ⟨hcf, deps, uri, us, hm, hu, hres, hx⟩
                  refine .inl ⟨u, v, h1, h2, h3, ?_, [], r, .here r, hno v h5⟩
                  rcases h4 with h4 | h4
                  · rcases List.mem_append.1 h4 with h4 | h4
                    · exact .inl h4
                    · simp only [List.mem_singleton] at h4
                      exact .inr ⟨[], r, .here r, .inl h4⟩
                  · exact .inr ⟨[], r, .here r, hno u h4⟩
            | none =>
              rw [hu] at h; simp only at h
              have hexp : Expanded w r deps := ⟨hcf, hm, hu⟩
              have hch' : (chain ++ [r.url.name]).Nodup := by
                rw [List.nodup_append]
                refine ⟨hch, by simp, ?_⟩
                intro a ha b hb hab
                simp only [List.mem_singleton] at hb
                exact hin (by rw [← hb, ← hab]; exact ha)
              cases hd : loadDeps w (load w n (chain ++ [r.url.name])) deps { chosen := c1 } with
              | error e' =>
                rw [hd] at h; simp only [Except.error.injEq] at h; subst h
                refine loadDeps_error w n chain r deps hexp seen _ ?_ ?_ deps [] (by simp) (seen ++ [r.url])
                  { chosen := c1 } e' ?_ ?_ hinv1 ?_ ?_ hd
                · intro x seen' c' l hl hi
                  obtain ⟨_, h2⟩ := (load_iff w n _ x c' l.chosen).1 ⟨l, hl, rfl⟩
                  exact ⟨trace w n x, noteAllStrict_inv _ _ _ _ hi h2, fun u hu => trace_noted w n x u hu⟩
                · intro x seen' c' e2 he hi
                  exact ih _ x seen' c' e2 hch' hi he
                · exact fun h => (declAll_nil_iff deps).1 h
                · intro m p hp; simp [aget] at hp
                · intro u hu
                  rcases List.mem_append.1 hu with hu | hu
                  · exact .inl hu
                  · simp only [List.mem_singleton] at hu
                    exact .inr ⟨[], r, .here r, .inl hu⟩
                · intro h hp; exact h ((declAll_nil_iff deps).2 hp)
              | ok st =>
                rw [hd] at h; simp only at h
                unfold finishDefinition at h
                cases hdef : w.definition r.files with
                | error m =>
                  rw [hdef] at h; simp only [Except.error.injEq] at h; subst h
                  exact ⟨[], r, .here r, hcf, .inl ⟨.inr hu, hdef⟩⟩
                | ok ms => rw [hdef] at h; cases h

/-- C07: every error of the loader has the reason its name announces: a depth error comes with a chain of eleven
registries whose first ten have different names; a circular dependency error names a registry that a chain of
dependencies meets twice, and shows that chain; a version conflict comes from two irreconcilable URLs in the graph or
in one manifest; and so on. -/
theorem load_error_reason (w : World) (r : Repo) (e : LErr) (h : loadRoot w r = .error e) :
    Explains w 10 [] [] r e := by
  unfold loadRoot at h
  cases hl : load w maxDepth [] r [] with
  | ok l => rw [hl] at h; cases h
  | error e' =>
    rw [hl] at h; simp only [Except.error.injEq] at h; subst h
    exact load_error w 10 [] r [] [] e' (by simp) ⟨by simp [aget], by simp⟩ hl

/-- C07, a cycle gives a circular dependency error, when nothing else is wrong: every registry reached can be read,
versions agree, and no chain has ten registries with different names. For longer cycles see
`long_cycle_reported_as_depth_refuted` (C142). -/
theorem cycle_reported (w : World) (r : Repo) (l : List Repo) (x : Repo) (hp : Path w r l x)
    (hc : x.url.name ∈ names l)
    (hshort : ∀ l x, Path w r l x → (names l).Nodup → l.length ≠ 10)
    (hlocal : ∀ l x, Path w r l x → LocalOk w x)
    (hver : ∀ l x u l' y v, Path w r l x → Noted w x u → Path w r l' y → Noted w y v → u.name = v.name →
        u = v ∨ Compatible u v) :
    ∃ m ch, loadRoot w r = .error (.circularDependency m (ch ++ [m])) ∧ m ∈ ch := by
  obtain ⟨e, he⟩ := cycle_fails w r l x hp hc
  have hex := load_error_reason w r e he
  cases e with
  | maximumDependencyDepth =>
    obtain ⟨l, x, hp, hl, hn⟩ := hex
    exact absurd hl (hshort l x hp (by simpa using hn))
  | circularDependency m ch =>
    obtain ⟨l, x, hp, h1, h2, h3, _⟩ := hex
    simp only [List.nil_append] at h2 h3
    exact ⟨m, names l, by rw [he, h3], h2⟩
  | conflict e =>
    exfalso
    rcases hex with ⟨u, v, h1, h2, h3, h4, l', y, hp', hn'⟩ | ⟨l, x, deps, hp, hexp, hnp⟩
    · rcases h4 with h4 | ⟨l, x, hp, hn⟩
      · simp at h4
      · rcases hver l x u l' y v hp hn hp' hn' h2 with h | h
        · exact h1 h
        · exact h3 h
    · exact hnp ((hlocal l x hp hexp.1).2.2 deps hexp.2.1 hexp.2.2).2.1
  | unversionedDependencyConflict m =>
    obtain ⟨l, x, deps, hp, hexp, hnp, _⟩ := hex
    exact absurd ((hlocal l x hp hexp.1).2.2 deps hexp.2.1 hexp.2.2).2.1 hnp
  | other m =>
    exfalso
    obtain ⟨l, x, hp, hc, h⟩ := hex
    have hL := hlocal l x hp hc
    rcases h with ⟨h1, h2⟩ | ⟨deps, uri, h1, h2, h3⟩ | ⟨deps, hexp, d, hd, h2⟩
    · have : ∃ ns, w.definition x.files = .ok ns := by
        cases hm : x.manifest with
        | none => exact hL.1 hm
        | some deps =>
          rcases h1 with h1 | h1
          · rw [hm] at h1; cases h1
          · exact (hL.2.2 deps hm h1).2.2
      obtain ⟨ns, hns⟩ := this
      rw [h2] at hns; cases hns
    · obtain ⟨us, hus⟩ := hL.2.1 deps uri h1 h2
      rw [h3] at hus; cases hus
    · obtain ⟨fr, hfr⟩ := (hL.2.2 deps hexp.2.1 hexp.2.2).1 d hd
      rw [h2] at hfr; cases hfr

/-! ### The loaded tree -/

mutual
/-- The loaded tree `t` shows the registry `r` and, in declaration order, its dependencies. -/
inductive Mirrors (w : World) : Repo → Tree → Prop
  | cached (r) : w.cached r.url = true → Mirrors w r (.cached r.url)
  | plain (r) : w.cached r.url = false → r.manifest = none → Mirrors w r (.unresolved r [])
  | published (r deps uri us) : w.cached r.url = false → r.manifest = some deps → r.resolvedUri = some uri →
      w.resolved uri = .ok us → Mirrors w r (.resolved r uri us)
  | expanded (r deps ts) : Expanded w r deps → MirrorsAll w deps ts → Mirrors w r (.unresolved r ts)
/-- One tree per declared dependency. -/
inductive MirrorsAll (w : World) : List Dep → List Tree → Prop
  | nil : MirrorsAll w [] []
  | cons {d ds t ts} (x nf) : w.fetch d = .ok (x, nf) → Mirrors w x t → MirrorsAll w ds ts →
      MirrorsAll w (d :: ds) (t :: ts)
end

theorem loadDeps_mirrors (w : World) (rec : Repo → Chosen → Except LErr Loaded)
    (H : ∀ x c l, rec x c = .ok l → Mirrors w x l.tree) (ds : List Dep) : ∀ (st st' : DepsState),
    loadDeps w rec ds st = .ok st' → ∃ ts, st'.trees = st.trees ++ ts ∧ MirrorsAll w ds ts := by
  induction ds with
  | nil => intro st st' h; simp only [loadDeps, Except.ok.injEq] at h; subst h; exact ⟨[], by simp, .nil⟩
  | cons d ds ih =>
    intro st st' h
    simp only [loadDeps] at h
    cases hd : noteDeclared st.seen d with
    | error e => rw [hd] at h; cases h
    | ok s =>
      rw [hd] at h; simp only at h
      cases hf : w.fetch d with
      | error m => rw [hf] at h; cases h
      | ok fr =>
        rw [hf] at h; simp only at h
        cases hr : rec fr.1 st.chosen with
        | error e => rw [hr] at h; cases h
        | ok l =>
          rw [hr] at h; simp only at h
          obtain ⟨ts, h1, h2⟩ := ih _ _ h
          exact ⟨l.tree :: ts, by simp [h1], .cons fr.1 fr.2 hf (H _ _ _ hr) h2⟩

theorem load_mirrors (w : World) : ∀ (n : Nat) (chain : List String) (r : Repo) (c : Chosen) (l : Loaded),
    load w n chain r c = .ok l → Mirrors w r l.tree := by
  intro n
  induction n with
  | zero => intro chain r c l h; simp [load] at h
  | succ n ih =>
    intro chain r c l h
    simp only [load] at h
    by_cases hin : r.url.name ∈ chain
    · rw [if_pos hin] at h; cases h
    · rw [if_neg hin] at h
      cases hn : noteUrl c r.url with
      | error e => rw [hn] at h; cases h
      | ok c1 =>
        rw [hn] at h; simp only at h
        by_cases hcache : w.cached r.url = true
        · rw [if_pos hcache] at h; simp only [Except.ok.injEq] at h; subst h; exact .cached r hcache
        · rw [if_neg hcache] at h
          have hcf : w.cached r.url = false := by simpa using hcache
          have hfin : ∀ ts ns c', finishDefinition w r ts ns c' = .ok l → l.tree = .unresolved r ts := by
            intro ts ns c' hf
            unfold finishDefinition at hf
            cases hd : w.definition r.files with
            | error m => rw [hd] at hf; cases hf
            | ok ms => rw [hd] at hf; simp only [Except.ok.injEq] at hf; subst hf; rfl
          cases hm : r.manifest with
          | none => rw [hm] at h; rw [hfin _ _ _ h]; exact .plain r hcf hm
          | some deps =>
            rw [hm] at h; simp only at h
            cases hu : r.resolvedUri with
            | some uri =>
              rw [hu] at h; simp only at h
              cases hres : w.resolved uri with
              | error m => rw [hres] at h; cases h
              | ok us =>
                rw [hres] at h; simp only at h
                cases hns : noteUrls c1 us with
                | error e => rw [hns] at h; cases h
                | ok c2 =>
                  rw [hns] at h; simp only [Except.ok.injEq] at h; subst h
                  exact .published r deps uri us hcf hm hu hres
            | none =>
              rw [hu] at h; simp only at h
              cases hd : loadDeps w (load w n (chain ++ [r.url.name])) deps { chosen := c1 } with
              | error e => rw [hd] at h; cases h
              | ok st =>
                rw [hd] at h; simp only at h
                rw [hfin _ _ _ h]
                obtain ⟨ts, h1, h2⟩ := loadDeps_mirrors w _ (fun x c l hl => ih _ x c l hl) deps _ _ hd
                simp only [List.nil_append] at h1
                rw [h1]
                exact .expanded r deps ts ⟨hcf, hm, hu⟩ h2

/-- C07: after a successful load the result shows every registry of the graph, with the dependencies of each in the
order of its manifest. -/
theorem load_tree_faithful (w : World) (r : Repo) (res : Loaded × List Upgrade) (h : loadRoot w r = .ok res) :
    Mirrors w r res.1.tree := by
  unfold loadRoot at h
  cases hl : load w maxDepth [] r [] with
  | error e => rw [hl] at h; cases h
  | ok l => rw [hl] at h; simp only [Except.ok.injEq] at h; subst h; exact load_mirrors w _ _ r [] l hl

/-! ### Non fatal errors -/

/-- The non fatal errors that belong to one registry: those met reading its own files and those met fetching the
dependencies it declares. -/
def OwnNfe (w : World) (x : Repo) (m : String) : Prop :=
  w.cached x.url = false ∧
    (((x.manifest = none ∨ x.resolvedUri = none) ∧ ∃ ns, w.definition x.files = .ok ns ∧ m ∈ ns) ∨
     ∃ deps, Expanded w x deps ∧ ∃ d ∈ deps, ∃ y nf, w.fetch d = .ok (y, nf) ∧ m ∈ nf)

theorem loadDeps_nfes (w : World) (rec : Repo → Chosen → Except LErr Loaded) (P : Repo → String → Prop)
    (H : ∀ x c l, rec x c = .ok l → ∀ m, m ∈ l.nfes ↔ P x m) (ds : List Dep) : ∀ (st st' : DepsState),
    loadDeps w rec ds st = .ok st' → ∀ m, m ∈ st'.nfes ↔ m ∈ st.nfes ∨ ∃ d ∈ ds, ∃ y nf, w.fetch d = .ok (y, nf) ∧
      (m ∈ nf ∨ P y m) := by
  induction ds with
  | nil => intro st st' h m; simp only [loadDeps, Except.ok.injEq] at h; subst h; simp
  | cons d ds ih =>
    intro st st' h m
    simp only [loadDeps] at h
    cases hd : noteDeclared st.seen d with
    | error e => rw [hd] at h; cases h
    | ok s =>
      rw [hd] at h; simp only at h
      cases hf : w.fetch d with
      | error m => rw [hf] at h; cases h
      | ok fr =>
        rw [hf] at h; simp only at h
        cases hr : rec fr.1 st.chosen with
        | error e => rw [hr] at h; cases h
        | ok l =>
          rw [hr] at h; simp only at h
          rw [ih _ _ h m]
          simp only [List.mem_append, H _ _ _ hr m, List.mem_cons, exists_eq_or_imp, hf, Except.ok.injEq]
          constructor
          · rintro (((h | h) | h) | h)
            · exact .inl h
            · exact .inr (.inl ⟨fr.1, fr.2, rfl, .inl h⟩)
            · exact .inr (.inl ⟨fr.1, fr.2, rfl, .inr h⟩)
            · exact .inr (.inr h)
          · rintro (h | ⟨y, nf, rfl, h | h⟩ | h)
            · exact .inl (.inl (.inl h))
            · exact .inl (.inl (.inr h))
            · exact .inl (.inr h)
            · exact .inr h

theorem load_nfes (w : World) : ∀ (n : Nat) (chain : List String) (r : Repo) (c : Chosen) (l : Loaded),
    load w n chain r c = .ok l → ∀ m, m ∈ l.nfes ↔ ∃ p x, Path w r p x ∧ OwnNfe w x m := by
  intro n
  induction n with
  | zero => intro chain r c l h; simp [load] at h
  | succ n ih =>
    intro chain r c l h m
    have hpath : (∃ p x, Path w r p x ∧ OwnNfe w x m) ↔
        OwnNfe w r m ∨ ∃ y, Step w r y ∧ ∃ p x, Path w y p x ∧ OwnNfe w x m := by
      constructor
      · rintro ⟨p, x, hp, ho⟩
        cases hp with
        | here => exact .inl ho
        | step hs hp => exact .inr ⟨_, hs, _, _, hp, ho⟩
      · rintro (ho | ⟨y, hs, p, x, hp, ho⟩)
        · exact ⟨[], r, .here r, ho⟩
        · exact ⟨r :: p, x, .step hs hp, ho⟩
    rw [hpath]
    simp only [load] at h
    by_cases hin : r.url.name ∈ chain
    · rw [if_pos hin] at h; cases h
    · rw [if_neg hin] at h
      cases hn : noteUrl c r.url with
      | error e => rw [hn] at h; cases h
      | ok c1 =>
        rw [hn] at h; simp only at h
        by_cases hcache : w.cached r.url = true
        · rw [if_pos hcache] at h; simp only [Except.ok.injEq] at h; subst h
          simp only [List.not_mem_nil, false_iff, not_or, not_exists, not_and]
          refine ⟨fun h => ?_, ?_⟩
          · rw [h.1] at hcache; cases hcache
          · rintro y ⟨_, _, _, ⟨h, _⟩, _⟩; rw [h] at hcache; cases hcache
        · rw [if_neg hcache] at h
          have hcf : w.cached r.url = false := by simpa using hcache
          have hfin : ∀ ts ns c', finishDefinition w r ts ns c' = .ok l →
              ∃ ms, w.definition r.files = .ok ms ∧ l.nfes = ms ++ ns := by
            intro ts ns c' hf
            unfold finishDefinition at hf
            cases hd : w.definition r.files with
            | error m => rw [hd] at hf; cases hf
            | ok ms => rw [hd] at hf; simp only [Except.ok.injEq] at hf; subst hf; exact ⟨ms, rfl, rfl⟩
          cases hm : r.manifest with
          | none =>
            rw [hm] at h
            obtain ⟨ms, h1, h2⟩ := hfin _ _ _ h
            rw [h2]
            simp only [List.append_nil]
            constructor
            · intro hmm; exact .inl ⟨hcf, .inl ⟨.inl hm, ms, h1, hmm⟩⟩
            · rintro (⟨_, ⟨_, ns, h3, h4⟩ | ⟨deps, ⟨_, h3, _⟩, _⟩⟩ | ⟨y, ⟨_, _, _, ⟨_, h3, _⟩, _⟩, _⟩)
              · rw [h1] at h3; cases h3; exact h4
              · rw [hm] at h3; cases h3
              · rw [hm] at h3; cases h3
          | some deps =>
            rw [hm] at h; simp only at h
            cases hu : r.resolvedUri with
            | some uri =>
              rw [hu] at h; simp only at h
              cases hres : w.resolved uri with
              | error m => rw [hres] at h; cases h
              | ok us =>
                rw [hres] at h; simp only at h
                cases hns : noteUrls c1 us with
                | error e => rw [hns] at h; cases h
                | ok c2 =>
                  rw [hns] at h; simp only [Except.ok.injEq] at h; subst h
                  simp only [List.not_mem_nil, false_iff, not_or, not_exists, not_and]
                  refine ⟨?_, ?_⟩
                  · rintro ⟨_, ⟨h3 | h3, _⟩ | ⟨_, ⟨_, _, h3⟩, _⟩⟩
                    · rw [hm] at h3; cases h3
                    · rw [hu] at h3; cases h3
                    · rw [hu] at h3; cases h3
                  · rintro y ⟨_, _, _, ⟨_, _, h3⟩, _⟩; rw [hu] at h3; cases h3
            | none =>
              rw [hu] at h; simp only at h
              cases hd : loadDeps w (load w n (chain ++ [r.url.name])) deps { chosen := c1 } with
              | error e => rw [hd] at h; cases h
              | ok st =>
                rw [hd] at h; simp only at h
                obtain ⟨ms, h1, h2⟩ := hfin _ _ _ h
                have h3 := loadDeps_nfes w _ (fun y m => ∃ p x, Path w y p x ∧ OwnNfe w x m)
                  (fun x c l hl => ih _ x c l hl) deps _ _ hd m
                rw [h2, List.mem_append, h3]
                simp only [List.not_mem_nil, false_or]
                have hexp : Expanded w r deps := ⟨hcf, hm, hu⟩
                constructor
                · rintro (h4 | ⟨d, hdm, y, nf, hf, h4 | h4⟩)
                  · exact .inl ⟨hcf, .inl ⟨.inr hu, ms, h1, h4⟩⟩
                  · exact .inl ⟨hcf, .inr ⟨deps, hexp, d, hdm, y, nf, hf, h4⟩⟩
                  · exact .inr ⟨y, ⟨deps, d, nf, hexp, hdm, hf⟩, h4⟩
                · rintro (⟨_, ⟨_, ns, h4, h5⟩ | ⟨deps', ⟨_, h4, _⟩, d, hdm, y, nf, hf, h5⟩⟩ |
                    ⟨y, ⟨deps', d, nf, ⟨_, h4, _⟩, hdm, hf⟩, h5⟩)
                  · rw [h1] at h4; cases h4; exact .inl h5
                  · rw [hm] at h4; cases h4; exact .inr ⟨d, hdm, y, nf, hf, .inl h5⟩
                  · rw [hm] at h4; cases h4; exact .inr ⟨d, hdm, y, nf, hf, .inr h5⟩

/-- C07: a successful load reports exactly the non fatal errors met at the registries of the graph. -/
theorem load_reports_all_warnings (w : World) (r : Repo) (res : Loaded × List Upgrade) (h : loadRoot w r = .ok res)
    (m : String) : m ∈ res.1.nfes ↔ ∃ l x, Path w r l x ∧ OwnNfe w x m := by
  unfold loadRoot at h
  cases hl : load w maxDepth [] r [] with
  | error e => rw [hl] at h; cases h
  | ok l => rw [hl] at h; simp only [Except.ok.injEq] at h; subst h; exact load_nfes w _ _ r [] l hl m

/-! ### Upgrade warnings -/

/-- The last declaration of a name in a list of dependencies. -/
def lastDecl (deps : List Dep) (n : String) : Option SchemaUrl :=
  (deps.reverse.find? (fun d => decide (d.url.name = n))).map (·.url)

theorem mainDeps_fold (deps : List Dep) (m : List (String × SchemaUrl)) (n : String) :
    aget n (deps.foldl (fun m d => aset d.url.name d.url m) m) = (lastDecl deps n).or (aget n m) := by
  induction deps generalizing m with
  | nil => simp [lastDecl]
  | cons d ds ih =>
    simp only [List.foldl_cons, ih, aget_aset]
    simp only [lastDecl, List.reverse_cons, List.find?_append]
    cases hf : List.find? (fun d => decide (d.url.name = n)) ds.reverse with
    | some x => simp
    | none =>
      by_cases hn : d.url.name = n
      · simp [hn]
      · simp [hn, Ne.symm hn]

theorem mainDeps_nodup (deps : List Dep) (m : List (String × SchemaUrl)) (h : (m.map Prod.fst).Nodup) :
    ((deps.foldl (fun m d => aset d.url.name d.url m) m).map Prod.fst).Nodup := by
  induction deps generalizing m with
  | nil => exact h
  | cons d ds ih => exact ih _ (nodup_aset h)

/-- C07: after a successful load, an upgrade is announced for exactly those registries whose last declaration in the
main manifest differs from the URL selected, with both URLs. -/
theorem upgrade_warnings (w : World) (r : Repo) (res : Loaded × List Upgrade) (h : loadRoot w r = .ok res)
    (n : String) (req sel : SchemaUrl) :
    ({ name := n, requested := req, selected := sel } : Upgrade) ∈ res.2 ↔
      ∃ deps, r.manifest = some deps ∧ lastDecl deps n = some req ∧ aget n res.1.chosen = some sel ∧ sel ≠ req := by
  unfold loadRoot at h
  cases hl : load w maxDepth [] r [] with
  | error e => rw [hl] at h; cases h
  | ok l =>
    rw [hl] at h; simp only [Except.ok.injEq] at h; subst h
    simp only [upgrades, List.mem_filterMap]
    have hnd : ((mainDeps r).map Prod.fst).Nodup := mainDeps_nodup _ [] (by simp)
    have hget : ∀ n, aget n (mainDeps r) = lastDecl (r.manifest.getD []) n := by
      intro n; rw [mainDeps, mainDeps_fold]; simp [aget]
    constructor
    · rintro ⟨⟨a, b⟩, hm, h⟩
      cases hg : aget a l.chosen with
      | none => rw [hg] at h; cases h
      | some s =>
        rw [hg] at h; simp only at h
        by_cases hs : s = b
        · rw [if_neg (by simp [hs])] at h; cases h
        · rw [if_pos hs] at h
          simp only [Option.some.injEq, Upgrade.mk.injEq] at h
          obtain ⟨rfl, rfl, rfl⟩ := h
          have h1 := aget_of_mem_nodup hnd hm
          rw [hget] at h1
          cases hman : r.manifest with
          | none => rw [hman] at h1; simp [lastDecl] at h1
          | some deps => rw [hman] at h1; exact ⟨deps, rfl, h1, hg, hs⟩
    · rintro ⟨deps, hm, h1, h2, h3⟩
      refine ⟨(n, req), aget_some_mem (by rw [hget, hm]; exact h1), ?_⟩
      simp only [h2]
      rw [if_pos h3]

/-! ### Concrete cases -/

private def uA (v : String) (sv : Ver) : SchemaUrl := { name := "acme.com/a", tail := v, sv := some sv }
private def uB : SchemaUrl := { name := "acme.com/b", tail := "1.0.0", sv := some ⟨1, 0, 0, 0⟩ }
private def uM : SchemaUrl := { name := "acme.com/main", tail := "1.0.0", sv := some ⟨1, 0, 0, 0⟩ }
private def dA0 : Dep := { url := uA "1.0.0" ⟨1, 0, 0, 0⟩, path := "a0" }
private def dA1 : Dep := { url := uA "1.1.0" ⟨1, 1, 0, 0⟩, path := "a1" }
private def dB : Dep := { url := uB, path := "b" }
private def rA0 : Repo := { url := uA "1.0.0" ⟨1, 0, 0, 0⟩, manifest := some [], files := "a0" }
private def rA1 : Repo := { url := uA "1.1.0" ⟨1, 1, 0, 0⟩, files := "a1" }
private def rB : Repo := { url := uB, manifest := some [dA1], files := "b" }
private def rMain : Repo := { url := uM, manifest := some [dA0, dB], files := "m" }
private def w1 : World where
  fetch := fun d => if d.path = "a0" then .ok (rA0, ["w0"]) else if d.path = "a1" then .ok (rA1, []) else
    if d.path = "b" then .ok (rB, []) else .error "404"
  definition := fun f => if f = "a1" then .ok ["w1"] else .ok []
  resolved := fun _ => .error "none"
  cached := fun _ => false

/-- A load that succeeds, with an upgrade of `a` from 1.0.0 to 1.1.0 and two non fatal errors. -/
example : loadRoot w1 rMain = .ok
    ({ tree := .unresolved rMain [.unresolved rA0 [], .unresolved rB [.unresolved rA1 []]]
       nfes := ["w0", "w1"]
       chosen := [("acme.com/main", uM), ("acme.com/a", rA1.url), ("acme.com/b", uB)] },
     [{ name := "acme.com/a", requested := rA0.url, selected := rA1.url }]) := rfl

/-- The registry number `i` of a ring of `k`: it depends on the next one. -/
private def ringRepo (names : List String) (k i : Nat) : Repo :=
  { url := { name := names.getD i "", tail := "1.0.0", sv := some ⟨1, 0, 0, 0⟩ }
    manifest := some [{ url := { name := names.getD ((i + 1) % k) "", tail := "1.0.0", sv := some ⟨1, 0, 0, 0⟩ } }] }
private def ringWorld (names : List String) (k : Nat) : World where
  fetch := fun d => .ok (ringRepo names k (names.findIdx (· == d.url.name)), [])
  definition := fun _ => .ok []
  resolved := fun _ => .error "none"
  cached := fun _ => false
private def ns11 : List String := ["a", "b", "c", "d", "e", "f", "g", "h", "i", "j", "k"]

/-- A cycle of three registries is reported with the chain. -/
example : loadRoot (ringWorld ["a", "b", "c"] 3) (ringRepo ["a", "b", "c"] 3 0) =
    .error (.circularDependency "a" ["a", "b", "c", "a"]) := rfl

/-- C142, refuted: a cycle of eleven registries is reported as a depth error, not as a circular dependency. -/
theorem long_cycle_reported_as_depth_refuted : ∃ (w : World) (r : Repo) (l : List Repo) (x : Repo),
    Path w r l x ∧ x = r ∧ l ≠ [] ∧ loadRoot w r = .error .maximumDependencyDepth := by
  refine ⟨ringWorld ns11 11, ringRepo ns11 11 0, (List.range 11).map (ringRepo ns11 11), ringRepo ns11 11 0, ?_, rfl,
    by simp, rfl⟩
  have st : ∀ i, i < 11 → Step (ringWorld ns11 11) (ringRepo ns11 11 i) (ringRepo ns11 11 ((i + 1) % 11)) := by
    intro i hi
    refine ⟨_, _, [], ⟨rfl, rfl, rfl⟩, List.mem_singleton.2 rfl, ?_⟩
    have hf : ∀ j : Fin 11, ns11.findIdx (· == ns11.getD ((j.val + 1) % 11) "") = (j.val + 1) % 11 := by decide
    have := hf ⟨i, hi⟩
    simp only [ringWorld]
    rw [this]
  exact .step (st 0 (by decide)) <| .step (st 1 (by decide)) <| .step (st 2 (by decide)) <|
    .step (st 3 (by decide)) <| .step (st 4 (by decide)) <| .step (st 5 (by decide)) <| .step (st 6 (by decide)) <|
    .step (st 7 (by decide)) <| .step (st 8 (by decide)) <| .step (st 9 (by decide)) <| .step (st 10 (by decide)) <|
    .here _

/-- The hypotheses of `cycle_reported` hold for a ring of two registries. -/
example : ∃ m ch, loadRoot (ringWorld ["a", "b"] 2) (ringRepo ["a", "b"] 2 0) =
    .error (.circularDependency m (ch ++ [m])) ∧ m ∈ ch := by
  have inv : ∀ r l x, Path (ringWorld ["a", "b"] 2) r l x → (r = ringRepo ["a", "b"] 2 0 ∨ r = ringRepo ["a", "b"] 2 1) →
      (x = ringRepo ["a", "b"] 2 0 ∨ x = ringRepo ["a", "b"] 2 1) ∧ ∀ y ∈ names l, y = "a" ∨ y = "b" := by
    intro r l x hp
    induction hp with
    | here r => intro h; exact ⟨h, by simp [names]⟩
    | step hs hp ih =>
      intro h
      obtain ⟨deps, d, nf, ⟨_, hm, _⟩, hd, hf⟩ := hs
      rcases h with rfl | rfl
      · have : deps = _ := (Option.some.inj hm).symm
        subst this
        simp only [List.mem_singleton] at hd; subst hd
        simp only [ringWorld, Except.ok.injEq, Prod.mk.injEq] at hf
        have ih := ih (.inr (by rw [← hf.1]; rfl))
        exact ⟨ih.1, by simpa [names] using ⟨.inl rfl, by simpa [names] using ih.2⟩⟩
      · have : deps = _ := (Option.some.inj hm).symm
        subst this
        simp only [List.mem_singleton] at hd; subst hd
        simp only [ringWorld, Except.ok.injEq, Prod.mk.injEq] at hf
        have ih := ih (.inl (by rw [← hf.1]; rfl))
        exact ⟨ih.1, by simpa [names] using ⟨.inr rfl, by simpa [names] using ih.2⟩⟩
  refine cycle_reported _ _ [ringRepo ["a", "b"] 2 0, ringRepo ["a", "b"] 2 1] (ringRepo ["a", "b"] 2 0)
    (.step ⟨_, _, [], ⟨rfl, rfl, rfl⟩, List.mem_singleton.2 rfl, rfl⟩
      (.step ⟨_, _, [], ⟨rfl, rfl, rfl⟩, List.mem_singleton.2 rfl, rfl⟩ (.here _))) (by decide) ?_ ?_ ?_
  · intro l x hp hnd hlen
    have h := (inv _ _ _ hp (.inl rfl)).2
    match l, hlen with
    | a :: b :: c :: _, _ =>
      simp only [names, List.map_cons, List.nodup_cons, List.mem_cons, not_or] at hnd h
      rcases h a.url.name (by simp) with h1 | h1 <;> rcases h b.url.name (by simp) with h2 | h2 <;>
        rcases h c.url.name (by simp) with h3 | h3 <;> simp [h1, h2, h3] at hnd
  · intro l x hp
    rcases (inv _ _ _ hp (.inl rfl)).1 with rfl | rfl
    all_goals
      intro _
      refine ⟨fun h => (by cases h), fun _ _ _ h => (by cases h), fun deps h _ => ?_⟩
      have : deps = _ := (Option.some.inj h).symm
      subst this
      exact ⟨fun d _ => ⟨_, rfl⟩, by simp, [], rfl⟩
  · intro l x u l' y v hp hu hp' hv hn
    have h1 : u = x.url := by
      rcases hu with h | ⟨_, _, _, _, _, h, _⟩
      · exact h
      · rcases (inv _ _ _ hp (.inl rfl)).1 with rfl | rfl <;> cases h
    have h2 : v = y.url := by
      rcases hv with h | ⟨_, _, _, _, _, h, _⟩
      · exact h
      · rcases (inv _ _ _ hp' (.inl rfl)).1 with rfl | rfl <;> cases h
    subst h1; subst h2
    rcases (inv _ _ _ hp (.inl rfl)).1 with rfl | rfl <;> rcases (inv _ _ _ hp' (.inl rfl)).1 with rfl | rfl
    · exact .inl rfl
    · exact absurd hn (by decide)
    · exact absurd hn (by decide)
    · exact .inl rfl

end Verif.Loader
