import Verif.Fetch.Props
/-
More about downloads: assets of releases, the cache of releases, the format of archives, revisions of repositories.
-/
namespace Verif.Fetch
open Verif.Util Verif.Common

/-! ### C254: assets of releases -/

/-- A server with releases: for owner, repository and tag the assets, each with its name, URL and content. -/
abbrev Releases := Chars → Chars → Chars → Option (List (Chars × Chars × String))

/-- The servers answer as the API of GitHub does: to a request for the release of a tag with its assets, to a request for the URL
of an asset with its content. -/
structure Serves (net : Net) (g : Releases) : Prop where
  release : ∀ o r t l q, g o r t = some l →
    q.url = "https://api.github.com".toList ++ "/repos/".toList ++ o ++ '/' :: r ++ "/releases/tags/".toList ++ t →
    net.release q = .ok (some (l.map fun a => { name := some a.1, url := some a.2.1 }))
  file : ∀ o r t l a q, g o r t = some l → a ∈ l → q.url = a.2.1 → net.file q = .ok a.2.2

/-- The URL of an asset as a browser shows it. -/
def browserUrl (o r t f : Chars) : Chars :=
  "https://github.com/".toList ++ o ++ "/".toList ++ r ++ "/releases/download/".toList ++ t ++ "/".toList ++ f

/-- C254. What holds: the URL of an asset gives the asset, if the tag has no slash. -/
theorem asset_partial {net : Net} {g : Releases} (h : Serves net g) (auth : Chars → Option String) {o r t : Chars}
    {l : List (Chars × Chars × String)} (hg : g o r t = some l) (ho : '/' ∉ o) (hr : '/' ∉ r) (ht : '/' ∉ t)
    (hl : (l.map Prod.fst).Nodup) {f u : Chars} {c : String} (ha : (f, u, c) ∈ l) :
    (download net auth (browserUrl o r t f) {}).1 = .ok c := by
  have hp : AssetUrl (browserUrl o r t f) ⟨o, r, t, f⟩ := ⟨rfl, ho, hr, ht⟩
  have hrel := h.release o r t l (releaseOf auth (browserUrl o r t f) ⟨o, r, t, f⟩) hg rfl
  have hlisted : Listed (some (l.map fun a => { name := some a.1, url := some a.2.1 })) f u := by
    obtain ⟨l1, l2, rfl⟩ := List.append_of_mem ha
    refine ⟨_, l1.map _, _, l2.map _, rfl, by rw [List.map_append, List.map_cons], ?_, rfl, rfl⟩
    intro b hb
    obtain ⟨x, hx, rfl⟩ := List.mem_map.1 hb
    simp only [ne_eq, Option.some.injEq]
    rintro rfl
    simp only [List.map_append, List.map_cons] at hl
    exact (List.nodup_append.1 hl).2.2 _ (List.mem_map_of_mem hx) _ List.mem_cons_self rfl
  have same : ∀ {p' : Place}, AssetUrl (browserUrl o r t f) p' → p' = ⟨o, r, t, f⟩ := by
    intro p' hp'
    have := (parse_iff.2 hp').symm.trans (parse_iff.2 hp)
    simpa using this
  have hd := done net auth (browserUrl o r t f) {}
  revert hd
  generalize (download net auth (browserUrl o r t f) {}).1 = res
  generalize (download net auth (browserUrl o r t f) {}).2 = w'
  intro hd
  have rel : ∀ {p' : Place} {r' : Release} {c' : List (String × Release)} {s' : List Req}, p' = ⟨o, r, t, f⟩ →
      (aget (cacheKey p') ({} : World).cache = some r' ∧ c' = ({} : World).cache ∧ s' = ({} : World).sent ∨
      aget (cacheKey p') ({} : World).cache = none ∧ net.release (releaseOf auth (browserUrl o r t f) p') = .ok r' ∧
      c' = aset (cacheKey p') r' ({} : World).cache ∧ s' = ({} : World).sent ++ [releaseOf auth (browserUrl o r t f) p']) →
      r' = some (l.map fun a => { name := some a.1, url := some a.2.1 }) := by
    rintro p' r' c' s' rfl (⟨h1, -⟩ | ⟨-, h1, -⟩)
    · cases h1
    · rw [hrel] at h1
      simpa using h1.symm
  cases hd with
  | plain hno _ _ => exact absurd hp (hno _)
  | refused p' hp' _ m hn =>
    rw [same hp', hrel] at hn
    cases hn
  | lost p' hp' r' c' s' hc hf e =>
    have e1 := same hp'
    rw [rel e1 hc, e1] at hf
    exact absurd hlisted (hf u)
  | found p' hp' r' c' s' hc t' hf _ hr' =>
    have e1 := same hp'
    rw [rel e1 hc, e1] at hf
    obtain ⟨l', l1, a, l2, e2, e3, -, han, hau⟩ := hf
    simp only [Option.some.injEq] at e2
    have hmem : a ∈ l.map fun a => ({ name := some a.1, url := some a.2.1 } : Asset) := by rw [e2, e3]; simp
    obtain ⟨x, hx, rfl⟩ := List.mem_map.1 hmem
    simp only [Option.some.injEq] at han hau
    have hxe : x = (f, u, c) := by
      refine Classical.byContradiction fun hne => ?_
      obtain ⟨k1, k2, rfl⟩ := List.append_of_mem ha
      simp only [List.map_append, List.map_cons] at hl
      have hnd := List.nodup_append.1 hl
      rcases List.mem_append.1 hx with hx | hx
      · exact hnd.2.2 _ (List.mem_map_of_mem hx) _ List.mem_cons_self han
      · rcases List.mem_cons.1 hx with hx | hx
        · exact hne hx
        · exact (List.nodup_cons.1 hnd.2.1).1 (han ▸ List.mem_map_of_mem hx)
    subst hau
    rw [hr', h.file o r t l x _ hg hx (fileReq_url _ _ _).1, hxe]
    rfl

/-- C254. An asset that is not in the release is an error. -/
theorem asset_missing {net : Net} {g : Releases} (h : Serves net g) (auth : Chars → Option String) {o r t : Chars}
    {l : List (Chars × Chars × String)} (hg : g o r t = some l) (ho : '/' ∉ o) (hr : '/' ∉ r) (ht : '/' ∉ t)
    {f : Chars} (ha : f ∉ l.map Prod.fst) : (download net auth (browserUrl o r t f) {}).1 = .error (.notFound f t) := by
  have hp : parsePlace (browserUrl o r t f) = some ⟨o, r, t, f⟩ := parse_iff.2 ⟨rfl, ho, hr, ht⟩
  have hrel := h.release o r t l (releaseOf auth (browserUrl o r t f) ⟨o, r, t, f⟩) hg rfl
  have hfind : (l.map fun a => ({ name := some a.1, url := some a.2.1 } : Asset)).find? (fun a => a.name == some f) = none := by
    refine List.find?_eq_none.2 fun a h' => ?_
    obtain ⟨x, hx, rfl⟩ := List.mem_map.1 h'
    simp only [beq_iff_eq, Option.some.injEq]
    rintro rfl
    exact ha (List.mem_map_of_mem hx)
  simp only [download, normalize, hp, getRelease, releaseReq_eq, hrel, findAsset, hfind, aget]

/-- A release of a part of a repository. -/
def sliced : Releases := fun o r t =>
  if o = "o".toList ∧ r = "r".toList ∧ t = "api/v1".toList then some [("m.yaml".toList, "https://a/1".toList, "x")] else none

/-- Servers for a release of a part of a repository. -/
def slicedNet : Net where
  release := fun q =>
    if q.url = "https://api.github.com/repos/o/r/releases/tags/api/v1".toList then
      .ok (some [{ name := some "m.yaml".toList, url := some "https://a/1".toList }])
    else .error "not found"
  file := fun q => if q.url = "https://a/1".toList then .ok "x" else .error "not found"

theorem sliced_served : Serves slicedNet sliced := by
  constructor
  · intro o r t l q hg hq
    unfold sliced at hg
    split at hg
    · rename_i h
      obtain ⟨rfl, rfl, rfl⟩ := h
      simp only [Option.some.injEq] at hg
      subst hg
      have hu : q.url = "https://api.github.com/repos/o/r/releases/tags/api/v1".toList := hq.trans (by decide +kernel)
      simp only [slicedNet, hu, if_true]
      rfl
    · cases hg
  · intro o r t l a q hg ha hq
    unfold sliced at hg
    split at hg
    · simp only [Option.some.injEq] at hg
      subst hg
      rw [List.mem_singleton] at ha
      subst ha
      simp only [slicedNet, hq, if_true]
    · cases hg

/-- C254. A tag can have slashes, as in repositories of several parts; the URL of an asset of its release is taken apart wrongly. -/
theorem asset_refuted : ¬ ∀ (net : Net) (g : Releases) (auth : Chars → Option String) (o r t : Chars)
    (l : List (Chars × Chars × String)) (f u : Chars) (c : String), Serves net g → g o r t = some l → '/' ∉ o → '/' ∉ r →
    (l.map Prod.fst).Nodup → (f, u, c) ∈ l → (download net auth (browserUrl o r t f) {}).1 = .ok c := by
  intro h
  have := h slicedNet sliced (fun _ => none) "o".toList "r".toList "api/v1".toList [("m.yaml".toList, "https://a/1".toList, "x")] "m.yaml".toList "https://a/1".toList "x"
    sliced_served (by decide +kernel) (by decide +kernel) (by decide +kernel) (by decide +kernel) (by decide +kernel)
  revert this
  have he : (download slicedNet (fun _ => none) (browserUrl "o".toList "r".toList "api/v1".toList "m.yaml".toList) {}).1.toOption =
      none := by decide +kernel
  intro this
  rw [this] at he
  cases he

/-! ### C255: the cache -/

/-- The answer to a request for a release does not depend on the token. -/
def Open (net : Net) : Prop := ∀ q q', q.url = q'.url → q.accept = q'.accept → net.release q = net.release q'

/-- A download gives the same with a cache of answers and without. -/
theorem cache_step {net : Net} {auth : Chars → Option String} (ho : Open net) {us : List Chars} {w : World}
    (h : Sound net auth us w) (u : Chars) : (download net auth u w).1 = (download net auth u {}).1 := by
  cases hp : parsePlace u with
  | none => simp only [download, normalize, hp]; split <;> rfl
  | some p =>
    have hpu := parse_iff.1 hp
    have hg : (getRelease net auth u p w).1 = (getRelease net auth u p {}).1 := by
      unfold getRelease
      cases hc : aget (cacheKey p) w.cache with
      | none =>
        rw [show aget (cacheKey p) ({} : World).cache = none from rfl]
        dsimp only
        cases net.release (releaseReq auth u p) <;> rfl
      | some r =>
        obtain ⟨u', -, p', hp', hk, hn⟩ := h.cache _ _ hc
        have hs := (key_same hp' hpu).1 hk
        have : net.release (releaseReq auth u p) = .ok r := by
          rw [releaseReq_eq, ← hn]
          exact ho _ _ ((api_same hpu hp').2 ⟨hs.1.symm, hs.2.1.symm, hs.2.2.symm⟩) rfl
        rw [show aget (cacheKey p) ({} : World).cache = none from rfl]
        dsimp only
        rw [this]
    have key : ∀ x y : Except Err Release × World, x.1 = y.1 →
        (match (match x with | (.error e, w) => (Except.error e, w) | (.ok r, w) => (findAsset r p, w)) with
          | (.error e, w) => (Except.error e, w)
          | (.ok u', w) =>
            match net.file (fileReq auth u u') with
            | .error m => (.error (.get m), { w with sent := w.sent ++ [fileReq auth u u'] })
            | .ok c => (.ok c, { w with sent := w.sent ++ [fileReq auth u u'] })).1 =
        (match (match y with | (.error e, w) => (Except.error e, w) | (.ok r, w) => (findAsset r p, w)) with
          | (.error e, w) => (Except.error e, w)
          | (.ok u', w) =>
            match net.file (fileReq auth u u') with
            | .error m => (.error (.get m), { w with sent := w.sent ++ [fileReq auth u u'] })
            | .ok c => (.ok c, { w with sent := w.sent ++ [fileReq auth u u'] })).1 := by
      rintro ⟨x, wx⟩ ⟨y, wy⟩ e
      dsimp only at e
      subst e
      cases x with
      | error e => rfl
      | ok r =>
        dsimp only
        cases findAsset r p with
        | error e => rfl
        | ok t => dsimp only; cases net.file (fileReq auth u t) <;> rfl
    simp only [download, normalize, hp]
    exact key _ _ hg

/-- C255. What holds: if the servers answer to requests for releases whatever the token, the downloads of a process give what
each would give alone. -/
theorem cache_partial {net : Net} (ho : Open net) (auth : Chars → Option String) (us : List Chars) :
    (downloads net auth us {}).1 = us.map fun u => (download net auth u {}).1 := by
  have : ∀ (vs us : List Chars) (w : World), (∀ u ∈ us, u ∈ vs) → Sound net auth vs w →
      (downloads net auth us w).1 = us.map fun u => (download net auth u {}).1 := by
    intro vs us
    induction us with
    | nil => intro w _ _; rfl
    | cons u r ih =>
      intro w hs h
      simp only [downloads, List.map_cons, List.cons.injEq]
      exact ⟨cache_step ho h u, ih _ (fun x hx => hs x (List.mem_cons_of_mem _ hx))
        (sound_step h (hs u List.mem_cons_self) (done net auth u w))⟩
  exact this us us {} (fun _ h => h) ⟨fun _ _ h => (by cases h), fun _ h => (by cases h)⟩

/-- A private release whose files are public. -/
def private_ : Net where
  release := fun q => if q.token = some "secret" then
      .ok (some [{ name := some "a".toList, url := some "https://x/a".toList }, { name := some "b".toList, url := some "https://x/b".toList }])
    else .error "not found"
  file := fun _ => .ok "x"

/-- C255. A download can give what it would not give alone: the description of the release is kept, with whichever token it was
got. -/
theorem cache_refuted : ¬ ∀ (net : Net) (auth : Chars → Option String) (us : List Chars),
    (downloads net auth us {}).1 = us.map fun u => (download net auth u {}).1 := by
  intro h
  have := h private_ (fun u => if u.getLast? = some 'a' then some "secret" else none)
    ["https://github.com/o/r/releases/download/v1/a".toList, "https://github.com/o/r/releases/download/v1/b".toList]
  have := congrArg (List.map Except.toOption) this
  revert this
  decide +kernel

/-- Whether a request asks for the description of the release of a place. -/
def AsksFor (p : Place) (q : Req) : Prop := q.url = apiUrl p ∧ q.accept = some "application/vnd.github+json"

instance (p : Place) (q : Req) : Decidable (AsksFor p q) := inferInstanceAs (Decidable (_ ∧ _))

theorem fileReq_accept (auth : Chars → Option String) (u t : Chars) : (fileReq auth u t).accept ≠ some "application/vnd.github+json" := by
  unfold fileReq attachAuth
  dsimp only
  split
  · simp
  · intro h; cases h

/-- C254. A file is asked for as it is, not as its description, exactly at the API of GitHub. -/
theorem file_accept (auth : Chars → Option String) (u t : Chars) :
    (fileReq auth u t).accept = (if "https://api.github.com/".toList <+: t then some "application/octet-stream" else none) := by
  unfold fileReq attachAuth
  simp only [List.isPrefixOf_iff_prefix]
  split <;> rfl

/-- C255. The description of a release is got at most once. -/
theorem one_call (net : Net) (auth : Chars → Option String) (us : List Chars) {u₀ : Chars} {p₀ : Place} (h₀ : AssetUrl u₀ p₀) :
    (downloads net auth us {}).2.sent.countP (fun q => decide (AsksFor p₀ q) && (net.release q).toBool) ≤ 1 := by
  have step : ∀ {u : Chars} {w w' : World} {res : Except Err String}, Done net auth u w res w' →
      w.sent.countP (fun q => decide (AsksFor p₀ q) && (net.release q).toBool) ≤ (if (aget (cacheKey p₀) w.cache).isSome then 1 else 0) →
      w'.sent.countP (fun q => decide (AsksFor p₀ q) && (net.release q).toBool) ≤ (if (aget (cacheKey p₀) w'.cache).isSome then 1 else 0) := by
    intro u w w' res hd h
    have hfile : ∀ t, (decide (AsksFor p₀ (fileReq auth u t)) && (net.release (fileReq auth u t)).toBool) = false := by
      intro t
      rw [decide_eq_false (fun h => fileReq_accept auth u t h.2)]; rfl
    have grow : ∀ (p : Place), AssetUrl u p → ∀ (r : Release) (c : List (String × Release)) (s : List Req),
        (aget (cacheKey p) w.cache = some r ∧ c = w.cache ∧ s = w.sent ∨
        aget (cacheKey p) w.cache = none ∧ net.release (releaseOf auth u p) = .ok r ∧ c = aset (cacheKey p) r w.cache ∧
        s = w.sent ++ [releaseOf auth u p]) →
        s.countP (fun q => decide (AsksFor p₀ q) && (net.release q).toBool) ≤ (if (aget (cacheKey p₀) c).isSome then 1 else 0) := by
      rintro p hp r c s (⟨-, rfl, rfl⟩ | ⟨hc, hn, rfl, rfl⟩)
      · exact h
      · rw [List.countP_append, aget_aset]
        by_cases hk : cacheKey p₀ = cacheKey p
        · have hz : w.sent.countP (fun q => decide (AsksFor p₀ q) && (net.release q).toBool) = 0 := by
            rw [hk, hc] at h
            simpa using h
          rw [hz, if_pos hk]
          exact Nat.le_trans (Nat.le_of_eq (Nat.zero_add _)) List.countP_le_length
        · have hne : ¬ AsksFor p₀ (releaseOf auth u p) := fun hq => hk ((key_same h₀ hp).2 ((api_same h₀ hp).1 hq.1.symm))
          rw [if_neg hk, List.countP_singleton, decide_eq_false hne]
          exact h
    cases hd with
    | plain hp res hr => rw [List.countP_append]; simpa [hfile] using h
    | refused p hp hc m hn => rw [List.countP_append]; simpa [hn, Except.toBool] using h
    | lost p hp r c s hc hf e => exact grow p hp r c s hc
    | found p hp r c s hc t hf res hr => rw [List.countP_append]; simpa [hfile] using grow p hp r c s hc
  have all : ∀ (us : List Chars) (w : World),
      w.sent.countP (fun q => decide (AsksFor p₀ q) && (net.release q).toBool) ≤ (if (aget (cacheKey p₀) w.cache).isSome then 1 else 0) →
      (downloads net auth us w).2.sent.countP (fun q => decide (AsksFor p₀ q) && (net.release q).toBool) ≤ 1 := by
    intro us
    induction us with
    | nil => intro w h; exact Nat.le_trans h (by split <;> decide)
    | cons u r ih => intro w h; exact ih _ (step (done net auth u w) h)
  exact all us {} (Nat.le_refl _)

/-! ### C256: the format of archives -/

theorem lastPart_spec (s : Chars) : ∃ pre, s = pre ++ lastPart s ∧ '/' ∉ lastPart s ∧ (pre = [] ∨ pre.getLast? = some '/') := by
  refine ⟨(s.reverse.dropWhile (· ≠ '/')).reverse, ?_, ?_, ?_⟩
  · rw [lastPart, ← List.reverse_append, List.takeWhile_append_dropWhile, List.reverse_reverse]
  · intro h
    rw [lastPart, List.mem_reverse] at h
    have := List.all_takeWhile (p := fun c : Char => decide (c ≠ '/')) (l := s.reverse)
    simpa using List.all_eq_true.1 this _ h
  · cases h : s.reverse.dropWhile (· ≠ '/') with
    | nil => exact .inl rfl
    | cons c r =>
      right
      have := List.head_dropWhile_not (· ≠ '/') (l := s.reverse) (by rw [h]; simp)
      simp only [h, List.head_cons] at this
      simp only [List.reverse_cons, List.getLast?_append, List.getLast?_singleton, Option.some_or, Option.some.injEq]
      simpa using this

theorem suffix_of_name {ext pre n : Chars} (he : '/' ∉ ext) (hp : pre = [] ∨ pre.getLast? = some '/') :
    ext.isSuffixOf (pre ++ n) = ext.isSuffixOf n := by
  rw [Bool.eq_iff_iff, List.isSuffixOf_iff_suffix, List.isSuffixOf_iff_suffix]
  constructor
  · rintro ⟨x, hx⟩
    rcases hp with rfl | hp
    · exact ⟨x, hx⟩
    · obtain ⟨pre', rfl⟩ : ∃ p', pre = p' ++ ['/'] := by
        have hne : pre ≠ [] := by rintro rfl; cases hp
        refine ⟨pre.dropLast, ?_⟩
        rw [List.getLast?_eq_some_getLast hne] at hp
        simp only [Option.some.injEq] at hp
        rw [← hp, List.dropLast_concat_getLast]
      rw [List.append_assoc, List.append_eq_append_iff] at hx
      rcases hx with ⟨a, h1, h2⟩ | ⟨a, h1, h2⟩
      · exfalso; apply he; rw [h2]; simp
      · cases a with
        | nil =>
          exfalso; apply he
          rw [List.nil_append] at h2
          rw [← h2]; simp
        | cons c a =>
          simp only [List.cons_append, List.nil_append, List.cons.injEq] at h2
          exact ⟨a, h2.2.symm⟩
  · rintro ⟨x, hx⟩
    exact ⟨pre ++ x, by rw [List.append_assoc, hx]⟩

/-- A URL whose last part is the end of the URL names its format. -/
theorem format_last (s : Chars) : formatOf (lastPart s) = formatOf s := by
  obtain ⟨pre, hs, -, hp⟩ := lastPart_spec s
  unfold formatOf
  conv => rhs; rw [hs]
  rw [suffix_of_name (by decide +kernel) hp, suffix_of_name (by decide +kernel) hp]

/-- C256. What holds: a remote archive whose URL has no query and no fragment is unpacked in the format that the URL ends with. -/
theorem format_partial {u : Chars} (h : isArchive u = true) (hq : '?' ∉ u) (hf : '#' ∉ u) :
    remoteFormat u = some (if ".zip".toList.isSuffixOf u then .zip else .tarGz) := by
  have hb : beforeQuery u = u := by
    unfold beforeQuery
    have : ∀ l : Chars, (∀ c ∈ l, c ≠ '?' ∧ c ≠ '#') → l.takeWhile (fun c => c ≠ '?' && c ≠ '#') = l := by
      intro l hl
      induction l with
      | nil => rfl
      | cons c r ih =>
        have hc := hl c List.mem_cons_self
        rw [List.takeWhile_cons_of_pos (by simp [hc]), ih fun x hx => hl x (List.mem_cons_of_mem _ hx)]
    exact this u fun c hc => ⟨fun e => hq (e ▸ hc), fun e => hf (e ▸ hc)⟩
  have hfo : formatOf u = some (if ".zip".toList.isSuffixOf u then .zip else .tarGz) := by
    unfold formatOf
    unfold isArchive at h
    by_cases h1 : ".tar.gz".toList.isSuffixOf u = true
    · rw [if_pos h1]
      have h2 : ".zip".toList.isSuffixOf u = false := by
        rw [Bool.eq_false_iff]
        intro h2
        obtain ⟨a, ha⟩ := List.isSuffixOf_iff_suffix.1 h1
        obtain ⟨b, hb⟩ := List.isSuffixOf_iff_suffix.1 h2
        have e1 := congrArg List.getLast? ha
        have e2 := congrArg List.getLast? hb
        rw [List.getLast?_append, show (".tar.gz".toList).getLast? = some 'z' from by decide +kernel] at e1
        rw [List.getLast?_append, show (".zip".toList).getLast? = some 'p' from by decide +kernel] at e2
        simp only [Option.some_or] at e1 e2
        rw [← e2] at e1
        exact absurd e1 (by decide)
      rw [h2]; rfl
    · have h2 : ".zip".toList.isSuffixOf u = true := by
        rw [Bool.eq_false_iff.2 h1, Bool.or_false] at h
        exact h
      rw [if_neg h1, if_pos h2, if_pos h2]
  unfold remoteFormat archiveName
  rw [hb]
  dsimp only
  have hne : (lastPart u).isEmpty = false := by
    rw [← format_last] at hfo
    rw [Bool.eq_false_iff]
    intro he
    rw [List.isEmpty_iff.1 he] at hfo
    rw [show formatOf [] = none from by decide +kernel] at hfo
    cases hfo
  rw [hne]
  simp only [Bool.false_eq_true, if_false, Option.bind_some, format_last, hfo]

/-- C256. A remote archive is refused if there is nothing after the last slash of the path. -/
theorem archive_unnamed {u : Chars} : archiveName u = none ↔ beforeQuery u = [] ∨ (beforeQuery u).getLast? = some '/' := by
  obtain ⟨pre, hs, hn, hp⟩ := lastPart_spec (beforeQuery u)
  unfold archiveName
  dsimp only
  cases h : lastPart (beforeQuery u) with
  | nil =>
    rw [h, List.append_nil] at hs
    rw [hs]
    simpa using hp
  | cons c l =>
    simp only [List.isEmpty_cons, Bool.false_eq_true, if_false, reduceCtorEq, false_iff, not_or]
    rw [hs, h]
    refine ⟨by simp, fun e => ?_⟩
    rw [List.getLast?_append, List.getLast?_cons] at e
    simp only [Option.some_or, Option.some.injEq] at e
    apply hn
    rw [h, ← e]
    cases hl : l.getLast? with
    | none => simp
    | some x => exact List.mem_cons_of_mem _ (List.mem_of_getLast? hl)

/-- C256. A URL that is taken for one of an archive can be refused when it is unpacked: what the URL ends with can be in the
query. -/
theorem format_refuted : ¬ ∀ u : Chars, isHttp u = true → isArchive u = true → (remoteFormat u).isSome = true := by
  intro h
  have := h "https://example.org/get?file=registry.zip".toList (by decide +kernel) (by decide +kernel)
  revert this
  decide +kernel

/-- An archive behind a query is taken for a manifest. -/
example : VPath.parse "https://example.org/registry.zip?raw=true".toList =
    some (.remoteFile "https://example.org/registry.zip?raw=true".toList) := by decide +kernel

/-! ### C257: revisions of repositories -/

/-- A full object id. -/
def FullId (s : Chars) : Prop := s.length = 40 ∧ ∀ c ∈ s, c ∈ "0123456789abcdefABCDEF".toList

theorem isCommitSha_iff {s : Chars} : isCommitSha s = true ↔ FullId s := by
  unfold isCommitSha FullId
  simp only [Bool.and_eq_true, beq_iff_eq, List.all_eq_true, List.contains_iff_mem]

/-- C257. What holds: without a revision the default branch is checked out, with a full object id its commit, and with anything
else the branch or tag of this name. -/
theorem checkout_partial (r : Repo) (s : Chars) :
    checkedOut r none = r.head ∧ (FullId s → checkedOut r (some s) = r.commit s) ∧ (¬ FullId s → checkedOut r (some s) = r.ref s) := by
  refine ⟨rfl, fun h => if_pos (isCommitSha_iff.2 h), fun h => if_neg fun e => h (isCommitSha_iff.1 e)⟩

/-- A repository with one commit and the branch `main`. -/
def oneCommit (id : Chars) : Repo where
  head := some "tree"
  ref := fun s => if s = "main".toList then some "tree" else none
  commit := fun s => if s <+: id ∧ 4 ≤ s.length then some "tree" else none

/-- C257. A commit cannot be given by the start of its object id, though the repository knows it. -/
theorem checkout_refuted : ¬ ∀ (r : Repo) (s : Chars) (t : String), r.commit s = some t → checkedOut r (some s) = some t := by
  intro h
  have := h (oneCommit "0123456789012345678901234567890123456789".toList) "0123456".toList "tree" (by decide +kernel)
  revert this
  decide +kernel

/-- A branch whose name is a full object id cannot be checked out. -/
theorem branch_refuted : ¬ ∀ (r : Repo) (s : Chars) (t : String), r.ref s = some t → checkedOut r (some s) = some t := by
  intro h
  have := h { head := none, ref := fun _ => some "tree", commit := fun _ => none } (List.replicate 40 'a') "tree" rfl
  revert this
  decide +kernel

end Verif.Fetch
