import Verif.Fetch.Model
/-
What is true of downloads.
-/
namespace Verif.Fetch
open Verif.Util Verif.Common

/-! ### The URLs of assets -/

/-- A URL of an asset as a browser shows it, where neither the owner nor the repository nor the tag has a slash. -/
structure AssetUrl (url : Chars) (p : Place) : Prop where
  text : url = "https://github.com/".toList ++ p.owner ++ "/".toList ++ p.repo ++ "/releases/download/".toList ++ p.tag ++
    "/".toList ++ p.file
  owner : '/' ∉ p.owner
  repo : '/' ∉ p.repo
  tag : '/' ∉ p.tag

theorem cut_none {s : Chars} : cut s = none ↔ '/' ∉ s := by
  induction s with
  | nil => simp [cut]
  | cons c r ih =>
    by_cases h : c = '/'
    · simp [cut, h]
    · simp [cut, h, ih, List.mem_cons, Ne.symm h]

theorem cut_some {s a b : Chars} : cut s = some (a, b) ↔ s = a ++ '/' :: b ∧ '/' ∉ a := by
  induction s generalizing a with
  | nil => simp [cut]
  | cons c r ih =>
    by_cases h : c = '/'
    · subst h
      simp only [cut, if_true, Option.some.injEq, Prod.mk.injEq]
      constructor
      · rintro ⟨rfl, rfl⟩; exact ⟨rfl, by simp⟩
      · rintro ⟨e, ha⟩
        cases a with
        | nil => simp at e; exact ⟨rfl, e⟩
        | cons x l =>
          simp only [List.cons_append, List.cons.injEq] at e
          exact absurd (e.1 ▸ List.mem_cons_self) ha
    · simp only [cut, h, if_false, Option.map_eq_some_iff, Prod.exists, Prod.mk.injEq]
      constructor
      · rintro ⟨a', b', he, rfl, rfl⟩
        obtain ⟨e, ha⟩ := ih.1 he
        exact ⟨by rw [e]; rfl, by simp [ha, Ne.symm h]⟩
      · rintro ⟨e, ha⟩
        cases a with
        | nil => simp at e; exact absurd e.1 h
        | cons x l =>
          simp only [List.cons_append, List.cons.injEq] at e
          obtain ⟨rfl, e⟩ := e
          exact ⟨l, b, ih.2 ⟨e, fun hm => ha (List.mem_cons_of_mem _ hm)⟩, rfl, rfl⟩

theorem splitN_cons {n : Nat} {s a : Chars} {l : List Chars} (hl : l ≠ []) :
    splitN (n + 2) s = a :: l ↔ ∃ b, s = a ++ '/' :: b ∧ '/' ∉ a ∧ splitN (n + 1) b = l := by
  rw [show splitN (n + 2) s = (match cut s with | none => [s] | some (a, b) => a :: splitN (n + 1) b) from rfl]
  cases h : cut s with
  | none =>
    dsimp only
    constructor
    · intro e
      simp only [List.cons.injEq] at e
      exact absurd e.2.symm hl
    · rintro ⟨b, e, ha, -⟩
      rw [cut_some.2 ⟨e, ha⟩] at h; cases h
  | some x =>
    obtain ⟨x, y⟩ := x
    obtain ⟨e, hx⟩ := cut_some.1 h
    dsimp only
    simp only [List.cons.injEq]
    constructor
    · rintro ⟨rfl, hb⟩; exact ⟨y, e, hx, hb⟩
    · rintro ⟨b, e', ha, hb⟩
      have := cut_some.2 ⟨e', ha⟩
      rw [h] at this
      simp only [Option.some.injEq, Prod.mk.injEq] at this
      exact ⟨this.1, this.2 ▸ hb⟩

theorem stripPrefix_some {p s r : Chars} : stripPrefix p s = some r ↔ s = p ++ r := by
  unfold stripPrefix
  by_cases h : p.isPrefixOf s = true
  · rw [if_pos h]
    obtain ⟨t, rfl⟩ := List.isPrefixOf_iff_prefix.1 h
    simp
  · rw [if_neg h]
    constructor
    · intro e; cases e
    · rintro rfl
      exact absurd (List.isPrefixOf_iff_prefix.2 (List.prefix_append _ _)) h

/-- A URL is taken for that of an asset exactly if it is one. -/
theorem parse_iff {url : Chars} {p : Place} : parsePlace url = some p ↔ AssetUrl url p := by
  have hsplit : ∀ rest owner repo tag file, splitN 6 rest = [owner, repo, "releases".toList, "download".toList, tag, file] ↔
      rest = owner ++ "/".toList ++ repo ++ "/releases/download/".toList ++ tag ++ "/".toList ++ file ∧
      '/' ∉ owner ∧ '/' ∉ repo ∧ '/' ∉ tag := by
    intro rest owner repo tag file
    rw [splitN_cons (by simp)]
    simp only [splitN_cons (n := 3) (l := ["releases".toList, "download".toList, tag, file]) (by simp),
      splitN_cons (n := 2) (l := ["download".toList, tag, file]) (by simp), splitN_cons (n := 1) (l := [tag, file]) (by simp),
      splitN_cons (n := 0) (l := [file]) (by simp)]
    constructor
    · rintro ⟨b1, rfl, h1, b2, rfl, h2, b3, rfl, -, b4, rfl, -, b5, rfl, h5, h6⟩
      simp only [splitN, List.cons.injEq, and_true] at h6
      subst h6
      exact ⟨by simp only [List.append_assoc]; rfl, h1, h2, h5⟩
    · rintro ⟨rfl, h1, h2, h5⟩
      exact ⟨_, by simp only [List.append_assoc]; rfl, h1, _, rfl, h2, _, rfl, by decide, _, rfl, by decide, _, rfl, h5, rfl⟩
  unfold parsePlace
  cases hs : stripPrefix site url with
  | none =>
    dsimp only
    constructor
    · intro e; cases e
    · intro h
      have : stripPrefix site url = some (p.owner ++ "/".toList ++ p.repo ++ "/releases/download/".toList ++ p.tag ++
          "/".toList ++ p.file) := stripPrefix_some.2 (by rw [h.text]; simp only [List.append_assoc]; rfl)
      rw [hs] at this; cases this
  | some rest =>
    dsimp only
    have hurl := stripPrefix_some.1 hs
    constructor
    · intro h
      split at h
      · rename_i owner repo r d tag file heq
        split at h
        · cases h
        · rename_i hrd
          simp only [not_or, Decidable.not_not] at hrd
          obtain ⟨rfl, rfl⟩ := hrd
          simp only [Option.some.injEq] at h
          subst h
          obtain ⟨rfl, h1, h2, h3⟩ := (hsplit _ _ _ _ _).1 heq
          exact ⟨by rw [hurl]; simp only [List.append_assoc]; rfl, h1, h2, h3⟩
      · cases h
    · intro h
      have hr : rest = p.owner ++ "/".toList ++ p.repo ++ "/releases/download/".toList ++ p.tag ++ "/".toList ++ p.file := by
        have := h.text
        rw [hurl] at this
        have h2 : site ++ rest = site ++ (p.owner ++ "/".toList ++ p.repo ++ "/releases/download/".toList ++ p.tag ++
          "/".toList ++ p.file) := by rw [this]; simp only [List.append_assoc]; rfl
        exact List.append_cancel_left h2
      rw [(hsplit rest p.owner p.repo p.tag p.file).2 ⟨hr, h.owner, h.repo, h.tag⟩]
      simp

/-- What is before the first slash and what is after it are determined. -/
theorem slash_inj {a b a' b' : Chars} (ha : '/' ∉ a) (ha' : '/' ∉ a') (h : a ++ '/' :: b = a' ++ '/' :: b') : a = a' ∧ b = b' := by
  have h1 : cut (a ++ '/' :: b) = some (a, b) := cut_some.2 ⟨rfl, ha⟩
  have h2 : cut (a' ++ '/' :: b') = some (a', b') := cut_some.2 ⟨rfl, ha'⟩
  rw [h, h2] at h1
  simp only [Option.some.injEq, Prod.mk.injEq] at h1
  exact ⟨h1.1.symm, h1.2.symm⟩

/-- Two places are in the same release. -/
def SameRelease (p p' : Place) : Prop := p.owner = p'.owner ∧ p.repo = p'.repo ∧ p.tag = p'.tag

theorem key_same {u u' : Chars} {p p' : Place} (h : AssetUrl u p) (h' : AssetUrl u' p') :
    cacheKey p = cacheKey p' ↔ SameRelease p p' := by
  constructor
  · intro e
    have e := String.ofList_injective e
    simp only [List.append_assoc, List.cons_append] at e
    obtain ⟨e1, e⟩ := slash_inj h.owner h'.owner e
    obtain ⟨e2, e⟩ := slash_inj h.repo h'.repo e
    exact ⟨e1, e2, e⟩
  · rintro ⟨e1, e2, e3⟩
    simp only [cacheKey, e1, e2, e3]

theorem api_same {u u' : Chars} {p p' : Place} (h : AssetUrl u p) (h' : AssetUrl u' p') :
    apiUrl p = apiUrl p' ↔ SameRelease p p' := by
  constructor
  · intro e
    simp only [apiUrl, List.append_assoc, List.cons_append] at e
    have e := List.append_cancel_left (List.append_cancel_left e)
    obtain ⟨e1, e⟩ := slash_inj h.owner h'.owner e
    have : ∀ x : Chars, "/releases/tags/".toList ++ x = '/' :: ("releases/tags/".toList ++ x) := fun _ => rfl
    rw [this, this] at e
    obtain ⟨e2, e⟩ := slash_inj h.repo h'.repo e
    exact ⟨e1, e2, List.append_cancel_left e⟩
  · rintro ⟨e1, e2, e3⟩
    simp only [apiUrl, e1, e2, e3]

/-! ### What a download does -/

/-- The request for the description of the release of an asset: at the API of GitHub, with the token for the URL of the user. -/
def releaseOf (auth : Chars → Option String) (u : Chars) (p : Place) : Req where
  url := "https://api.github.com".toList ++ "/repos/".toList ++ p.owner ++ '/' :: p.repo ++ "/releases/tags/".toList ++ p.tag
  token := auth u
  accept := some "application/vnd.github+json"

theorem releaseReq_eq (auth : Chars → Option String) (u : Chars) (p : Place) : releaseReq auth u p = releaseOf auth u p := rfl

/-- The file of an asset: the first with its name. -/
def Listed (r : Release) (f target : Chars) : Prop :=
  ∃ l l1 a l2, r = some l ∧ l = l1 ++ a :: l2 ∧ (∀ b ∈ l1, b.name ≠ some f) ∧ a.name = some f ∧ a.url = some target

theorem findAsset_ok {r : Release} {p : Place} {t : Chars} : findAsset r p = .ok t ↔ Listed r p.file t := by
  unfold findAsset Listed
  cases r with
  | none => simp
  | some l =>
    dsimp only
    cases hf : l.find? fun a => a.name == some p.file with
    | none =>
      dsimp only
      constructor
      · intro e; cases e
      · rintro ⟨l', l1, a, l2, e, rfl, -, ha, -⟩
        simp only [Option.some.injEq] at e
        subst e
        have := List.find?_eq_none.1 hf a (by simp)
        simp [ha] at this
    | some a =>
      dsimp only
      obtain ⟨ha, l1, l2, hl, hn⟩ := List.find?_eq_some_iff_append.1 hf
      simp only [beq_iff_eq] at ha
      constructor
      · intro e
        cases hu : a.url with
        | none => rw [hu] at e; cases e
        | some v =>
          rw [hu] at e
          simp only [Except.ok.injEq] at e
          subst e
          exact ⟨l, l1, a, l2, rfl, hl, fun b hb => by simpa using hn b hb, ha, hu⟩
      · rintro ⟨l', m1, b, m2, e, rfl, hm, hb, hbu⟩
        simp only [Option.some.injEq] at e
        subst e
        have : (m1 ++ b :: m2).find? (fun a => a.name == some p.file) = some b :=
          List.find?_eq_some_iff_append.2 ⟨by simp [hb], m1, m2, rfl, fun c hc => by simpa using hm c hc⟩
        rw [hf] at this
        simp only [Option.some.injEq] at this
        subst this
        rw [hbu]

/-- The world after a download: the requests and the cache. -/
inductive Done (net : Net) (auth : Chars → Option String) (u : Chars) (w : World) : Except Err String → World → Prop where
  | plain (hp : ∀ p, ¬ AssetUrl u p) (res : Except Err String) (hr : res = (net.file (fileReq auth u u)).mapError .get) :
    Done net auth u w res ⟨w.cache, w.sent ++ [fileReq auth u u]⟩
  | refused (p : Place) (hp : AssetUrl u p) (hc : aget (cacheKey p) w.cache = none) (m : String)
    (hn : net.release (releaseOf auth u p) = .error m) : Done net auth u w (.error (.api m)) ⟨w.cache, w.sent ++ [releaseOf auth u p]⟩
  | lost (p : Place) (hp : AssetUrl u p) (r : Release) (c : List (String × Release)) (s : List Req)
    (hc : aget (cacheKey p) w.cache = some r ∧ c = w.cache ∧ s = w.sent ∨
      aget (cacheKey p) w.cache = none ∧ net.release (releaseOf auth u p) = .ok r ∧ c = aset (cacheKey p) r w.cache ∧
      s = w.sent ++ [releaseOf auth u p]) (hf : ∀ t, ¬ Listed r p.file t) (e : Err) : Done net auth u w (.error e) ⟨c, s⟩
  | found (p : Place) (hp : AssetUrl u p) (r : Release) (c : List (String × Release)) (s : List Req)
    (hc : aget (cacheKey p) w.cache = some r ∧ c = w.cache ∧ s = w.sent ∨
      aget (cacheKey p) w.cache = none ∧ net.release (releaseOf auth u p) = .ok r ∧ c = aset (cacheKey p) r w.cache ∧
      s = w.sent ++ [releaseOf auth u p]) (t : Chars) (hf : Listed r p.file t)
    (res : Except Err String) (hr : res = (net.file (fileReq auth u t)).mapError .get) :
    Done net auth u w res ⟨c, s ++ [fileReq auth u t]⟩

theorem done (net : Net) (auth : Chars → Option String) (u : Chars) (w : World) :
    Done net auth u w (download net auth u w).1 (download net auth u w).2 := by
  unfold download normalize
  cases hp : parsePlace u with
  | none =>
    have hno : ∀ p, ¬ AssetUrl u p := fun p h => by rw [parse_iff.2 h] at hp; cases hp
    dsimp only
    have := Done.plain (net := net) (auth := auth) (u := u) (w := w) hno _ rfl
    cases hn : net.file (fileReq auth u u) with
    | error m => rw [hn] at this; exact this
    | ok c => rw [hn] at this; exact this
  | some p =>
    have hp := parse_iff.1 hp
    dsimp only
    unfold getRelease
    have tail : ∀ (r : Release) (c : List (String × Release)) (s : List Req),
        (aget (cacheKey p) w.cache = some r ∧ c = w.cache ∧ s = w.sent ∨
        aget (cacheKey p) w.cache = none ∧ net.release (releaseOf auth u p) = .ok r ∧ c = aset (cacheKey p) r w.cache ∧
        s = w.sent ++ [releaseOf auth u p]) →
        ∀ x, x = (match (findAsset r p, (⟨c, s⟩ : World)) with
          | (.error e, w) => (Except.error e, w)
          | (.ok u', w) =>
            let q := fileReq auth u u'
            let w := { w with sent := w.sent ++ [q] }
            match net.file q with
            | .error m => (.error (.get m), w)
            | .ok c => (.ok c, w)) → Done net auth u w x.1 x.2 := by
      rintro r c s hc x rfl
      cases hf : findAsset r p with
      | error e => exact .lost p hp r c s hc (fun t ht => by rw [findAsset_ok.2 ht] at hf; cases hf) e
      | ok t =>
        have := Done.found (net := net) (auth := auth) (u := u) (w := w) p hp r c s hc t (findAsset_ok.1 hf) _ rfl
        dsimp only
        cases hn : net.file (fileReq auth u t) with
        | error m => rw [hn] at this; exact this
        | ok c => rw [hn] at this; exact this
    cases hc : aget (cacheKey p) w.cache with
    | some r => exact tail r w.cache w.sent (.inl ⟨hc, rfl, rfl⟩) _ rfl
    | none =>
      dsimp only
      rw [releaseReq_eq]
      cases hn : net.release (releaseOf auth u p) with
      | error m => exact .refused p hp hc m hn
      | ok r => exact tail r _ _ (.inr ⟨hc, hn, rfl, rfl⟩) _ rfl

/-! ### C253: where tokens go -/

/-- What holds of a process that has downloaded from the URLs `us`: releases in the cache were answers, and each request is for
one of the URLs, with its token. -/
structure Sound (net : Net) (auth : Chars → Option String) (us : List Chars) (w : World) : Prop where
  cache : ∀ k r, aget k w.cache = some r → ∃ u ∈ us, ∃ p, AssetUrl u p ∧ cacheKey p = k ∧ net.release (releaseOf auth u p) = .ok r
  sent : ∀ q ∈ w.sent, ∃ u ∈ us, q.token = auth u ∧ (q.url = u ∨ ∃ p, AssetUrl u p ∧ (q = releaseOf auth u p ∨
    ∃ u' ∈ us, ∃ p', AssetUrl u' p' ∧ SameRelease p' p ∧ ∃ r, net.release (releaseOf auth u' p') = .ok r ∧ Listed r p.file q.url))

theorem Sound.mono {net : Net} {auth : Chars → Option String} {us vs : List Chars} {w : World} (h : Sound net auth us w)
    (hs : ∀ u ∈ us, u ∈ vs) : Sound net auth vs w := by
  constructor
  · intro k r hk
    obtain ⟨u, hu, p, hp⟩ := h.cache k r hk
    exact ⟨u, hs u hu, p, hp⟩
  · intro q hq
    obtain ⟨u, hu, ht, hx⟩ := h.sent q hq
    refine ⟨u, hs u hu, ht, hx.imp id ?_⟩
    rintro ⟨p, hp, hx⟩
    refine ⟨p, hp, hx.imp id ?_⟩
    rintro ⟨u', hu', rest⟩
    exact ⟨u', hs u' hu', rest⟩

theorem fileReq_url (auth : Chars → Option String) (u t : Chars) : (fileReq auth u t).url = t ∧ (fileReq auth u t).token = auth u := by
  unfold fileReq attachAuth
  dsimp only
  split <;> exact ⟨rfl, rfl⟩

theorem sound_step {net : Net} {auth : Chars → Option String} {us : List Chars} {w w' : World} {u : Chars} {res : Except Err String}
    (h : Sound net auth us w) (hu : u ∈ us) (hd : Done net auth u w res w') : Sound net auth us w' := by
  have grow : ∀ (p : Place), AssetUrl u p → ∀ (r : Release) (c : List (String × Release)) (s : List Req),
      (aget (cacheKey p) w.cache = some r ∧ c = w.cache ∧ s = w.sent ∨
      aget (cacheKey p) w.cache = none ∧ net.release (releaseOf auth u p) = .ok r ∧ c = aset (cacheKey p) r w.cache ∧
      s = w.sent ++ [releaseOf auth u p]) → Sound net auth us ⟨c, s⟩ ∧
      ∃ u' ∈ us, ∃ p', AssetUrl u' p' ∧ SameRelease p' p ∧ net.release (releaseOf auth u' p') = .ok r := by
    intro p hp r c s hc
    rcases hc with ⟨hc, rfl, rfl⟩ | ⟨hc, hn, rfl, rfl⟩
    · refine ⟨h, ?_⟩
      obtain ⟨u', hu', p', hp', hk, hn⟩ := h.cache _ _ hc
      exact ⟨u', hu', p', hp', (key_same hp' hp).1 hk, hn⟩
    · refine ⟨⟨?_, ?_⟩, u, hu, p, hp, ⟨rfl, rfl, rfl⟩, hn⟩
      · intro k r' hk
        dsimp only at hk
        rw [aget_aset] at hk
        split at hk
        · rename_i e
          simp only [Option.some.injEq] at hk
          subst hk
          exact ⟨u, hu, p, hp, by first | exact e | exact e.symm, hn⟩
        · exact h.cache k r' hk
      · intro q hq
        rcases List.mem_append.1 hq with hq | hq
        · exact h.sent q hq
        · rw [List.mem_singleton] at hq
          exact ⟨u, hu, by rw [hq]; rfl, .inr ⟨p, hp, .inl hq⟩⟩
  cases hd with
  | plain hp res hr =>
    refine ⟨h.cache, fun q hq => ?_⟩
    rcases List.mem_append.1 hq with hq | hq
    · exact h.sent q hq
    · rw [List.mem_singleton] at hq
      exact ⟨u, hu, by rw [hq, (fileReq_url _ _ _).2], .inl (by rw [hq, (fileReq_url _ _ _).1])⟩
  | refused p hp hc m hn =>
    refine ⟨h.cache, fun q hq => ?_⟩
    rcases List.mem_append.1 hq with hq | hq
    · exact h.sent q hq
    · rw [List.mem_singleton] at hq
      exact ⟨u, hu, by rw [hq]; rfl, .inr ⟨p, hp, .inl hq⟩⟩
  | lost p hp r c s hc hf e => exact (grow p hp r c s hc).1
  | found p hp r c s hc t hf res hr =>
    obtain ⟨h', u', hu', p', hp', hsr, hn⟩ := grow p hp r c s hc
    refine ⟨h'.cache, fun q hq => ?_⟩
    rcases List.mem_append.1 hq with hq | hq
    · exact h'.sent q hq
    · rw [List.mem_singleton] at hq
      refine ⟨u, hu, by rw [hq, (fileReq_url _ _ _).2], .inr ⟨p, hp, .inr ⟨u', hu', p', hp', hsr, r, hn, ?_⟩⟩⟩
      rw [hq, (fileReq_url _ _ _).1]; exact hf

theorem sound_all {net : Net} {auth : Chars → Option String} {us vs : List Chars} {w : World} (h : Sound net auth vs w)
    (hs : ∀ u ∈ us, u ∈ vs) : Sound net auth vs (downloads net auth us w).2 := by
  induction us generalizing w with
  | nil => exact h
  | cons u r ih =>
    exact ih (sound_step h (hs u List.mem_cons_self) (done net auth u w)) fun x hx => hs x (List.mem_cons_of_mem _ hx)

/-- C253. Each request that a process sends is for one of the URLs it was given and has the token for this URL. It goes to the
URL, or if this is one of an asset to the API of GitHub for its release, or where the answer to that says that the asset is. -/
theorem requests {net : Net} {auth : Chars → Option String} {us : List Chars} :
    ∀ q ∈ (downloads net auth us {}).2.sent, ∃ u ∈ us, q.token = auth u ∧ (q.url = u ∨ ∃ p, AssetUrl u p ∧ (q = releaseOf auth u p ∨
    ∃ u' ∈ us, ∃ p', AssetUrl u' p' ∧ SameRelease p' p ∧ ∃ r, net.release (releaseOf auth u' p') = .ok r ∧ Listed r p.file q.url)) :=
  (sound_all (us := us) (vs := us) ⟨fun _ _ h => (by cases h), fun _ h => (by cases h)⟩ fun _ h => h).sent

theorem prefix_of {A B C D : Chars} (h : A ++ B = C ++ D) (w x y z : Chars) : C <+: A ++ B ++ w ++ x ++ y ++ z := by
  rw [h]
  simp only [List.append_assoc]
  exact List.prefix_append _ _

/-- C253. What holds: if GitHub says that assets are at its API, tokens go only to the URL they are for and, if this is one of an
asset, to the API of GitHub. -/
theorem tokens_partial {net : Net} {auth : Chars → Option String} {us : List Chars}
    (hg : ∀ q l, net.release q = .ok (some l) → ∀ a ∈ l, ∀ t, a.url = some t → "https://api.github.com/".toList <+: t) :
    ∀ q ∈ (downloads net auth us {}).2.sent, ∃ u ∈ us, q.token = auth u ∧
      (q.url = u ∨ (∃ p, AssetUrl u p) ∧ "https://api.github.com/".toList <+: q.url) := by
  intro q hq
  obtain ⟨u, hu, ht, hx⟩ := requests q hq
  refine ⟨u, hu, ht, hx.imp id ?_⟩
  rintro ⟨p, hp, hx⟩
  refine ⟨⟨p, hp⟩, ?_⟩
  rcases hx with rfl | ⟨u', hu', p', hp', -, r, hr, l, l1, a, l2, rfl, rfl, -, -, hau⟩
  · exact prefix_of (D := "repos/".toList) (by decide +kernel) _ _ _ _
  · exact hg _ _ hr a (by simp) _ hau

/-- A release whose asset is said to be elsewhere. -/
def elsewhere : Net where
  release := fun _ => .ok (some [{ name := some "m.yaml".toList, url := some "https://example.org/m.yaml".toList }])
  file := fun _ => .ok "x"

/-- C253. A token for a URL of GitHub can be sent to another host: the URL of an asset is taken as it is. -/
theorem tokens_refuted : ¬ ∀ (net : Net) (auth : Chars → Option String) (us : List Chars), ∀ q ∈ (downloads net auth us {}).2.sent,
    ∃ u ∈ us, q.token = auth u ∧ (q.url = u ∨ "https://api.github.com/".toList <+: q.url) := by
  intro h
  have := h elsewhere (fun _ => some "secret") ["https://github.com/o/r/releases/download/v1/m.yaml".toList]
    { url := "https://example.org/m.yaml".toList, token := some "secret" } (by decide +kernel)
  revert this
  decide +kernel

example : ∃ q ∈ (downloads elsewhere (fun _ => some "secret") ["https://github.com/o/r/releases/download/v1/m.yaml".toList] {}).2.sent,
    q.token = some "secret" ∧ q.url = "https://api.github.com/repos/o/r/releases/tags/v1".toList := by decide +kernel

end Verif.Fetch
