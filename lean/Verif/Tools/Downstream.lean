import Verif.Util.Str
/-
The checks of downstream repositories: crates/xtask/src/downstream.rs.

Git, Docker, the running of commands and the configuration file are left out.
-/
namespace Verif.Tools
open Verif.Util

/-! ### Model -/

/-- downstream.rs:81-84 `shell_quote`. -/
def shellQuote (v : Chars) : Chars :=
  '\'' :: v.flatMap (fun c => if c = '\'' then ['\'', '\\', '\'', '\''] else [c]) ++ ['\'']

/-- downstream.rs:88-90 `one_line`. -/
def oneLine (v : Chars) : Chars :=
  (v.map fun c => if c = '\r' ∨ c = '\n' then ' ' else c).flatMap fun c => if c = '|' then ['\\', '|'] else [c]

/-- `str::trim_start_matches(p)` for a non-empty string pattern. -/
def trimStartSub (p s : Chars) : Chars := dropRep p s.length s

/-- downstream.rs:92-100 `normalize_url`. -/
def normalizeUrl (url : Chars) : Chars :=
  trimEndSub ['/'] (trimEndSub ".git".toList (trimEndSub ['/']
    (trimStartSub "http://".toList (trimStartSub "https://".toList url))))

/-- downstream.rs:102-111 `split_ref`: at the last `@`, unless a `/` follows. -/
def splitRef (s : Chars) : Chars × Option Chars :=
  match s.reverse.dropWhile (fun c => decide (c ≠ '@')) with
  | [] => (s, none)
  | _ :: before =>
    let after := (s.reverse.takeWhile fun c => decide (c ≠ '@')).reverse
    if '/' ∈ after then (s, none) else (before.reverse, some after)

/-- downstream.rs:53-60: a repository; its checks are a number. -/
structure Repo where
  url : Chars
  checks : Nat
deriving DecidableEq

/-- downstream.rs:63-65. -/
def Repo.cloneUrl (r : Repo) : Chars := (splitRef r.url).1

/-- downstream.rs:67-69. -/
def Repo.gitRef (r : Repo) : Chars := (splitRef r.url).2.getD "main".toList

/-- downstream.rs:156-160. -/
structure Selection where
  repo : Repo
  gitRef : Chars
deriving DecidableEq

/-- downstream.rs:163-166 `Selection::id`. -/
def Selection.id (s : Selection) : Chars := s.repo.cloneUrl ++ '@' :: s.gitRef

/-- downstream.rs:169-179 `Selection::dir_name`, on the clone URL. -/
def dirName (url : Chars) : Chars :=
  match (splitWhen (fun c => decide (c = '/')) (trimEndSub ".git".toList url)).reverse with
  | b :: a :: _ => a ++ '_' :: b
  | b :: [] => b
  | [] => []

/-- downstream.rs:268-292 `select`. -/
def select (repos : List Repo) (arg : Chars) : Option Selection :=
  match repos.find? fun r => decide (normalizeUrl r.cloneUrl = normalizeUrl (splitRef arg).1) with
  | none => none
  | some r => some ⟨r, (splitRef arg).2.getD r.gitRef⟩

/-! ### C274: quoting for the shell -/

mutual
/-- How a shell reads one word: specification, after POSIX 2.2. `none` if the text is not exactly one word: characters with a
meaning to the shell may only be within single quotes or after a backslash. -/
def word : Chars → Option Chars
  | [] => some []
  | '\'' :: t => quoted t
  | '\\' :: c :: t => (word t).map (c :: ·)
  | c :: t => if c ∈ "|&;<>()$`\\\"' \t\n*?[#~=%{}!".toList then none else (word t).map (c :: ·)

/-- Within single quotes. -/
def quoted : Chars → Option Chars
  | [] => none
  | c :: t => if c = '\'' then word t else (quoted t).map (c :: ·)
end

theorem quoted_body (v rest : Chars) :
    quoted (v.flatMap (fun c => if c = '\'' then ['\'', '\\', '\'', '\''] else [c]) ++ '\'' :: rest) =
      (word rest).map (v ++ ·) := by
  induction v with
  | nil => simp [quoted]
  | cons c v ih =>
    by_cases hc : c = '\''
    · subst hc
      simp only [List.flatMap_cons, if_true, List.cons_append, List.nil_append]
      rw [quoted, if_pos rfl, word, word, ih]
      simp [Function.comp_def]
    · simp only [List.flatMap_cons, if_neg hc, List.cons_append, List.nil_append]
      rw [quoted, if_neg hc, ih]
      simp [Function.comp_def]

/-- C274: the shell reads a quoted value as one word, which is the value. -/
theorem shell_reads_value (v : Chars) : word (shellQuote v) = some v := by
  unfold shellQuote
  rw [List.cons_append, word, quoted_body]
  simp [word]

/-- It also does with further text of the word behind it, as in `{weaver}.exe`. -/
theorem shell_reads_value_before (v rest : Chars) : word (shellQuote v ++ rest) = (word rest).map (v ++ ·) := by
  unfold shellQuote
  simp only [List.cons_append, List.append_assoc, List.nil_append]
  rw [word, quoted_body]

/-- Different values stay different. -/
theorem shellQuote_injective {v w : Chars} (h : shellQuote v = shellQuote w) : v = w := by
  have := shell_reads_value v
  rw [h, shell_reads_value] at this
  exact (Option.some.inj this).symm

/-- A summary line has no line breaks, and each of its bars follows a backslash. -/
theorem oneLine_safe (v : Chars) : '\n' ∉ oneLine v ∧ '\r' ∉ oneLine v ∧
    ∀ a b, oneLine v = a ++ '|' :: b → ∃ a', a = a' ++ ['\\'] := by
  unfold oneLine
  refine ⟨?_, ?_, ?_⟩
  · intro h
    obtain ⟨c, hc, h⟩ := List.mem_flatMap.1 h
    obtain ⟨d, _, rfl⟩ := List.mem_map.1 hc
    by_cases hd : d = '\r' ∨ d = '\n'
    · simp [hd] at h
    · rw [if_neg hd] at h
      by_cases hb : d = '|'
      · simp [hb] at h
      · rw [if_neg hb] at h
        exact hd (.inr (List.mem_singleton.1 h).symm)
  · intro h
    obtain ⟨c, hc, h⟩ := List.mem_flatMap.1 h
    obtain ⟨d, _, rfl⟩ := List.mem_map.1 hc
    by_cases hd : d = '\r' ∨ d = '\n'
    · simp [hd] at h
    · rw [if_neg hd] at h
      by_cases hb : d = '|'
      · simp [hb] at h
      · rw [if_neg hb] at h
        exact hd (.inl (List.mem_singleton.1 h).symm)
  · generalize v.map (fun c => if c = '\r' ∨ c = '\n' then ' ' else c) = w
    induction w with
    | nil => intro a b h; simp at h
    | cons c w ih =>
      intro a b h
      rw [List.flatMap_cons] at h
      by_cases hc : c = '|'
      · rw [if_pos hc] at h
        match a, h with
        | [], h => injection h with h _; exact absurd h (by decide)
        | [x], h => injection h with h _; exact ⟨[], by rw [← h]; rfl⟩
        | x :: y :: a, h =>
          injection h with h1 h
          injection h with h2 h
          obtain ⟨a', e⟩ := ih a b h
          exact ⟨x :: y :: a', by rw [e]; rfl⟩
      · rw [if_neg hc] at h
        match a, h with
        | [], h => injection h with h _; exact absurd h hc
        | x :: a, h =>
          injection h with h1 h
          obtain ⟨a', e⟩ := ih a b h
          exact ⟨x :: a', by rw [e]; rfl⟩

/-- A detail of a table is one cell only if backslashes are not escaped: `\|` becomes `\\|`, of which Markdown may read the
backslash as escaped. The name of a check is put into the table as it is. -/
theorem oneLine_backslash : oneLine "\\|".toList = "\\\\|".toList := by decide +kernel

/-! ### C275: selecting repositories -/

theorem takeWhile_at {a b : Chars} (h : '@' ∉ a) :
    (a ++ '@' :: b).takeWhile (fun c => decide (c ≠ '@')) = a ∧
    (a ++ '@' :: b).dropWhile (fun c => decide (c ≠ '@')) = '@' :: b := by
  induction a with
  | nil => simp
  | cons c a ih =>
    have hc : c ≠ '@' := fun e => h (by simp [e])
    have ih' := ih fun e => h (List.mem_cons_of_mem _ e)
    simp [hc] at ih' ⊢
    exact ih'

/-- A ref without `/` and `@` is split off. -/
theorem splitRef_ref (url ref : Chars) (h1 : '/' ∉ ref) (h2 : '@' ∉ ref) : splitRef (url ++ '@' :: ref) = (url, some ref) := by
  have h2' : '@' ∉ ref.reverse := by simpa using h2
  have e : (url ++ '@' :: ref).reverse = ref.reverse ++ '@' :: url.reverse := by simp
  unfold splitRef
  rw [e, (takeWhile_at h2').1, (takeWhile_at h2').2]
  dsimp only
  rw [List.reverse_reverse, if_neg h1, List.reverse_reverse]

/-- A text in which a `/` follows the last `@` is left alone. -/
theorem splitRef_scp (host path : Chars) (h1 : '/' ∈ path) (h2 : '@' ∉ path) :
    splitRef (host ++ '@' :: path) = (host ++ '@' :: path, none) := by
  have h2' : '@' ∉ path.reverse := by simpa using h2
  have e : (host ++ '@' :: path).reverse = path.reverse ++ '@' :: host.reverse := by simp
  unfold splitRef
  rw [e, (takeWhile_at h2').1, (takeWhile_at h2').2]
  dsimp only
  rw [List.reverse_reverse, if_pos h1]

/-- C275, as far as it holds: the id of a selection selects it, if its ref has no `/` and no `@`, and no two repositories
have the same URL. -/
theorem select_id_partial (repos : List Repo) (s : Selection) (hs : s.repo ∈ repos)
    (hd : ∀ r ∈ repos, ∀ r' ∈ repos, normalizeUrl r.cloneUrl = normalizeUrl r'.cloneUrl → r = r')
    (h1 : '/' ∉ s.gitRef) (h2 : '@' ∉ s.gitRef) : select repos s.id = some s := by
  have e : (splitRef s.id) = (s.repo.cloneUrl, some s.gitRef) := splitRef_ref _ _ h1 h2
  unfold select
  rw [e]
  dsimp only
  cases hf : repos.find? fun r => decide (normalizeUrl r.cloneUrl = normalizeUrl s.repo.cloneUrl) with
  | none =>
    have := List.find?_eq_none.1 hf s.repo hs
    simp at this
  | some r =>
    have hr := List.mem_of_find?_eq_some hf
    have he : normalizeUrl r.cloneUrl = normalizeUrl s.repo.cloneUrl := by simpa using List.find?_some hf
    have := hd r hr s.repo hs he
    subst this
    rfl

example : select [⟨"https://h/o/a".toList, 1⟩, ⟨"https://h/o/b@v2".toList, 2⟩] (Selection.mk ⟨"https://h/o/b@v2".toList, 2⟩
    "v3".toList).id = some ⟨⟨"https://h/o/b@v2".toList, 2⟩, "v3".toList⟩ := by decide +kernel

/-- C275 does not hold: the id of a selection of the branch `release/1.x` is not accepted. -/
theorem select_id_refuted : ¬ (∀ (repos : List Repo) (s : Selection), s.repo ∈ repos → select repos s.id = some s) := by
  intro h
  have := h [⟨"https://github.com/o/r".toList, 0⟩] ⟨⟨"https://github.com/o/r".toList, 0⟩, "release/1.x".toList⟩ (by simp)
  exact absurd this (by decide +kernel)

/-- Such a branch cannot be configured either: it is taken for a part of the URL. -/
theorem slash_ref_in_url : (Repo.mk "https://github.com/o/r@release/1.x".toList 0).cloneUrl =
    "https://github.com/o/r@release/1.x".toList ∧
    (Repo.mk "https://github.com/o/r@release/1.x".toList 0).gitRef = "main".toList := by decide +kernel

/-- Of two configured refs of a repository, only the first can be selected, and its checks are run for the other. -/
theorem two_refs : select [⟨"https://h/o/r@v1".toList, 1⟩, ⟨"https://h/o/r@v2".toList, 2⟩] "https://h/o/r@v2".toList =
    some ⟨⟨"https://h/o/r@v1".toList, 1⟩, "v2".toList⟩ := by decide +kernel

theorem dropRep_not {p s : Chars} (n : Nat) (h : ¬ p <+: s) : dropRep p n s = s := by
  cases n with
  | zero => rfl
  | succ n => simp [dropRep, dropPrefix?_none.2 h]

theorem trimStartSub_append {p x : Chars} (hp : p ≠ []) (h : ¬ p <+: x) : trimStartSub p (p ++ x) = x := by
  unfold trimStartSub
  have hl : (p ++ x).length = (p ++ x).length - 1 + 1 := by
    have : p.length ≠ 0 := fun e => hp (List.length_eq_zero_iff.1 e)
    rw [List.length_append]; omega
  rw [hl]
  unfold dropRep
  rw [dropPrefix?_iff.2 rfl]
  exact dropRep_not _ h

theorem trimEndSub_append {p x : Chars} (hp : p ≠ []) (h : ¬ p <:+ x) : trimEndSub p (x ++ p) = x := by
  unfold trimEndSub
  have := trimStartSub_append (p := p.reverse) (x := x.reverse) (by simpa using hp) (by rwa [List.reverse_prefix])
  unfold trimStartSub at this
  rw [List.reverse_append, show (x ++ p).length = (p.reverse ++ x.reverse).length by simp [Nat.add_comm], this,
    List.reverse_reverse]

theorem git_no_slash (x : Chars) : ¬ ['/'] <:+ (x ++ ".git".toList) := by
  rintro ⟨a, h⟩
  have := congrArg List.getLast? h
  simp at this

theorem takeWhile_slash {a b : Chars} (h : '/' ∉ a) : (a ++ '/' :: b).takeWhile (fun c => decide (c ≠ '/')) = a := by
  induction a with
  | nil => simp
  | cons c a ih =>
    have hc : c ≠ '/' := fun e => h (by simp [e])
    have ih' := ih fun e => h (List.mem_cons_of_mem _ e)
    simp [hc] at ih' ⊢
    exact ih'

/-- What begins with a host does not begin with a scheme. -/
theorem host_no_scheme {host y : Chars} (h1 : '/' ∉ host) (h2 : ':' ∉ host) {p : Chars} (hp : '/' ∉ p) (hc : ':' ∈ p) :
    ¬ (p ++ ['/', '/']) <+: (host ++ '/' :: y) := by
  rintro ⟨t, h⟩
  have e : p ++ ['/', '/'] ++ t = p ++ '/' :: ('/' :: t) := by simp
  rw [e] at h
  have := congrArg (List.takeWhile fun c => decide (c ≠ '/')) h
  rw [takeWhile_slash hp, takeWhile_slash h1] at this
  exact h2 (this ▸ hc)

/-- C275: the scheme, `.git` and a final `/` can be left out of a URL. -/
theorem normalizeUrl_same (host path scheme suffix : Chars) (hs : scheme ∈ [[], "https://".toList, "http://".toList])
    (hx : suffix ∈ [[], ".git".toList, "/".toList, ".git/".toList]) (h1 : '/' ∉ host) (h2 : ':' ∉ host)
    (h3 : ¬ ['/'] <:+ (host ++ '/' :: path)) (h4 : ¬ ".git".toList <:+ (host ++ '/' :: path)) :
    normalizeUrl (scheme ++ (host ++ '/' :: path) ++ suffix) = host ++ '/' :: path := by
  have ends : trimEndSub ['/'] (trimEndSub ".git".toList (trimEndSub ['/'] (host ++ '/' :: path ++ suffix))) =
      host ++ '/' :: path := by
    generalize host ++ '/' :: path = x at h3 h4
    have noslash : ¬ ['/'] <:+ (x ++ ".git".toList) := git_no_slash x
    simp only [List.mem_cons, List.not_mem_nil, or_false] at hx
    rcases hx with rfl | rfl | rfl | rfl
    · rw [List.append_nil, trimEndSub_of_not h3, trimEndSub_of_not h4, trimEndSub_of_not h3]
    · rw [trimEndSub_of_not noslash, trimEndSub_append (by decide) h4, trimEndSub_of_not h3]
    · rw [show "/".toList = ['/'] from rfl, trimEndSub_append (by decide) h3, trimEndSub_of_not h4, trimEndSub_of_not h3]
    · rw [show ".git/".toList = ".git".toList ++ ['/'] from rfl, ← List.append_assoc,
        trimEndSub_append (by decide) noslash, trimEndSub_append (by decide) h4, trimEndSub_of_not h3]
  have a1 : ¬ "https://".toList <+: (host ++ '/' :: path ++ suffix) := by
    rw [List.append_assoc, List.cons_append]
    exact host_no_scheme h1 h2 (p := "https:".toList) (by decide) (by decide)
  have a2 : ¬ "http://".toList <+: (host ++ '/' :: path ++ suffix) := by
    rw [List.append_assoc, List.cons_append]
    exact host_no_scheme h1 h2 (p := "http:".toList) (by decide) (by decide)
  have starts : trimStartSub "http://".toList (trimStartSub "https://".toList (scheme ++ (host ++ '/' :: path) ++ suffix)) =
      host ++ '/' :: path ++ suffix := by
    rw [List.append_assoc]
    generalize host ++ '/' :: path ++ suffix = z at a1 a2
    simp only [List.mem_cons, List.not_mem_nil, or_false] at hs
    rcases hs with rfl | rfl | rfl
    · rw [List.nil_append]
      have e : trimStartSub "https://".toList z = z := dropRep_not _ a1
      rw [e]
      exact dropRep_not _ a2
    · rw [trimStartSub_append (by decide) a1]
      exact dropRep_not _ a2
    · have hn : ¬ "https://".toList <+: ("http://".toList ++ z) := by
        rintro ⟨t, h⟩
        simp at h
      have e : trimStartSub "https://".toList ("http://".toList ++ z) = "http://".toList ++ z := dropRep_not _ hn
      rw [e, trimStartSub_append (by decide) a2]
  unfold normalizeUrl
  rw [starts, ends]

example : normalizeUrl "https://github.com/open-telemetry/semantic-conventions.git".toList =
    "github.com/open-telemetry/semantic-conventions".toList := by decide +kernel

/-! ### C276: directories of checkouts -/

theorem dirName_eq (base org name : Chars) (h1 : '/' ∉ org) (h2 : '/' ∉ name) (h3 : ¬ ".git".toList <:+ name)
    (suffix : Chars) (hs : suffix ∈ [[], ".git".toList]) :
    dirName (base ++ '/' :: (org ++ '/' :: name) ++ suffix) = org ++ '_' :: name := by
  have clean : ∀ {w : Chars}, '/' ∉ w → ∀ c ∈ w, decide (c = '/') = false := fun hw c hc => by
    rw [decide_eq_false_iff_not]; rintro rfl; exact hw hc
  have hn : ¬ ".git".toList <:+ (base ++ '/' :: (org ++ '/' :: name)) := by
    intro h
    have e : base ++ '/' :: (org ++ '/' :: name) = (base ++ '/' :: org) ++ ('/' :: name) := by simp
    rw [e] at h
    have h' : ".git".toList <:+ ('/' :: name) := by
      rcases List.suffix_or_suffix_of_suffix h (List.suffix_append _ _) with h' | h'
      · exact h'
      · exact absurd (h'.subset (List.mem_cons_self ..)) (by decide)
    rcases List.suffix_cons_iff.1 h' with e | h''
    · injection e with e _; exact absurd e (by decide)
    · exact h3 h''
  have ht : trimEndSub ".git".toList (base ++ '/' :: (org ++ '/' :: name) ++ suffix) =
      base ++ '/' :: (org ++ '/' :: name) := by
    simp only [List.mem_cons, List.not_mem_nil, or_false] at hs
    rcases hs with rfl | rfl
    · rw [List.append_nil, trimEndSub_of_not hn]
    · rw [trimEndSub_append (by decide) hn]
  unfold dirName
  rw [ht, splitWhen_append _ _ (by simp), splitWhen_append _ _ (by simp), splitWhen_clean (clean h1),
    splitWhen_clean (clean h2)]
  simp

theorem split_unique {a b a' b' : Chars} {c : Char} (h : a ++ c :: b = a' ++ c :: b') (h1 : c ∉ a) (h2 : c ∉ a') :
    a = a' ∧ b = b' := by
  induction a generalizing a' with
  | nil =>
    cases a' with
    | nil => exact ⟨rfl, by injection h⟩
    | cons x a' => injection h with e _; exact absurd (by simp [e]) h2
  | cons y a ih =>
    cases a' with
    | nil => injection h with e _; exact absurd (by simp [e]) h1
    | cons x a' =>
      injection h with e h
      obtain ⟨e1, e2⟩ := ih h (fun k => h1 (List.mem_cons_of_mem _ k)) (fun k => h2 (List.mem_cons_of_mem _ k))
      exact ⟨by rw [e, e1], e2⟩

/-- C276, as far as it holds: repositories of one host, whose owners have no `_` in their names, as on GitHub, are checked out
into different directories. -/
theorem dirName_injective_partial (base org name org' name' : Chars)
    (h : '/' ∉ org ∧ '_' ∉ org ∧ '/' ∉ name ∧ ¬ ".git".toList <:+ name)
    (h' : '/' ∉ org' ∧ '_' ∉ org' ∧ '/' ∉ name' ∧ ¬ ".git".toList <:+ name')
    (e : dirName (base ++ '/' :: (org ++ '/' :: name)) = dirName (base ++ '/' :: (org' ++ '/' :: name'))) :
    org = org' ∧ name = name' := by
  have e1 := dirName_eq base org name h.1 h.2.2.1 h.2.2.2 [] (by simp)
  have e2 := dirName_eq base org' name' h'.1 h'.2.2.1 h'.2.2.2 [] (by simp)
  rw [List.append_nil] at e1 e2
  rw [e1, e2] at e
  exact split_unique e h.2.1 h'.2.1

/-- C276 does not hold: repositories of different hosts, or with underscores, share a directory. A checkout that is there is
used again with the remote it has, so the second is never looked at. -/
theorem dirName_injective_refuted :
    dirName "https://github.com/o/r".toList = dirName "https://gitlab.com/o/r".toList ∧
    dirName "https://h/a_b/c".toList = dirName "https://h/a/b_c".toList ∧
    normalizeUrl "https://github.com/o/r".toList ≠ normalizeUrl "https://gitlab.com/o/r".toList ∧
    normalizeUrl "https://h/a_b/c".toList ≠ normalizeUrl "https://h/a/b_c".toList := by decide +kernel

/-- Nor for URLs with a final slash, which lose the owner. -/
theorem dirName_slash : dirName "https://h/a/c/".toList = dirName "https://h/b/c/".toList := by decide +kernel

example : dirName "https://github.com/open-telemetry/semantic-conventions.git".toList =
    "open-telemetry_semantic-conventions".toList := by decide +kernel

end Verif.Tools
