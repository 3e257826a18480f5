import Verif.Schema.Model
import Verif.Common.VDirProps
import Verif.Gen.EngineProps

/-! Properties of schema URLs and registry manifests. -/

namespace Verif.Schema
open Verif.Util Verif.Common

/-! ### Slashes -/

theorem trimSlashes_spec (s : Chars) : ∃ n, s = trimSlashes s ++ List.replicate n '/' ∧ (trimSlashes s).getLast? ≠ some '/' := by
  have key : ∀ r : Chars, ∃ n, r = List.replicate n '/' ++ r.dropWhile (· = '/') ∧ (r.dropWhile (· = '/')).head? ≠ some '/' := by
    intro r
    induction r with
    | nil => exact ⟨0, rfl, by simp⟩
    | cons c r ih =>
      by_cases hc : c = '/'
      · subst hc
        obtain ⟨n, h1, h2⟩ := ih
        refine ⟨n + 1, ?_, by simpa using h2⟩
        rw [List.replicate_succ, List.cons_append, List.dropWhile_cons_of_pos (by simp)]
        rw [← h1]
      · refine ⟨0, ?_, ?_⟩
        · rw [List.dropWhile_cons_of_neg (by simpa using hc)]; rfl
        · rw [List.dropWhile_cons_of_neg (by simpa using hc)]; simpa using hc
  obtain ⟨n, h1, h2⟩ := key s.reverse
  refine ⟨n, ?_, ?_⟩
  · unfold trimSlashes
    have := congrArg List.reverse h1
    rw [List.reverse_reverse, List.reverse_append, List.reverse_replicate] at this
    exact this
  · unfold trimSlashes
    rw [List.getLast?_reverse]
    exact h2

theorem trimSlashes_append (s : Chars) (n : Nat) : trimSlashes (s ++ List.replicate n '/') = trimSlashes s := by
  unfold trimSlashes
  rw [List.reverse_append, List.reverse_replicate]
  congr 1
  induction n with
  | zero => rfl
  | succ n ih => rw [List.replicate_succ, List.cons_append, List.dropWhile_cons_of_pos (by simp), ih]

theorem trimSlashes_of_last {s : Chars} (h : s.getLast? ≠ some '/') : trimSlashes s = s := by
  unfold trimSlashes
  rw [← List.head?_reverse] at h
  cases hr : s.reverse with
  | nil => simpa using hr
  | cons c r =>
    rw [hr] at h
    rw [List.dropWhile_cons_of_neg (by simpa using h), ← hr, List.reverse_reverse]

theorem trimSlashes_idem (s : Chars) : trimSlashes (trimSlashes s) = trimSlashes s := by
  obtain ⟨n, -, h⟩ := trimSlashes_spec s
  exact trimSlashes_of_last h

theorem lastSlash_append {a b : Chars} (h : '/' ∉ b) : lastSlash (a ++ '/' :: b) = some a.length := by
  unfold lastSlash
  rw [if_pos (by simp)]
  have : (a ++ '/' :: b).reverse.findIdx (fun c => decide (c = '/')) = b.length := by
    rw [List.reverse_append, List.reverse_cons, List.append_assoc]
    rw [List.findIdx_append]
    have hn : b.reverse.findIdx (fun c => decide (c = '/')) = b.reverse.length := by
      rw [List.findIdx_eq_length]
      intro x hx
      have : x ≠ '/' := fun he => h (by rw [← he]; simpa using hx)
      simpa using this
    rw [hn]
    simp [List.findIdx_cons]
  rw [this]
  simp

theorem lastSlash_some {s : Chars} {i : Nat} (h : lastSlash s = some i) :
    ∃ a b, s = a ++ '/' :: b ∧ '/' ∉ b ∧ i = a.length := by
  have hm : '/' ∈ s := by
    unfold lastSlash at h
    by_cases hm : '/' ∈ s
    · exact hm
    · rw [if_neg hm] at h; cases h
  have : ∃ a b, s = a ++ '/' :: b ∧ '/' ∉ b := by
    clear h
    induction s with
    | nil => cases hm
    | cons c s ih =>
      by_cases hs : '/' ∈ s
      · obtain ⟨a, b, rfl, hb⟩ := ih hs
        exact ⟨c :: a, b, rfl, hb⟩
      · rcases List.mem_cons.1 hm with he | he
        · exact ⟨[], s, by rw [← he]; rfl, hs⟩
        · exact absurd he hs
  obtain ⟨a, b, rfl, hb⟩ := this
  rw [lastSlash_append hb] at h
  cases h
  exact ⟨a, b, rfl, hb, rfl⟩

/-! ### Every schema URL -/

theorem dropWhile_suffix (f : Char → Bool) (s : Chars) : ∃ p, s = p ++ s.dropWhile f :=
  ⟨s.takeWhile f, (List.takeWhile_append_dropWhile).symm⟩

/-- Whatever the URL library does: the schema URL is the text without slashes at its end, the name and the version stand in it
one after the other with a slash between them, and the version is not empty and has no slash in it. -/
theorem new_shape (lib : Lib) (text : Chars) (u : SchemaUrl) (h : SchemaUrl.new lib text = .ok u) :
    (∃ n, text = u.url ++ List.replicate n '/') ∧ u.url.getLast? ≠ some '/' ∧
    (∃ pre post, u.url = pre ++ (u.name ++ '/' :: u.version) ++ post) ∧ '/' ∉ u.version ∧ u.version ≠ [] := by
  unfold SchemaUrl.new at h
  dsimp only at h
  obtain ⟨n, ht, hl⟩ := trimSlashes_spec text
  cases hp : lib.parse (trimSlashes text) with
  | none => rw [hp] at h; cases h
  | some p =>
    rw [hp] at h
    dsimp only at h
    by_cases hs : hasSegment p = false
    · rw [if_pos hs] at h; cases h
    · rw [if_neg hs] at h
      obtain ⟨q, hq⟩ := dropWhile_suffix (fun c => !(lib.alnum c || c = '[')) ((trimSlashes text).drop p.scheme.length)
      generalize hrest : (((trimSlashes text).drop p.scheme.length).dropWhile fun c => !(lib.alnum c || c = '[')) = rest at h hq
      by_cases hr : rest = []
      · rw [if_pos hr] at h; cases h
      · rw [if_neg hr] at h
        cases hf : splitFirst p.path rest with
        | none => rw [hf] at h; cases h
        | some x =>
          obtain ⟨before, after⟩ := x
          rw [hf] at h
          dsimp only at h
          cases hi : lastSlash (trimSlashes p.path) with
          | none => rw [hi] at h; cases h
          | some i =>
            rw [hi] at h
            dsimp only at h
            cases h
            obtain ⟨a, b, hab, hb, rfl⟩ := lastSlash_some hi
            obtain ⟨m, hm, hml⟩ := trimSlashes_spec p.path
            have hrs := splitFirst_eq hf
            rw [hm, hab] at hrs
            have hbne : b ≠ [] := by
              rintro rfl
              rw [hab] at hml
              simp at hml
            have e1 : rest.take (before.length + a.length) = before ++ a := by
              have : rest = (before ++ a) ++ ('/' :: (b ++ (List.replicate m '/' ++ after))) := by rw [hrs]; simp
              rw [this, List.take_left' (by simp)]
            have e2 : (rest.drop (before.length + a.length + 1)).take ((trimSlashes p.path).length - (a.length + 1)) = b := by
              have : rest = (before ++ a ++ ['/']) ++ (b ++ (List.replicate m '/' ++ after)) := by rw [hrs]; simp
              rw [this, List.drop_left' (by simp <;> omega), hab, List.take_left' (by simp <;> omega)]
            dsimp only
            rw [e1, e2]
            refine ⟨⟨n, ht⟩, hl, ?_, hb, hbne⟩
            refine ⟨(trimSlashes text).take p.scheme.length ++ q, List.replicate m '/' ++ after, ?_⟩
            calc trimSlashes text = (trimSlashes text).take p.scheme.length ++ (trimSlashes text).drop p.scheme.length :=
                  (List.take_append_drop _ _).symm
              _ = (trimSlashes text).take p.scheme.length ++ (q ++ rest) := by rw [hq]
              _ = _ := by rw [hrs]; simp

/-- Slashes at the end of the text do not matter. -/
theorem new_slashes (lib : Lib) (text : Chars) (n : Nat) : SchemaUrl.new lib (text ++ List.replicate n '/') = SchemaUrl.new lib text := by
  unfold SchemaUrl.new
  rw [trimSlashes_append]

/-- A schema URL that is written and read again is the same, so the text determines the name and the version. -/
theorem new_idem (lib : Lib) (text : Chars) (u : SchemaUrl) (h : SchemaUrl.new lib text = .ok u) : SchemaUrl.new lib u.url = .ok u := by
  obtain ⟨⟨n, ht⟩, -⟩ := new_shape lib text u h
  rw [← new_slashes lib u.url n, ← ht, h]

theorem same_url (lib : Lib) (s t : Chars) (u v : SchemaUrl) (h1 : SchemaUrl.new lib s = .ok u) (h2 : SchemaUrl.new lib t = .ok v)
    (h : u.url = v.url) : u = v := by
  have := new_idem lib s u h1
  rw [h, new_idem lib t v h2] at this
  cases this; rfl

/-! ### Plain URLs -/

/-- The text of a path. -/
def pathText : List Chars → Chars
  | [] => []
  | g :: gs => '/' :: g ++ pathText gs

/-- The text of a URL. -/
def urlText (scheme host : Chars) (segs : List Chars) : Chars := scheme ++ "://".toList ++ host ++ pathText segs

def lower (c : Char) : Bool := 'a' ≤ c && c ≤ 'z'
def digit (c : Char) : Bool := '0' ≤ c && c ≤ '9'

/-- A part of a host name: lower case letters, digits and single hyphens, starting with a letter. -/
structure PlainLabel (l : Chars) : Prop where
  start : ∃ c r, l = c :: r ∧ lower c = true
  chars : ∀ c ∈ l, (lower c || digit c || c == '-') = true
  hyphens : ¬ "--".toList <:+: l

/-- A host name: such parts with dots between them. -/
inductive PlainHost : Chars → Prop
  | one (l : Chars) : PlainLabel l → PlainHost l
  | more (l h : Chars) : PlainLabel l → PlainHost h → PlainHost (l ++ '.' :: h)

/-- A segment of a path: ASCII letters, digits, `.`, `_` and `-`, but not `.` or `..`. -/
structure PlainSegment (g : Chars) : Prop where
  ne : g ≠ []
  chars : ∀ c ∈ g, (lower c || digit c || ('A' ≤ c && c ≤ 'Z') || c == '-' || c == '.' || c == '_') = true
  dots : g ≠ ".".toList ∧ g ≠ "..".toList

/-- What is assumed of the crate `url` (the rules of the URL standard for such URLs) and of the classification of characters. -/
structure Lib.Faithful (lib : Lib) : Prop where
  plain : ∀ scheme host segs, scheme = "http".toList ∨ scheme = "https".toList → PlainHost host → segs ≠ [] →
    (∀ g ∈ segs, PlainSegment g) → lib.parse (urlText scheme host segs) = some ⟨scheme, pathText segs, true⟩
  letters : ∀ c, lower c = true → lib.alnum c = true
  punct : lib.alnum ':' = false ∧ lib.alnum '/' = false
  white : ∀ c, lower c = true ∨ digit c = true ∨ ('A' ≤ c ∧ c ≤ 'Z') ∨ c = '-' ∨ c = '.' ∨ c = '_' → lib.white c = false

theorem PlainLabel.no_slash {l : Chars} (h : PlainLabel l) : '/' ∉ l := by
  intro hm
  exact absurd (h.chars _ hm) (by decide)

theorem PlainHost.no_slash {h : Chars} (hh : PlainHost h) : '/' ∉ h := by
  induction hh with
  | one l hl => exact hl.no_slash
  | more l h hl _ ih => simp [hl.no_slash, ih]

theorem PlainHost.start {h : Chars} (hh : PlainHost h) : ∃ c r, h = c :: r ∧ lower c = true := by
  cases hh with
  | one l hl => exact hl.start
  | more l h hl _ =>
    obtain ⟨c, r, rfl, hc⟩ := hl.start
    exact ⟨c, r ++ '.' :: h, rfl, hc⟩

theorem PlainSegment.no_slash {g : Chars} (h : PlainSegment g) : '/' ∉ g := by
  intro hm
  exact absurd (h.chars _ hm) (by decide)

theorem pathText_append (a b : List Chars) : pathText (a ++ b) = pathText a ++ pathText b := by
  induction a with
  | nil => rfl
  | cons g a ih => simp [pathText, ih]

theorem pathText_last (init : List Chars) (v : Chars) : pathText (init ++ [v]) = pathText init ++ '/' :: v := by
  rw [pathText_append]
  simp [pathText]

theorem getLast?_append_ne {a b : Chars} (h : b ≠ []) : (a ++ b).getLast? = b.getLast? := by
  rw [List.getLast?_append]
  cases hb : b.getLast? with
  | none => exact absurd (List.getLast?_eq_none_iff.1 hb) h
  | some c => rfl

theorem last_of_segment {a v : Chars} (hv : PlainSegment v) : (a ++ '/' :: v).getLast? ≠ some '/' := by
  have hne := hv.ne
  rw [show a ++ '/' :: v = (a ++ ['/']) ++ v by simp, getLast?_append_ne hne]
  intro h
  exact hv.no_slash (List.mem_of_getLast? h)

/-- The name of a plain URL is everything between the scheme and the last segment, the version is the last segment. -/
theorem new_plain (lib : Lib) (hl : lib.Faithful) (scheme host : Chars) (init : List Chars) (v : Chars)
    (hs : scheme = "http".toList ∨ scheme = "https".toList) (hh : PlainHost host) (hi : ∀ g ∈ init, PlainSegment g)
    (hv : PlainSegment v) (n : Nat) :
    SchemaUrl.new lib (urlText scheme host (init ++ [v]) ++ List.replicate n '/') =
      .ok ⟨urlText scheme host (init ++ [v]), host ++ pathText init, v⟩ := by
  rw [new_slashes]
  have hpt := pathText_last init v
  have htrim : trimSlashes (urlText scheme host (init ++ [v])) = urlText scheme host (init ++ [v]) := by
    apply trimSlashes_of_last
    unfold urlText
    rw [hpt, ← List.append_assoc]
    exact last_of_segment hv
  have htrimp : trimSlashes (pathText (init ++ [v])) = pathText (init ++ [v]) := by
    apply trimSlashes_of_last
    rw [hpt]
    exact last_of_segment hv
  have hseg : hasSegment ⟨scheme, pathText (init ++ [v]), true⟩ = true := by
    unfold hasSegment
    rw [Bool.true_and, List.any_eq_true]
    refine ⟨v, ?_, by simpa using hv.ne⟩
    dsimp only
    rw [hpt, splitWhen_append _ _ (by simp), splitWhen_clean (w := v)]
    · simp
    · intro c hc
      have : c ≠ '/' := fun he => hv.no_slash (by rw [← he]; exact hc)
      simpa using this
  obtain ⟨c, r, rfl, hc⟩ := hh.start
  have hrest : (((urlText scheme (c :: r) (init ++ [v])).drop scheme.length).dropWhile fun c => !(lib.alnum c || c = '[')) =
      (c :: r) ++ pathText (init ++ [v]) := by
    have e : urlText scheme (c :: r) (init ++ [v]) = scheme ++ (':' :: '/' :: '/' :: ((c :: r) ++ pathText (init ++ [v]))) := by
      unfold urlText
      simp
    rw [e, List.drop_left]
    rw [List.dropWhile_cons_of_pos (by simp [hl.punct.1]), List.dropWhile_cons_of_pos (by simp [hl.punct.2]),
      List.dropWhile_cons_of_pos (by simp [hl.punct.2]), List.cons_append, List.dropWhile_cons_of_neg (by simp [hl.letters c hc])]
  have hfind : splitFirst (pathText (init ++ [v])) ((c :: r) ++ pathText (init ++ [v])) = some (c :: r, []) := by
    cases hf : splitFirst (pathText (init ++ [v])) ((c :: r) ++ pathText (init ++ [v])) with
    | none =>
      rw [splitFirst_none] at hf
      exact absurd ⟨c :: r, [], by simp⟩ hf
    | some x =>
      obtain ⟨a, b⟩ := x
      have h1 := splitFirst_eq hf
      have h2 := splitFirst_first hf (a' := c :: r) (b' := []) (by simp)
      obtain ⟨t, ht⟩ : ∃ t, pathText (init ++ [v]) = '/' :: t := by
        cases init with
        | nil => exact ⟨v ++ [], rfl⟩
        | cons g gs => exact ⟨g ++ pathText (gs ++ [v]), rfl⟩
      have : a.length = (c :: r).length := by
        by_cases hlt : a.length < (c :: r).length
        · exfalso
          rw [ht] at h1
          have e : ((c :: r) ++ '/' :: t)[a.length]? = some '/' := by
            rw [h1, List.append_assoc, List.getElem?_append_right (Nat.le_refl _)]
            simp
          rw [List.getElem?_append_left hlt] at e
          exact hh.no_slash (List.mem_of_getElem? e)
        · omega
      rw [List.append_assoc] at h1
      obtain ⟨e1, e2⟩ := List.append_inj h1 this.symm
      have : b = [] := by
        have hlen := congrArg List.length e2
        rw [List.length_append] at hlen
        exact List.length_eq_zero_iff.1 (by omega)
      rw [← e1, this]
  unfold SchemaUrl.new
  dsimp only
  rw [htrim, hl.plain scheme (c :: r) (init ++ [v]) hs hh (by simp) (by
    intro g hg
    rcases List.mem_append.1 hg with hg | hg
    · exact hi g hg
    · rw [List.mem_singleton] at hg; rw [hg]; exact hv)]
  dsimp only
  rw [hseg, if_neg (by decide), hrest, if_neg (by simp), hfind]
  dsimp only
  rw [htrimp, hpt, lastSlash_append hv.no_slash]
  dsimp only
  congr 2
  · rw [← List.append_assoc, List.take_left' (by simp <;> omega)]
  · have e : (c :: r) ++ (pathText init ++ '/' :: v) = ((c :: r) ++ pathText init ++ ['/']) ++ v := by simp
    rw [e, List.drop_left' (by simp <;> omega)]
    rw [List.take_of_length_le]
    simp <;> omega

theorem not_blank {lib : Lib} (hl : lib.Faithful) {s : Chars} {c : Char} (hc : c ∈ s)
    (h : lower c = true ∨ digit c = true ∨ ('A' ≤ c ∧ c ≤ 'Z') ∨ c = '-' ∨ c = '.' ∨ c = '_') : blank lib s = false := by
  unfold blank
  rw [List.all_eq_false]
  exact ⟨c, hc, by rw [hl.white c h]; decide⟩

theorem plain_char {g : Chars} (h : PlainSegment g) : ∃ c ∈ g,
    lower c = true ∨ digit c = true ∨ ('A' ≤ c ∧ c ≤ 'Z') ∨ c = '-' ∨ c = '.' ∨ c = '_' := by
  cases g with
  | nil => exact absurd rfl h.ne
  | cons c r =>
    refine ⟨c, List.mem_cons_self, ?_⟩
    have := h.chars c List.mem_cons_self
    simp only [Bool.or_eq_true, Bool.and_eq_true, decide_eq_true_eq, beq_iff_eq] at this
    rcases this with ((((h | h) | h) | h) | h) | h
    · exact .inl h
    · exact .inr (.inl h)
    · exact .inr (.inr (.inl h))
    · exact .inr (.inr (.inr (.inl h)))
    · exact .inr (.inr (.inr (.inr (.inl h))))
    · exact .inr (.inr (.inr (.inr (.inr h))))

/-- Building a schema URL from a name and a version and taking it apart gives the name and the version. -/
theorem fromNameVersion_plain (lib : Lib) (hl : lib.Faithful) (host : Chars) (init : List Chars) (v : Chars) (hh : PlainHost host)
    (hi : ∀ g ∈ init, PlainSegment g) (hv : PlainSegment v) :
    SchemaUrl.fromNameVersion lib (host ++ pathText init) v =
      .ok ⟨urlText "https".toList host (init ++ [v]), host ++ pathText init, v⟩ := by
  unfold SchemaUrl.fromNameVersion
  obtain ⟨c, r, rfl, hc⟩ := hh.start
  have b1 : blank lib ((c :: r) ++ pathText init) = false := not_blank hl (c := c) (by simp) (.inl hc)
  have b2 : blank lib v = false := by
    obtain ⟨d, hd, h⟩ := plain_char hv
    exact not_blank hl hd h
  rw [b1, b2, if_neg (by decide)]
  have hlast : ((c :: r) ++ pathText init).getLast? ≠ some '/' := by
    rcases List.eq_nil_or_concat init with rfl | ⟨i, z, rfl⟩
    · simp only [pathText, List.append_nil]
      exact fun h => hh.no_slash (List.mem_of_getLast? h)
    · rw [List.concat_eq_append, pathText_last, ← List.append_assoc]
      exact last_of_segment (hi z (by simp))
  have hno : ∀ p : Chars, (∃ q, p = q ++ ":/".toList ++ ['/']) → '/' ∉ p.dropLast.dropLast → ¬ p <+: (c :: r) ++ pathText init := by
    rintro p ⟨q, rfl⟩ - ⟨t, ht⟩
    -- a colon never occurs
    have hcolon : ':' ∈ (c :: r) ++ pathText init := by rw [← ht]; simp
    rcases List.mem_append.1 hcolon with h | h
    · have : ∀ h : Chars, PlainHost h → ':' ∉ h := by
        intro h hh
        induction hh with
        | one l hl => intro hm; exact absurd (hl.chars _ hm) (by decide)
        | more l h hl _ ih =>
          simp only [List.mem_append, List.mem_cons, not_or]
          exact ⟨fun hm => absurd (hl.chars _ hm) (by decide), by decide, ih⟩
      exact this _ hh h
    · have : ∀ gs : List Chars, (∀ g ∈ gs, PlainSegment g) → ':' ∉ pathText gs := by
        intro gs
        induction gs with
        | nil => intro _; simp [pathText]
        | cons g gs ih =>
          intro hg
          simp only [pathText, List.cons_append, List.mem_cons, List.mem_append, not_or]
          exact ⟨by decide, fun hm => absurd ((hg g List.mem_cons_self).chars _ hm) (by decide),
            ih fun x hx => hg x (List.mem_cons_of_mem _ hx)⟩
      exact this _ hi h
  have h1 : "http://".toList.isPrefixOf ((c :: r) ++ pathText init) = false := by
    rw [Bool.eq_false_iff, ne_eq, List.isPrefixOf_iff_prefix]
    exact hno _ ⟨"http".toList, by decide⟩ (by decide)
  have h2 : "https://".toList.isPrefixOf ((c :: r) ++ pathText init) = false := by
    rw [Bool.eq_false_iff, ne_eq, List.isPrefixOf_iff_prefix]
    exact hno _ ⟨"https".toList, by decide⟩ (by decide)
  rw [h1, h2, if_neg (by decide), trimSlashes_of_last hlast]
  have := new_plain lib hl "https".toList (c :: r) init v (.inr rfl) hh hi hv 0
  rw [List.replicate_zero, List.append_nil] at this
  rw [← this]
  congr 1
  unfold urlText
  rw [pathText_last]
  simp

/-- The same with the scheme in the name, as it was in old manifests: the name has no scheme any more. -/
theorem fromNameVersion_base (lib : Lib) (hl : lib.Faithful) (scheme host : Chars) (init : List Chars) (v : Chars) (n : Nat)
    (hs : scheme = "http".toList ∨ scheme = "https".toList) (hh : PlainHost host) (hi : ∀ g ∈ init, PlainSegment g)
    (hv : PlainSegment v) :
    SchemaUrl.fromNameVersion lib (urlText scheme host init ++ List.replicate n '/') v =
      .ok ⟨urlText scheme host (init ++ [v]), host ++ pathText init, v⟩ := by
  unfold SchemaUrl.fromNameVersion
  have hhost : host ≠ [] := by
    obtain ⟨c, r, rfl, -⟩ := hh.start
    simp
  have b1 : blank lib (urlText scheme host init ++ List.replicate n '/') = false :=
    not_blank hl (c := 'h') (by rcases hs with rfl | rfl <;> simp [urlText]) (.inl (by decide))
  have b2 : blank lib v = false := by
    obtain ⟨d, hd, h⟩ := plain_char hv
    exact not_blank hl hd h
  rw [b1, b2, if_neg (by decide)]
  have hp : ("http://".toList.isPrefixOf (urlText scheme host init ++ List.replicate n '/') ||
      "https://".toList.isPrefixOf (urlText scheme host init ++ List.replicate n '/')) = true := by
    rw [Bool.or_eq_true, List.isPrefixOf_iff_prefix, List.isPrefixOf_iff_prefix]
    rcases hs with rfl | rfl
    · exact .inl ⟨host ++ pathText init ++ List.replicate n '/', by simp [urlText]⟩
    · exact .inr ⟨host ++ pathText init ++ List.replicate n '/', by simp [urlText]⟩
  rw [if_pos hp, trimSlashes_append]
  have hlast : (urlText scheme host init).getLast? ≠ some '/' := by
    unfold urlText
    rcases List.eq_nil_or_concat init with rfl | ⟨i, z, rfl⟩
    · rw [pathText, List.append_nil, getLast?_append_ne hhost]
      exact fun h => hh.no_slash (List.mem_of_getLast? h)
    · rw [List.concat_eq_append, pathText_last, ← List.append_assoc]
      exact last_of_segment (hi z (by simp))
  rw [trimSlashes_of_last hlast]
  have := new_plain lib hl scheme host init v hs hh hi hv 0
  rw [List.replicate_zero, List.append_nil] at this
  rw [← this]
  congr 1
  unfold urlText
  rw [pathText_last]
  simp

/-- Nothing can be built from a blank name or version. -/
theorem fromNameVersion_blank (lib : Lib) (name version : Chars)
    (h : (∀ c ∈ name, lib.white c = true) ∨ (∀ c ∈ version, lib.white c = true)) :
    SchemaUrl.fromNameVersion lib name version = .error .empty := by
  unfold SchemaUrl.fromNameVersion blank
  rw [if_pos]
  rw [Bool.or_eq_true, List.all_eq_true, List.all_eq_true]
  exact h

end Verif.Schema
