import Verif.Policy.MergeProps
import Verif.Fs.Props
import Verif.V2.Props

/-!
# Where policies find the documents
-/

namespace Verif.Policy
open Verif.Util Verif.Fs

/-! ### Specification -/

/-- A part of a path has a wildcard. -/
def Wild (c : Comp) : Prop := ∃ x ∈ Comp.text c, x = '*' ∨ x = '?' ∨ x = '['

/-- The file `c` is at a place, possibly through links. -/
def FileAt (w : World) (p : List String) (c : String) : Prop :=
  ∃ q, canonicalize w.fs w.cwd (absolute p) = .ok q ∧ w.fs.at q = some (.file c)

/-- A name that does not start with a dot. -/
def Shown (n : String) : Prop := ∀ r, n.toList ≠ '.' :: r

/-- The files a pattern selects, each with its path below the base, its name and its content: the file that the pattern
names, or the files below the base that the glob matches, but those that are or are in something hidden. -/
inductive Selects (w : World) (pattern : Chars) : List String → String → String → Prop where
  | itself {place : List String} {name c : String} : (splitGlob pattern).2 = [] →
      canonicalize w.fs w.cwd (basePath pattern) = .ok place → w.fs.at place = some (.file c) →
      name = ((basePath pattern).comps.getLast?.bind Comp.name?).getD "" → Selects w pattern [name] name c
  | below {place rel : List String} {node e : Node} {g : Chars → Bool} {c : String} :
      canonicalize w.fs w.cwd (basePath pattern) = .ok place → w.fs.at place = some node →
      ((splitGlob pattern).2 = [] → ∀ c, node ≠ .file c) → w.glob (globOf pattern) = some g →
      node.at rel = some e → (∀ n ∈ rel, Shown n) → FileAt w (place ++ rel) c → g (text rel) = true →
      Selects w pattern rel ((place ++ rel).getLast?.getD "") c

/-- The parser for a file of this name, and its name without extension. -/
inductive Kind (w : World) : String → (String → Option Val) → String → Prop where
  | json {n s : String} : s ≠ "" → n = s ++ ".json" → Kind w n w.json s
  | yaml {n s : String} : s ≠ "" → n = s ++ ".yaml" → Kind w n w.yaml s
  | yml {n s : String} : s ≠ "" → n = s ++ ".yml" → Kind w n w.yaml s

/-- A document of the pattern: the value and where it belongs. -/
def Document (w : World) (pattern : Chars) (address : List String) (v : Val) : Prop :=
  ∃ rel name c parse base, Selects w pattern rel name c ∧ Kind w name parse base ∧ parse c = some v ∧
    address = rel.dropLast ++ [base]

/-- What a value at an address shows at a path: its parts below the address, and objects on the way to it. -/
def Shows (address : List String) (v : Val) (p : List String) (k : Option String) : Prop :=
  (∃ q, p = address ++ q ∧ Has v q k) ∨ (k = none ∧ p <+: address ∧ p ≠ address)

/-- The parsers give legal values. -/
def Parsers (w : World) : Prop := (∀ c v, w.json c = some v → Legal v) ∧ ∀ c v, w.yaml c = some v → Legal v

/-! ### Names -/

theorem extension_ext {c e : Chars} (hc : c ≠ []) (he : '.' ∉ e) : extension (c ++ '.' :: e) = e := by
  have h1 : (c ++ '.' :: e).reverse.dropWhile (fun x => decide (x ≠ '.')) = '.' :: c.reverse := by
    rw [List.reverse_append, List.reverse_cons, List.append_assoc,
      List.dropWhile_append_of_pos (by intro x hx; have : x ≠ '.' := fun h => he (h ▸ List.mem_reverse.1 hx); simpa using this)]
    simp
  have h2 : (c ++ '.' :: e).reverse.takeWhile (fun x => decide (x ≠ '.')) = e.reverse := by
    rw [List.reverse_append, List.reverse_cons, List.append_assoc,
      List.takeWhile_append_of_pos (by intro x hx; have : x ≠ '.' := fun h => he (h ▸ List.mem_reverse.1 hx); simpa using this)]
    simp
  unfold extension
  rw [h1, h2]
  simp [hc]

theorem extension_some {s e : Chars} (h : extension s = e) (he : e ≠ []) : ∃ c, c ≠ [] ∧ s = c ++ '.' :: e ∧ '.' ∉ e := by
  have hs := List.takeWhile_append_dropWhile (p := fun x => decide (x ≠ '.')) (l := s.reverse)
  unfold extension at h
  cases hd : s.reverse.dropWhile (fun x => decide (x ≠ '.')) with
  | nil => rw [hd] at h; exact absurd h.symm he
  | cons x before =>
    rw [hd] at h hs
    dsimp only at h
    have hx : x = '.' := by
      have := List.head?_dropWhile_not (fun x => decide (x ≠ '.')) s.reverse
      rw [hd] at this
      simpa using this
    by_cases hb : before = []
    · rw [if_pos hb] at h; exact absurd h.symm he
    · rw [if_neg hb] at h
      refine ⟨before.reverse, by simpa using hb, ?_, ?_⟩
      · have := congrArg List.reverse hs
        rw [List.reverse_reverse, List.reverse_append, List.reverse_cons, h, hx] at this
        rw [← this]; simp
      · rw [← h]
        intro hm
        rw [List.mem_reverse] at hm
        have := List.all_eq_true.1 (List.all_takeWhile (p := fun x => decide (x ≠ '.')) (l := s.reverse)) _ hm
        simp at this

theorem ofList_append' (s : String) (l : Chars) : String.ofList (s.toList ++ l) = s ++ String.ofList l := by
  apply String.toList_inj.1; simp

theorem parserOf_kind (w : World) (name : String) (parse : String → Option Val) :
    parserOf w (extension name.toList) = some parse ↔ ∃ base, Kind w name parse base := by
  constructor
  · intro h
    have key : ∀ e : String, e.toList ≠ [] → extension name.toList = e.toList →
        ∃ s : String, s ≠ "" ∧ name = s ++ ("." ++ e) := by
      intro e he h
      obtain ⟨c, hc, hn, -⟩ := extension_some h he
      refine ⟨String.ofList c, by simpa using hc, ?_⟩
      apply String.toList_inj.1
      rw [hn]; simp
    unfold parserOf at h
    by_cases h1 : extension name.toList = "json".toList
    · rw [if_pos h1] at h; cases h
      obtain ⟨s, hs, hn⟩ := key "json" (by decide) h1
      exact ⟨s, .json hs hn⟩
    · rw [if_neg h1] at h
      by_cases h2 : extension name.toList = "yaml".toList
      · rw [if_pos (.inl h2)] at h; cases h
        obtain ⟨s, hs, hn⟩ := key "yaml" (by decide) h2
        exact ⟨s, .yaml hs hn⟩
      · by_cases h3 : extension name.toList = "yml".toList
        · rw [if_pos (.inr h3)] at h; cases h
          obtain ⟨s, hs, hn⟩ := key "yml" (by decide) h3
          exact ⟨s, .yml hs hn⟩
        · rw [if_neg (by simp only [not_or]; exact ⟨h2, h3⟩)] at h; cases h
  · rintro ⟨base, h⟩
    have key : ∀ (s : String) (e : Chars), s ≠ "" → '.' ∉ e → extension (s.toList ++ '.' :: e) = e := by
      intro s e hs he
      exact extension_ext (fun h => hs (String.toList_inj.1 h)) he
    cases h with
    | json hs hn => rw [hn, String.toList_append, show ".json".toList = '.' :: "json".toList from rfl, key _ _ hs (by decide)]; rfl
    | yaml hs hn => rw [hn, String.toList_append, show ".yaml".toList = '.' :: "yaml".toList from rfl, key _ _ hs (by decide)]; rfl
    | yml hs hn => rw [hn, String.toList_append, show ".yml".toList = '.' :: "yml".toList from rfl, key _ _ hs (by decide)]; rfl

theorem kind_stem {w : World} {name : String} {parse : String → Option Val} {base : String} (h : Kind w name parse base) :
    String.ofList (V2.stem name.toList) = base := by
  have key : ∀ (s : String) (e : Chars), s ≠ "" → '.' ∉ e → String.ofList (V2.stem (s.toList ++ '.' :: e)) = s := by
    intro s e hs he
    rw [V2.stem_ext (fun h => hs (String.toList_inj.1 h)) he]; simp
  cases h with
  | json hs hn => rw [hn, String.toList_append, show ".json".toList = '.' :: "json".toList from rfl, key _ _ hs (by decide)]
  | yaml hs hn => rw [hn, String.toList_append, show ".yaml".toList = '.' :: "yaml".toList from rfl, key _ _ hs (by decide)]
  | yml hs hn => rw [hn, String.toList_append, show ".yml".toList = '.' :: "yml".toList from rfl, key _ _ hs (by decide)]

/-! ### One file -/

/-- What a file gives: an error, nothing, or a document. -/
def readDoc (w : World) (rel : List String) (name : String) (c : String) : Except Err (Option Val) :=
  if w.utf8 c = false then .error .accessDenied
  else match parserOf w (extension name.toList) with
  | none => .ok none
  | some parse =>
    match parse c with
    | none => .error .invalidData
    | some v => .ok (some (wrap (keysOf rel name) v))

theorem wrap_obj {keys : List String} (h : keys ≠ []) (v : Val) : ∃ m, wrap keys v = .obj m := by
  cases keys with
  | nil => exact absurd rfl h
  | cons k ks => exact ⟨_, rfl⟩

theorem addDataFile_eq (w : World) (data : Val) (rel : List String) (name : String) (c : String) :
    addDataFile w data rel name (some c) = match readDoc w rel name c with
      | .error e => .error e
      | .ok none => .ok data
      | .ok (some d) => match merge w.deep data d with
        | none => .error .invalidData
        | some r => .ok r := by
  unfold addDataFile readDoc
  dsimp only
  by_cases h : w.utf8 c = false
  · rw [if_pos h, if_pos h]
  · rw [if_neg h, if_neg h]
    cases hp : parserOf w (extension name.toList) with
    | none => rfl
    | some parse =>
      dsimp only
      cases hv : parse c with
      | none => rfl
      | some v =>
        dsimp only
        obtain ⟨m, hm⟩ := wrap_obj (keys := keysOf rel name) (by unfold keysOf; simp) v
        rw [hm]
        rfl

/-- The files that are read, each readable, give documents that are merged. -/
def docsOf (w : World) : List (List String × String × String) → Option (List Val)
  | [] => some []
  | (rel, name, c) :: l => match readDoc w rel name c with
    | .error _ => none
    | .ok none => docsOf w l
    | .ok (some d) => (docsOf w l).map (d :: ·)

theorem fileAt_iff (w : World) (p : List String) (c : String) : FileAt w p c ↔ contentAt w p = some c := by
  unfold FileAt contentAt readFile
  cases canonicalize w.fs w.cwd (absolute p) with
  | error e => simp
  | ok q =>
    dsimp only
    cases hq : w.fs.at q with
    | none => simp [hq]
    | some e => cases e <;> simp [hq]

theorem isFile_iff (w : World) (p : List String) : isFile w.fs w.cwd (absolute p) = true ↔ ∃ c, contentAt w p = some c := by
  unfold isFile contentAt readFile
  cases canonicalize w.fs w.cwd (absolute p) with
  | error e => simp
  | ok q =>
    dsimp only
    cases hq : w.fs.at q with
    | none => simp
    | some e => cases e <;> simp

/-- The entries of the walk that are read. -/
def picked (w : World) (g : Chars → Bool) (place : List String) (l : List (List String)) : List (List String × String × String) :=
  l.filterMap fun rel => match contentAt w (place ++ rel) with
    | none => none
    | some c => if g (text rel) = true then some (rel, lastName (place ++ rel), c) else none

theorem mem_picked {w : World} {g : Chars → Bool} {place : List String} {l : List (List String)} {rel : List String}
    {name c : String} : (rel, name, c) ∈ picked w g place l ↔
      rel ∈ l ∧ contentAt w (place ++ rel) = some c ∧ g (text rel) = true ∧ name = lastName (place ++ rel) := by
  unfold picked
  rw [List.mem_filterMap]
  constructor
  · rintro ⟨r, hr, h⟩
    cases hc : contentAt w (place ++ r) with
    | none => rw [hc] at h; cases h
    | some c' =>
      rw [hc] at h
      dsimp only at h
      by_cases hg : g (text r) = true
      · rw [if_pos hg] at h; cases h; exact ⟨hr, hc, hg, rfl⟩
      · rw [if_neg hg] at h; cases h
  · rintro ⟨hr, hc, hg, rfl⟩
    refine ⟨rel, hr, ?_⟩
    rw [hc]; dsimp only; rw [if_pos hg]

/-- One step of the walk over a file that is read. -/
theorem dataEntry_picked {w : World} {g : Chars → Bool} {place rel : List String} {st : Val × List Err} {c : String}
    (hc : contentAt w (place ++ rel) = some c) (hg : g (text rel) = true) :
    dataEntry w g place st rel = match addDataFile w st.1 rel (lastName (place ++ rel)) (some c) with
      | .ok d => (d, st.2)
      | .error e => (st.1, st.2 ++ [e]) := by
  unfold dataEntry
  rw [(isFile_iff w (place ++ rel)).2 ⟨c, hc⟩, hg, hc]
  rfl

theorem dataEntry_skip {w : World} {g : Chars → Bool} {place rel : List String} {st : Val × List Err}
    (h : contentAt w (place ++ rel) = none ∨ g (text rel) = false) : dataEntry w g place st rel = st := by
  unfold dataEntry
  rw [if_neg]
  simp only [Bool.and_eq_true, isFile_iff]
  rintro ⟨⟨c, hc⟩, hg⟩
  rcases h with h | h
  · rw [hc] at h; cases h
  · rw [hg] at h; cases h

theorem fold_errors (w : World) (g : Chars → Bool) (place : List String) (l : List (List String)) (st : Val × List Err)
    (h : st.2 ≠ []) : (l.foldl (dataEntry w g place) st).2 ≠ [] := by
  induction l generalizing st with
  | nil => exact h
  | cons rel l ih =>
    refine ih _ ?_
    unfold dataEntry
    split
    · split
      · exact h
      · simp
    · exact h

/-- The walk succeeds exactly if each file that is read gives a document or nothing, and these can be merged. -/
theorem fold_ok (w : World) (g : Chars → Bool) (place : List String) (l : List (List String)) (data r : Val) :
    l.foldl (dataEntry w g place) (data, []) = (r, []) ↔
      ∃ ds, docsOf w (picked w g place l) = some ds ∧ mergeAll w.deep data ds = some r := by
  induction l generalizing data with
  | nil =>
    constructor
    · intro h; cases h; exact ⟨[], rfl, rfl⟩
    · rintro ⟨ds, h1, h2⟩; cases h1; cases h2; rfl
  | cons rel l ih =>
    rw [List.foldl_cons]
    have hskip : (contentAt w (place ++ rel) = none ∨ g (text rel) = false) →
        picked w g place (rel :: l) = picked w g place l := by
      intro h
      unfold picked
      rw [List.filterMap_cons]
      rcases h with h | h
      · rw [h]
      · cases contentAt w (place ++ rel) <;> simp [h]
    cases hc : contentAt w (place ++ rel) with
    | none => rw [dataEntry_skip (.inl hc), ih, hskip (.inl hc)]
    | some c =>
      cases hg : g (text rel) with
      | false => rw [dataEntry_skip (.inr hg), ih, hskip (.inr hg)]
      | true =>
        have hp : picked w g place (rel :: l) = (rel, lastName (place ++ rel), c) :: picked w g place l := by
          unfold picked
          rw [List.filterMap_cons, hc]
          simp [hg]
        rw [dataEntry_picked hc hg, hp, addDataFile_eq]
        unfold docsOf
        dsimp only
        cases hr : readDoc w rel (lastName (place ++ rel)) c with
        | error e =>
          dsimp only
          constructor
          · intro h
            have := fold_errors w g place l (data, [e]) (by simp)
            exact absurd (by rw [show (data, ([] : List Err) ++ [e]) = (data, [e]) from rfl] at h; rw [h]) this
          · rintro ⟨ds, h, -⟩; cases h
        | ok o =>
          cases o with
          | none => exact ih data
          | some d =>
            dsimp only
            cases hm : merge w.deep data d with
            | none =>
              dsimp only
              constructor
              · intro h
                have := fold_errors w g place l (data, [.invalidData]) (by simp)
                exact absurd (by rw [show (data, ([] : List Err) ++ [Err.invalidData]) = (data, [.invalidData]) from rfl] at h; rw [h]) this
              · rintro ⟨ds, h, h2⟩
                cases hd : docsOf w (picked w g place l) with
                | none => rw [hd] at h; cases h
                | some ds' =>
                  rw [hd] at h; cases h
                  unfold mergeAll at h2
                  rw [hm] at h2; cases h2
            | some data' =>
              dsimp only
              rw [ih]
              cases hd : docsOf w (picked w g place l) with
              | none => simp
              | some ds' =>
                simp only [Option.map_some, Option.some.injEq, exists_eq_left']
                show _ ↔ (merge w.deep data d).bind _ = some r
                rw [hm]; rfl

theorem addDataBelow_ok (w : World) (g : Chars → Bool) (place : List String) (node : Node) (data r : Val) :
    addDataBelow w data g place node = .ok r ↔ (visible [] node).foldl (dataEntry w g place) (data, []) = (r, []) := by
  unfold addDataBelow
  generalize List.foldl (dataEntry w g place) (data, []) (visible [] node) = x
  obtain ⟨v, es⟩ := x
  by_cases he : es = []
  · subst he; simp
  · simp [he]

theorem docsOf_mem {w : World} {l : List (List String × String × String)} {ds : List Val} (h : docsOf w l = some ds) (d : Val) :
    d ∈ ds ↔ ∃ rel name c, (rel, name, c) ∈ l ∧ readDoc w rel name c = .ok (some d) := by
  induction l generalizing ds with
  | nil => cases h; simp
  | cons f l ih =>
    obtain ⟨rel, name, c⟩ := f
    unfold docsOf at h
    cases hr : readDoc w rel name c with
    | error e => rw [hr] at h; cases h
    | ok o =>
      rw [hr] at h
      cases o with
      | none =>
        rw [ih h]
        constructor
        · rintro ⟨a, b, e, hm, h1⟩; exact ⟨a, b, e, List.mem_cons_of_mem _ hm, h1⟩
        · rintro ⟨a, b, e, hm, h1⟩
          rcases List.mem_cons.1 hm with he | hm
          · cases he; rw [hr] at h1; cases h1
          · exact ⟨a, b, e, hm, h1⟩
      | some v =>
        dsimp only at h
        cases hd : docsOf w l with
        | none => rw [hd] at h; cases h
        | some ds' =>
          rw [hd] at h; cases h
          rw [List.mem_cons, ih hd]
          constructor
          · rintro (rfl | ⟨a, b, e, hm, h1⟩)
            · exact ⟨rel, name, c, List.mem_cons_self .., hr⟩
            · exact ⟨a, b, e, List.mem_cons_of_mem _ hm, h1⟩
          · rintro ⟨a, b, e, hm, h1⟩
            rcases List.mem_cons.1 hm with he | hm
            · cases he; rw [hr] at h1; cases h1; exact .inl rfl
            · exact .inr ⟨a, b, e, hm, h1⟩

theorem docsOf_some {w : World} {l : List (List String × String × String)} :
    (∃ ds, docsOf w l = some ds) ↔ ∀ rel name c, (rel, name, c) ∈ l → ∃ o, readDoc w rel name c = .ok o := by
  induction l with
  | nil => simp [docsOf]
  | cons f l ih =>
    obtain ⟨rel, name, c⟩ := f
    unfold docsOf
    cases hr : readDoc w rel name c with
    | error e =>
      constructor
      · rintro ⟨_, h⟩; cases h
      · intro h
        obtain ⟨o, ho⟩ := h rel name c (List.mem_cons_self ..)
        rw [hr] at ho; cases ho
    | ok o =>
      have step : (∀ a b e, (a, b, e) ∈ (rel, name, c) :: l → ∃ o, readDoc w a b e = .ok o) ↔
          ∀ a b e, (a, b, e) ∈ l → ∃ o, readDoc w a b e = .ok o := by
        constructor
        · intro h a b e hm; exact h a b e (List.mem_cons_of_mem _ hm)
        · intro h a b e hm
          rcases List.mem_cons.1 hm with he | hm
          · cases he; exact ⟨o, hr⟩
          · exact h a b e hm
      rw [step, ← ih]
      cases o with
      | none => exact Iff.rfl
      | some d => cases docsOf w l <;> simp

/-! ### The walk -/

theorem visibleL_eq (p : List String) (es : List (String × Node)) :
    visibleL p es = es.flatMap fun e => if isHidden e.1 then [] else visible (p ++ [e.1]) e.2 := by
  induction es with
  | nil => rfl
  | cons e es ih => rw [List.flatMap_cons, ← ih]; obtain ⟨n, d⟩ := e; rfl

theorem shown_iff (n : String) : Shown n ↔ isHidden n = false := by
  unfold Shown isHidden
  cases n.toList with
  | nil => simp
  | cons c r => simp

/-- The walk visits every place in the tree that is not hidden, and nothing else. -/
theorem visible_mem {d : Node} (ht : Tidy d) (p q : List String) :
    q ∈ visible p d ↔ ∃ rel, q = p ++ rel ∧ (∃ e, d.at rel = some e) ∧ ∀ n ∈ rel, Shown n := by
  induction ht generalizing p q with
  | file c =>
    simp only [visible, List.mem_singleton]
    constructor
    · rintro rfl; exact ⟨[], by simp, ⟨_, rfl⟩, by simp⟩
    · rintro ⟨rel, rfl, ⟨e, h⟩, -⟩
      cases rel with
      | nil => simp
      | cons _ _ => cases h
  | link t =>
    simp only [visible, List.mem_singleton]
    constructor
    · rintro rfl; exact ⟨[], by simp, ⟨_, rfl⟩, by simp⟩
    · rintro ⟨rel, rfl, ⟨e, h⟩, -⟩
      cases rel with
      | nil => simp
      | cons _ _ => cases h
  | dir es hn _ _ ih =>
    simp only [visible, List.mem_cons, visibleL_eq, List.mem_flatMap]
    constructor
    · rintro (rfl | ⟨⟨n, f⟩, hm, hq⟩)
      · exact ⟨[], by simp, ⟨_, rfl⟩, by simp⟩
      · dsimp only at hq
        cases hh : isHidden n with
        | true => rw [hh] at hq; cases hq
        | false =>
          rw [hh, if_neg (by decide)] at hq
          obtain ⟨rel, rfl, ⟨e, he⟩, hs⟩ := (ih _ hm (p ++ [n]) q).1 hq
          refine ⟨n :: rel, by simp, ⟨e, ?_⟩, ?_⟩
          · show ((aget n es).bind fun d => d.at rel) = _
            rw [(tidy_mem hn).1 hm]; exact he
          · intro m hm'
            rcases List.mem_cons.1 hm' with rfl | hm'
            · exact (shown_iff _).2 hh
            · exact hs m hm'
    · rintro ⟨rel, rfl, ⟨e, he⟩, hs⟩
      cases rel with
      | nil => left; simp
      | cons n rel =>
        right
        change ((aget n es).bind fun d => d.at rel) = some e at he
        cases hg : aget n es with
        | none => rw [hg] at he; cases he
        | some f =>
          rw [hg] at he
          have hm := (tidy_mem hn).2 hg
          refine ⟨(n, f), hm, ?_⟩
          dsimp only
          rw [(shown_iff n).1 (hs n (List.mem_cons_self ..)), if_neg (by decide)]
          exact (ih _ hm (p ++ [n]) _).2 ⟨rel, by simp, ⟨e, he⟩, fun m hm' => hs m (List.mem_cons_of_mem _ hm')⟩

/-! ### The property -/

theorem pairwise_all {α : Type} {R : α → α → Prop} (hs : ∀ a b, R a b → R b a) (hr : ∀ a, R a a) (l : List α) :
    l.Pairwise R ↔ ∀ a ∈ l, ∀ b ∈ l, R a b := by
  induction l with
  | nil => simp
  | cons x l ih =>
    rw [List.pairwise_cons, ih]
    constructor
    · rintro ⟨h1, h2⟩ a ha b hb
      rcases List.mem_cons.1 ha with ha' | ha' <;> rcases List.mem_cons.1 hb with hb' | hb'
      · rw [ha', hb']; exact hr _
      · rw [ha']; exact h1 b hb'
      · rw [hb']; exact hs _ _ (h1 a ha')
      · exact h2 a ha' b hb'
    · intro h
      exact ⟨fun b hb => h x (List.mem_cons_self ..) b (List.mem_cons_of_mem _ hb),
        fun a ha b hb => h a (List.mem_cons_of_mem _ ha) b (List.mem_cons_of_mem _ hb)⟩

/-- The base of the pattern exists, and if a glob is used then it is valid. -/
def Usable (w : World) (pattern : Chars) : Prop :=
  ∃ place node, canonicalize w.fs w.cwd (basePath pattern) = .ok place ∧ w.fs.at place = some node ∧
    (((splitGlob pattern).2 = [] ∧ ∃ c, node = .file c) ∨ ∃ g, w.glob (globOf pattern) = some g)

/-- What a pattern selects below a directory is what the walk finds. -/
theorem selects_below {w : World} (ht : Tidy w.fs) {pattern : Chars} {place : List String} {node : Node} {g : Chars → Bool}
    (hc : canonicalize w.fs w.cwd (basePath pattern) = .ok place) (hn : w.fs.at place = some node)
    (hnf : (splitGlob pattern).2 = [] → ∀ c, node ≠ .file c) (hg : w.glob (globOf pattern) = some g) {rel : List String}
    {name c : String} : Selects w pattern rel name c ↔ (rel, name, c) ∈ picked w g place (visible [] node) := by
  symm
  rw [mem_picked, visible_mem (tidy_at ht hn).1]
  constructor
  · rintro ⟨⟨rel', rfl, ⟨e, he⟩, hs⟩, h1, h2, rfl⟩
    exact .below hc hn hnf hg he hs ((fileAt_iff ..).2 h1) h2
  · intro h
    cases h with
    | itself h1 h2 h3 _ => rw [hc] at h2; cases h2; rw [hn] at h3; cases h3; exact absurd rfl (hnf h1 _)
    | below h1 h2 h3 h4 h5 h6 h7 h8 =>
      rw [hc] at h1; cases h1; rw [hn] at h2; cases h2; rw [hg] at h4; cases h4
      exact ⟨⟨rel, rfl, ⟨_, h5⟩, h6⟩, (fileAt_iff ..).1 h7, h8, rfl⟩

/-- The list of the selected files, in the order they are read. -/
theorem addDataFrom_run (w : World) (ht : Tidy w.fs) (data : Val) (pattern : Chars) : ∃ l : List (List String × String × String),
    (Usable w pattern → ∀ rel name c, (rel, name, c) ∈ l ↔ Selects w pattern rel name c) ∧
    ∀ r, addDataFrom w data pattern = .ok r ↔
      Usable w pattern ∧ ∃ ds, docsOf w l = some ds ∧ mergeAll w.deep data ds = some r := by
  unfold addDataFrom
  cases hc : canonicalize w.fs w.cwd (basePath pattern) with
  | error e =>
    have hu : ¬ Usable w pattern := by rintro ⟨p, n, h, -⟩; rw [hc] at h; cases h
    exact ⟨[], fun h => absurd h hu, fun r => ⟨fun h => (nomatch h), fun h => absurd h.1 hu⟩⟩
  | ok place =>
    dsimp only
    cases hn : w.fs.at place with
    | none =>
      have hu : ¬ Usable w pattern := by
        rintro ⟨p, n, h, h', -⟩; rw [hc] at h; cases h; rw [hn] at h'; cases h'
      exact ⟨[], fun h => absurd h hu, fun r => ⟨fun h => (nomatch h), fun h => absurd h.1 hu⟩⟩
    | some node =>
      have hglob : ((splitGlob pattern).2 = [] → ∀ c, node ≠ .file c) → ∃ l : List (List String × String × String),
          (Usable w pattern → ∀ rel name c, (rel, name, c) ∈ l ↔ Selects w pattern rel name c) ∧
          ∀ r, addDataGlob w data pattern place node = .ok r ↔
            Usable w pattern ∧ ∃ ds, docsOf w l = some ds ∧ mergeAll w.deep data ds = some r := by
        intro hnf
        unfold addDataGlob
        cases hg : w.glob (globOf pattern) with
        | none =>
          have hu : ¬ Usable w pattern := by
            rintro ⟨p, n, h, h', h2⟩
            rw [hc] at h; cases h; rw [hn] at h'; cases h'
            rcases h2 with ⟨h3, c, rfl⟩ | ⟨g, h3⟩
            · exact hnf h3 c rfl
            · rw [hg] at h3; cases h3
          exact ⟨[], fun h => absurd h hu, fun r => ⟨fun h => (nomatch h), fun h => absurd h.1 hu⟩⟩
        | some g =>
          have hu : Usable w pattern := ⟨place, node, hc, hn, .inr ⟨g, hg⟩⟩
          refine ⟨picked w g place (visible [] node), fun _ rel name c => ?_, fun r => ?_⟩
          · exact (selects_below ht hc hn hnf hg).symm
          · show addDataBelow w data g place node = .ok r ↔ _
            rw [addDataBelow_ok, fold_ok]
            exact ⟨fun h => ⟨hu, h⟩, fun h => h.2⟩
      cases node with
      | file c =>
        dsimp only [addDataAt]
        by_cases h0 : (splitGlob pattern).2 = []
        · simp only [if_pos h0]
          unfold addDataItself
          have hu : Usable w pattern := ⟨place, _, hc, hn, .inl ⟨h0, c, rfl⟩⟩
          generalize hname : ((basePath pattern).comps.getLast?.bind Comp.name?).getD "" = name
          refine ⟨[([name], name, c)], fun _ rel nm c' => ?_, fun r => ?_⟩
          · rw [List.mem_singleton]
            constructor
            · intro h; cases h; exact .itself h0 hc hn hname.symm
            · intro h
              cases h with
              | itself h1 h2 h3 h4 => rw [hc] at h2; cases h2; rw [hn] at h3; cases h3; rw [h4, hname]
              | below h1 h2 h3 _ _ _ _ _ => rw [hc] at h1; cases h1; rw [hn] at h2; cases h2; exact absurd rfl (h3 h0 _)
          · dsimp only
            rw [addDataFile_eq]
            unfold docsOf
            cases readDoc w [name] name c with
            | error e => simp
            | ok o =>
              cases o with
              | none => simp [docsOf, mergeAll, hu]
              | some d =>
                dsimp only
                cases hm : merge w.deep data d with
                | none => simp [docsOf, mergeAll, hm]
                | some x => simp [docsOf, mergeAll, hm, hu]
        · simp only [if_neg h0]
          exact hglob (fun h => absurd h h0)
      | link t => exact hglob (fun _ c h => nomatch h)
      | dir es => exact hglob (fun _ c h => nomatch h)

theorem readDoc_some {w : World} {rel : List String} {name c : String} {d : Val} :
    readDoc w rel name c = .ok (some d) ↔ w.utf8 c = true ∧ ∃ parse base v, Kind w name parse base ∧ parse c = some v ∧
      d = wrap (rel.dropLast ++ [base]) v := by
  unfold readDoc
  cases hu : w.utf8 c with
  | false => simp
  | true =>
    rw [if_neg (by decide)]
    cases hp : parserOf w (extension name.toList) with
    | none =>
      simp only [true_and]
      constructor
      · intro h; cases h
      · rintro ⟨parse, base, v, hk, -, -⟩
        rw [(parserOf_kind w name parse).2 ⟨base, hk⟩] at hp; cases hp
    | some parse =>
      obtain ⟨base, hk⟩ := (parserOf_kind w name parse).1 hp
      dsimp only
      simp only [true_and]
      constructor
      · intro h
        cases hv : parse c with
        | none => rw [hv] at h; cases h
        | some v =>
          rw [hv] at h
          simp only [Except.ok.injEq, Option.some.injEq] at h
          refine ⟨parse, base, v, hk, hv, ?_⟩
          rw [← h]; unfold keysOf; rw [kind_stem hk]
      · rintro ⟨parse', base', v, hk', hv, rfl⟩
        have := (parserOf_kind w name parse').2 ⟨base', hk'⟩
        rw [hp] at this; cases this
        rw [hv]; dsimp only; unfold keysOf; rw [kind_stem hk']

theorem readDoc_ok {w : World} {rel : List String} {name c : String} :
    (∃ o, readDoc w rel name c = .ok o) ↔ w.utf8 c = true ∧ ∀ parse base, Kind w name parse base → ∃ v, parse c = some v := by
  unfold readDoc
  cases hu : w.utf8 c with
  | false => simp
  | true =>
    rw [if_neg (by decide)]
    cases hp : parserOf w (extension name.toList) with
    | none =>
      simp only [true_and]
      refine ⟨fun _ parse base hk => ?_, fun _ => ⟨_, rfl⟩⟩
      rw [(parserOf_kind w name parse).2 ⟨base, hk⟩] at hp; cases hp
    | some parse =>
      obtain ⟨base, hk⟩ := (parserOf_kind w name parse).1 hp
      simp only [true_and]
      constructor
      · rintro ⟨o, ho⟩ parse' base' hk'
        have := (parserOf_kind w name parse').2 ⟨base', hk'⟩
        rw [hp] at this; cases this
        cases hv : parse c with
        | none => rw [hv] at ho; cases ho
        | some v => exact ⟨v, rfl⟩
      · intro h
        obtain ⟨v, hv⟩ := h parse base hk
        rw [hv]; exact ⟨_, rfl⟩

/-- C47. When loading succeeds, the data of the policies has at each path exactly what was there before and what the documents
of the pattern show there: the document in the file `a/b/c.json` below the base is at `data.a.b.c`. -/
theorem data_addressed {w : World} (ht : Tidy w.fs) (hp : Parsers w) {data r : Val} {pattern : Chars}
    (h : addDataFrom w data pattern = .ok r) (p : List String) (k : Option String) :
    Has r p k ↔ Has data p k ∨ ∃ address v, Document w pattern address v ∧ Shows address v p k := by
  obtain ⟨l, hl, hr⟩ := addDataFrom_run w ht data pattern
  obtain ⟨hu, ds, hd, hm⟩ := (hr r).1 h
  have hmem := hl hu
  have hok := docsOf_some.1 ⟨ds, hd⟩
  have hds : ∀ d, d ∈ ds ↔ ∃ address v, Document w pattern address v ∧ d = wrap address v := by
    intro d
    rw [docsOf_mem hd]
    constructor
    · rintro ⟨rel, name, c, hm1, h1⟩
      obtain ⟨-, parse, base, v, hk, hv, rfl⟩ := readDoc_some.1 h1
      exact ⟨_, v, ⟨rel, name, c, parse, base, (hmem _ _ _).1 hm1, hk, hv, rfl⟩, rfl⟩
    · rintro ⟨address, v, ⟨rel, name, c, parse, base, hsel, hk, hv, rfl⟩, rfl⟩
      have hm1 := (hmem _ _ _).2 hsel
      exact ⟨rel, name, c, hm1, readDoc_some.2 ⟨(readDoc_ok.1 (hok _ _ _ hm1)).1, parse, base, v, hk, hv, rfl⟩⟩
  have hleg : ∀ d ∈ ds, Legal d := by
    intro d h
    obtain ⟨address, v, ⟨_, _, c, _, _, -, hk, hv, -⟩, rfl⟩ := (hds d).1 h
    refine wrap_legal ?_ _
    cases hk with
    | json _ _ => exact hp.1 c v hv
    | yaml _ _ => exact hp.2 c v hv
    | yml _ _ => exact hp.2 c v hv
  rw [mergeAll_has hleg hm]
  constructor
  · rintro (h | ⟨d, hd', h⟩)
    · exact .inl h
    · obtain ⟨address, v, hdoc, rfl⟩ := (hds d).1 hd'
      exact .inr ⟨address, v, hdoc, (wrap_has _ _ _ _).1 h⟩
  · rintro (h | ⟨address, v, hdoc, h⟩)
    · exact .inl h
    · exact .inr ⟨wrap address v, (hds _).2 ⟨address, v, hdoc, rfl⟩, (wrap_has _ _ _ _).2 h⟩

/-- The data stays legal. -/
theorem data_legal {w : World} (ht : Tidy w.fs) (hp : Parsers w) {data r : Val} {pattern : Chars} (hd : Legal data)
    (h : addDataFrom w data pattern = .ok r) : Legal r := by
  obtain ⟨l, -, hr⟩ := addDataFrom_run w ht data pattern
  obtain ⟨-, ds, hds, hm⟩ := (hr r).1 h
  refine mergeAll_legal hd (fun d hd' => ?_) hm
  obtain ⟨rel, name, c, -, h1⟩ := (docsOf_mem hds d).1 hd'
  obtain ⟨-, parse, base, v, hk, hv, rfl⟩ := readDoc_some.1 h1
  refine wrap_legal ?_ _
  cases hk with
  | json _ _ => exact hp.1 c v hv
  | yaml _ _ => exact hp.2 c v hv
  | yml _ _ => exact hp.2 c v hv

/-- C47. Loading succeeds exactly if the base of the pattern exists and its glob is valid, every file that is selected is text
and, if it is JSON or YAML, can be parsed, and no document contradicts another one or what is already there. -/
theorem data_accepted {w : World} (ht : Tidy w.fs) (hp : Parsers w) {data : Val} {pattern : Chars} :
    (∃ r, addDataFrom w data pattern = .ok r) ↔ Usable w pattern ∧
      (∀ rel name c, Selects w pattern rel name c →
        w.utf8 c = true ∧ ∀ parse base, Kind w name parse base → ∃ v, parse c = some v) ∧
      (∀ address v, Document w pattern address v → Agree w.deep data (wrap address v)) ∧
      ∀ address v address' v', Document w pattern address v → Document w pattern address' v' →
        Agree w.deep (wrap address v) (wrap address' v') := by
  obtain ⟨l, hl, hr⟩ := addDataFrom_run w ht data pattern
  rcases Classical.em (¬ Usable w pattern) with hu | hu
  · exact ⟨fun ⟨r, h⟩ => absurd ((hr r).1 h).1 hu, fun h => absurd h.1 hu⟩
  have hu := Classical.not_not.1 hu
  have hmem := hl hu
  have hfiles : (∃ ds, docsOf w l = some ds) ↔ ∀ rel name c, Selects w pattern rel name c →
      w.utf8 c = true ∧ ∀ parse base, Kind w name parse base → ∃ v, parse c = some v := by
    rw [docsOf_some]
    constructor
    · intro h rel name c hs; exact readDoc_ok.1 (h rel name c ((hmem _ _ _).2 hs))
    · intro h rel name c hs; exact readDoc_ok.2 (h rel name c ((hmem _ _ _).1 hs))
  rcases Classical.em (¬ ∃ ds, docsOf w l = some ds) with hf | hf
  · refine ⟨fun ⟨r, h⟩ => ?_, fun h => absurd (hfiles.2 h.2.1) hf⟩
    obtain ⟨-, ds, hd, -⟩ := (hr r).1 h
    exact absurd ⟨ds, hd⟩ hf
  obtain ⟨ds, hd⟩ := Classical.not_not.1 hf
  have hok := docsOf_some.1 ⟨ds, hd⟩
  have hds : ∀ d, d ∈ ds ↔ ∃ address v, Document w pattern address v ∧ d = wrap address v := by
    intro d
    rw [docsOf_mem hd]
    constructor
    · rintro ⟨rel, name, c, hm1, h1⟩
      obtain ⟨-, parse, base, v, hk, hv, rfl⟩ := readDoc_some.1 h1
      exact ⟨_, v, ⟨rel, name, c, parse, base, (hmem _ _ _).1 hm1, hk, hv, rfl⟩, rfl⟩
    · rintro ⟨address, v, ⟨rel, name, c, parse, base, hsel, hk, hv, rfl⟩, rfl⟩
      have hm1 := (hmem _ _ _).2 hsel
      exact ⟨rel, name, c, hm1, readDoc_some.2 ⟨(readDoc_ok.1 (hok _ _ _ hm1)).1, parse, base, v, hk, hv, rfl⟩⟩
  have hleg : ∀ d ∈ ds, Legal d := by
    intro d h
    obtain ⟨address, v, ⟨_, _, c, _, _, -, hk, hv, -⟩, rfl⟩ := (hds d).1 h
    refine wrap_legal ?_ _
    cases hk with
    | json _ _ => exact hp.1 c v hv
    | yaml _ _ => exact hp.2 c v hv
    | yml _ _ => exact hp.2 c v hv
  have hstart : (∃ r, addDataFrom w data pattern = .ok r) ↔ ∃ r, mergeAll w.deep data ds = some r := by
    constructor
    · rintro ⟨r, h⟩
      obtain ⟨-, ds', hd', hm⟩ := (hr r).1 h
      rw [hd] at hd'; cases hd'; exact ⟨r, hm⟩
    · rintro ⟨r, h⟩; exact ⟨r, (hr r).2 ⟨hu, ds, hd, h⟩⟩
  rw [hstart, mergeAll_some hleg, List.pairwise_cons]
  constructor
  · rintro ⟨h1, h2⟩
    refine ⟨hu, hfiles.1 ⟨ds, hd⟩, fun a v hdoc => h1 _ ((hds _).2 ⟨a, v, hdoc, rfl⟩), fun a v a' v' h3 h4 => ?_⟩
    exact (pairwise_all (R := Agree w.deep) (fun _ _ h => agree_symm h) (agree_refl _) ds).1 h2 _ ((hds _).2 ⟨a, v, h3, rfl⟩) _
      ((hds _).2 ⟨a', v', h4, rfl⟩)
  · rintro ⟨-, -, h1, h2⟩
    refine ⟨fun d h => ?_, (pairwise_all (R := Agree w.deep) (fun _ _ h => agree_symm h) (agree_refl _) ds).2 fun d h e h' => ?_⟩
    · obtain ⟨a, v, hdoc, rfl⟩ := (hds d).1 h; exact h1 a v hdoc
    · obtain ⟨a, v, hdoc, rfl⟩ := (hds d).1 h
      obtain ⟨a', v', hdoc', rfl⟩ := (hds e).1 h'
      exact h2 a v a' v' hdoc hdoc'

/-- The data that results depends only on which documents there are, not on the order in which the directory lists them:
whatever two runs in file systems with the same documents give has the same content. -/
theorem data_determined {w w' : World} (ht : Tidy w.fs) (ht' : Tidy w'.fs) (hp : Parsers w) (hp' : Parsers w') {data r r' : Val}
    {pattern pattern' : Chars} (hd : Legal data)
    (hsame : ∀ address v, Document w pattern address v ↔ Document w' pattern' address v)
    (h : addDataFrom w data pattern = .ok r) (h' : addDataFrom w' data pattern' = .ok r') : r = r' := by
  refine legal_ext _ _ (data_legal ht hp hd h) (data_legal ht' hp' hd h') fun p k => ?_
  rw [data_addressed ht hp h, data_addressed ht' hp' h']
  constructor
  · rintro (h | ⟨a, v, h1, h2⟩)
    · exact .inl h
    · exact .inr ⟨a, v, (hsame a v).1 h1, h2⟩
  · rintro (h | ⟨a, v, h1, h2⟩)
    · exact .inl h
    · exact .inr ⟨a, v, (hsame a v).2 h1, h2⟩

/-! ### Documents of different files -/

/-- If objects are merged deeply, documents at addresses of which none is above the other do not contradict each other. -/
theorem apart_agree {a b : List String} (h1 : ¬ a <+: b) (h2 : ¬ b <+: a) (v v' : Val) : Agree true (wrap a v) (wrap b v') := by
  refine ⟨fun p k l hk hl => ?_, fun h => (nomatch h)⟩
  rcases (wrap_has ..).1 hk with ⟨q, rfl, -⟩ | ⟨rfl, hp, -⟩
  · rcases (wrap_has ..).1 hl with ⟨q', he, -⟩ | ⟨-, hp, -⟩
    · rcases List.prefix_or_prefix_of_prefix (List.prefix_append a q) (he ▸ List.prefix_append b q') with h | h
      · exact absurd h h1
      · exact absurd h h2
    · exact absurd ((List.prefix_append a q).trans hp) h1
  · rcases (wrap_has ..).1 hl with ⟨q', rfl, -⟩ | ⟨rfl, -, -⟩
    · exact absurd ((List.prefix_append b q').trans hp) h2
    · rfl

/-- If they are not merged deeply, documents in the same directory below the base contradict each other. -/
theorem same_directory_contradict {x : String} {a b : List String} (h1 : ¬ a <+: b) (h2 : ¬ b <+: a) (v v' : Val) :
    ¬ Agree false (wrap (x :: a) v) (wrap (x :: b) v') := by
  intro h
  have he : wrap a v = wrap b v' := h.2 rfl x _ _ (by show look (.obj [(x, wrap a v)]) [x] = _; rw [look_one]; simp [aget])
    (by show look (.obj [(x, wrap b v')]) [x] = _; rw [look_one]; simp [aget])
  have hm : Has (wrap a v) a v.kind := (wrap_has ..).2 (.inl ⟨[], by simp, (has_nil _ _).2 rfl⟩)
  rw [he] at hm
  rcases (wrap_has ..).1 hm with ⟨q', he', -⟩ | ⟨-, hp, -⟩
  · exact h2 (he' ▸ List.prefix_append b q')
  · exact h1 hp

/-- C47. If the engine does not merge deeply then a directory that has two documents in one subdirectory cannot be loaded. -/
theorem data_subdirectory {w : World} (ht : Tidy w.fs) (hp : Parsers w) (hs : w.deep = false) {data : Val} {pattern : Chars}
    {x : String} {a b : List String} {v v' : Val} (h1 : ¬ a <+: b) (h2 : ¬ b <+: a) (hd : Document w pattern (x :: a) v)
    (hd' : Document w pattern (x :: b) v') (r : Val) : addDataFrom w data pattern ≠ .ok r := by
  intro h
  have := ((data_accepted ht hp).1 ⟨r, h⟩).2.2.2 _ _ _ _ hd hd'
  rw [hs] at this
  exact same_directory_contradict h1 h2 v v' this

/-! ### Patterns -/

theorem wild_iff (c : Comp) : isWild c = true ↔ Wild c := by
  unfold isWild Wild
  rw [List.any_eq_true]
  simp [or_assoc]

/-- The parts of a pattern. -/
def parts (pattern : Chars) : List Comp :=
  components (Path.ofChars pattern)
    (decide ((Path.ofChars pattern).abs = false ∧ (splitWhen (· == '/') pattern).head? = some ".".toList))

/-- The base of a pattern is everything before the first part with a wildcard, and the glob is the rest of it. -/
theorem splitGlob_spec (pattern : Chars) : ∃ rest, (splitGlob pattern).1.comps ++ rest = parts pattern ∧
    (∀ c ∈ (splitGlob pattern).1.comps, ¬ Wild c) ∧ (∀ c ∈ rest.head?, Wild c) ∧
    (splitGlob pattern).2 = ['/'].intercalate (rest.map Comp.text) ∧ ((splitGlob pattern).2 = [] ↔ rest = []) := by
  have hhead : ∀ c ∈ ((parts pattern).dropWhile fun c => !isWild c).head?, Wild c := by
    intro c hc
    have := List.head?_dropWhile_not (fun c => !isWild c) (parts pattern)
    rw [Option.mem_def.1 hc] at this
    exact (wild_iff c).1 (by simpa using this)
  refine ⟨(parts pattern).dropWhile fun c => !isWild c, List.takeWhile_append_dropWhile, fun c hc => ?_, hhead, rfl, ?_⟩
  · have := List.all_eq_true.1 (List.all_takeWhile (p := fun c => !isWild c) (l := parts pattern)) c hc
    rw [← wild_iff]; simpa using this
  · show ['/'].intercalate (((parts pattern).dropWhile fun c => !isWild c).map Comp.text) = [] ↔ _
    generalize (parts pattern).dropWhile (fun c => !isWild c) = l at hhead
    cases l with
    | nil => simp
    | cons c l =>
      obtain ⟨x, hx, -⟩ := hhead c rfl
      cases hl : Comp.text c with
      | nil => rw [hl] at hx; cases hx
      | cons a b => cases l <;> simp [List.intercalate, List.intersperse, hl]

/-! ### Examples and disagreements -/

/-- A world with a few files; `[x].json` has a name with a wildcard, `bin.dat` is not text. -/
def exWorld : World where
  fs := .dir [("d", .dir [("a.json", .file "1"), ("sub", .dir [("b.yaml", .file "2"), (".h.json", .file "3")]), ("n.txt", .file "x")]),
    ("e", .dir [("[x].json", .file "1")]), ("f", .dir [("a.json", .file "1"), ("bin.dat", .file "BIN")]),
    ("g", .dir [("p.json", .file "1"), ("p.yaml", .file "2")])]
  cwd := []
  glob := fun p => if p = "**/*".toList then some fun _ => true else if p = "[x].json".toList then some (· == "x.json".toList)
    else if p = "*.json".toList then some fun t => (t.reverse.take 5).reverse == ".json".toList else none
  utf8 := (· ≠ "BIN")
  json := fun c => if c = "1" then some (.obj [("k", .atom "one")]) else none
  yaml := fun c => if c = "2" then some (.atom "two") else none
  deep := false

theorem exWorld_parsers : Parsers exWorld := by
  constructor
  · intro c v h
    unfold exWorld at h
    dsimp only at h
    by_cases hc : c = "1"
    · rw [if_pos hc] at h; cases h; exact wrap_legal (legal_atom "one") ["k"]
    · rw [if_neg hc] at h; cases h
  · intro c v h
    unfold exWorld at h
    dsimp only at h
    by_cases hc : c = "2"
    · rw [if_pos hc] at h; cases h; exact legal_atom _
    · rw [if_neg hc] at h; cases h

example : addDataFrom exWorld (.obj []) "d".toList =
    .ok (.obj [("a", .obj [("k", .atom "one")]), ("sub", .obj [("b", .atom "two")])]) := by decide +kernel
example : addDataFrom exWorld (.obj []) "d/*.json".toList = .ok (.obj [("a", .obj [("k", .atom "one")])]) := by decide +kernel
example : addDataFrom exWorld (.obj []) "d/sub/b.yaml".toList = .ok (.obj [("b", .atom "two")]) := by decide +kernel
example : addDataFrom exWorld (.obj []) "nowhere".toList = .error [.accessDenied] := by decide +kernel
example : addDataFrom exWorld (.obj []) "g".toList = .error [.invalidData] := by decide +kernel

theorem exWorld_tidy : Tidy exWorld.fs := by
  repeat' first
    | exact .file _
    | refine .dir _ (by decide) (by unfold Plain; decide) ?_
    | simp only [List.mem_cons, List.not_mem_nil, or_false, forall_eq_or_imp, forall_eq]
    | constructor

example : Has (.obj [("a", .obj [("k", .atom "one")]), ("sub", .obj [("b", .atom "two")])]) ["sub", "b"] (some "two") ↔
    Has (.obj []) ["sub", "b"] (some "two") ∨ ∃ address v, Document exWorld "d".toList address v ∧ Shows address v ["sub", "b"] (some "two") :=
  data_addressed exWorld_tidy exWorld_parsers (by decide +kernel) _ _

/-- A file that exists is selected by its own path. -/
def ItselfLoaded : Prop := ∀ (w : World) (data r : Val) (pattern : Chars) (name c base : String) (parse : String → Option Val) (v : Val),
  Tidy w.fs → Parsers w → FileAt w (((Path.ofChars pattern).normal).filterMap Comp.name?) c → Kind w name parse base → parse c = some v →
  ((Path.ofChars pattern).normal).getLast? = some (.name name) → addDataFrom w data pattern = .ok r → Has r [base] v.kind

/-- A file with a wildcard in its name is not loaded by its own path, and there is no error: the path is taken as a glob. -/
theorem itself_loaded_refuted : ¬ ItselfLoaded := by
  intro h
  have := h exWorld (.obj []) (.obj []) "e/[x].json".toList "[x].json" "1" "[x]" exWorld.json (.obj [("k", .atom "one")])
    exWorld_tidy exWorld_parsers ⟨["e", "[x].json"], by decide +kernel, rfl⟩ (.json (by decide) (by decide))
    (by decide +kernel) (by decide +kernel) (by decide +kernel)
  obtain ⟨v, hv, -⟩ := this
  cases hv

/-- A path without a wildcard that leads to a file is loaded, at the name of the file. -/
theorem itself_loaded_partial {w : World} (ht : Tidy w.fs) (hp : Parsers w) {data r v : Val} {pattern : Chars} {place : List String}
    {name c base : String} {parse : String → Option Val} (hw : ∀ x ∈ parts pattern, ¬ Wild x)
    (hc : canonicalize w.fs w.cwd (basePath pattern) = .ok place) (hf : w.fs.at place = some (.file c))
    (hn : (basePath pattern).comps.getLast? = some (.name name)) (hk : Kind w name parse base) (hv : parse c = some v)
    (h : addDataFrom w data pattern = .ok r) : Has r [base] v.kind := by
  have h0 : (splitGlob pattern).2 = [] := by
    obtain ⟨rest, h1, -, h3, -, h5⟩ := splitGlob_spec pattern
    rw [h5]
    cases rest with
    | nil => rfl
    | cons x rest => exact absurd (h3 x rfl) (hw x (by rw [← h1]; simp))
  rw [data_addressed ht hp h]
  refine .inr ⟨[base], v, ⟨[name], name, c, parse, base, .itself h0 hc hf ?_, hk, hv, by simp⟩, .inl ⟨[], by simp, (has_nil _ _).2 rfl⟩⟩
  rw [hn]; rfl

example : Has (.obj [("b", .atom "two")]) ["b"] (some "two") :=
  itself_loaded_partial (pattern := "d/sub/b.yaml".toList) (place := ["d", "sub", "b.yaml"]) (data := .obj []) exWorld_tidy exWorld_parsers
    (by intro x hx; rw [← wild_iff]; revert x; decide +kernel) (by decide +kernel) rfl (name := "b.yaml") (by decide +kernel)
    (.yaml (s := "b") (by decide) (by decide)) (v := .atom "two") (c := "2") (by decide +kernel) (by decide +kernel)

/-- Files that are neither JSON nor YAML do not matter. -/
def OthersSkipped : Prop := ∀ (w : World) (data : Val) (pattern : Chars), Tidy w.fs → Parsers w → Usable w pattern →
  (∀ rel name c parse base, Selects w pattern rel name c → Kind w name parse base → w.utf8 c = true ∧ ∃ v, parse c = some v) →
  (∀ address v, Document w pattern address v → Agree w.deep data (wrap address v)) →
  (∀ address v address' v', Document w pattern address v → Document w pattern address' v' →
    Agree w.deep (wrap address v) (wrap address' v')) → ∃ r, addDataFrom w data pattern = .ok r

/-- A single file that is not text makes loading fail, even if it is of another kind. -/
theorem others_skipped_refuted : ¬ OthersSkipped := by
  intro h
  have key : ∀ rel name c, Selects exWorld "f".toList rel name c →
      (rel, name, c) ∈ [(["a.json"], "a.json", "1"), (["bin.dat"], "bin.dat", "BIN")] := by
    intro rel name c hs
    rw [selects_below (w := exWorld) exWorld_tidy (place := ["f"]) (g := fun _ => true)
      (node := .dir [("a.json", .file "1"), ("bin.dat", .file "BIN")]) (by decide +kernel) rfl (fun _ c h => nomatch h) rfl] at hs
    rwa [show picked exWorld (fun _ => true) ["f"] (visible [] (.dir [("a.json", .file "1"), ("bin.dat", .file "BIN")])) =
      [(["a.json"], "a.json", "1"), (["bin.dat"], "bin.dat", "BIN")] by decide +kernel] at hs
  have nokind : ∀ parse base, ¬ Kind exWorld "bin.dat" parse base := fun parse base hk => by
    have := (parserOf_kind exWorld "bin.dat" parse).2 ⟨base, hk⟩
    cases this
  have onekind : ∀ parse base, Kind exWorld "a.json" parse base → parse = exWorld.json ∧ base = "a" := fun parse base hk => by
    have := (parserOf_kind exWorld "a.json" parse).2 ⟨base, hk⟩
    cases this
    exact ⟨rfl, (kind_stem hk).symm.trans (by decide +kernel)⟩
  have doc : ∀ address v, Document exWorld "f".toList address v → address = ["a"] ∧ v = .obj [("k", .atom "one")] := by
    rintro address v ⟨rel, name, c, parse, base, hs, hk, hv, rfl⟩
    have hm := key _ _ _ hs
    simp only [List.mem_cons, List.not_mem_nil, or_false, Prod.mk.injEq] at hm
    rcases hm with ⟨rfl, rfl, rfl⟩ | ⟨rfl, rfl, rfl⟩
    · obtain ⟨rfl, rfl⟩ := onekind _ _ hk
      cases hv
      exact ⟨rfl, rfl⟩
    · exact absurd hk (nokind _ _)
  obtain ⟨r, hr⟩ := h exWorld (.obj []) "f".toList exWorld_tidy exWorld_parsers
    ⟨["f"], _, by decide +kernel, rfl, .inr ⟨fun _ => true, rfl⟩⟩
    (by
      intro rel name c parse base hs hk
      have hm := key _ _ _ hs
      simp only [List.mem_cons, List.not_mem_nil, or_false, Prod.mk.injEq] at hm
      rcases hm with ⟨rfl, rfl, rfl⟩ | ⟨rfl, rfl, rfl⟩
      · obtain ⟨rfl, -⟩ := onekind _ _ hk
        exact ⟨by decide, _, rfl⟩
      · exact absurd hk (nokind _ _))
    (by
      intro address v hd
      obtain ⟨rfl, rfl⟩ := doc _ _ hd
      refine ⟨fun p k l h1 h2 => ?_, fun _ k v w h1 _ => by cases h1⟩
      cases p with
      | nil => rw [has_nil] at h1 h2; rw [← h1, ← h2]; rfl
      | cons x p => rw [has_key] at h1; obtain ⟨v, hv, -⟩ := h1; cases hv)
    (by
      intro a v a' v' h1 h2
      obtain ⟨rfl, rfl⟩ := doc _ _ h1
      obtain ⟨rfl, rfl⟩ := doc _ _ h2
      exact agree_refl _ _)
  have he : addDataFrom exWorld (.obj []) "f".toList = .error [.accessDenied] := by decide +kernel
  rw [he] at hr; cases hr

/-- A file that is text and neither JSON nor YAML does not matter. -/
theorem others_skipped_partial {w : World} (ht : Tidy w.fs) (hp : Parsers w) {data : Val} {pattern : Chars} (hu : Usable w pattern)
    (htext : ∀ rel name c, Selects w pattern rel name c → w.utf8 c = true)
    (h1 : ∀ rel name c parse base, Selects w pattern rel name c → Kind w name parse base → ∃ v, parse c = some v)
    (h2 : ∀ address v, Document w pattern address v → Agree w.deep data (wrap address v))
    (h3 : ∀ address v address' v', Document w pattern address v → Document w pattern address' v' →
      Agree w.deep (wrap address v) (wrap address' v')) : ∃ r, addDataFrom w data pattern = .ok r :=
  (data_accepted ht hp).2 ⟨hu, fun rel name c hs => ⟨htext _ _ _ hs, fun parse base hk => h1 _ _ _ _ _ hs hk⟩, h2, h3⟩

example : ∃ r, addDataFrom exWorld (.obj []) "d".toList = .ok r := 
  ⟨.obj [("a", .obj [("k", .atom "one")]), ("sub", .obj [("b", .atom "two")])], by decide +kernel⟩

/-- Two documents in one directory, with an engine that does not merge deeply. -/
example : addDataFrom { exWorld with fs := .dir [("d", .dir [("sub", .dir [("a.json", .file "1"), ("b.yaml", .file "2")])])] }
    (.obj []) "d".toList = .error [.invalidData] := by decide +kernel
/-- And with one that does. -/
example : addDataFrom { exWorld with deep := true, fs := .dir [("d", .dir [("sub", .dir [("a.json", .file "1"), ("b.yaml", .file "2")])])] }
    (.obj []) "d".toList = .ok (.obj [("sub", .obj [("a", .obj [("k", .atom "one")]), ("b", .atom "two")])]) := by decide +kernel
example : ¬ ["a"] <+: ["b"] ∧ ¬ ["b"] <+: ["a"] := by decide

end Verif.Policy
