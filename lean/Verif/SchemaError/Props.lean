import Verif.SchemaError.Model
/-
What errors about files that cannot be read say: the place (C224), the advice (C225) and the violations (C226).
-/
namespace Verif.SchemaError
open Verif.Util

/-! ### Specification -/

/-- A step in a JSON document: a key of an object or a position in an array. -/
inductive Seg where
  | key (k : Chars)
  | index (i : Nat)

/-- RFC 6901: `~` is written as `~0` and `/` as `~1`. -/
def escape : Chars → Chars
  | [] => []
  | '~' :: s => '~' :: '0' :: escape s
  | '/' :: s => '~' :: '1' :: escape s
  | c :: s => c :: escape s

/-- RFC 6901: a JSON pointer. -/
def pointer : List Seg → Chars
  | [] => []
  | .key k :: p => '/' :: (escape k ++ pointer p)
  | .index i :: p => '/' :: (number i ++ pointer p)

/-- The node that a path leads to. -/
inductive At : Node → List Seg → Node → Prop where
  | here {n : Node} : At n [] n
  | key {f l : Nat} {ps : List (Key × Node)} {k : Key} {m n : Node} {p : List Seg} :
    (k, m) ∈ ps → At m p n → At (.map f l ps) (.key k.text :: p) n
  | index {f l : Nat} {ns : List Node} {i : Nat} {m n : Node} {p : List Seg} :
    ns[i]? = some m → At m p n → At (.seq f l ns) (.index i :: p) n

/-- Every node below has one value for each key. -/
inductive Uniq : Node → Prop where
  | scalar {f l : Nat} : Uniq (.scalar f l)
  | seq {f l : Nat} {ns : List Node} : (∀ n ∈ ns, Uniq n) → Uniq (.seq f l ns)
  | map {f l : Nat} {ps : List (Key × Node)} : (ps.map fun p => p.1.text).Nodup → (∀ p ∈ ps, Uniq p.2) → Uniq (.map f l ps)

/-- All keys below are strings. -/
inductive StrKeys : Node → Prop where
  | scalar {f l : Nat} : StrKeys (.scalar f l)
  | seq {f l : Nat} {ns : List Node} : (∀ n ∈ ns, StrKeys n) → StrKeys (.seq f l ns)
  | map {f l : Nat} {ps : List (Key × Node)} : (∀ p ∈ ps, ∃ k, p.1 = .str k) → (∀ p ∈ ps, StrKeys p.2) → StrKeys (.map f l ps)

/-- Positions are in the text. -/
inductive InText (raw : Chars) : Node → Prop where
  | scalar {f l : Nat} : f ≤ l → l ≤ raw.length → InText raw (.scalar f l)
  | seq {f l : Nat} {ns : List Node} : f ≤ l → l ≤ raw.length → (∀ n ∈ ns, InText raw n) → InText raw (.seq f l ns)
  | map {f l : Nat} {ps : List (Key × Node)} : f ≤ l → l ≤ raw.length → (∀ p ∈ ps, InText raw p.2) → InText raw (.map f l ps)

/-- A key that is not empty, has no `/` and no `~` and is no number. -/
def PlainKey (k : Chars) : Prop := k ≠ [] ∧ '/' ∉ k ∧ '~' ∉ k ∧ parseUsize k = none

/-- A path of such keys and of positions that fit 64 bits. -/
def PlainPath (p : List Seg) : Prop := ∀ s ∈ p, match s with
  | .key k => PlainKey k
  | .index i => i < 2^64

/-- The span of a node covers the text between its positions. -/
def Covers (raw : Chars) (n : Node) (offset length : Nat) : Prop :=
  ∃ a b c, raw = a ++ b ++ c ∧ a.length = n.first ∧ (a ++ b).length = n.last ∧ offset = bytes a ∧ length = bytes b

/-! ### Paths -/

theorem escape_plain {k : Chars} (h1 : '/' ∉ k) (h2 : '~' ∉ k) : escape k = k := by
  induction k with
  | nil => rfl
  | cons c s ih =>
    simp only [List.mem_cons, not_or] at h1 h2
    rw [escape, ih h1.2 h2.2]
    · exact fun h => h2.1 h.symm
    · exact fun h => h1.1 h.symm

theorem number_digits (i : Nat) : ∀ c ∈ number i, c.isDigit = true := fun _ hc =>
  Nat.isDigit_of_mem_toDigits (b := 10) (by decide) (by decide) hc

theorem number_ne_nil (i : Nat) : number i ≠ [] := Nat.toDigits_ne_nil

theorem number_no_slash (i : Nat) : '/' ∉ number i := fun h => by
  have := number_digits i _ h
  simp [Char.isDigit] at this

theorem digits_number (i : Nat) : digits (number i) = i := Nat.ofDigitChars_toDigits (by decide) (by decide)

theorem parse_number {i : Nat} (h : i < 2^64) : parseUsize (number i) = some i := by
  have hd : stripPlus (number i) = number i := by
    unfold stripPlus
    split
    · rename_i ds heq
      have := number_digits i '+' (by rw [heq]; simp)
      simp [Char.isDigit] at this
    · rfl
  unfold parseUsize
  simp only [hd]
  have h2 : (number i).any (fun c => !c.isDigit) = false := by
    rw [List.any_eq_false]
    intro c hc
    simp [number_digits i c hc]
  rw [if_neg, digits_number]
  rw [digits_number, h2]
  simp [number_ne_nil, Nat.not_le.mpr h]

/-- What a plain path is in the notation of the code. -/
def comps : List Seg → List Comp
  | [] => []
  | .key k :: p => .key k :: comps p
  | .index i :: p => .index i :: comps p

/-- The texts between the slashes. -/
def texts : List Seg → List Chars
  | [] => []
  | .key k :: p => k :: texts p
  | .index i :: p => number i :: texts p

theorem plain_tail {s : Seg} {p : List Seg} (h : PlainPath (s :: p)) : PlainPath p := fun t ht => h t (List.mem_cons_of_mem _ ht)

theorem pointer_split {p : List Seg} (h : PlainPath p) (hne : p ≠ []) :
    ∃ rest, pointer p = '/' :: rest ∧ splitWhen (fun c => decide (c = '/')) rest = texts p := by
  induction p with
  | nil => exact absurd rfl hne
  | cons s p ih =>
    obtain ⟨w, hw, hs⟩ : ∃ w, pointer (s :: p) = '/' :: (w ++ pointer p) ∧ texts (s :: p) = w :: texts p ∧ '/' ∉ w := by
      cases s with
      | key k =>
        have hk : PlainKey k := h (.key k) (by simp)
        exact ⟨k, by rw [pointer, escape_plain hk.2.1 hk.2.2.1], rfl, hk.2.1⟩
      | index i => exact ⟨number i, rfl, rfl, number_no_slash i⟩
    refine ⟨_, hw, ?_⟩
    have hclean : splitWhen (fun c => decide (c = '/')) w = [w] := splitWhen_clean fun c hc => by
      simp only [decide_eq_false_iff_not]
      rintro rfl
      exact hs.2 hc
    rw [hs.1]
    cases p with
    | nil => simpa [pointer, texts] using hclean
    | cons t p =>
      obtain ⟨rest, hr, hsp⟩ := ih (plain_tail h) (by simp)
      rw [hr, splitWhen_append _ _ (by simp), hsp, hclean]
      rfl

theorem texts_comps {p : List Seg} (h : PlainPath p) :
    (((texts p).filter fun s => decide (s ≠ [])).map component) = comps p := by
  induction p with
  | nil => rfl
  | cons s p ih =>
    cases s with
    | key k =>
      have hk : PlainKey k := h (.key k) (by simp)
      simp only [texts, comps, List.filter_cons, hk.1, ne_eq, not_false_eq_true, decide_true, if_true, List.map_cons]
      rw [show component k = .key k by simp [component, hk.2.2.2]]
      exact congrArg _ (ih (plain_tail h))
    | index i =>
      have hi : i < 2^64 := h (.index i) (by simp)
      simp only [texts, comps, List.filter_cons, number_ne_nil, ne_eq, not_false_eq_true, decide_true, if_true, List.map_cons]
      rw [show component (number i) = .index i by simp [component, parse_number hi]]
      exact congrArg _ (ih (plain_tail h))

/-- Plain paths are read as they are meant. -/
theorem parse_pointer {p : List Seg} (h : PlainPath p) (hne : p ≠ []) : parseXPath (pointer p) = some (comps p) := by
  obtain ⟨rest, hr, hs⟩ := pointer_split h hne
  rw [hr, parseXPath, hs, texts_comps h]

/-! ### Spans -/

theorem find_str {ps : List (Key × Node)} {k : Chars} {m : Node} (hu : (ps.map fun p => p.1.text).Nodup) (h : (Key.str k, m) ∈ ps) :
    ps.find? (fun p => decide (p.1 = Key.str k)) = some (Key.str k, m) := by
  induction ps with
  | nil => simp at h
  | cons q ps ih =>
    simp only [List.map_cons, List.nodup_cons, List.mem_map, not_exists, not_and] at hu
    rcases List.mem_cons.mp h with rfl | h
    · simp
    · have hne : q.1 ≠ Key.str k := fun he => hu.1 _ h (by rw [he])
      simp only [List.find?_cons, hne, decide_false]
      exact ih hu.2 h

theorem walk_at {root n : Node} {p : List Seg} (hu : Uniq root) (hs : StrKeys root) (h : At root p n) :
    root.walk (comps p) = some n := by
  induction h with
  | here => rfl
  | @key f l ps k m n p hm hat ih =>
    cases hu with | map hn hu' =>
    cases hs with | map hs' hsm =>
    obtain ⟨k', hk⟩ := hs' _ hm
    simp only at hk
    subst hk
    simp only [comps, Key.text, Node.walk, Node.step, find_str hn hm, Option.map_some]
    exact ih (hu' _ hm) (hsm _ hm)
  | @index f l ns i m n p hm hat ih =>
    cases hu with | seq hu' =>
    cases hs with | seq hs' =>
    have hmem := List.mem_of_getElem? hm
    simp only [comps, Node.walk, Node.step, hm]
    exact ih (hu' _ hmem) (hs' _ hmem)

theorem offsets_get (base : Nat) (a b : Chars) : (offsets base (a ++ b))[a.length]? = some (base + bytes a) := by
  induction a generalizing base with
  | nil => cases b <;> simp [offsets, bytes]
  | cons c a ih =>
    simp only [List.cons_append, offsets, List.length_cons, List.getElem?_cons_succ, ih, bytes, List.map_cons, List.sum_cons,
      Nat.add_assoc]

theorem in_text_at {raw : Chars} {root n : Node} {cs : List Comp} (h : InText raw root) (hw : root.walk cs = some n) :
    n.first ≤ n.last ∧ n.last ≤ raw.length := by
  induction cs generalizing root with
  | nil =>
    cases hw
    cases h <;> exact ⟨by assumption, by assumption⟩
  | cons c cs ih =>
    simp only [Node.walk] at hw
    split at hw
    · rename_i m hm
      refine ih ?_ hw
      cases h with
      | scalar => cases c <;> simp [Node.step] at hm
      | seq h1 h2 h3 =>
        cases c with
        | key k => simp [Node.step] at hm
        | index i => exact h3 _ (List.mem_of_getElem? hm)
      | map h1 h2 h3 =>
        cases c with
        | index i => simp [Node.step] at hm
        | key k =>
          simp only [Node.step, Option.map_eq_some_iff] at hm
          obtain ⟨q, hq, rfl⟩ := hm
          exact h3 _ (List.mem_of_find?_eq_some hq)
    · simp at hw

theorem covers_of {raw : Chars} {n : Node} (h1 : n.first ≤ n.last) (h2 : n.last ≤ raw.length) :
    ∃ o l, spanOf raw n = .found o l ∧ Covers raw n o l := by
  let a := raw.take n.first
  let b := (raw.drop n.first).take (n.last - n.first)
  let c := raw.drop n.last
  have hab : a ++ b = raw.take n.last := by
    show raw.take n.first ++ (raw.drop n.first).take (n.last - n.first) = raw.take n.last
    rw [← List.take_add, Nat.add_sub_cancel' h1]
  have hraw : raw = a ++ b ++ c := by rw [hab, List.take_append_drop]
  have hla : a.length = n.first := by simp [a]; omega
  have hlab : (a ++ b).length = n.last := by rw [hab]; simp; omega
  have ho1 : (offsets 0 raw)[n.first]? = some (bytes a) := by
    have := offsets_get 0 a (b ++ c)
    rw [← List.append_assoc, ← hraw, hla] at this
    simpa using this
  have ho2 : (offsets 0 raw)[n.last]? = some (bytes (a ++ b)) := by
    have := offsets_get 0 (a ++ b) c
    rw [← hraw, hlab] at this
    simpa using this
  have hb : bytes (a ++ b) = bytes a + bytes b := by simp [bytes]
  refine ⟨bytes a, bytes b, ?_, a, b, c, hraw, hla, hlab, rfl, rfl⟩
  simp only [spanOf, ho1, ho2, hb]
  rw [if_neg (by omega), Nat.add_sub_cancel_left]

/-- C224 (partial): an error below the top, at a path of plain keys, is shown at the text of the node it is about. -/
theorem span_found_partial {raw : Chars} {root n : Node} {p : List Seg} (hu : Uniq root) (hs : StrKeys root) (ht : InText raw root)
    (hp : PlainPath p) (hne : p ≠ []) (h : At root p n) :
    ∃ o l, sourceSpan raw root (pointer p) = .found o l ∧ Covers raw n o l := by
  have hw := walk_at hu hs h
  have ⟨h1, h2⟩ := in_text_at ht hw
  obtain ⟨o, l, hf, hc⟩ := covers_of h1 h2
  refine ⟨o, l, ?_, hc⟩
  simp only [sourceSpan, parse_pointer hp hne, hw]
  exact hf

/-- C224: whatever the path, looking for the place of an error does not panic. -/
theorem span_no_panic {raw : Chars} {root : Node} (ht : InText raw root) (xpath : Chars) : sourceSpan raw root xpath ≠ .panic := by
  unfold sourceSpan
  split
  · simp
  · split
    · simp
    · rename_i hw
      have ⟨h1, h2⟩ := in_text_at ht hw
      obtain ⟨o, l, hf, -⟩ := covers_of h1 h2
      rw [hf]
      simp

/-- A file with an empty key. -/
def emptyKeyText : Chars := ['\'', '\'', ':', ' ', '{', 'a', ':', ' ', 'b', '}', '\n', 'a', ':', ' ', 'c']

/-- Its nodes. -/
def emptyKeyDoc : Node := .map 0 15 [(.str [], .map 4 10 [(.str ['a'], .scalar 8 9)]), (.str ['a'], .scalar 14 15)]

/-- C224 (refuted): errors about the file as a whole have no place, nor have those below keys that are numbers; and an error below
an empty key is shown at another node. -/
theorem span_found_refuted :
    (∃ raw root, Uniq root ∧ StrKeys root ∧ InText raw root ∧ At root [] root ∧ sourceSpan raw root (pointer []) = .missing) ∧
    (∃ raw root n p, Uniq root ∧ StrKeys root ∧ InText raw root ∧ At root p n ∧ sourceSpan raw root (pointer p) = .missing ∧ p ≠ []) ∧
    (∃ raw root n p o l, Uniq root ∧ StrKeys root ∧ InText raw root ∧ At root p n ∧ sourceSpan raw root (pointer p) = .found o l ∧
      ¬ Covers raw n o l) := by
  refine ⟨⟨"a".toList, .scalar 0 1, .scalar, .scalar, .scalar (by decide) (by decide), .here, by decide⟩, ?_, ?_⟩
  · refine ⟨"'1': a".toList, .map 0 6 [(.str ['1'], .scalar 5 6)], .scalar 5 6, [.key ['1']], ?_, ?_, ?_,
      .key (k := .str ['1']) (by simp) .here, by decide +kernel, by simp⟩
    · exact .map (by simp) fun p hp => by cases List.mem_singleton.mp hp; exact .scalar
    · exact .map (fun p hp => by cases List.mem_singleton.mp hp; exact ⟨_, rfl⟩) fun p hp => by
        cases List.mem_singleton.mp hp; exact .scalar
    · exact .map (by decide) (by decide) fun p hp => by cases List.mem_singleton.mp hp; exact .scalar (by decide) (by decide)
  · refine ⟨emptyKeyText, emptyKeyDoc, .scalar 8 9, [.key [], .key ['a']], 14, 1, ?_, ?_, ?_,
      .key (k := .str []) (List.mem_cons_self ..) (.key (k := .str ['a']) (List.mem_cons_self ..) .here), by decide +kernel, ?_⟩
    · refine .map (by simp [Key.text]) fun p hp => ?_
      rcases List.mem_cons.mp hp with rfl | hp
      · exact .map (by simp) fun p hp => by cases List.mem_singleton.mp hp; exact .scalar
      · cases List.mem_singleton.mp hp; exact .scalar
    · refine .map (fun p hp => ?_) fun p hp => ?_
      · rcases List.mem_cons.mp hp with rfl | hp
        · exact ⟨_, rfl⟩
        · cases List.mem_singleton.mp hp; exact ⟨_, rfl⟩
      · rcases List.mem_cons.mp hp with rfl | hp
        · exact .map (fun p hp => by cases List.mem_singleton.mp hp; exact ⟨_, rfl⟩) fun p hp => by
            cases List.mem_singleton.mp hp; exact .scalar
        · cases List.mem_singleton.mp hp; exact .scalar
    · refine .map (by decide) (by decide) fun p hp => ?_
      rcases List.mem_cons.mp hp with rfl | hp
      · exact .map (by decide) (by decide) fun p hp => by cases List.mem_singleton.mp hp; exact .scalar (by decide) (by decide)
      · cases List.mem_singleton.mp hp; exact .scalar (by decide) (by decide)
    · rintro ⟨a, b, c, hr, h1, -, h3, -⟩
      have h1 : a.length = 8 := h1
      have ha : a = emptyKeyText.take 8 := by
        rw [hr, List.append_assoc, ← h1, List.take_left]
      rw [ha] at h3
      exact absurd h3 (by decide +kernel)

/-- Which node is found for a path that is not plain: none, unless a key is empty or written with an escape. -/
theorem node_right {root n : Node} {p : List Seg} (hp : ∀ s ∈ p, match s with
      | .key k => k ≠ [] ∧ '/' ∉ k ∧ '~' ∉ k
      | .index i => i < 2^64) (hne : p ≠ []) (hu : Uniq root) {m : Node} (hat : At root p n) {cs : List Comp}
    (hc : parseXPath (pointer p) = some cs) (hw : root.walk cs = some m) : m = n := by
  have key : ∀ {p : List Seg}, (∀ s ∈ p, match s with
      | .key k => k ≠ [] ∧ '/' ∉ k ∧ '~' ∉ k
      | .index i => i < 2^64) → p ≠ [] →
      parseXPath (pointer p) = some ((texts p).map component) := by
    intro p
    induction p with
    | nil => intro _ h; exact absurd rfl h
    | cons s p ih =>
      intro hp _
      obtain ⟨w, hw, hs, hsl, hwn⟩ : ∃ w, pointer (s :: p) = '/' :: (w ++ pointer p) ∧ texts (s :: p) = w :: texts p ∧ '/' ∉ w ∧ w ≠ [] := by
        cases s with
        | key k =>
          have hk := hp (.key k) (by simp)
          exact ⟨k, by rw [pointer, escape_plain hk.2.1 hk.2.2], rfl, hk.2.1, hk.1⟩
        | index i => exact ⟨number i, rfl, rfl, number_no_slash i, number_ne_nil i⟩
      have hclean : splitWhen (fun c => decide (c = '/')) w = [w] := splitWhen_clean fun c hc => by
        simp only [decide_eq_false_iff_not]
        rintro rfl
        exact hsl hc
      rw [hw, hs]
      cases p with
      | nil => simp [parseXPath, pointer, hclean, hwn, texts]
      | cons t p =>
        have ih' := ih (fun s hs => hp s (List.mem_cons_of_mem _ hs)) (by simp)
        obtain ⟨rest, hr⟩ : ∃ rest, pointer (t :: p) = '/' :: rest := by cases t <;> exact ⟨_, rfl⟩
        rw [hr] at ih' ⊢
        simp only [parseXPath, Option.some.injEq] at ih' ⊢
        rw [splitWhen_append _ _ (by simp), hclean]
        simp [hwn, ← ih']
  rw [key hp hne] at hc
  cases hc
  clear hne key
  induction hat with
  | here => simpa [texts, Node.walk] using hw.symm
  | @key f l ps k m' n p hm hat ih =>
    cases hu with | map hn hu' =>
    simp only [texts, List.map_cons, Node.walk] at hw
    split at hw
    · rename_i x hx
      have hk := hp (.key k.text) (by simp)
      unfold component at hx
      cases hpu : parseUsize k.text with
      | some i => rw [hpu] at hx; simp [Node.step] at hx
      | none =>
        rw [hpu] at hx
        simp only [Node.step, Option.map_eq_some_iff] at hx
        obtain ⟨q, hq, rfl⟩ := hx
        have hqm := List.mem_of_find?_eq_some hq
        have hqk : q.1 = .str k.text := by simpa using List.find?_some hq
        have : q = (k, m') := by
          have hn' := hn
          refine Classical.byContradiction fun hne => ?_
          obtain ⟨i, hi, rfl⟩ := List.getElem_of_mem hqm
          obtain ⟨j, hj, hjm⟩ := List.getElem_of_mem hm
          have hij : i = j := by
            refine (List.getElem_inj (h₀ := by simpa using hi) (h₁ := by simpa using hj) hn).mp ?_
            simp only [List.getElem_map, hjm, hqk, Key.text]
          subst hij
          exact hne hjm
        subst this
        exact ih (fun s hs => hp s (List.mem_cons_of_mem _ hs)) (hu' _ hm) hw
    · simp at hw
  | @index f l ns i m' n p hm hat ih =>
    cases hu with | seq hu' =>
    have hi : i < 2^64 := hp (.index i) (by simp)
    simp only [texts, List.map_cons, Node.walk, component, parse_number hi, Node.step, hm] at hw
    exact ih (fun s hs => hp s (List.mem_cons_of_mem _ hs)) (hu' _ (List.mem_of_getElem? hm)) hw

/-- C224 (partial): a place that is shown is the right one, unless a key on the way is empty or has a `/` or `~`. -/
theorem span_right_partial {raw : Chars} {root n : Node} {p : List Seg} (hp : ∀ s ∈ p, match s with
      | .key k => k ≠ [] ∧ '/' ∉ k ∧ '~' ∉ k
      | .index i => i < 2^64) (hu : Uniq root) (ht : InText raw root) (hat : At root p n) {o l : Nat}
    (h : sourceSpan raw root (pointer p) = .found o l) : Covers raw n o l := by
  unfold sourceSpan at h
  split at h
  · simp at h
  · rename_i cs hc
    split at h
    · simp at h
    · rename_i m hw
      have hne : p ≠ [] := fun he => by subst he; simp [pointer, parseXPath] at hc
      have hm := node_right hp hne hu hat hc hw
      have ⟨h1, h2⟩ := in_text_at ht hw
      obtain ⟨o', l', hf, hcov⟩ := covers_of h1 h2
      rw [hf] at h
      cases h
      rw [← hm]
      exact hcov

/-! ### Advice -/

/-- The schemas that a path passes through, without the last. References are followed where the path says so. -/
inductive Passes (root : S) : S → List Seg → List S → Prop where
  | here {s : S} : Passes root s [] []
  | key {s v : S} {k : Chars} {p : List Seg} {l : List S} : k ≠ "$ref".toList → s.get k = some v → Passes root v p l →
    Passes root s (.key k :: p) (s :: l)
  | ref {s d : S} {r : Chars} {p : List Seg} {l : List S} : s.get "$ref".toList = some (.str r) → refDefinition root r = some d →
    Passes root d p l → Passes root s (.key "$ref".toList :: p) (s :: l)
  | index {s v : S} {i : Nat} {p : List Seg} {l : List S} : s.elem i = some v → Passes root v p l →
    Passes root s (.index i :: p) (s :: l)

/-- What keys lead to. -/
inductive Leads : S → List Chars → S → Prop where
  | here {s : S} : Leads s [] s
  | step {s v d : S} {k : Chars} {ks : List Chars} : s.get k = some v → Leads v ks d → Leads s (k :: ks) d

theorem follow_iff {ks : List Chars} {s d : S} : s.follow ks = some d ↔ Leads s ks d := by
  induction ks generalizing s with
  | nil =>
    constructor
    · intro h; cases h; exact .here
    · intro h; cases h; rfl
  | cons k ks ih =>
    simp only [S.follow, Option.bind_eq_some_iff, ih]
    constructor
    · rintro ⟨v, h1, h2⟩; exact .step h1 h2
    · intro h; cases h with | step h1 h2 => exact ⟨_, h1, h2⟩

theorem slashes_split {ks : List Chars} (hk : ∀ k ∈ ks, '/' ∉ k) (a : Chars) (ha : '/' ∉ a) :
    splitWhen (fun c => decide (c = '/')) (a ++ ks.flatMap fun k => '/' :: k) = a :: ks := by
  have hc : ∀ w : Chars, '/' ∉ w → splitWhen (fun c => decide (c = '/')) w = [w] := fun w hw => splitWhen_clean fun c hc => by
    simp only [decide_eq_false_iff_not]
    rintro rfl
    exact hw hc
  induction ks generalizing a with
  | nil => simpa using hc a ha
  | cons k ks ih =>
    have hk' := hk k (by simp)
    rw [List.flatMap_cons, List.cons_append, splitWhen_append _ _ (by simp), ih (fun x hx => hk x (by simp [hx])) k hk', hc a ha]
    rfl

/-- C225: a reference `#/a/b` is to what the keys `a` and `b` lead to from the root. -/
theorem reference {root d : S} {ks : List Chars} (hne : ks ≠ []) (hk : ∀ k ∈ ks, '/' ∉ k) :
    refDefinition root ('#' :: ks.flatMap fun k => '/' :: k) = some d ↔ Leads root ks d := by
  unfold refDefinition
  rw [show '#' :: ks.flatMap (fun k => '/' :: k) = ['#'] ++ ks.flatMap (fun k => '/' :: k) from rfl,
    slashes_split hk ['#'] (by decide)]
  cases ks with
  | nil => exact absurd rfl hne
  | cons k ks => exact follow_iff

/-- The description of a schema. -/
def S.description (s : S) : Option Chars := (s.get "description".toList).bind S.text

/-- The innermost description, or another one. -/
def innermost (l : List S) (d : Chars) : Chars := ((l.filterMap S.description).getLast?).getD d

theorem innermost_cons (s : S) (l : List S) (d : Chars) : innermost (s :: l) d = innermost l (s.description.getD d) := by
  unfold innermost
  simp only [List.filterMap_cons]
  cases s.description with
  | none => rfl
  | some x =>
    simp only [List.getLast?_cons, Option.getD_some]

theorem describe_passes {root s : S} {p : List Seg} {l : List S} (h : Passes root s p l) (d : Chars) :
    describeFrom root s d (comps p) = some (innermost l d) := by
  induction h generalizing d with
  | here => rfl
  | key hk hg _ ih => simp only [comps, describeFrom, hg, if_neg hk, ih, innermost_cons, S.description]
  | ref hg hr _ ih => simp only [comps, describeFrom, hg, if_true, S.text, Option.getD_some, hr, ih, innermost_cons, S.description]
  | index he _ ih => simp only [comps, describeFrom, he, ih, innermost_cons, S.description]

/-- C225: the advice is the description of the innermost schema around what was violated, references followed. -/
theorem advice_innermost {root : S} {p : List Seg} {l : List S} (hp : PlainPath p) (hne : p ≠ []) (h : Passes root root p l) :
    describe root (pointer p) = some (innermost l "No description available".toList) := by
  rw [describe, parse_pointer hp hne, Option.bind_some, describe_passes h]

theorem ref_empty (root : S) : refDefinition root [] = none := rfl

/-- C225: there is advice only along paths of the schema. -/
theorem advice_passes {root : S} {p : List Seg} {d : Chars} (hp : PlainPath p) (hne : p ≠ []) (h : describe root (pointer p) = some d) :
    ∃ l, Passes root root p l := by
  rw [describe, parse_pointer hp hne, Option.bind_some] at h
  clear hne hp
  generalize "No description available".toList = d0 at h
  have : ∀ (s : S) (d0 : Chars), describeFrom root s d0 (comps p) = some d → ∃ l, Passes root s p l := by
    clear h
    induction p with
    | nil => exact fun s _ _ => ⟨[], .here⟩
    | cons c p ih =>
      intro s d0 h
      cases c with
      | key k =>
        simp only [comps, describeFrom] at h
        split at h
        · simp at h
        · rename_i v hv
          split at h
          · rename_i hk
            subst hk
            split at h
            · rename_i x hx
              obtain ⟨l, hl⟩ := ih _ _ h
              cases v with
              | str r => exact ⟨s :: l, .ref hv hx hl⟩
              | _ => simp [S.text, ref_empty] at hx
            · simp at h
          · rename_i hk
            obtain ⟨l, hl⟩ := ih _ _ h
            exact ⟨s :: l, .key hk hv hl⟩
      | index i =>
        simp only [comps, describeFrom] at h
        split at h
        · simp at h
        · rename_i v hv
          obtain ⟨l, hl⟩ := ih _ _ h
          exact ⟨s :: l, .index hv hl⟩
  exact this root d0 h

/-! ### Messages -/

/-- The messages inside a violation. -/
inductive Inside : V → Chars → Prop where
  | here {m : Chars} : Inside (.leaf m) m
  | head {h : Chars} {c : List (List V)} : Inside (.variants h c) h
  | variant {h m : Chars} {c : List (List V)} {l : List V} {e : V} : l ∈ c → e ∈ l → Inside e m → Inside (.variants h c) m

theorem join_infix {l : List Chars} {a : Chars} (h : a ∈ l) : a <:+: joinLines l := by
  induction l with
  | nil => simp at h
  | cons b l ih =>
    cases l with
    | nil => simp only [List.mem_singleton] at h; subst h; exact List.infix_rfl
    | cons c l =>
      rcases List.mem_cons.mp h with rfl | h
      · exact ⟨[], '\n' :: joinLines (c :: l), by simp [joinLines]⟩
      · obtain ⟨s, t, ht⟩ := ih h
        exact ⟨b ++ '\n' :: s, t, by simp [joinLines, ← ht]⟩

theorem errorMessages_mem {indent : Chars} {l : List V} {e : V} (h : e ∈ l) :
    indent ++ "- ".toList ++ message (indent ++ "  ".toList) e ∈ errorMessages indent l := by
  induction l with
  | nil => simp at h
  | cons x l ih =>
    rcases List.mem_cons.mp h with rfl | h
    · simp only [errorMessages]; exact List.mem_cons_self ..
    · simp only [errorMessages]; exact List.mem_cons_of_mem _ (ih h)

theorem variantMessages_mem {indent : Chars} {c : List (List V)} {l : List V} (i : Nat) (h : l ∈ c) :
    ∃ j, indent ++ "(Variant ".toList ++ number (j + 1) ++ "):\n".toList ++ joinLines (errorMessages indent l) ∈ variantMessages indent i c := by
  induction c generalizing i with
  | nil => simp at h
  | cons x c ih =>
    rcases List.mem_cons.mp h with rfl | h
    · refine ⟨i, ?_⟩; simp only [variantMessages]; exact List.mem_cons_self ..
    · obtain ⟨j, hj⟩ := ih (i + 1) h
      refine ⟨j, ?_⟩; simp only [variantMessages]; exact List.mem_cons_of_mem _ hj

/-- C226: the message of a violation has all that the variants say, however deep. -/
theorem message_complete {v : V} {m : Chars} (h : Inside v m) (indent : Chars) : m <:+: message indent v := by
  induction h generalizing indent with
  | here => simp only [message]; exact List.infix_rfl
  | head =>
    simp only [message]
    exact ⟨[], _, by simp; rfl⟩
  | @variant hd m c l e hl he _ ih =>
    simp only [message]
    obtain ⟨j, hj⟩ := variantMessages_mem (indent := indent) 0 hl
    have h1 := ih (indent ++ "  ".toList)
    have h2 : message (indent ++ "  ".toList) e <:+: joinLines (errorMessages indent l) :=
      (List.suffix_append _ _).isInfix.trans (join_infix (errorMessages_mem he))
    have h3 := (List.suffix_append _ (joinLines (errorMessages indent l))).isInfix.trans (join_infix hj)
    exact h1.trans (h2.trans (h3.trans ⟨hd ++ ['\n'], [], by simp⟩))

/-! ### Violations -/

theorem messagesAll_eq (l : List Error) : messagesAll l = l.flatMap messages := by
  induction l with
  | nil => rfl
  | cons e l ih => simp [messagesAll, ih]

/-- C226: a file that cannot be read is reported by one message for each violation of the schema, in order, with its place, text
and advice; if there is none, by the message of the deserializer. -/
theorem violations_reported (schema : S) (raw : Chars) (root : Node) (serdeError : Chars) (vs : List Violation) :
    messages (betterError schema (.ok (raw, root)) serdeError (some vs)) =
      if vs = [] then [.deserialization serdeError]
      else vs.map fun v => .invalid { span := sourceSpan raw root v.instancePath, message := message [] v.what,
                                      advice := describe schema v.schemaPath } := by
  rcases vs with _ | ⟨v, _ | ⟨w, vs⟩⟩
  · rfl
  · rfl
  · simp only [betterError, validateYaml, List.map_cons, messages, messagesAll_eq, reduceCtorEq, if_false]
    rw [← List.map_cons, ← List.map_cons, List.flatMap_map]
    have : ∀ l : List Violation, l.flatMap (fun v => messages (report schema raw root v)) = l.map fun v => .invalid
        { span := sourceSpan raw root v.instancePath, message := message [] v.what, advice := describe schema v.schemaPath } := by
      intro l
      induction l with
      | nil => rfl
      | cons x l ih =>
        rw [List.flatMap_cons, ih]
        simp only [report, messages, List.map_cons, List.singleton_append]
    exact this _

/-- C226: whatever goes wrong while looking for a better error, there is an error to show. -/
theorem always_reported (schema : S) (doc : Except Chars (Chars × Node)) (serdeError : Chars) (vs : Option (List Violation)) :
    messages (betterError schema doc serdeError vs) ≠ [] := by
  cases vs with
  | none => simp [betterError, validateYaml, messages]
  | some vs =>
    cases doc with
    | error e => simp [betterError, validateYaml, messages]
    | ok d =>
      obtain ⟨raw, root⟩ := d
      rw [violations_reported]
      split
      · simp
      · rename_i h
        simpa using h

/-! ### Examples -/

/-- `groups: [{id: a}]`, with positions. -/
def sampleDoc : Node :=
  .map 0 17 [(.str "groups".toList, .seq 8 17 [.map 9 16 [(.str "id".toList, .scalar 14 15)]])]

example : sourceSpan "groups: [{id: a}]".toList sampleDoc (pointer [.key "groups".toList, .index 0, .key "id".toList]) = .found 14 1 := by
  decide +kernel

/-- A schema with a reference. -/
def sampleSchema : S :=
  .obj [("description".toList, .str "file".toList),
    ("properties".toList, .obj [("groups".toList, .obj [("items".toList, .obj [("$ref".toList, .str "#/$defs/G".toList)])])]),
    ("$defs".toList, .obj [("G".toList, .obj [("description".toList, .str "group".toList), ("required".toList, .arr [])])])]

example : describe sampleSchema "/properties/groups/items/$ref/required".toList = some "group".toList := by decide +kernel
example : describe sampleSchema "/properties/groups".toList = some "file".toList := by decide +kernel

example : String.ofList (message [] (.variants "head".toList [[.leaf "a".toList], [.leaf "b".toList, .leaf "c".toList]])) =
    "head\n(Variant 1):\n- a\n(Variant 2):\n- b\n- c" := by decide +kernel

end Verif.SchemaError
