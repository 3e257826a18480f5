/-
Association lists: `aget`/`aset` model `get`/`insert` of insertion ordered maps (`IndexMap`, `serde_yaml::Mapping`)
and of hash maps whose iteration order is not observed; `bins` models `BTreeMap::insert` on a list kept strictly
sorted by key, so that iteration order is the key order.
-/
namespace Verif.Util

variable {V : Type}

/-- `map.get(k)`. -/
def aget (k : String) : List (String × V) → Option V
  | [] => none
  | (k', v) :: m => if k' = k then some v else aget k m

/-- `IndexMap::insert`: replace in place, or append. -/
def aset (k : String) (v : V) : List (String × V) → List (String × V)
  | [] => [(k, v)]
  | (k', v') :: m => if k' = k then (k, v) :: m else (k', v') :: aset k v m

/-- `BTreeMap::insert`. -/
def bins (k : String) (v : V) : List (String × V) → List (String × V)
  | [] => [(k, v)]
  | (k', v') :: m =>
    if k' = k then (k, v) :: m else if k < k' then (k, v) :: (k', v') :: m else (k', v') :: bins k v m

/-- The list is a legal `BTreeMap` (strictly increasing keys). -/
def KeySorted (m : List (String × V)) : Prop := m.Pairwise (fun a b => a.1 < b.1)

theorem str_trichotomy (a b : String) : a < b ∨ a = b ∨ b < a := by
  by_cases h : a < b
  · exact .inl h
  · by_cases h' : b < a
    · exact .inr (.inr h')
    · exact .inr (.inl (String.le_antisymm (String.not_lt.1 h') (String.not_lt.1 h)))

theorem aget_aset (k k' : String) (v : V) (m : List (String × V)) :
    aget k' (aset k v m) = if k' = k then some v else aget k' m := by
  induction m with
  | nil => simp only [aset, aget]; grind
  | cons p m ih => obtain ⟨a, w⟩ := p; simp only [aset]; grind [aget]

theorem aget_bins (k k' : String) (v : V) (m : List (String × V)) :
    aget k' (bins k v m) = if k' = k then some v else aget k' m := by
  induction m with
  | nil => simp only [bins, aget]; grind
  | cons p m ih => obtain ⟨a, w⟩ := p; simp only [bins]; grind [aget]

theorem aget_eq_none_iff {k : String} {m : List (String × V)} : aget k m = none ↔ k ∉ m.map Prod.fst := by
  induction m with
  | nil => simp [aget]
  | cons p m ih => obtain ⟨a, w⟩ := p; simp only [aget]; grind

theorem aget_some_mem {k : String} {v : V} {m : List (String × V)} (h : aget k m = some v) : (k, v) ∈ m := by
  induction m with
  | nil => simp [aget] at h
  | cons p m ih => obtain ⟨a, w⟩ := p; simp only [aget] at h; grind

theorem mem_keys_iff {k : String} {m : List (String × V)} : k ∈ m.map Prod.fst ↔ ∃ v, aget k m = some v := by
  constructor
  · intro h
    cases hg : aget k m with
    | none => exact absurd h (aget_eq_none_iff.1 hg)
    | some v => exact ⟨v, rfl⟩
  · rintro ⟨v, h⟩
    exact List.mem_map.2 ⟨_, aget_some_mem h, rfl⟩

theorem aget_of_mem_nodup {k : String} {v : V} {m : List (String × V)} (hn : (m.map Prod.fst).Nodup)
    (h : (k, v) ∈ m) : aget k m = some v := by
  induction m with
  | nil => simp at h
  | cons p m ih =>
    obtain ⟨a, w⟩ := p
    simp only [List.map_cons, List.nodup_cons, List.mem_map] at hn
    simp only [aget]
    rcases List.mem_cons.1 h with h | h
    · grind
    · have : a ≠ k := by rintro rfl; exact hn.1 ⟨_, h, rfl⟩
      rw [if_neg this]; exact ih hn.2 h

theorem keySorted_nodup {m : List (String × V)} (h : KeySorted m) : (m.map Prod.fst).Nodup := by
  induction m with
  | nil => simp
  | cons p m ih =>
    unfold KeySorted at h
    rw [List.pairwise_cons] at h
    simp only [List.map_cons, List.nodup_cons]
    refine ⟨?_, ih h.2⟩
    intro hm
    obtain ⟨q, hq, he⟩ := List.mem_map.1 hm
    have := h.1 q hq
    rw [he] at this
    exact String.lt_irrefl _ this

theorem mem_bins_key {k : String} {v : V} {m : List (String × V)} {q : String × V} (h : q ∈ bins k v m) :
    q = (k, v) ∨ q ∈ m := by
  induction m with
  | nil => simp [bins] at h; exact .inl h
  | cons p m ih => obtain ⟨a, w⟩ := p; simp only [bins] at h; grind

theorem keySorted_bins {k : String} {v : V} {m : List (String × V)} (h : KeySorted m) : KeySorted (bins k v m) := by
  induction m with
  | nil => simp [bins, KeySorted]
  | cons p m ih =>
    obtain ⟨a, w⟩ := p
    unfold KeySorted at h ih ⊢
    rw [List.pairwise_cons] at h
    simp only [bins]
    by_cases hak : a = k
    · rw [if_pos hak]; subst hak; exact List.pairwise_cons.2 h
    · rw [if_neg hak]
      by_cases hlt : k < a
      · rw [if_pos hlt]
        refine List.pairwise_cons.2 ⟨?_, List.pairwise_cons.2 h⟩
        intro q hq
        rcases List.mem_cons.1 hq with rfl | hq
        · exact hlt
        · exact String.lt_trans hlt (h.1 q hq)
      · rw [if_neg hlt]
        refine List.pairwise_cons.2 ⟨?_, ih h.2⟩
        intro q hq
        rcases mem_bins_key hq with rfl | hq
        · rcases str_trichotomy a k with h1 | h1 | h1
          · exact h1
          · exact absurd h1 hak
          · exact absurd h1 hlt
        · exact h.1 q hq

/-- Two `BTreeMap`s with the same lookups are the same list. -/
theorem keySorted_ext {m n : List (String × V)} (hm : KeySorted m) (hn : KeySorted n)
    (h : ∀ k, aget k m = aget k n) : m = n := by
  induction m generalizing n with
  | nil =>
    cases n with
    | nil => rfl
    | cons q n => obtain ⟨a, w⟩ := q; have := h a; simp [aget] at this
  | cons p m ih =>
    obtain ⟨a, w⟩ := p
    have hmn := keySorted_nodup hm
    unfold KeySorted at hm
    rw [List.pairwise_cons] at hm
    cases n with
    | nil => have := h a; simp [aget] at this
    | cons q n =>
      obtain ⟨b, u⟩ := q
      have hnn := keySorted_nodup hn
      unfold KeySorted at hn
      rw [List.pairwise_cons] at hn
      have hab : a = b := by
        rcases str_trichotomy a b with hl | he | hl
        · exfalso
          have h1 := h a
          rw [show aget a ((a, w) :: m) = some w by simp [aget]] at h1
          have := aget_some_mem h1.symm
          rcases List.mem_cons.1 this with he | hmem
          · have : a = b := congrArg Prod.fst he
            exact String.lt_irrefl _ (this ▸ hl)
          · exact String.lt_asymm hl (hn.1 _ hmem)
        · exact he
        · exfalso
          have h1 := h b
          rw [show aget b ((b, u) :: n) = some u by simp [aget]] at h1
          have := aget_some_mem h1
          rcases List.mem_cons.1 this with he | hmem
          · have : b = a := congrArg Prod.fst he
            exact String.lt_irrefl _ (this ▸ hl)
          · exact String.lt_asymm hl (hm.1 _ hmem)
      subst hab
      have hwu : w = u := by have := h a; simpa [aget] using this
      subst hwu
      congr 1
      refine ih hm.2 hn.2 ?_
      intro k
      by_cases hk : a = k
      · subst hk
        simp only [List.map_cons, List.nodup_cons] at hmn hnn
        rw [aget_eq_none_iff.2 hmn.1, aget_eq_none_iff.2 hnn.1]
      · have := h k
        simpa [aget, hk] using this

theorem keys_aset_mem {k x : String} {v : V} {m : List (String × V)} :
    x ∈ (aset k v m).map Prod.fst ↔ x = k ∨ x ∈ m.map Prod.fst := by
  rw [mem_keys_iff, mem_keys_iff]
  simp only [aget_aset]; by_cases h : x = k <;> simp [h]

theorem keys_bins_mem {k x : String} {v : V} {m : List (String × V)} :
    x ∈ (bins k v m).map Prod.fst ↔ x = k ∨ x ∈ m.map Prod.fst := by
  rw [mem_keys_iff, mem_keys_iff]
  simp only [aget_bins]; by_cases h : x = k <;> simp [h]

theorem nodup_aset {k : String} {v : V} {m : List (String × V)} (h : (m.map Prod.fst).Nodup) :
    ((aset k v m).map Prod.fst).Nodup := by
  induction m with
  | nil => simp [aset]
  | cons p m ih =>
    obtain ⟨a, w⟩ := p
    simp only [List.map_cons, List.nodup_cons] at h
    simp only [aset]
    by_cases hak : a = k
    · rw [if_pos hak]; subst hak; simpa using h
    · rw [if_neg hak]
      simp only [List.map_cons, List.nodup_cons]
      refine ⟨?_, ih h.2⟩
      intro hm
      rcases keys_aset_mem.1 hm with h1 | h1
      · exact hak h1
      · exact h.1 h1

theorem keySorted_ofList_foldl {α : Type} (f : α → String × V) (l : List α) (m : List (String × V))
    (h : KeySorted m) : KeySorted (l.foldl (fun acc a => bins (f a).1 (f a).2 acc) m) := by
  induction l generalizing m with
  | nil => exact h
  | cons a l ih => exact ih _ (keySorted_bins h)

end Verif.Util
