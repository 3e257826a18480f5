import Verif.Util.Sort
/-
Multi-maps: `HashMap<K, Vec<V>>` filled with `entry(k).or_default().push(v)`, as association lists in the order the
keys were first met; and `Itertools::unique`.
-/
namespace Verif.Util
variable {K V : Type} [DecidableEq K]

/-- `entry(k).or_default().push(v)`. -/
def mpush (k : K) (v : V) : List (K × List V) → List (K × List V)
  | [] => [(k, [v])]
  | (k', vs) :: m => if k' = k then (k', vs ++ [v]) :: m else (k', vs) :: mpush k v m

/-- Filling a multi-map. -/
def mgroup (l : List (K × V)) : List (K × List V) := l.foldl (fun m p => mpush p.1 p.2 m) []

/-- The values recorded under a key. -/
def mvals (k : K) (l : List (K × V)) : List V := (l.filter (fun p => decide (p.1 = k))).map Prod.snd

/-- `Itertools::unique`: keep first occurrences. -/
def uniq (l : List K) : List K := l.foldl (fun acc x => if x ∈ acc then acc else acc ++ [x]) []

theorem mpush_keys (k : K) (v : V) (m : List (K × List V)) :
    (mpush k v m).map Prod.fst = if k ∈ m.map Prod.fst then m.map Prod.fst else m.map Prod.fst ++ [k] := by
  induction m with
  | nil => simp [mpush]
  | cons p m ih =>
    obtain ⟨k', vs⟩ := p
    simp only [mpush]
    by_cases h : k' = k
    · simp [h]
    · rw [if_neg h]
      simp only [List.map_cons, ih, List.mem_cons, Ne.symm h, false_or]
      split <;> simp

theorem mpush_nodup (k : K) (v : V) (m : List (K × List V)) (h : (m.map Prod.fst).Nodup) :
    ((mpush k v m).map Prod.fst).Nodup := by
  rw [mpush_keys]
  split
  · exact h
  · rename_i hk
    rw [List.nodup_append]
    exact ⟨h, by simp, by intro a ha b hb; simp at hb; rintro rfl; exact hk (hb ▸ ha)⟩

theorem mpush_mem (k : K) (v : V) (m : List (K × List V)) (h : (m.map Prod.fst).Nodup) (q : K × List V) :
    q ∈ mpush k v m ↔ (q.1 ≠ k ∧ q ∈ m) ∨
      (q.1 = k ∧ ((∃ vs, (k, vs) ∈ m ∧ q.2 = vs ++ [v]) ∨ (k ∉ m.map Prod.fst ∧ q.2 = [v]))) := by
  induction m with
  | nil =>
    obtain ⟨a, b⟩ := q
    simp [mpush]
  | cons p m ih =>
    obtain ⟨k', vs⟩ := p
    obtain ⟨a, b⟩ := q
    simp only [List.map_cons, List.nodup_cons] at h
    simp only [mpush]
    by_cases hk : k' = k
    · subst hk
      rw [if_pos rfl]
      simp only [List.mem_cons, Prod.mk.injEq, List.map_cons, true_or, not_true_eq_false, false_and, or_false, true_and]
      constructor
      · rintro (⟨rfl, rfl⟩ | hm)
        · exact .inr ⟨rfl, vs, .inl rfl, rfl⟩
        · left
          refine ⟨?_, .inr hm⟩
          rintro rfl; exact h.1 (List.mem_map_of_mem hm)
      · rintro (⟨hne, ⟨rfl, _⟩ | hm⟩ | ⟨rfl, vs', hv | hv, rfl⟩)
        · exact absurd rfl hne
        · exact .inr hm
        · subst hv; exact .inl ⟨rfl, rfl⟩
        · exact absurd (List.mem_map_of_mem hv) h.1
    · rw [if_neg hk]
      have ih := ih h.2
      simp only [List.mem_cons, ih, Prod.mk.injEq, List.map_cons, Ne.symm hk, false_or, false_and]
      constructor
      · rintro (⟨rfl, rfl⟩ | ⟨h1, h2⟩ | h3)
        · exact .inl ⟨hk, .inl ⟨rfl, rfl⟩⟩
        · exact .inl ⟨h1, .inr h2⟩
        · exact .inr h3
      · rintro (⟨h1, ⟨rfl, rfl⟩ | h2⟩ | h3)
        · exact .inl ⟨rfl, rfl⟩
        · exact .inr (.inl ⟨h1, h2⟩)
        · exact .inr (.inr h3)

theorem mvals_append (k : K) (l : List (K × V)) (p : K × V) :
    mvals k (l ++ [p]) = if p.1 = k then mvals k l ++ [p.2] else mvals k l := by
  unfold mvals
  by_cases h : p.1 = k <;> simp [h]

theorem mem_keys_mvals (k : K) (l : List (K × V)) : k ∈ l.map Prod.fst ↔ mvals k l ≠ [] := by
  unfold mvals
  simp only [ne_eq, List.map_eq_nil_iff, List.filter_eq_nil_iff, decide_eq_true_eq, List.mem_map]
  constructor
  · rintro ⟨p, hp, rfl⟩ h; exact h p hp rfl
  · intro h
    simp only [Classical.not_forall, Classical.not_not] at h
    obtain ⟨p, hp, hk⟩ := h
    exact ⟨p, hp, hk⟩

theorem mgroup_spec (l : List (K × V)) : ((mgroup l).map Prod.fst).Nodup ∧
    ∀ k vs, (k, vs) ∈ mgroup l ↔ vs = mvals k l ∧ vs ≠ [] := by
  suffices H : ∀ (l done : List (K × V)) (m : List (K × List V)),
      (m.map Prod.fst).Nodup → (∀ k vs, (k, vs) ∈ m ↔ vs = mvals k done ∧ vs ≠ []) →
      ((l.foldl (fun m p => mpush p.1 p.2 m) m).map Prod.fst).Nodup ∧
      ∀ k vs, (k, vs) ∈ l.foldl (fun m p => mpush p.1 p.2 m) m ↔ vs = mvals k (done ++ l) ∧ vs ≠ [] by
    have := H l [] [] (by simp) (by
      intro k vs
      simp only [List.not_mem_nil, false_iff, mvals, List.filter_nil, List.map_nil, not_and]
      intro h h'; exact h' h)
    simpa [mgroup] using this
  intro l
  induction l with
  | nil => intro done m h1 h2; simpa using ⟨h1, h2⟩
  | cons p l ih =>
    intro done m h1 h2
    simp only [List.foldl_cons]
    have := ih (done ++ [p]) (mpush p.1 p.2 m) (mpush_nodup _ _ _ h1) ?_
    · simpa using this
    · intro k vs
      rw [mpush_mem _ _ _ h1]
      simp only
      rw [mvals_append]
      by_cases hk : p.1 = k
      · subst hk
        rw [if_pos rfl]
        simp only [ne_eq, not_true_eq_false, false_and, false_or, true_and]
        constructor
        · rintro (⟨vs', h3, rfl⟩ | ⟨h3, rfl⟩)
          · have := (h2 _ _).1 h3; rw [this.1]; simp
          · have hv : mvals p.1 done = [] := by
              refine Classical.byContradiction fun hne => h3 ?_
              exact List.mem_map.2 ⟨(p.1, mvals p.1 done), (h2 _ _).2 ⟨rfl, hne⟩, rfl⟩
            simp [hv]
        · rintro ⟨rfl, _⟩
          by_cases hv : mvals p.1 done = []
          · right
            refine ⟨?_, by simp [hv]⟩
            intro hmem
            obtain ⟨⟨k', vs'⟩, h3, h4⟩ := List.mem_map.1 hmem
            simp only at h4; subst h4
            have := (h2 _ _).1 h3
            exact this.2 (this.1.trans hv)
          · exact .inl ⟨_, (h2 _ _).2 ⟨rfl, hv⟩, rfl⟩
      · rw [if_neg hk]
        simp only [ne_eq, Ne.symm hk, not_false_eq_true, true_and, false_and, or_false]
        exact h2 k vs

theorem uniq_spec (l : List K) : (uniq l).Nodup ∧ ∀ x, x ∈ uniq l ↔ x ∈ l := by
  suffices H : ∀ (l acc : List K), acc.Nodup →
      (l.foldl (fun acc x => if x ∈ acc then acc else acc ++ [x]) acc).Nodup ∧
      ∀ x, x ∈ l.foldl (fun acc x => if x ∈ acc then acc else acc ++ [x]) acc ↔ x ∈ acc ∨ x ∈ l by
    have := H l [] (by simp); simpa [uniq] using this
  intro l
  induction l with
  | nil => intro acc h; simpa using h
  | cons a l ih =>
    intro acc h
    simp only [List.foldl_cons]
    by_cases ha : a ∈ acc
    · rw [if_pos ha]
      refine ⟨(ih acc h).1, fun x => ?_⟩
      rw [(ih acc h).2]
      simp only [List.mem_cons]
      constructor
      · rintro (h | h)
        · exact .inl h
        · exact .inr (.inr h)
      · rintro (h | rfl | h)
        · exact .inl h
        · exact .inl ha
        · exact .inr h
    · rw [if_neg ha]
      have hn : (acc ++ [a]).Nodup := by
        rw [List.nodup_append]
        exact ⟨h, by simp, by intro x hx y hy; simp at hy; rintro rfl; exact ha (hy ▸ hx)⟩
      refine ⟨(ih _ hn).1, fun x => ?_⟩
      rw [(ih _ hn).2]
      simp [or_assoc]

end Verif.Util
