import Verif.Engine.Cache
/-
What a bounded cache remembers, over every history of uses (C165).
-/
namespace Verif.Engine.Lru
variable {K V : Type} [DecidableEq K]

/-- A use of the cache. -/
inductive Use (K V : Type) where
  | get (k : K)
  | peek (k : K)
  | put (k : K) (v : V)

/-- The key a use counts for; looking without using counts for none. -/
def Use.key : Use K V → Option K
  | .get k => some k
  | .peek _ => none
  | .put k _ => some k

/-- The cache after a use. -/
def step (cap : Nat) (c : Lru K V) : Use K V → Lru K V
  | .get k => (get k c).2
  | .peek _ => c
  | .put k v => put cap k v c

/-- The cache after a history, from the empty cache. -/
def after (cap : Nat) (us : List (Use K V)) : Lru K V := us.foldl (step cap) []

/-- The use stores something under the key. -/
def Use.Stores (k : K) : Use K V → Prop
  | .put k' _ => k' = k
  | _ => False

/-- At most `n` different keys satisfy `p`. -/
def AtMost (n : Nat) (p : K → Prop) : Prop := ∃ ks : List K, ks.length ≤ n ∧ ∀ k, p k → k ∈ ks

/-! ### Elementary facts -/

theorem peek_some_mem {k : K} {v : V} {c : Lru K V} (h : peek k c = some v) : (k, v) ∈ c := by
  induction c with
  | nil => simp [peek] at h
  | cons p c ih =>
    simp only [peek] at h
    split at h
    · rename_i e; cases h; subst e; simp
    · exact List.mem_cons_of_mem _ (ih h)

theorem peek_none_iff {k : K} {c : Lru K V} : peek k c = none ↔ k ∉ c.map Prod.fst := by
  induction c with
  | nil => simp [peek]
  | cons p c ih =>
    simp only [peek, List.map_cons, List.mem_cons, not_or]
    split
    · rename_i e; simp [e]
    · rename_i e; rw [ih]; exact ⟨fun h => ⟨fun h' => e h'.symm, h⟩, fun h => h.2⟩

theorem peek_of_mem {k : K} {v : V} {c : Lru K V} (hn : (c.map Prod.fst).Nodup) (h : (k, v) ∈ c) :
    peek k c = some v := by
  induction c with
  | nil => simp at h
  | cons p c ih =>
    simp only [List.map_cons, List.nodup_cons] at hn
    simp only [peek]
    rcases List.mem_cons.1 h with rfl | h
    · simp
    · split
      · rename_i e
        exact absurd (List.mem_map.2 ⟨(k, v), h, rfl⟩) (e ▸ hn.1)
      · exact ih hn.2 h

theorem without_keys (k : K) (c : Lru K V) : (without k c).map Prod.fst = (c.map Prod.fst).filter (fun x => decide (x ≠ k)) := by
  unfold without
  rw [List.filter_map]
  rfl

theorem without_nodup {k : K} {c : Lru K V} (h : (c.map Prod.fst).Nodup) : ((without k c).map Prod.fst).Nodup := by
  rw [without_keys]; exact h.filter _

theorem front_nodup {k : K} {v : V} {c : Lru K V} (h : (c.map Prod.fst).Nodup) :
    (((k, v) :: without k c).map Prod.fst).Nodup := by
  simp only [List.map_cons, List.nodup_cons]
  exact ⟨by rw [without_keys]; simp, without_nodup h⟩

theorem without_length_lt {k : K} {c : Lru K V} (h : k ∈ c.map Prod.fst) : (without k c).length < c.length := by
  unfold without
  obtain ⟨p, hp, e⟩ := List.mem_map.1 h
  exact List.length_filter_lt_length_iff_exists.2 ⟨p, hp, by simp [e]⟩

/-- The keys are distinct and there are at most `cap`. -/
def Ok (cap : Nat) (c : Lru K V) : Prop := (c.map Prod.fst).Nodup ∧ c.length ≤ cap

theorem ok_nil (cap : Nat) : Ok cap ([] : Lru K V) := by simp [Ok]

theorem ok_get {cap : Nat} {k : K} {c : Lru K V} (h : Ok cap c) : Ok cap (get k c).2 := by
  unfold get
  cases hp : peek k c with
  | none => exact h
  | some v =>
    refine ⟨front_nodup h.1, ?_⟩
    have := without_length_lt (k := k) (c := c) (List.mem_map.2 ⟨_, peek_some_mem hp, rfl⟩)
    have := h.2
    simp only [List.length_cons]; omega

theorem ok_put {cap : Nat} {k : K} {v : V} {c : Lru K V} (h : Ok cap c) : Ok cap (put cap k v c) := by
  unfold put
  refine ⟨?_, by simp; omega⟩
  rw [List.map_take]
  exact (front_nodup h.1).sublist (List.take_sublist _ _)

theorem ok_step {cap : Nat} {c : Lru K V} (u : Use K V) (h : Ok cap c) : Ok cap (step cap c u) := by
  cases u with
  | get k => exact ok_get h
  | peek k => exact h
  | put k v => exact ok_put h

theorem ok_run {cap : Nat} (us : List (Use K V)) {c : Lru K V} (h : Ok cap c) : Ok cap (us.foldl (step cap) c) := by
  induction us generalizing c with
  | nil => exact h
  | cons u us ih => exact ih (ok_step u h)

theorem peek_without {k k' : K} (h : k ≠ k') (c : Lru K V) : peek k (without k' c) = peek k c := by
  induction c with
  | nil => rfl
  | cons p c ih =>
    simp only [without, List.filter_cons] at ih ⊢
    by_cases e : p.1 = k'
    · simp only [e, ne_eq, not_true_eq_false, decide_false, Bool.false_eq_true, ↓reduceIte, peek]
      rw [if_neg (fun h' => h h'.symm)]; exact ih
    · simp only [e, ne_eq, not_false_eq_true, decide_true, ↓reduceIte, peek]
      split
      · rfl
      · exact ih

theorem get_fst (k : K) (c : Lru K V) : (get k c).1 = peek k c := by
  unfold get; cases peek k c <;> rfl

theorem peek_get (k k' : K) (c : Lru K V) : peek k (get k' c).2 = peek k c := by
  unfold get
  cases hp : peek k' c with
  | none => rfl
  | some v =>
    simp only [peek]
    split
    · rename_i e; subst e; exact hp.symm
    · rename_i e; exact peek_without (fun h => e h.symm) c

theorem peek_take_some {k : K} {v : V} {c : Lru K V} {n : Nat} (h : peek k (c.take n) = some v) :
    peek k c = some v := by
  induction c generalizing n with
  | nil => simp [peek] at h
  | cons p c ih =>
    cases n with
    | zero => simp [peek] at h
    | succ n =>
      simp only [List.take_succ_cons, peek] at h ⊢
      split at h
      · rename_i e; rw [if_pos e]; exact h
      · rename_i e; rw [if_neg e]; exact ih h

theorem peek_put_self {cap : Nat} (hc : 0 < cap) (k : K) (v : V) (c : Lru K V) : peek k (put cap k v c) = some v := by
  unfold put
  obtain ⟨n, rfl⟩ : ∃ n, cap = n + 1 := ⟨cap - 1, by omega⟩
  simp [peek]

theorem peek_put_other {cap : Nat} {k k' : K} {v v' : V} {c : Lru K V} (h : k ≠ k')
    (hp : peek k (put cap k' v' c) = some v) : peek k c = some v := by
  have := peek_take_some hp
  simp only [peek] at this
  rw [if_neg (fun e => h e.symm), peek_without h] at this
  exact this

theorem mem_put {cap : Nat} {k : K} {v : V} {c : Lru K V} {p : K × V} (h : p ∈ put cap k v c) :
    p = (k, v) ∨ p ∈ c := by
  have := List.mem_of_mem_take h
  rcases List.mem_cons.1 this with h | h
  · exact .inl h
  · exact .inr (List.mem_filter.1 h).1

theorem mem_get {k : K} {c : Lru K V} {p : K × V} : p ∈ (get k c).2 → p ∈ c := by
  unfold get
  cases hp : peek k c with
  | none => exact id
  | some v =>
    intro h
    rcases List.mem_cons.1 h with h | h
    · rw [h]; exact peek_some_mem hp
    · exact (List.mem_filter.1 h).1

/-! ### Remembered values -/

/-- C165: the cache never holds more entries than it may, and one per key. -/
theorem bounded (cap : Nat) (us : List (Use K V)) :
    (after cap us).length ≤ cap ∧ ((after cap us).map Prod.fst).Nodup :=
  ⟨(ok_run us (ok_nil cap)).2, (ok_run us (ok_nil cap)).1⟩

theorem latest_from (cap : Nat) (us : List (Use K V)) (k : K) (v : V) : ∀ c : Lru K V,
    peek k (us.foldl (step cap) c) = some v →
    (∃ us₁ us₂, us = us₁ ++ .put k v :: us₂ ∧ ∀ u ∈ us₂, ¬ u.Stores k) ∨
    (peek k c = some v ∧ ∀ u ∈ us, ¬ u.Stores k) := by
  induction us with
  | nil => intro c h; exact .inr ⟨h, by simp⟩
  | cons u us ih =>
    intro c h
    rcases ih _ h with ⟨us₁, us₂, e, hn⟩ | ⟨hp, hn⟩
    · exact .inl ⟨u :: us₁, us₂, by simp [e], hn⟩
    · have other : ¬ u.Stores k → peek k c = some v →
          (∃ us₁ us₂, u :: us = us₁ ++ .put k v :: us₂ ∧ ∀ u ∈ us₂, ¬ u.Stores k) ∨
          (peek k c = some v ∧ ∀ x ∈ u :: us, ¬ x.Stores k) := fun hu hc =>
        .inr ⟨hc, fun x hx => by
          rcases List.mem_cons.1 hx with rfl | hx
          · exact hu
          · exact hn x hx⟩
      cases u with
      | get k' => exact other (by simp [Use.Stores]) (by simpa [step, peek_get] using hp)
      | peek k' => exact other (by simp [Use.Stores]) hp
      | put k' v' =>
        by_cases e : k' = k
        · subst e
          have h1 := peek_take_some hp
          simp only [peek, ↓reduceIte, Option.some.injEq] at h1
          subst h1
          exact .inl ⟨[], us, rfl, hn⟩
        · exact other (by simpa [Use.Stores] using e) (peek_put_other (fun h => e h.symm) hp)

/-- C165: what the cache answers for a key is what was last stored under it. -/
theorem answers_latest (cap : Nat) (us : List (Use K V)) (k : K) (v : V) (h : peek k (after cap us) = some v) :
    ∃ us₁ us₂, us = us₁ ++ .put k v :: us₂ ∧ ∀ u ∈ us₂, ¬ u.Stores k := by
  rcases latest_from cap us k v [] h with h | ⟨h, _⟩
  · exact h
  · simp [peek] at h

/-! ### How long a value is remembered -/

/-- The keys used more recently than `k`. -/
def ahead (k : K) : Lru K V → List K
  | [] => []
  | p :: c => if p.1 = k then [] else p.1 :: ahead k c

theorem ahead_sublist (k : K) (c : Lru K V) : (ahead k c).Sublist (c.map Prod.fst) := by
  induction c with
  | nil => simp [ahead]
  | cons p c ih =>
    simp only [ahead, List.map_cons]
    split
    · exact List.nil_sublist _
    · exact ih.cons_cons _

theorem mem_ahead_without {k k' x : K} (hk : k ≠ k') {c : Lru K V} :
    x ∈ ahead k (without k' c) ↔ x ∈ ahead k c ∧ x ≠ k' := by
  induction c with
  | nil => simp [without, ahead]
  | cons p c ih =>
    simp only [without, List.filter_cons] at ih ⊢
    simp only [ahead]
    by_cases e : p.1 = k'
    · rw [if_neg (by simp [e]), ih, if_neg (fun h => hk (h.symm.trans e))]
      constructor
      · exact fun h => ⟨List.mem_cons_of_mem _ h.1, h.2⟩
      · rintro ⟨h, hx⟩
        rcases List.mem_cons.1 h with rfl | h
        · exact absurd e hx
        · exact ⟨h, hx⟩
    · rw [if_pos (by simp [e])]
      simp only [ahead]
      by_cases e2 : p.1 = k
      · simp [e2]
      · rw [if_neg e2, if_neg e2]
        simp only [List.mem_cons, ih]
        constructor
        · rintro (rfl | h)
          · exact ⟨.inl rfl, e⟩
          · exact ⟨.inr h.1, h.2⟩
        · rintro ⟨rfl | h, hx⟩
          · exact .inl rfl
          · exact .inr ⟨h, hx⟩

theorem nodup_length_le {l ks : List K} (hn : l.Nodup) (hs : ∀ x ∈ l, x ∈ ks) : l.length ≤ ks.length := by
  induction l generalizing ks with
  | nil => simp
  | cons a l ih =>
    simp only [List.nodup_cons] at hn
    have ha := hs a (by simp)
    have := ih (ks := ks.erase a) hn.2 (fun x hx => (List.mem_erase_of_ne (fun e : x = a => hn.1 (e ▸ hx))).2
      (hs x (List.mem_cons_of_mem _ hx)))
    rw [List.length_erase_of_mem ha] at this
    have hpos : 0 < ks.length := List.length_pos_of_mem ha
    simp only [List.length_cons]; omega

theorem peek_take {k : K} {c : Lru K V} {n : Nat} (h : (ahead k c).length < n) : peek k (c.take n) = peek k c := by
  induction c generalizing n with
  | nil => simp
  | cons p c ih =>
    obtain ⟨m, rfl⟩ : ∃ m, n = m + 1 := ⟨n - 1, by omega⟩
    simp only [List.take_succ_cons, peek, ahead] at h ⊢
    split
    · rfl
    · rename_i e
      rw [if_neg e] at h
      simp only [List.length_cons] at h
      exact ih (by omega)

theorem ahead_take {k x : K} {c : Lru K V} {n : Nat} (h : x ∈ ahead k (c.take n)) : x ∈ ahead k c := by
  induction c generalizing n with
  | nil => simp [ahead] at h
  | cons p c ih =>
    cases n with
    | zero => simp [ahead] at h
    | succ n =>
      simp only [List.take_succ_cons, ahead] at h ⊢
      split
      · rename_i e; rw [if_pos e] at h; exact h
      · rename_i e
        rw [if_neg e] at h
        rcases List.mem_cons.1 h with rfl | h
        · simp
        · exact List.mem_cons_of_mem _ (ih h)

theorem keep_step {cap : Nat} {k : K} {v : V} {ks : List K} (hlen : ks.length < cap) {c : Lru K V} (hok : Ok cap c)
    (hp : peek k c = some v) (ha : ∀ x ∈ ahead k c, x ∈ ks) (u : Use K V) (hs : ¬ u.Stores k)
    (hu : ∀ x, u.key = some x → x ≠ k → x ∈ ks) :
    peek k (step cap c u) = some v ∧ ∀ x ∈ ahead k (step cap c u), x ∈ ks := by
  cases u with
  | peek k' => exact ⟨hp, ha⟩
  | get k' =>
    refine ⟨by simpa [step, peek_get] using hp, ?_⟩
    simp only [step, get]
    cases hq : peek k' c with
    | none => exact ha
    | some v' =>
      simp only [ahead]
      split
      · simp
      · rename_i e
        intro x hx
        rcases List.mem_cons.1 hx with rfl | hx
        · exact hu _ rfl e
        · exact ha x ((mem_ahead_without (fun h => e h.symm)).1 hx).1
  | put k' v' =>
    have e : k' ≠ k := hs
    have hsub : ∀ x ∈ ahead k ((k', v') :: without k' c), x ∈ ks := by
      simp only [ahead]
      rw [if_neg e]
      intro x hx
      rcases List.mem_cons.1 hx with rfl | hx
      · exact hu _ rfl e
      · exact ha x ((mem_ahead_without (fun h => e h.symm)).1 hx).1
    have hnd : (ahead k ((k', v') :: without k' c)).Nodup := (front_nodup hok.1).sublist (ahead_sublist _ _)
    have hl := nodup_length_le hnd hsub
    refine ⟨?_, fun x hx => hsub x (ahead_take hx)⟩
    show peek k (put cap k' v' c) = some v
    unfold put
    rw [peek_take (by omega)]
    simp only [peek]
    rw [if_neg e, peek_without (fun h => e h.symm)]
    exact hp

theorem keep_run {cap : Nat} {k : K} {v : V} {ks : List K} (hlen : ks.length < cap) (us : List (Use K V)) :
    ∀ c : Lru K V, Ok cap c → peek k c = some v → (∀ x ∈ ahead k c, x ∈ ks) → (∀ u ∈ us, ¬ u.Stores k) →
    (∀ u ∈ us, ∀ x, u.key = some x → x ≠ k → x ∈ ks) → peek k (us.foldl (step cap) c) = some v := by
  induction us with
  | nil => intro c _ hp _ _ _; exact hp
  | cons u us ih =>
    intro c hok hp ha hs hu
    have := keep_step hlen hok hp ha u (hs u (by simp)) (hu u (by simp))
    exact ih _ (ok_step u hok) this.1 this.2 (fun x hx => hs x (by simp [hx])) (fun x hx => hu x (by simp [hx]))

/-- C165: a stored value is remembered as long as fewer than `cap` other keys have been used since. -/
theorem remembered (cap n : Nat) (us₁ us₂ : List (Use K V)) (k : K) (v : V) (hn : n < cap)
    (hs : ∀ u ∈ us₂, ¬ u.Stores k) (hu : AtMost n fun x => x ≠ k ∧ ∃ u ∈ us₂, u.key = some x) :
    peek k (after cap (us₁ ++ .put k v :: us₂)) = some v := by
  obtain ⟨ks, hl, hks⟩ := hu
  unfold after
  rw [List.foldl_append, List.foldl_cons]
  have h1 : Ok cap (us₁.foldl (step cap) ([] : Lru K V)) := ok_run us₁ (ok_nil cap)
  refine keep_run (ks := ks) (by omega) us₂ _ (ok_step _ h1) (peek_put_self (by omega) k v _) ?_ hs
    (fun u hu x hx hne => hks x ⟨hne, u, hu, hx⟩)
  intro x hx
  have := ahead_take hx
  simp [ahead] at this

/-- C165: a value that is found counts as just stored: it is remembered as long as fewer than `cap` other keys have been
used since. -/
theorem refreshed (cap n : Nat) (us₁ us₂ : List (Use K V)) (k : K) (v : V) (hn : n < cap)
    (hp : peek k (after cap us₁) = some v) (hs : ∀ u ∈ us₂, ¬ u.Stores k)
    (hu : AtMost n fun x => x ≠ k ∧ ∃ u ∈ us₂, u.key = some x) :
    peek k (after cap (us₁ ++ .get k :: us₂)) = some v := by
  obtain ⟨ks, hl, hks⟩ := hu
  have h1 : Ok cap (after cap us₁) := ok_run us₁ (ok_nil cap)
  unfold after at hp h1 ⊢
  rw [List.foldl_append, List.foldl_cons]
  refine keep_run (ks := ks) (by omega) us₂ _ (ok_step _ h1) (by simpa [step, peek_get] using hp) ?_ hs
    (fun u hu x hx hne => hks x ⟨hne, u, hu, hx⟩)
  intro x hx
  simp [step, get, hp, ahead] at hx

theorem ahead_take_all {k : K} {c : Lru K V} {n : Nat} (h : (peek k (c.take n)).isSome = true) :
    ahead k (c.take n) = ahead k c := by
  induction c generalizing n with
  | nil => simp
  | cons p c ih =>
    cases n with
    | zero => simp [peek] at h
    | succ n =>
      simp only [List.take_succ_cons, ahead, peek] at h ⊢
      split
      · rfl
      · rename_i e
        rw [if_neg e] at h
        rw [ih h]

theorem drop_run {cap : Nat} {k : K} (us : List (Use K V)) : ∀ (c : Lru K V) (ks : List K),
    Ok cap c → ((peek k c).isSome = true → ∀ x ∈ ks, x ∈ ahead k c) → (∀ u ∈ us, u.key ≠ some k) →
    (peek k (us.foldl (step cap) c)).isSome = true →
    ∀ x, (x ∈ ks ∨ ∃ u ∈ us, u.Stores x) → x ∈ ahead k (us.foldl (step cap) c) := by
  induction us with
  | nil =>
    intro c ks _ h _ hp x hx
    rcases hx with hx | ⟨u, hu, _⟩
    · exact h hp x hx
    · simp at hu
  | cons u us ih =>
    intro c ks hok h hk hp x hx
    have hkey := hk u (by simp)
    have hrest : ∀ u ∈ us, u.key ≠ some k := fun x hx => hk x (by simp [hx])
    cases u with
    | peek k' =>
      refine ih c ks hok h hrest hp x ?_
      rcases hx with hx | ⟨u, hu, hs⟩
      · exact .inl hx
      · rcases List.mem_cons.1 hu with rfl | hu
        · simp [Use.Stores] at hs
        · exact .inr ⟨u, hu, hs⟩
    | get k' =>
      have e : k' ≠ k := fun h => hkey (by simp [Use.key, h])
      refine ih _ ks (ok_step _ hok) ?_ hrest hp x ?_
      · simp only [step, peek_get]
        intro hc y hy
        have hy' := h hc y hy
        simp only [get]
        cases hq : peek k' c with
        | none => exact hy'
        | some v' =>
          simp only [ahead]
          rw [if_neg e]
          by_cases ey : y = k'
          · simp [ey]
          · exact List.mem_cons_of_mem _ ((mem_ahead_without (fun h => e h.symm)).2 ⟨hy', ey⟩)
      · rcases hx with hx | ⟨u, hu, hs⟩
        · exact .inl hx
        · rcases List.mem_cons.1 hu with rfl | hu
          · simp [Use.Stores] at hs
          · exact .inr ⟨u, hu, hs⟩
    | put k' v' =>
      have e : k' ≠ k := fun h => hkey (by simp [Use.key, h])
      refine ih _ (k' :: ks) (ok_step _ hok) ?_ hrest hp x ?_
      · simp only [step, put]
        intro hc y hy
        rw [ahead_take_all hc]
        have hc' : (peek k c).isSome = true := by
          obtain ⟨w, hw⟩ := Option.isSome_iff_exists.1 hc
          have := peek_put_other (cap := cap) (fun h => e h.symm) hw
          simp [this]
        simp only [ahead]
        rw [if_neg e]
        by_cases ey : y = k'
        · simp [ey]
        · rcases List.mem_cons.1 hy with hy | hy
          · exact absurd hy ey
          · exact List.mem_cons_of_mem _ ((mem_ahead_without (fun h => e h.symm)).2 ⟨h hc' y hy, ey⟩)
      · rcases hx with hx | ⟨u, hu, hs⟩
        · exact .inl (by simp [hx])
        · rcases List.mem_cons.1 hu with rfl | hu
          · exact .inl (by simp [Use.Stores] at hs; simp [hs])
          · exact .inr ⟨u, hu, hs⟩

theorem ahead_lt {k : K} {c : Lru K V} (h : (peek k c).isSome = true) : (ahead k c).length < c.length := by
  induction c with
  | nil => simp [peek] at h
  | cons p c ih =>
    simp only [ahead, peek] at h ⊢
    split
    · simp
    · rename_i e
      rw [if_neg e] at h
      have := ih h
      simp only [List.length_cons]; omega

/-- C165: a value is forgotten once `cap` other keys have been stored without the key being used. -/
theorem forgotten (cap : Nat) (us₁ us₂ : List (Use K V)) (k : K) (ks : List K) (hn : ks.Nodup) (hl : cap ≤ ks.length)
    (hk : ∀ u ∈ us₂, u.key ≠ some k) (hs : ∀ x ∈ ks, ∃ u ∈ us₂, u.Stores x) :
    peek k (after cap (us₁ ++ us₂)) = none := by
  cases hp : peek k (after cap (us₁ ++ us₂)) with
  | none => rfl
  | some v =>
    have hok : Ok cap (after cap (us₁ ++ us₂)) := ok_run _ (ok_nil cap)
    have h1 : (peek k (after cap (us₁ ++ us₂))).isSome = true := by simp [hp]
    have hlt := ahead_lt h1
    have hsub : ∀ x ∈ ks, x ∈ ahead k (after cap (us₁ ++ us₂)) := by
      intro x hx
      unfold after at h1 ⊢
      rw [List.foldl_append] at h1 ⊢
      exact drop_run us₂ _ [] (ok_run us₁ (ok_nil cap)) (by simp) hk h1 x (.inr (hs x hx))
    have := nodup_length_le hn hsub
    have := hok.2
    omega

/-- With two places, the third key drops the one not used for longest: a use keeps the first alive. -/
example :
    let us : List (Use String Nat) := [.put "a" 1, .put "b" 2, .get "a", .put "c" 3]
    peek "a" (after 2 us) = some 1 ∧ peek "b" (after 2 us) = none ∧ peek "c" (after 2 us) = some 3 := by decide

/-- `remembered` applies: one other key is used after `a` was stored. -/
example : peek "a" (after 2 ([.put "b" 0] ++ .put "a" 1 :: [.put "c" 3, .get "c", .peek "d"])) = some 1 :=
  remembered 2 1 _ _ "a" 1 (by decide) (by simp [Use.Stores]) ⟨["c"], by decide, by
    rintro x ⟨_, u, hu, hx⟩
    simp only [List.mem_cons, List.not_mem_nil, or_false] at hu
    rcases hu with rfl | rfl | rfl <;> simp_all [Use.key]⟩

/-- `forgotten` applies: two other keys are stored; looking does not keep `a` alive. -/
example : peek "a" (after 2 ([.put "a" 1] ++ [.put "b" 0, .peek "a", .put "c" 3])) = none :=
  forgotten 2 _ _ "a" ["b", "c"] (by decide) (by decide) (by simp [Use.key]) (by simp [Use.Stores])

end Verif.Engine.Lru
