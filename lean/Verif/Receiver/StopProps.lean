import Verif.Receiver.Props
/-
Stopping the receiver: who gets the report, and that the command ends (C187 to C190).
-/
namespace Verif.Receiver

variable {α : Type}

/-! ### The invariant of the `/stop` requests -/

structure HInv (http : Bool) (hs : List Handler) (slot : Option Nat) (handed trigger : Bool) : Prop where
  slotWaits : ∀ (i : Nat), slot = some i → ∃ h : Handler, hs[i]? = some h ∧ h.waits = true ∧ h.inbox = .empty
  slotLast : ∀ (i : Nat), slot = some i → ∀ (j : Nat) (h : Handler), i < j → hs[j]? = some h → h.waits = false
  dropped : ∀ (i : Nat) (h : Handler), hs[i]? = some h → h.inbox = .dropped → ∃ (j : Nat) (h' : Handler), i < j ∧ hs[j]? = some h' ∧ h'.waits = true
  report : ∀ (i : Nat) (h : Handler), hs[i]? = some h → h.inbox = .report → handed = true
  once : ∀ (i j : Nat) (h h' : Handler), hs[i]? = some h → hs[j]? = some h' → h.inbox = .report → h'.inbox = .report → i = j
  unwaits : ∀ (i : Nat) (h : Handler), hs[i]? = some h → h.waits = false → h.inbox = .empty ∧ h.phase ≠ .waiting
  triggered : ∀ (i : Nat) (h : Handler) (a : Answer), hs[i]? = some h → h.phase = .answered a → trigger = true
  ansOk : ∀ (i : Nat) (h : Handler), hs[i]? = some h → h.phase = .answered .ok → h.waits = false
  ansReport : ∀ (i : Nat) (h : Handler), hs[i]? = some h → h.phase = .answered .report → h.inbox = .report
  ansFailed : ∀ (i : Nat) (h : Handler), hs[i]? = some h → h.phase = .answered .failed → h.inbox = .dropped
  ansTimeout : ∀ (i : Nat) (h : Handler), hs[i]? = some h → h.phase = .answered .timeout → h.waits = true
  empty : ∀ (i : Nat) (h : Handler), hs[i]? = some h → h.waits = true → h.inbox = .empty → slot = some i ∨ handed = true
  waits : ∀ (i : Nat) (h : Handler), hs[i]? = some h → h.waits = true → http = true

theorem setPhase_get {i j : Nat} {p : Phase} {hs : List Handler} {h' : Handler} (h : (setPhase i p hs)[j]? = some h') :
    ∃ h : Handler, hs[j]? = some h ∧ h'.waits = h.waits ∧ h'.inbox = h.inbox ∧ ((j ≠ i ∧ h'.phase = h.phase) ∨ (j = i ∧ h'.phase = p)) := by
  unfold setPhase at h
  rw [List.getElem?_modify] at h
  obtain ⟨x, hx, h⟩ := Option.map_eq_some_iff.1 h
  refine ⟨x, hx, ?_⟩
  subst h
  by_cases hij : i = j
  · simp [hij]
  · rw [if_neg hij]; exact ⟨rfl, rfl, .inl ⟨fun h => hij h.symm, rfl⟩⟩

theorem get_setPhase {i j : Nat} {p : Phase} {hs : List Handler} {h : Handler} (hj : hs[j]? = some h) :
    ∃ h' : Handler, (setPhase i p hs)[j]? = some h' ∧ h'.waits = h.waits ∧ h'.inbox = h.inbox := by
  unfold setPhase
  rw [List.getElem?_modify, hj]
  refine ⟨_, rfl, ?_, ?_⟩ <;> split <;> rfl

theorem give_get {i j : Nat} {x : Inbox} {hs : List Handler} {h' : Handler} (h : (give i x hs)[j]? = some h') :
    ∃ h : Handler, hs[j]? = some h ∧ h'.waits = h.waits ∧ h'.phase = h.phase ∧
      (h' = h ∨ (j = i ∧ h.inbox = .empty ∧ h'.inbox = x)) := by
  unfold give at h
  rw [List.getElem?_modify] at h
  obtain ⟨y, hy, h⟩ := Option.map_eq_some_iff.1 h
  refine ⟨y, hy, ?_⟩
  subst h
  by_cases hij : i = j
  · rw [if_pos hij]
    split
    · rename_i he; exact ⟨rfl, rfl, .inr ⟨hij.symm, he, rfl⟩⟩
    · exact ⟨rfl, rfl, .inl rfl⟩
  · rw [if_neg hij]; exact ⟨rfl, rfl, .inl rfl⟩

theorem get_give {i j : Nat} {x : Inbox} {hs : List Handler} {h : Handler} (hj : hs[j]? = some h) :
    ∃ h' : Handler, (give i x hs)[j]? = some h' ∧ h'.waits = h.waits ∧ h'.phase = h.phase ∧
      h'.inbox = if i = j ∧ h.inbox = .empty then x else h.inbox := by
  unfold give
  rw [List.getElem?_modify, hj]
  refine ⟨_, rfl, ?_⟩
  dsimp only
  by_cases hij : i = j
  · rw [if_pos hij]
    split
    · rename_i he; exact ⟨rfl, rfl, by rw [if_pos ⟨hij, he⟩]⟩
    · rename_i he; exact ⟨rfl, rfl, by rw [if_neg (fun h => he h.2)]⟩
  · rw [if_neg hij]; exact ⟨rfl, rfl, by rw [if_neg (fun h => hij h.1)]⟩

/-- A request goes on. -/
theorem HInv.phase {http : Bool} {hs : List Handler} {slot : Option Nat} {handed trigger trigger' : Bool}
    (h : HInv http hs slot handed trigger) (i : Nat) (p : Phase) (ht : trigger = true → trigger' = true)
    (hp : ∀ x : Handler, hs[i]? = some x → (x.waits = false → p ≠ .waiting) ∧ (∀ a, p = .answered a → trigger' = true) ∧
      (p = .answered .ok → x.waits = false) ∧ (p = .answered .report → x.inbox = .report) ∧
      (p = .answered .failed → x.inbox = .dropped) ∧ (p = .answered .timeout → x.waits = true)) :
    HInv http (setPhase i p hs) slot handed trigger' where
  slotWaits j hj := by
    obtain ⟨x, h1, h2, h3⟩ := h.slotWaits j hj
    obtain ⟨y, h4, h5, h6⟩ := get_setPhase (i := i) (p := p) h1
    exact ⟨y, h4, by rw [h5, h2], by rw [h6, h3]⟩
  slotLast j hj k y hk hy := by
    obtain ⟨x, h1, h2, _⟩ := setPhase_get hy
    rw [h2]; exact h.slotLast j hj k x hk h1
  dropped j y hy hb := by
    obtain ⟨x, h1, _, h3, _⟩ := setPhase_get hy
    obtain ⟨k, z, h4, h5, h6⟩ := h.dropped j x h1 (by rw [← h3, hb])
    obtain ⟨z', h7, h8, _⟩ := get_setPhase (i := i) (p := p) h5
    exact ⟨k, z', h4, h7, by rw [h8, h6]⟩
  report j y hy hb := by
    obtain ⟨x, h1, _, h3, _⟩ := setPhase_get hy
    exact h.report j x h1 (by rw [← h3, hb])
  once j k y z hy hz hb hc := by
    obtain ⟨x, h1, _, h3, _⟩ := setPhase_get hy
    obtain ⟨x', h1', _, h3', _⟩ := setPhase_get hz
    exact h.once j k x x' h1 h1' (by rw [← h3, hb]) (by rw [← h3', hc])
  unwaits j y hy hw := by
    obtain ⟨x, h1, h2, h3, h4⟩ := setPhase_get hy
    obtain ⟨h5, h6⟩ := h.unwaits j x h1 (by rw [← h2, hw])
    refine ⟨by rw [h3, h5], ?_⟩
    rcases h4 with ⟨_, h4⟩ | ⟨rfl, h4⟩
    · rw [h4]; exact h6
    · rw [h4]; exact (hp x h1).1 (by rw [← h2, hw])
  triggered j y a hy ha := by
    obtain ⟨x, h1, h2, h3, h4⟩ := setPhase_get hy
    rcases h4 with ⟨_, h4⟩ | ⟨rfl, h4⟩
    · exact ht (h.triggered j x a h1 (by rw [← h4, ha]))
    · exact (hp x h1).2.1 a (by rw [← h4, ha])
  ansOk j y hy ha := by
    obtain ⟨x, h1, h2, h3, h4⟩ := setPhase_get hy
    rw [h2]
    rcases h4 with ⟨_, h4⟩ | ⟨rfl, h4⟩
    · exact h.ansOk j x h1 (by rw [← h4, ha])
    · exact (hp x h1).2.2.1 (by rw [← h4, ha])
  ansReport j y hy ha := by
    obtain ⟨x, h1, h2, h3, h4⟩ := setPhase_get hy
    rw [h3]
    rcases h4 with ⟨_, h4⟩ | ⟨rfl, h4⟩
    · exact h.ansReport j x h1 (by rw [← h4, ha])
    · exact (hp x h1).2.2.2.1 (by rw [← h4, ha])
  ansFailed j y hy ha := by
    obtain ⟨x, h1, h2, h3, h4⟩ := setPhase_get hy
    rw [h3]
    rcases h4 with ⟨_, h4⟩ | ⟨rfl, h4⟩
    · exact h.ansFailed j x h1 (by rw [← h4, ha])
    · exact (hp x h1).2.2.2.2.1 (by rw [← h4, ha])
  ansTimeout j y hy ha := by
    obtain ⟨x, h1, h2, h3, h4⟩ := setPhase_get hy
    rw [h2]
    rcases h4 with ⟨_, h4⟩ | ⟨rfl, h4⟩
    · exact h.ansTimeout j x h1 (by rw [← h4, ha])
    · exact (hp x h1).2.2.2.2.2 (by rw [← h4, ha])
  empty j y hy hw hb := by
    obtain ⟨x, h1, h2, h3, _⟩ := setPhase_get hy
    exact h.empty j x h1 (by rw [← h2, hw]) (by rw [← h3, hb])
  waits j y hy hw := by
    obtain ⟨x, h1, h2, _⟩ := setPhase_get hy
    exact h.waits j x h1 (by rw [← h2, hw])

/-- The report is given to the request in the slot, or lost; the slot is emptied. -/
theorem HInv.deliver {http : Bool} {hs : List Handler} {slot : Option Nat} {trigger : Bool}
    (h : HInv http hs slot false trigger) (hs' : List Handler)
    (hd : hs' = hs ∨ ∃ (i : Nat) (x : Handler), slot = some i ∧ hs[i]? = some x ∧ x.alive = true ∧ hs' = give i .report hs) :
    HInv http hs' none true trigger := by
  have none_report : ∀ (i : Nat) (x : Handler), hs[i]? = some x → x.inbox ≠ .report := fun i x hx hb => by
    have := h.report i x hx hb; cases this
  have get : ∀ (j : Nat) (y : Handler), hs'[j]? = some y → ∃ x : Handler, hs[j]? = some x ∧ y.waits = x.waits ∧ y.phase = x.phase ∧
      (y = x ∨ (slot = some j ∧ x.alive = true ∧ y.inbox = .report)) := by
    intro j y hy
    rcases hd with rfl | ⟨i, x, h1, h2, h3, rfl⟩
    · exact ⟨y, hy, rfl, rfl, .inl rfl⟩
    · obtain ⟨z, h4, h5, h6, h7⟩ := give_get hy
      refine ⟨z, h4, h5, h6, ?_⟩
      rcases h7 with h7 | ⟨rfl, _, h9⟩
      · exact .inl h7
      · rw [h2] at h4; injection h4 with h4; subst h4
        exact .inr ⟨h1, h3, h9⟩
  constructor
  · intro i hi; cases hi
  · intro i hi; cases hi
  · intro j y hy hb
    obtain ⟨x, h1, _, _, h4⟩ := get j y hy
    rcases h4 with rfl | ⟨_, _, h4⟩
    · obtain ⟨k, z, h5, h6, h7⟩ := h.dropped j _ h1 hb
      rcases hd with rfl | ⟨i, x, _, _, _, rfl⟩
      · exact ⟨k, z, h5, h6, h7⟩
      · obtain ⟨z', h8, h9, _⟩ := get_give (i := i) (x := .report) h6
        exact ⟨k, z', h5, h8, by rw [h9, h7]⟩
    · rw [h4] at hb; cases hb
  · intro _ _ _ _; rfl
  · intro j k y z hy hz hb hc
    obtain ⟨x, h1, _, _, h4⟩ := get j y hy
    obtain ⟨x', h1', _, _, h4'⟩ := get k z hz
    rcases h4 with rfl | ⟨h4, _, _⟩
    · exact absurd hb (none_report j _ h1)
    · rcases h4' with rfl | ⟨h4', _, _⟩
      · exact absurd hc (none_report k _ h1')
      · rw [h4] at h4'; injection h4'
  · intro j y hy hw
    obtain ⟨x, h1, h2, h3, h4⟩ := get j y hy
    obtain ⟨h5, h6⟩ := h.unwaits j x h1 (by rw [← h2, hw])
    refine ⟨?_, by rw [h3]; exact h6⟩
    rcases h4 with rfl | ⟨h4, _, _⟩
    · exact h5
    · obtain ⟨x', h7, h8, _⟩ := h.slotWaits j h4
      rw [h1] at h7; injection h7 with h7; subst h7
      rw [← h2, hw] at h8; cases h8
  · intro j y a hy ha
    obtain ⟨x, h1, h2, h3, h4⟩ := get j y hy
    exact h.triggered j x a h1 (by rw [← h3, ha])
  · intro j y hy ha
    obtain ⟨x, h1, h2, h3, h4⟩ := get j y hy
    rw [h2]; exact h.ansOk j x h1 (by rw [← h3, ha])
  · intro j y hy ha
    obtain ⟨x, h1, h2, h3, h4⟩ := get j y hy
    rcases h4 with rfl | ⟨_, h4, _⟩
    · exact h.ansReport j _ h1 ha
    · unfold Handler.alive at h4; rw [← h3, ha] at h4; cases h4
  · intro j y hy ha
    obtain ⟨x, h1, h2, h3, h4⟩ := get j y hy
    rcases h4 with rfl | ⟨_, h4, _⟩
    · exact h.ansFailed j _ h1 ha
    · unfold Handler.alive at h4; rw [← h3, ha] at h4; cases h4
  · intro j y hy ha
    obtain ⟨x, h1, h2, h3, h4⟩ := get j y hy
    rw [h2]; exact h.ansTimeout j x h1 (by rw [← h3, ha])
  · intro _ _ _ _ _; exact .inr rfl
  · intro j y hy hw
    obtain ⟨x, h1, h2, _⟩ := get j y hy
    exact h.waits j x h1 (by rw [← h2, hw])

theorem dropSlot_length (slot : Option Nat) (hs : List Handler) : (dropSlot slot hs).length = hs.length := by
  unfold dropSlot
  split
  · unfold give; simp
  · rfl

/-- A new request. -/
theorem HInv.arrive {http : Bool} {hs : List Handler} {slot : Option Nat} {handed trigger : Bool}
    (hs' : List Handler)
    (hd : hs' = dropSlot slot hs)
    (h : HInv http hs slot handed trigger) (hh : http = true) :
    HInv http (hs' ++ [{ waits := true }]) (some hs.length) handed trigger := by
  have len : hs'.length = hs.length := by
    rw [hd]; exact dropSlot_length _ _
  have get : ∀ (j : Nat) (y : Handler), (hs' ++ [({ waits := true } : Handler)])[j]? = some y →
      (j = hs.length ∧ y = { waits := true }) ∨ (j < hs.length ∧ ∃ x : Handler, hs[j]? = some x ∧ y.waits = x.waits ∧
        y.phase = x.phase ∧ ((y = x ∧ slot ≠ some j) ∨ (slot = some j ∧ x.inbox = .empty ∧ y.inbox = .dropped))) := by
    intro j y hy
    rcases Nat.lt_trichotomy j hs.length with hj | hj | hj
    · rw [List.getElem?_append_left (len ▸ hj)] at hy
      refine .inr ⟨hj, ?_⟩
      rw [hd] at hy
      unfold dropSlot at hy
      cases hsl : slot with
      | none => rw [hsl] at hy; exact ⟨y, hy, rfl, rfl, .inl ⟨rfl, by simp⟩⟩
      | some i =>
        rw [hsl] at hy
        obtain ⟨x, h1, h2, h3⟩ := h.slotWaits i hsl
        by_cases hij : i = j
        · subst hij
          obtain ⟨z, h4, h5, h6, h7⟩ := get_give (i := i) (x := .dropped) h1
          dsimp only at hy
          rw [h4] at hy; injection hy with hy; subst hy
          exact ⟨x, h1, h5, h6, .inr ⟨rfl, h3, by rw [h7, if_pos ⟨rfl, h3⟩]⟩⟩
        · obtain ⟨z, h4, h5, h6, h7⟩ := give_get hy
          refine ⟨z, h4, h5, h6, .inl ⟨?_, fun hx => hij (by injection hx)⟩⟩
          rcases h7 with h7 | ⟨h7, _⟩
          · exact h7
          · exact absurd h7.symm hij
    · subst hj
      rw [List.getElem?_append_right (Nat.le_of_eq len), len, Nat.sub_self] at hy
      injection hy with hy
      exact .inl ⟨rfl, hy.symm⟩
    · have hl : (hs' ++ [({ waits := true } : Handler)]).length ≤ j := by
        rw [List.length_append, len]; exact hj
      rw [List.getElem?_eq_none hl] at hy; cases hy
  have new : (hs' ++ [({ waits := true } : Handler)])[hs.length]? = some { waits := true } := by
    rw [List.getElem?_append_right (Nat.le_of_eq len), len, Nat.sub_self]; rfl
  constructor
  · intro i hi; injection hi with hi; subst hi
    exact ⟨_, new, rfl, rfl⟩
  · intro i hi j y hj hy; injection hi with hi; subst hi
    rcases get j y hy with ⟨h1, _⟩ | ⟨h1, _⟩ <;> omega
  · intro j y hy hb
    rcases get j y hy with ⟨_, h2⟩ | ⟨h1, _⟩
    · subst h2; cases hb
    · exact ⟨_, _, h1, new, rfl⟩
  · intro j y hy hb
    rcases get j y hy with ⟨_, h2⟩ | ⟨_, x, h1, _, _, h2⟩
    · subst h2; cases hb
    · rcases h2 with ⟨rfl, _⟩ | ⟨_, _, h2⟩
      · exact h.report j _ h1 hb
      · rw [h2] at hb; cases hb
  · intro j k y z hy hz hb hc
    rcases get j y hy with ⟨_, h2⟩ | ⟨_, x, h1, _, _, h2⟩
    · subst h2; cases hb
    · rcases get k z hz with ⟨_, h2'⟩ | ⟨_, x', h1', _, _, h2'⟩
      · subst h2'; cases hc
      · rcases h2 with ⟨rfl, _⟩ | ⟨_, _, h2⟩
        · rcases h2' with ⟨rfl, _⟩ | ⟨_, _, h2'⟩
          · exact h.once j k _ _ h1 h1' hb hc
          · rw [h2'] at hc; cases hc
        · rw [h2] at hb; cases hb
  · intro j y hy hw
    rcases get j y hy with ⟨_, h2⟩ | ⟨_, x, h1, h3, h4, h2⟩
    · subst h2; cases hw
    · obtain ⟨h5, h6⟩ := h.unwaits j x h1 (by rw [← h3, hw])
      refine ⟨?_, by rw [h4]; exact h6⟩
      rcases h2 with ⟨rfl, _⟩ | ⟨h2, _, _⟩
      · exact h5
      · obtain ⟨x', h7, h8, _⟩ := h.slotWaits j h2
        rw [h1] at h7; injection h7 with h7; subst h7
        rw [← h3, hw] at h8; cases h8
  · intro j y a hy ha
    rcases get j y hy with ⟨_, h2⟩ | ⟨_, x, h1, h3, h4, h2⟩
    · subst h2; cases ha
    · exact h.triggered j x a h1 (by rw [← h4, ha])
  · intro j y hy ha
    rcases get j y hy with ⟨_, h2⟩ | ⟨_, x, h1, h3, h4, h2⟩
    · subst h2; cases ha
    · rw [h3]; exact h.ansOk j x h1 (by rw [← h4, ha])
  · intro j y hy ha
    rcases get j y hy with ⟨_, h2⟩ | ⟨_, x, h1, h3, h4, h2⟩
    · subst h2; cases ha
    · have h5 := h.ansReport j x h1 (by rw [← h4, ha])
      rcases h2 with ⟨rfl, _⟩ | ⟨_, h2, _⟩
      · exact h5
      · rw [h2] at h5; cases h5
  · intro j y hy ha
    rcases get j y hy with ⟨_, h2⟩ | ⟨_, x, h1, h3, h4, h2⟩
    · subst h2; cases ha
    · have h5 := h.ansFailed j x h1 (by rw [← h4, ha])
      rcases h2 with ⟨rfl, _⟩ | ⟨_, h2, _⟩
      · exact h5
      · rw [h2] at h5; cases h5
  · intro j y hy ha
    rcases get j y hy with ⟨_, h2⟩ | ⟨_, x, h1, h3, h4, h2⟩
    · subst h2; cases ha
    · rw [h3]; exact h.ansTimeout j x h1 (by rw [← h4, ha])
  · intro j y hy hw hb
    rcases get j y hy with ⟨h1, _⟩ | ⟨_, x, h1, h3, h4, h2⟩
    · exact .inl (by rw [h1])
    · rcases h2 with ⟨rfl, h2⟩ | ⟨_, _, h2⟩
      · rcases h.empty j _ h1 hw hb with h5 | h5
        · exact absurd h5 h2
        · exact .inr h5
      · rw [h2] at hb; cases hb
  · intro _ _ _ _; exact hh

/-- A new request that does not wait. -/
theorem HInv.arriveOk {http : Bool} {hs : List Handler} {slot : Option Nat} {handed trigger : Bool}
    (h : HInv http hs slot handed trigger) : HInv http (hs ++ [{ waits := false }]) slot handed trigger := by
  have get : ∀ (j : Nat) (y : Handler), (hs ++ [({ waits := false } : Handler)])[j]? = some y →
      (j = hs.length ∧ y = { waits := false }) ∨ hs[j]? = some y := by
    intro j y hy
    rcases Nat.lt_trichotomy j hs.length with hj | hj | hj
    · rw [List.getElem?_append_left hj] at hy; exact .inr hy
    · subst hj
      rw [List.getElem?_append_right (Nat.le_refl _), Nat.sub_self] at hy
      injection hy with hy
      exact .inl ⟨rfl, hy.symm⟩
    · have hl : (hs ++ [({ waits := false } : Handler)]).length ≤ j := by
        rw [List.length_append]; exact hj
      rw [List.getElem?_eq_none hl] at hy; cases hy
  have old : ∀ (j : Nat) (y : Handler), hs[j]? = some y → (hs ++ [({ waits := false } : Handler)])[j]? = some y := by
    intro j y hy
    have hl : j < hs.length := by
      rcases Nat.lt_or_ge j hs.length with h | h
      · exact h
      · rw [List.getElem?_eq_none h] at hy; cases hy
    rw [List.getElem?_append_left hl]
    exact hy
  constructor
  · intro i hi
    obtain ⟨x, h1, h2⟩ := h.slotWaits i hi
    exact ⟨x, old _ _ h1, h2⟩
  · intro i hi j y hj hy
    rcases get j y hy with ⟨_, rfl⟩ | h1
    · rfl
    · exact h.slotLast i hi j y hj h1
  · intro j y hy hb
    rcases get j y hy with ⟨_, rfl⟩ | h1
    · cases hb
    · obtain ⟨k, z, h2, h3, h4⟩ := h.dropped j y h1 hb
      exact ⟨k, z, h2, old _ _ h3, h4⟩
  · intro j y hy hb
    rcases get j y hy with ⟨_, rfl⟩ | h1
    · cases hb
    · exact h.report j y h1 hb
  · intro j k y z hy hz hb hc
    rcases get j y hy with ⟨_, rfl⟩ | h1
    · cases hb
    · rcases get k z hz with ⟨_, rfl⟩ | h2
      · cases hc
      · exact h.once j k y z h1 h2 hb hc
  · intro j y hy hw
    rcases get j y hy with ⟨_, rfl⟩ | h1
    · exact ⟨rfl, by decide⟩
    · exact h.unwaits j y h1 hw
  · intro j y a hy ha
    rcases get j y hy with ⟨_, rfl⟩ | h1
    · cases ha
    · exact h.triggered j y a h1 ha
  · intro j y hy ha
    rcases get j y hy with ⟨_, rfl⟩ | h1
    · cases ha
    · exact h.ansOk j y h1 ha
  · intro j y hy ha
    rcases get j y hy with ⟨_, rfl⟩ | h1
    · cases ha
    · exact h.ansReport j y h1 ha
  · intro j y hy ha
    rcases get j y hy with ⟨_, rfl⟩ | h1
    · cases ha
    · exact h.ansFailed j y h1 ha
  · intro j y hy ha
    rcases get j y hy with ⟨_, rfl⟩ | h1
    · cases ha
    · exact h.ansTimeout j y h1 ha
  · intro j y hy hw hb
    rcases get j y hy with ⟨_, rfl⟩ | h1
    · cases hw
    · exact h.empty j y h1 hw hb
  · intro j y hy hw
    rcases get j y hy with ⟨_, rfl⟩ | h1
    · cases hw
    · exact h.waits j y h1 hw

/-- The invariant of the state. -/
def Stops (http : Bool) (s : St α) : Prop :=
  HInv http s.handlers s.slot s.main.handed s.trigger ∧ (s.expect = true → http = true) ∧
  (s.main = .rendering → s.slot ≠ none) ∧ (s.main.handed = true → http = true)

theorem Stops.same {http : Bool} {s s' : St α} (h : Stops http s) (h1 : s'.handlers = s.handlers) (h2 : s'.slot = s.slot)
    (h3 : s'.main = s.main) (h4 : s'.trigger = s.trigger) (h5 : s'.expect = s.expect) : Stops http s' := by
  unfold Stops at h ⊢
  rw [h1, h2, h3, h4, h5]; exact h

theorem Stops.send {http : Bool} {s s' : St α} {cap : Nat} {x : Item α} (h : Stops http s)
    (hs : s.sendIgnoring cap x = some s') : Stops http s' := by
  rcases sendIgnoring_cases hs with ⟨_, rfl⟩ | ⟨_, rfl⟩
  · exact h
  · exact h.same rfl rfl rfl rfl rfl

theorem sendIgnoring_handlers {s s' : St α} {cap : Nat} {x : Item α} (hs : s.sendIgnoring cap x = some s') :
    s'.handlers = s.handlers := by
  rcases sendIgnoring_cases hs with ⟨_, rfl⟩ | ⟨_, rfl⟩ <;> rfl

theorem HInv.later {http : Bool} {hs : List Handler} {slot : Option Nat} {handed trigger : Bool}
    (h : HInv http hs slot handed trigger) {handed' : Bool} (hh : handed' = handed) : HInv http hs slot handed' trigger :=
  hh ▸ h

theorem stops_step {http : Bool} {cap : Nat} (l : Label α) (s s' : St α) (h : Stops http s)
    (hs : step http cap l s = some s') : Stops http s' := by
  cases l with
  | start =>
    unfold step at hs
    dsimp only at hs
    split at hs
    · rename_i hm; injection hs with hs; subst hs
      exact ⟨h.1.later (by rw [hm]; rfl), fun h => h, fun h => (by cases h), fun h => (by cases h)⟩
    · cases hs
  | «export» a =>
    unfold step at hs
    dsimp only at hs
    split at hs
    · cases hs
    · split at hs
      · injection hs with hs; subst hs; exact h.same rfl rfl rfl rfl rfl
      · cases hs
  | signal => exact h.send hs
  | fault => exact h.send hs
  | inactive =>
    unfold step at hs
    dsimp only at hs
    split at hs
    · obtain ⟨s1, h1, rfl⟩ := Option.map_eq_some_iff.1 hs
      exact (h.send h1).same rfl rfl rfl rfl rfl
    · cases hs
  | arrive =>
    unfold step at hs
    dsimp only at hs
    split at hs
    · cases hs
    · split at hs
      · rename_i he
        injection hs with hs; subst hs
        exact ⟨h.1.arrive _ rfl (h.2.1 he), h.2.1, fun _ hx => (by cases hx), h.2.2.2⟩
      · injection hs with hs; subst hs
        exact ⟨h.1.arriveOk, h.2⟩
  | send i =>
    unfold step at hs
    dsimp only at hs
    split at hs
    · rename_i hd hget
      split at hs
      · rename_i hph
        obtain ⟨s1, h1, h2⟩ := Option.map_eq_some_iff.1 hs
        have hl : s1.handlers[i]? = some hd := by rw [sendIgnoring_handlers h1, hget]
        have hS := h.send h1
        split at h2
        · rename_i hw
          subst h2
          refine ⟨hS.1.phase i .waiting (fun h => h) (fun x hx => ?_), hS.2⟩
          rw [hl] at hx; injection hx with hx; subst hx
          refine ⟨fun hf => ?_, fun a ha => (by cases ha), fun ha => (by cases ha), fun ha => (by cases ha),
            fun ha => (by cases ha), fun ha => (by cases ha)⟩
          rw [hw] at hf; cases hf
        · rename_i hw
          subst h2
          refine ⟨hS.1.phase i (.answered .ok) (fun _ => rfl) (fun x hx => ?_), hS.2⟩
          rw [hl] at hx; injection hx with hx; subst hx
          exact ⟨fun _ ha => (by cases ha), fun a ha => rfl, fun _ => (by simpa using hw), fun ha => (by cases ha),
            fun ha => (by cases ha), fun ha => (by cases ha)⟩
      · cases hs
    · cases hs
  | answer i =>
    unfold step at hs
    dsimp only at hs
    split at hs
    · rename_i hd hget
      split at hs
      · split at hs
        · rename_i hb
          injection hs with hs; subst hs
          refine ⟨h.1.phase i (.answered .report) (fun _ => rfl) (fun x hx => ?_), h.2⟩
          rw [hget] at hx; injection hx with hx; subst hx
          exact ⟨fun _ ha => (by cases ha), fun a ha => rfl, fun ha => (by cases ha), fun _ => hb,
            fun ha => (by cases ha), fun ha => (by cases ha)⟩
        · rename_i hb
          injection hs with hs; subst hs
          refine ⟨h.1.phase i (.answered .failed) (fun _ => rfl) (fun x hx => ?_), h.2⟩
          rw [hget] at hx; injection hx with hx; subst hx
          exact ⟨fun _ ha => (by cases ha), fun a ha => rfl, fun ha => (by cases ha), fun ha => (by cases ha), fun _ => hb,
            fun ha => (by cases ha)⟩
        · cases hs
      · cases hs
    · cases hs
  | timeout i =>
    unfold step at hs
    dsimp only at hs
    split at hs
    · rename_i hd hget
      split at hs
      · rename_i hw
        injection hs with hs; subst hs
        refine ⟨h.1.phase i (.answered .timeout) (fun _ => rfl) (fun x hx => ?_), h.2⟩
        rw [hget] at hx; injection hx with hx; subst hx
        refine ⟨fun _ ha => (by cases ha), fun a ha => rfl, fun ha => (by cases ha), fun ha => (by cases ha),
          fun ha => (by cases ha), fun _ => ?_⟩
        cases hx : hd.waits with
        | true => rfl
        | false => exact absurd hw.1 (h.1.unwaits i hd hget hx).2
      · cases hs
    · cases hs
  | leave i =>
    unfold step at hs
    dsimp only at hs
    split at hs
    · split at hs
      · injection hs with hs; subst hs
        exact ⟨h.1.phase i .gone (fun h => h) (fun x hx => ⟨fun _ ha => (by cases ha), fun a ha => (by cases ha),
          fun ha => (by cases ha), fun ha => (by cases ha), fun ha => (by cases ha), fun ha => (by cases ha)⟩), h.2⟩
      · cases hs
    · cases hs
  | recv =>
    unfold step at hs
    dsimp only at hs
    split at hs
    · rename_i hm
      split at hs
      · injection hs with hs; subst hs
        exact h.same rfl rfl rfl rfl rfl
      · injection hs with hs; subst hs
        exact ⟨h.1.later (by rw [hm]; rfl), h.2.1, fun h => (by cases h), fun h => (by cases h)⟩
      · cases hs
    · cases hs
  | check =>
    unfold step at hs
    dsimp only at hs
    split at hs
    · rename_i hm
      injection hs with hs; subst hs
      by_cases hc : http = true ∧ s.slot.isSome = true
      · rw [if_pos hc]
        exact ⟨h.1.later (by rw [hm]; rfl), h.2.1, fun _ hx => (by rw [show s.slot = none from hx] at hc; cases hc.2),
          fun h => (by cases h)⟩
      · rw [if_neg hc]
        exact ⟨h.1.later (by rw [hm]; rfl), h.2.1, fun h => (by cases h), fun h => (by cases h)⟩
    · cases hs
  | renderFails =>
    unfold step at hs
    dsimp only at hs
    split at hs
    · rename_i hm; injection hs with hs; subst hs
      exact ⟨h.1.later (by rw [hm]; rfl), h.2.1, fun h => (by cases h), fun h => (by cases h)⟩
    · cases hs
  | deliver =>
    unfold step at hs
    dsimp only at hs
    split at hs
    · rename_i hm; injection hs with hs; subst hs
      obtain ⟨i, hi⟩ := Option.ne_none_iff_exists'.1 (h.2.2.1 hm)
      obtain ⟨x, hx, hw, _⟩ := h.1.slotWaits i hi
      refine ⟨HInv.deliver (slot := s.slot) (hs := s.handlers) (h.1.later (by rw [hm]; rfl)) _ ?_, h.2.1,
        fun h => (by cases h), fun _ => h.1.waits i x hx hw⟩
      rw [hi]; dsimp only; rw [hx]; dsimp only
      split
      · rename_i ha; exact .inr ⟨i, x, rfl, hx, ha, rfl⟩
      · exact .inl rfl
    · cases hs
  | drain =>
    unfold step at hs
    dsimp only at hs
    split at hs
    · injection hs with hs; subst hs; exact h.same rfl rfl rfl rfl rfl
    · cases hs
  | drainTimeout =>
    unfold step at hs
    dsimp only at hs
    split at hs
    · injection hs with hs; subst hs; exact h.same rfl rfl rfl rfl rfl
    · cases hs
  | finish =>
    unfold step at hs
    dsimp only at hs
    split at hs
    · rename_i hm; injection hs with hs; subst hs
      exact ⟨h.1.later (by rw [hm.1]; rfl), h.2.1, fun h => (by cases h), fun _ => h.2.2.2 (by rw [hm.1]; rfl)⟩
    · cases hs

theorem stops_init (http timeout admin : Bool) : Stops http (init timeout admin : St α) := by
  have e : ∀ (i : Nat) (h : Handler), ([] : List Handler)[i]? = some h → False := fun i h hh => by cases hh
  have key : ∀ t : Bool, HInv http [] none false t := fun t =>
    { slotWaits := fun _ h => (by cases h), slotLast := fun _ h => (by cases h), dropped := fun i h hh => (e i h hh).elim
      report := fun i h hh => (e i h hh).elim, once := fun i _ h _ hh => (e i h hh).elim, unwaits := fun i h hh => (e i h hh).elim
      triggered := fun i h _ hh => (e i h hh).elim, ansOk := fun i h hh => (e i h hh).elim
      ansReport := fun i h hh => (e i h hh).elim, ansFailed := fun i h hh => (e i h hh).elim
      ansTimeout := fun i h hh => (e i h hh).elim, empty := fun i h hh => (e i h hh).elim, waits := fun i h hh => (e i h hh).elim }
  cases admin
  · exact ⟨key true, fun h => (by cases h), fun h => (by cases h), fun h => (by cases h)⟩
  · exact ⟨key false, fun h => (by cases h), fun h => (by cases h), fun h => (by cases h)⟩

theorem stops_run {http : Bool} {cap : Nat} {timeout admin : Bool} {ls : List (Label α)} {s : St α}
    (h : run http cap (init timeout admin) ls = some s) : Stops http s :=
  run_induct (ok := fun _ => True) (fun l s s' _ => stops_step l s s') ls _ _ (fun _ _ => trivial) (stops_init _ _ _) h

end Verif.Receiver
