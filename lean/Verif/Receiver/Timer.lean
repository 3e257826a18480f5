/-
The inactivity monitor of the OTLP receiver, src/registry/otlp/mod.rs:604-636, with the times at which requests come in
(mod.rs:387-394, 651-751).
-/
namespace Verif.Receiver.Timer

/-- mod.rs:616-618: the time of the last activity at the time `now`, when requests come in at the times `acts`. The servers
start at 0 (mod.rs:345). -/
def lastBefore (acts : List Nat) (now : Nat) : Nat := acts.foldl (fun m a => if a ≤ now then max m a else m) 0

/-- mod.rs:609-636: the monitor sleeps for `timeout`, and for as long as it takes to wake up (`lates`); it stops the receiver if
there was nothing for `timeout`. The result is the time of the stop. Not modelled: that the senders of the activity are
gone (mod.rs:629-632), which is after the end of all servers. -/
def monitor (timeout : Nat) (acts : List Nat) : Nat → List Nat → Option Nat
  | _, [] => none
  | now, late :: lates =>
    let now := now + timeout + late
    if timeout ≤ now - lastBefore acts now then some now else monitor timeout acts now lates

/-! ### C193: the inactivity timeout -/

theorem lastBefore_spec (acts : List Nat) (now : Nat) :
    (∀ a ∈ acts, a ≤ now → a ≤ lastBefore acts now) ∧ lastBefore acts now ≤ now ∧
    (lastBefore acts now = 0 ∨ lastBefore acts now ∈ acts) := by
  have key : ∀ (l : List Nat) (m : Nat), m ≤ now →
      (∀ a ∈ l, a ≤ now → a ≤ l.foldl (fun m a => if a ≤ now then max m a else m) m) ∧
      m ≤ l.foldl (fun m a => if a ≤ now then max m a else m) m ∧
      l.foldl (fun m a => if a ≤ now then max m a else m) m ≤ now ∧
      (l.foldl (fun m a => if a ≤ now then max m a else m) m = m ∨ l.foldl (fun m a => if a ≤ now then max m a else m) m ∈ l) := by
    intro l
    induction l with
    | nil => intro m hm; exact ⟨fun _ h => (nomatch h), Nat.le_refl _, hm, .inl rfl⟩
    | cons a l ih =>
      intro m hm
      rw [List.foldl_cons]
      by_cases ha : a ≤ now
      · rw [if_pos ha]
        obtain ⟨h1, h2, h3, h4⟩ := ih (max m a) (by omega)
        refine ⟨?_, by omega, h3, ?_⟩
        · intro b hb hbn
          rcases List.mem_cons.1 hb with rfl | hb
          · omega
          · exact h1 b hb hbn
        · rcases h4 with h4 | h4
          · rcases Nat.le_total m a with h | h
            · right; rw [h4, Nat.max_eq_right h]; exact List.mem_cons_self ..
            · left; rw [h4, Nat.max_eq_left h]
          · exact .inr (List.mem_cons_of_mem _ h4)
      · rw [if_neg ha]
        obtain ⟨h1, h2, h3, h4⟩ := ih m hm
        refine ⟨?_, h2, h3, ?_⟩
        · intro b hb hbn
          rcases List.mem_cons.1 hb with rfl | hb
          · exact absurd hbn ha
          · exact h1 b hb hbn
        · rcases h4 with h4 | h4
          · exact .inl h4
          · exact .inr (List.mem_cons_of_mem _ h4)
  obtain ⟨h1, _, h3, h4⟩ := key acts 0 (Nat.zero_le _)
  exact ⟨h1, h3, h4⟩

/-- C193: the receiver is not stopped for inactivity at a time before which, within the timeout, a request came in. -/
theorem not_while_active {timeout : Nat} {acts : List Nat} : ∀ {lates : List Nat} {start stop : Nat},
    monitor timeout acts start lates = some stop → ∀ a ∈ acts, a ≤ stop → a + timeout ≤ stop := by
  intro lates
  induction lates with
  | nil => intro start stop h; cases h
  | cons late lates ih =>
    intro start stop h a ha hle
    unfold monitor at h
    dsimp only at h
    split at h
    · rename_i hc
      injection h with h; subst h
      have := (lastBefore_spec acts _).1 a ha hle
      have := (lastBefore_spec acts (start + timeout + late)).2.1
      omega
    · exact ih h a ha hle

theorem stops_soon_aux {timeout : Nat} {acts : List Nat} {last late : Nat} (ht : 0 < timeout) (hlast : ∀ a ∈ acts, a ≤ last) :
    ∀ (lates : List Nat) (start stop : Nat), (∀ j ∈ lates, j ≤ late) → start < last + timeout →
      monitor timeout acts start lates = some stop → stop < last + 2 * timeout + late := by
  intro lates
  induction lates with
  | nil => intro _ _ _ _ h; cases h
  | cons j lates ih =>
    intro start stop hj hs h
    have hj0 := hj j (List.mem_cons_self ..)
    unfold monitor at h
    dsimp only at h
    split at h
    · injection h with h; subst h; omega
    · rename_i hc
      refine ih _ _ (fun x hx => hj x (List.mem_cons_of_mem _ hx)) ?_ h
      obtain ⟨_, h2, h3⟩ := lastBefore_spec acts (start + timeout + j)
      rcases h3 with h3 | h3
      · rw [h3] at hc; omega
      · have := hlast _ h3; omega

/-- C193: if no request comes in after `last`, the receiver is stopped before twice the timeout has passed since then, and
what it takes to wake up (`late` at most). -/
theorem stops_soon {timeout : Nat} {acts : List Nat} {last late : Nat} {lates : List Nat} {stop : Nat} (ht : 0 < timeout)
    (hlast : ∀ a ∈ acts, a ≤ last) (hlate : ∀ j ∈ lates, j ≤ late) (h : monitor timeout acts 0 lates = some stop) :
    stop < last + 2 * timeout + late := stops_soon_aux ht hlast lates 0 stop hlate (by omega) h

theorem stops_aux {timeout : Nat} {acts : List Nat} {last : Nat} (ht : 0 < timeout) (hlast : ∀ a ∈ acts, a ≤ last) :
    ∀ (lates : List Nat) (start : Nat), monitor timeout acts start lates = none → lates ≠ [] →
      start + timeout * lates.length < last + timeout := by
  intro lates
  induction lates with
  | nil => intro _ _ h; exact absurd rfl h
  | cons j lates ih =>
    intro start h _
    unfold monitor at h
    dsimp only at h
    split at h
    · cases h
    · rename_i hc
      obtain ⟨_, h2, h3⟩ := lastBefore_spec acts (start + timeout + j)
      have hl : lastBefore acts (start + timeout + j) ≤ last := by
        rcases h3 with h3 | h3
        · omega
        · exact hlast _ h3
      cases lates with
      | nil => simp only [List.length_cons, List.length_nil]; omega
      | cons k lates =>
        have := ih (start + timeout + j) h (by simp)
        simp only [List.length_cons] at this ⊢
        rw [Nat.mul_add timeout (lates.length + 1) 1]
        omega

/-- C193: if requests stop coming in, the receiver is stopped: `last / timeout + 2` times of waking up are enough. -/
theorem stops {timeout : Nat} {acts : List Nat} {last : Nat} {lates : List Nat} (ht : 0 < timeout)
    (hlast : ∀ a ∈ acts, a ≤ last) (hn : last / timeout + 2 ≤ lates.length) : ∃ stop, monitor timeout acts 0 lates = some stop := by
  cases hm : monitor timeout acts 0 lates with
  | some stop => exact ⟨stop, rfl⟩
  | none =>
    have h1 := stops_aux ht hlast lates 0 hm (by intro h; rw [h] at hn; simp at hn)
    have h2 : timeout * (last / timeout + 2) ≤ timeout * lates.length := Nat.mul_le_mul_left _ hn
    have h3 : last + timeout < timeout * (last / timeout + 2) := by
      rw [Nat.mul_add]
      have := Nat.div_add_mod last timeout
      have := Nat.mod_lt last ht
      omega
    omega

/-- That the receiver is stopped when the timeout has passed since the last request. -/
def StopsInTime : Prop :=
  ∀ (timeout : Nat) (acts : List Nat) (last stop : Nat) (lates : List Nat), 0 < timeout → (∀ a ∈ acts, a ≤ last) →
    (∀ j ∈ lates, j = 0) → monitor timeout acts 0 lates = some stop → stop ≤ last + timeout

/-- C194: it may take almost twice as long, even if the monitor wakes up when it should. -/
theorem stops_in_time_refuted : ¬ StopsInTime := by
  intro h
  have := h 10 [1] 1 20 [0, 0] (by decide) (by decide) (by decide) rfl
  omega

example : monitor 10 [1, 9, 15] 0 [0, 2, 1] = some 33 := rfl

end Verif.Receiver.Timer
