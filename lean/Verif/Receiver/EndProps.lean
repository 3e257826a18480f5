import Verif.Receiver.StopProps
/-
What a user of the receiver may rely on when it is stopped (C187 to C191).
-/
namespace Verif.Receiver

variable {α : Type}

/-! ### Specification -/

/-- Something that ends the loop was put into the channel. -/
def Stopped (s : St α) : Prop := ∃ x, x ∈ s.sent ∧ Item.isData x = false

/-- Steps the process makes by itself; the others are those of clients, of the user and of the system. -/
def Label.internal : Label α → Bool
  | .start => true
  | .send _ => true
  | .answer _ => true
  | .timeout _ => true
  | .recv => true
  | .check => true
  | .renderFails => true
  | .deliver => true
  | .drain => true
  | .drainTimeout => true
  | .finish => true
  | _ => false

/-- No client of a `/stop` request goes away. -/
def Label.stays : Label α → Bool
  | .leave _ => false
  | _ => true

/-- No `/stop` request times out, and no client of one goes away. -/
def Label.patient : Label α → Bool
  | .leave _ => false
  | .timeout _ => false
  | _ => true

def Label.arrives : Label α → Bool
  | .arrive => true
  | _ => false

/-! ### C187: confirmed requests are checked -/

theorem sent_step {http : Bool} {cap : Nat} (l : Label α) (s s' : St α) (hs : step http cap l s = some s') :
    s.sent <+: s'.sent := by
  have send : ∀ {x : Item α} {t : St α}, s.sendIgnoring cap x = some t → s.sent <+: t.sent := by
    intro x t h
    rcases sendIgnoring_cases h with ⟨_, rfl⟩ | ⟨_, rfl⟩
    · exact List.prefix_refl _
    · exact List.prefix_append _ _
  cases l with
  | signal => exact send hs
  | fault => exact send hs
  | «export» a =>
    unfold step at hs
    dsimp only at hs
    split at hs
    · cases hs
    · split at hs
      · injection hs with hs; subst hs; exact List.prefix_append _ _
      · cases hs
  | inactive =>
    unfold step at hs
    dsimp only at hs
    split at hs
    · obtain ⟨s1, h1, rfl⟩ := Option.map_eq_some_iff.1 hs
      exact send (t := s1) h1
    · cases hs
  | send i =>
    unfold step at hs
    dsimp only at hs
    split at hs
    · split at hs
      · obtain ⟨s1, h1, h2⟩ := Option.map_eq_some_iff.1 hs
        split at h2 <;> (subst h2; exact send (t := s1) h1)
      · cases hs
    · cases hs
  | _ =>
    unfold step at hs
    dsimp only at hs
    repeat' split at hs
    all_goals first
      | cases hs; done
      | (injection hs with hs; subst hs; exact List.prefix_refl _)

theorem sent_run {http : Bool} {cap : Nat} {ls : List (Label α)} {s s' : St α} (h : run http cap s ls = some s') :
    s.sent <+: s'.sent :=
  run_induct (P := fun t => s.sent <+: t.sent) (ok := fun _ => True)
    (fun l t t' _ hp hs => hp.trans (sent_step l t t' hs)) ls _ _ (fun _ _ => trivial) (List.prefix_refl _) h

theorem beforeStop_append (xs ys : List (Item α)) (h : ∀ x ∈ xs, Item.isData x = true) :
    beforeStop (xs ++ ys) = dataOf xs ++ beforeStop ys := by
  induction xs with
  | nil => rfl
  | cons x xs ih =>
    cases x with
    | data a =>
      change a :: beforeStop (xs ++ ys) = a :: (dataOf xs ++ beforeStop ys)
      rw [ih (fun y hy => h y (List.mem_cons_of_mem _ hy))]
    | stop => exact absurd (h _ (List.mem_cons_self ..)) (fun h => nomatch h)
    | error => exact absurd (h _ (List.mem_cons_self ..)) (fun h => nomatch h)

/-- C187: the requests that were confirmed before anything stopped the receiver are checked, all of them and in their order,
before what came later. Missing: those confirmed after it (see `confirmed_checked_refuted`). -/
theorem confirmed_checked_partial {http : Bool} {cap : Nat} {timeout admin : Bool} {ls ls' : List (Label α)} {s s' : St α}
    (h : run http cap (init timeout admin) ls = some s) (hd : ¬ Stopped s)
    (h' : run http cap s ls' = some s') (hp : s'.main.past = true) : s.acked <+: s'.got := by
  have hall : run http cap (init timeout admin) (ls ++ ls') = some s' := by
    have key : ∀ (ls : List (Label α)) (t : St α), run http cap t ls = some s → run http cap t (ls ++ ls') = some s' := by
      intro ls
      induction ls with
      | nil => intro t ht; injection ht with ht; subst ht; exact h'
      | cons l ls ih =>
        intro t ht
        unfold run at ht
        rw [List.cons_append]
        unfold run
        cases hs : step http cap l t with
        | none => rw [hs] at ht; cases ht
        | some t1 => rw [hs] at ht; exact ih t1 ht
    exact key ls _ h
  obtain ⟨rest, hr⟩ := sent_run h'
  rw [checked_in_order hall hp, confirmed_sent h, ← hr, beforeStop_append]
  · exact List.prefix_append _ _
  · intro x hx
    cases hb : x.isData with
    | true => rfl
    | false => exact absurd ⟨x, hx, hb⟩ hd

/-- The claim of `confirmed_checked_partial` without its restriction. -/
def ConfirmedChecked : Prop :=
  ∀ (http : Bool) (cap : Nat) (ls : List (Label Nat)) (s : St Nat),
    run http cap (init false true) ls = some s → s.main.past = true → s.acked = s.got

/-- C187: false in general. A request that comes in after CTRL+C, while the command is still busy, is confirmed and not
checked. -/
theorem confirmed_checked_refuted : ¬ ConfirmedChecked := by
  intro h
  have := h false 100 [.start, .export 1, .signal, .export 2, .recv, .recv] _ rfl rfl
  revert this
  decide

example : ∃ s : St Nat, run false 100 (init false true) [.start, .export 1, .signal, .export 2, .recv, .recv] = some s ∧
    s.main.past = true ∧ s.acked = [1, 2] ∧ s.got = [1] := ⟨_, rfl, rfl, rfl, rfl⟩

example : ∃ s s' : St Nat, run false 100 (init false true) [.start, .export 1, .export 2, .recv] = some s ∧ ¬ Stopped s ∧
    run false 100 s [.export 3, .signal, .recv, .recv, .recv] = some s' ∧ s'.main.past = true ∧ s.acked = [1, 2] ∧
    s'.got = [1, 2, 3] := by
  refine ⟨_, _, rfl, ?_, rfl, rfl, rfl, rfl⟩
  rintro ⟨x, hx, hd⟩
  have : ∀ x ∈ [Item.data 1, Item.data 2], Item.isData x = true := by decide
  rw [this x hx] at hd; cases hd

/-! ### C188: the report arrives -/

/-- C188: the report is handed to one `/stop` request at most, and only then is it not printed. -/
theorem report_once {http : Bool} {cap : Nat} {timeout admin : Bool} {ls : List (Label α)} {s : St α}
    (h : run http cap (init timeout admin) ls = some s) (i j : Nat) (x y : Handler) (hi : s.handlers[i]? = some x)
    (hj : s.handlers[j]? = some y) (hx : x.inbox = .report) (hy : y.inbox = .report) :
    i = j ∧ s.main ≠ .done .printed ∧ http = true := by
  have hS := stops_run h
  have hh := hS.1.report i x hi hx
  refine ⟨hS.1.once i j x y hi hj hx hy, fun hm => ?_, hS.2.2.2 hh⟩
  rw [hm] at hh; cases hh

/-- The handlers of a patient run: the one in the slot is still there, and if the report was handed over, somebody has it. -/
def Patient (s : St α) : Prop :=
  (∀ i, s.slot = some i → ∃ h : Handler, s.handlers[i]? = some h ∧ h.alive = true) ∧
  (s.main.handed = true → ∃ (i : Nat) (h : Handler), s.handlers[i]? = some h ∧ h.inbox = .report)

theorem Patient.same {s s' : St α} (h : Patient s) (h1 : s'.handlers = s.handlers) (h2 : s'.slot = s.slot)
    (h3 : s'.main.handed = s.main.handed) : Patient s' := by
  unfold Patient at h ⊢
  rw [h1, h2, h3]; exact h

theorem sendIgnoring_same {s s' : St α} {cap : Nat} {x : Item α} (hs : s.sendIgnoring cap x = some s') :
    s'.handlers = s.handlers ∧ s'.slot = s.slot ∧ s'.main = s.main ∧ s'.trigger = s.trigger ∧ s'.adminDone = s.adminDone := by
  rcases sendIgnoring_cases hs with ⟨_, rfl⟩ | ⟨_, rfl⟩ <;> exact ⟨rfl, rfl, rfl, rfl, rfl⟩

theorem get_setPhase_alive {i j : Nat} {p : Phase} {hs : List Handler} {h : Handler} (hj : hs[j]? = some h) (ha : h.alive = true)
    (hp : j = i → p = .waiting) : ∃ h', (setPhase i p hs)[j]? = some h' ∧ h'.alive = true := by
  unfold setPhase
  rw [List.getElem?_modify, hj]
  refine ⟨_, rfl, ?_⟩
  dsimp only
  by_cases hij : i = j
  · rw [if_pos hij, hp hij.symm]; rfl
  · rw [if_neg hij]; exact ha

theorem Patient.phase {s : St α} (h : Patient s) (i : Nat) (p : Phase) (t : St α) (ht : t.handlers = setPhase i p s.handlers)
    (hs : t.slot = s.slot) (hm : t.main = s.main) (hp : s.slot = some i → p = .waiting) : Patient t := by
  refine ⟨fun j hj => ?_, fun hh => ?_⟩
  · rw [hs] at hj
    obtain ⟨x, h1, h2⟩ := h.1 j hj
    rw [ht]
    exact get_setPhase_alive h1 h2 (fun e => hp (e ▸ hj))
  · rw [hm] at hh
    obtain ⟨j, x, h1, h2⟩ := h.2 hh
    obtain ⟨y, h3, _, h4⟩ := get_setPhase (i := i) (p := p) h1
    exact ⟨j, y, by rw [ht]; exact h3, by rw [h4, h2]⟩

theorem patient_step {http : Bool} {cap : Nat} (l : Label α) (s s' : St α) (hl : l.patient = true)
    (h : Stops http s ∧ Patient s) (hs : step http cap l s = some s') : Stops http s' ∧ Patient s' := by
  refine ⟨stops_step l s s' h.1 hs, ?_⟩
  obtain ⟨hS, h⟩ := h
  cases l with
  | start =>
    unfold step at hs
    dsimp only at hs
    split at hs
    · rename_i hm; injection hs with hs; subst hs; exact h.same rfl rfl (by rw [hm]; rfl)
    · cases hs
  | «export» a =>
    unfold step at hs
    dsimp only at hs
    split at hs
    · cases hs
    · split at hs
      · injection hs with hs; subst hs; exact h.same rfl rfl rfl
      · cases hs
  | signal => obtain ⟨a, b, c, _⟩ := sendIgnoring_same hs; exact h.same a b (by rw [c])
  | fault => obtain ⟨a, b, c, _⟩ := sendIgnoring_same hs; exact h.same a b (by rw [c])
  | inactive =>
    unfold step at hs
    dsimp only at hs
    split at hs
    · obtain ⟨s1, h1, rfl⟩ := Option.map_eq_some_iff.1 hs
      obtain ⟨a, b, c, _⟩ := sendIgnoring_same h1
      exact h.same a b (by rw [← c])
    · cases hs
  | arrive =>
    unfold step at hs
    dsimp only at hs
    split at hs
    · cases hs
    · split at hs
      · injection hs with hs; subst hs
        have len := dropSlot_length s.slot s.handlers
        refine ⟨fun i hi => ?_, fun hh => ?_⟩
        · injection hi with hi; subst hi
          refine ⟨{ waits := true }, ?_, rfl⟩
          dsimp only
          rw [List.getElem?_append_right (Nat.le_of_eq len), len, Nat.sub_self]; rfl
        · obtain ⟨j, x, h1, h2⟩ := h.2 hh
          have hjl : j < s.handlers.length := by
            rcases Nat.lt_or_ge j s.handlers.length with hlt | hge
            · exact hlt
            · rw [List.getElem?_eq_none hge] at h1; cases h1
          refine ⟨j, ?_⟩
          dsimp only
          rw [List.getElem?_append_left (len.symm ▸ hjl)]
          unfold dropSlot
          split
          · rename_i k hk
            obtain ⟨y, h3, _, _, h4⟩ := get_give (i := k) (x := .dropped) h1
            refine ⟨y, h3, ?_⟩
            rw [h4, if_neg (fun hx => by rw [h2] at hx; cases hx.2), h2]
          · exact ⟨x, h1, h2⟩
      · injection hs with hs; subst hs
        have old : ∀ (j : Nat) (y : Handler), s.handlers[j]? = some y →
            (s.handlers ++ [({ waits := false } : Handler)])[j]? = some y := by
          intro j y hy
          have hl : j < s.handlers.length := by
            rcases Nat.lt_or_ge j s.handlers.length with h | h
            · exact h
            · rw [List.getElem?_eq_none h] at hy; cases hy
          rw [List.getElem?_append_left hl]; exact hy
        refine ⟨fun i hi => ?_, fun hh => ?_⟩
        · obtain ⟨x, h1, h2⟩ := h.1 i hi; exact ⟨x, old _ _ h1, h2⟩
        · obtain ⟨j, x, h1, h2⟩ := h.2 hh; exact ⟨j, x, old _ _ h1, h2⟩
  | send i =>
    unfold step at hs
    dsimp only at hs
    split at hs
    · rename_i hd hget
      split at hs
      · obtain ⟨s1, h1, h2⟩ := Option.map_eq_some_iff.1 hs
        obtain ⟨a, b, c, _⟩ := sendIgnoring_same h1
        split at h2
        · subst h2; exact h.phase i .waiting _ (by dsimp only; rw [a]) b c (fun _ => rfl)
        · rename_i hw
          subst h2; refine h.phase i (.answered .ok) _ (by dsimp only; rw [a]) b c (fun hsl => ?_)
          obtain ⟨x, h3, h4, _⟩ := hS.1.slotWaits i hsl
          rw [hget] at h3; injection h3 with h3; subst h3
          exact absurd h4 hw
      · cases hs
    · cases hs
  | answer i =>
    unfold step at hs
    dsimp only at hs
    have no : ∀ hd : Handler, s.handlers[i]? = some hd → s.slot = some i → hd.inbox = .empty := by
      intro hd hget hsl
      obtain ⟨x, h3, _, h4⟩ := hS.1.slotWaits i hsl
      rw [hget] at h3; injection h3 with h3; subst h3; exact h4
    split at hs
    · rename_i hd hget
      split at hs
      · split at hs
        · rename_i hb
          injection hs with hs; subst hs
          exact h.phase i _ _ rfl rfl rfl (fun hsl => (by rw [no hd hget hsl] at hb; cases hb))
        · rename_i hb
          injection hs with hs; subst hs
          exact h.phase i _ _ rfl rfl rfl (fun hsl => (by rw [no hd hget hsl] at hb; cases hb))
        · cases hs
      · cases hs
    · cases hs
  | timeout i => cases hl
  | leave i => cases hl
  | recv =>
    unfold step at hs
    dsimp only at hs
    split at hs
    · rename_i hm
      split at hs
      · injection hs with hs; subst hs
        exact h.same rfl rfl rfl
      · injection hs with hs; subst hs
        exact h.same rfl rfl (by rw [hm]; rfl)
      · cases hs
    · cases hs
  | check =>
    unfold step at hs
    dsimp only at hs
    split at hs
    · rename_i hm
      injection hs with hs; subst hs
      refine h.same rfl rfl ?_
      rw [hm]; dsimp only; split <;> rfl
    · cases hs
  | renderFails =>
    unfold step at hs
    dsimp only at hs
    split at hs
    · rename_i hm; injection hs with hs; subst hs
      exact h.same rfl rfl (by rw [hm]; rfl)
    · cases hs
  | deliver =>
    unfold step at hs
    dsimp only at hs
    split at hs
    · rename_i hm; injection hs with hs; subst hs
      obtain ⟨i, hi⟩ := Option.ne_none_iff_exists'.1 (hS.2.2.1 hm)
      obtain ⟨x, hx, hw, hb⟩ := hS.1.slotWaits i hi
      obtain ⟨x', hx', ha⟩ := h.1 i hi
      rw [hx] at hx'; injection hx' with hx'; subst hx'
      refine ⟨fun j hj => (by cases hj), fun _ => ?_⟩
      dsimp only
      rw [hi]; dsimp only; rw [hx]; dsimp only; rw [if_pos ha]
      obtain ⟨y, h1, _, _, h2⟩ := get_give (i := i) (x := .report) hx
      exact ⟨i, y, h1, by rw [h2, if_pos ⟨rfl, hb⟩]⟩
    · cases hs
  | drain =>
    unfold step at hs
    dsimp only at hs
    split at hs
    · injection hs with hs; subst hs; exact h.same rfl rfl rfl
    · cases hs
  | drainTimeout =>
    unfold step at hs
    dsimp only at hs
    split at hs
    · injection hs with hs; subst hs; exact h.same rfl rfl rfl
    · cases hs
  | finish =>
    unfold step at hs
    dsimp only at hs
    split at hs
    · rename_i hm; injection hs with hs; subst hs
      exact h.same rfl rfl (by rw [hm.1]; rfl)
    · cases hs

/-- C188: if no `/stop` request times out or goes away, a report that is not printed is handed to a request that is there to
receive it. Missing: those that do (see `report_arrives_refuted`). -/
theorem report_arrives_partial {http : Bool} {cap : Nat} {timeout admin : Bool} {ls : List (Label α)} {s : St α}
    (hl : ∀ l ∈ ls, l.patient = true) (h : run http cap (init timeout admin) ls = some s) (o : Out) (hm : s.main = .done o) :
    o = .printed ∨ o = .failed ∨ ∃ (i : Nat) (x : Handler), s.handlers[i]? = some x ∧ x.inbox = .report := by
  have hP := (run_induct (P := fun s => Stops http s ∧ Patient s) (ok := fun l => l.patient = true)
    (fun l s s' hl h hs => patient_step l s s' hl h hs) ls _ _ hl ⟨stops_init _ _ _, by
      refine ⟨fun i hi => ?_, fun hh => ?_⟩
      · cases admin <;> cases hi
      · cases admin <;> cases hh⟩ h).2
  cases o with
  | printed => exact .inl rfl
  | failed => exact .inr (.inl rfl)
  | handed => exact .inr (.inr (hP.2 (by rw [hm]; rfl)))

/-- The claim of `report_arrives_partial` without its restriction. -/
def ReportArrives : Prop :=
  ∀ (cap : Nat) (ls : List (Label Nat)) (s : St Nat) (o : Out), run true cap (init false true) ls = some s → s.main = .done o →
    o = .printed ∨ o = .failed ∨ ∃ x : Handler, x ∈ s.handlers ∧ x.inbox = .report

/-- C188: false in general: the `/stop` request times out while the last samples are checked, and the report is neither sent
nor printed, though the command succeeds. -/
theorem report_arrives_refuted : ¬ ReportArrives := by
  intro h
  have := h 100 [.start, .export 1, .arrive, .send 0, .recv, .timeout 0, .recv, .check, .deliver, .drain, .finish] _ _ rfl rfl
  revert this
  simp
  decide

example : ∃ s : St Nat, run true 100 (init false true)
    [.start, .export 1, .arrive, .send 0, .recv, .recv, .check, .deliver, .answer 0, .drain, .finish] = some s ∧
    s.main = .done .handed ∧ s.handlers = [{ waits := true, phase := .answered .report, inbox := .report }] :=
  ⟨_, rfl, rfl, rfl⟩

end Verif.Receiver
