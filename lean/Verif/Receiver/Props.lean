import Verif.Receiver.Model
/-
What holds of every run of the receiver (C186 to C190).
-/
namespace Verif.Receiver

variable {α : Type}

/-! ### Specification -/

def Item.isData : Item α → Bool
  | .data _ => true
  | _ => false

/-- The requests among what was put into the channel. -/
def dataOf : List (Item α) → List α
  | [] => []
  | .data a :: xs => a :: dataOf xs
  | _ :: xs => dataOf xs

/-- The requests before the first stop or error. -/
def beforeStop : List (Item α) → List α
  | .data a :: xs => a :: beforeStop xs
  | _ => []

/-- The command has left the loop over the samples. -/
def Main.past : Main → Bool
  | .starting => false
  | .receiving => false
  | _ => true

/-- The report was handed over. -/
def Main.handed : Main → Bool
  | .waiting => true
  | .done .handed => true
  | _ => false

/-! ### Runs -/

theorem run_induct {http : Bool} {cap : Nat} {P : St α → Prop} {ok : Label α → Prop}
    (hstep : ∀ l s s', ok l → P s → step http cap l s = some s' → P s') :
    ∀ (ls : List (Label α)) (s s' : St α), (∀ l ∈ ls, ok l) → P s → run http cap s ls = some s' → P s' := by
  intro ls
  induction ls with
  | nil => intro s s' _ h hr; injection hr with hr; exact hr ▸ h
  | cons l ls ih =>
    intro s s' ho h hr
    unfold run at hr
    cases hs : step http cap l s with
    | none => rw [hs] at hr; cases hr
    | some s1 =>
      rw [hs] at hr
      exact ih s1 s' (fun x hx => ho x (List.mem_cons_of_mem _ hx)) (hstep l s s1 (ho l (List.mem_cons_self ..)) h hs) hr

/-- How a step changes what the channel is about. -/
theorem sendIgnoring_cases {cap : Nat} {s s' : St α} {x : Item α} (h : s.sendIgnoring cap x = some s') :
    (s.closed = true ∧ s' = s) ∨ (s.closed = false ∧ s' = s.put x) := by
  unfold St.sendIgnoring at h
  split at h
  · rename_i hc; injection h with h; exact .inl ⟨hc, h.symm⟩
  · rename_i hc
    split at h
    · injection h with h; exact .inr ⟨by simpa using hc, h.symm⟩
    · cases h

/-- The invariant of the channel. -/
def Chan (s : St α) : Prop :=
  s.acked = dataOf s.sent ∧
  (s.main.past = false → s.closed = false ∧ s.sent = s.got.map .data ++ s.queue) ∧
  (s.main.past = true → s.closed = true ∧ s.queue = [] ∧
    ∃ x rest, s.sent = s.got.map .data ++ x :: rest ∧ x.isData = false)

theorem dataOf_append (xs ys : List (Item α)) : dataOf (xs ++ ys) = dataOf xs ++ dataOf ys := by
  induction xs with
  | nil => rfl
  | cons x xs ih => cases x <;> simp [dataOf, ih]

theorem Chan.same {s s' : St α} (h : Chan s) (h1 : s'.acked = s.acked) (h2 : s'.sent = s.sent) (h3 : s'.main.past = s.main.past)
    (h4 : s'.closed = s.closed) (h5 : s'.got = s.got) (h6 : s'.queue = s.queue) : Chan s' := by
  unfold Chan at h ⊢
  rw [h1, h2, h3, h4, h5, h6]
  exact h

theorem Chan.put {s : St α} (h : Chan s) (hc : s.closed = false) (x : Item α) (a : List α) (ha : a = s.acked ++ dataOf [x]) :
    Chan { s.put x with acked := a } := by
  obtain ⟨h1, h2, h3⟩ := h
  have hp : s.main.past = false := by
    cases hm : s.main.past with
    | false => rfl
    | true => rw [(h3 hm).1] at hc; cases hc
  refine ⟨?_, fun _ => ⟨hc, ?_⟩, fun h => ?_⟩
  · change a = dataOf (s.sent ++ [x])
    rw [ha, dataOf_append, h1]
  · change s.sent ++ [x] = s.got.map .data ++ (s.queue ++ [x])
    rw [(h2 hp).2, List.append_assoc]
  · rw [show ({ s.put x with acked := a } : St α).main = s.main from rfl, hp] at h; cases h

theorem Chan.send {s s' : St α} {cap : Nat} (h : Chan s) {x : Item α} (hx : x.isData = false)
    (hs : s.sendIgnoring cap x = some s') : Chan s' := by
  rcases sendIgnoring_cases hs with ⟨_, rfl⟩ | ⟨hc, rfl⟩
  · exact h
  · exact h.put hc x s.acked (by
      cases x with
      | data a => cases hx
      | stop => simp [dataOf]
      | error => simp [dataOf])

theorem chan_step {http : Bool} {cap : Nat} (l : Label α) (s s' : St α) (h : Chan s) (hs : step http cap l s = some s') :
    Chan s' := by
  have keep : ∀ (t : St α), t.acked = s.acked → t.sent = s.sent → t.main.past = s.main.past → t.closed = s.closed →
      t.got = s.got → t.queue = s.queue → Chan t := fun t a b c d e f => h.same a b c d e f
  cases l with
  | start =>
    unfold step at hs
    dsimp only at hs
    split at hs
    · rename_i hm; injection hs with hs; subst hs; exact keep _ rfl rfl (by rw [hm]; rfl) rfl rfl rfl
    · cases hs
  | «export» a =>
    unfold step at hs
    dsimp only at hs
    split at hs
    · cases hs
    · rename_i hc
      split at hs
      · injection hs with hs; subst hs
        exact h.put (by simp only [not_or, Bool.not_eq_true] at hc; exact hc.2) _ _ rfl
      · cases hs
  | signal => exact h.send rfl hs
  | fault => exact h.send rfl hs
  | inactive =>
    unfold step at hs
    dsimp only at hs
    split at hs
    · obtain ⟨s1, h1, rfl⟩ := Option.map_eq_some_iff.1 hs
      exact (h.send rfl h1).same rfl rfl rfl rfl rfl rfl
    · cases hs
  | arrive =>
    unfold step at hs
    dsimp only at hs
    split at hs
    · cases hs
    · split at hs <;> (injection hs with hs; subst hs; exact keep _ rfl rfl rfl rfl rfl rfl)
  | send i =>
    unfold step at hs
    dsimp only at hs
    split at hs
    · rename_i hd _
      split at hs
      · obtain ⟨s1, h1, h2⟩ := Option.map_eq_some_iff.1 hs
        split at h2 <;> (subst h2; exact (h.send rfl h1).same rfl rfl rfl rfl rfl rfl)
      · cases hs
    · cases hs
  | answer i =>
    unfold step at hs
    dsimp only at hs
    split at hs
    · split at hs
      · split at hs
        · injection hs with hs; subst hs; exact keep _ rfl rfl rfl rfl rfl rfl
        · injection hs with hs; subst hs; exact keep _ rfl rfl rfl rfl rfl rfl
        · cases hs
      · cases hs
    · cases hs
  | timeout i =>
    unfold step at hs
    dsimp only at hs
    split at hs
    · split at hs
      · injection hs with hs; subst hs; exact keep _ rfl rfl rfl rfl rfl rfl
      · cases hs
    · cases hs
  | leave i =>
    unfold step at hs
    dsimp only at hs
    split at hs
    · split at hs
      · injection hs with hs; subst hs; exact keep _ rfl rfl rfl rfl rfl rfl
      · cases hs
    · cases hs
  | recv =>
    unfold step at hs
    dsimp only at hs
    split at hs
    · rename_i hm
      have hp : s.main.past = false := by rw [hm]; rfl
      obtain ⟨h1, h2, h3⟩ := h
      obtain ⟨hc, hsent⟩ := h2 hp
      split at hs
      · rename_i a q hq
        injection hs with hs; subst hs
        refine ⟨h1, fun _ => ⟨hc, ?_⟩, fun hx => ?_⟩
        · change s.sent = (s.got ++ [a]).map .data ++ q
          rw [hsent, hq]; simp
        · rw [show ({ s with queue := q, got := s.got ++ [a] } : St α).main = s.main from rfl, hp] at hx; cases hx
      · rename_i x q hx hq
        injection hs with hs; subst hs
        refine ⟨h1, fun hx => (by cases hx), fun _ => ⟨rfl, rfl, x, q, ?_, ?_⟩⟩
        · change s.sent = s.got.map .data ++ x :: q
          rw [hsent, hq]
        · cases x with
          | data a => exact absurd rfl (hx a)
          | stop => rfl
          | error => rfl
      · cases hs
    · cases hs
  | check =>
    unfold step at hs
    dsimp only at hs
    split at hs
    · rename_i hm; injection hs with hs; subst hs; refine keep _ rfl rfl ?_ rfl rfl rfl
      rw [hm]; dsimp only; split <;> rfl
    · cases hs
  | renderFails =>
    unfold step at hs
    dsimp only at hs
    split at hs
    · rename_i hm; injection hs with hs; subst hs; exact keep _ rfl rfl (by rw [hm]; rfl) rfl rfl rfl
    · cases hs
  | deliver =>
    unfold step at hs
    dsimp only at hs
    split at hs
    · rename_i hm; injection hs with hs; subst hs; exact keep _ rfl rfl (by rw [hm]; rfl) rfl rfl rfl
    · cases hs
  | drain =>
    unfold step at hs
    dsimp only at hs
    split at hs
    · injection hs with hs; subst hs; exact keep _ rfl rfl rfl rfl rfl rfl
    · cases hs
  | drainTimeout =>
    unfold step at hs
    dsimp only at hs
    split at hs
    · injection hs with hs; subst hs; exact keep _ rfl rfl rfl rfl rfl rfl
    · cases hs
  | finish =>
    unfold step at hs
    dsimp only at hs
    split at hs
    · rename_i hm; injection hs with hs; subst hs; exact keep _ rfl rfl (by rw [hm.1]; rfl) rfl rfl rfl
    · cases hs

theorem chan_init (timeout admin : Bool) : Chan (init timeout admin : St α) := by
  cases admin <;> exact ⟨rfl, fun _ => ⟨rfl, rfl⟩, fun h => by cases h⟩

theorem chan_run {http : Bool} {cap : Nat} {timeout admin : Bool} {ls : List (Label α)} {s : St α}
    (h : run http cap (init timeout admin) ls = some s) : Chan s :=
  run_induct (ok := fun _ => True) (fun l s s' _ => chan_step l s s') ls _ _ (fun _ _ => trivial) (chan_init _ _) h

theorem beforeStop_eq (got : List α) (x : Item α) (rest : List (Item α)) (hx : x.isData = false) :
    beforeStop (got.map .data ++ x :: rest) = got := by
  induction got with
  | nil =>
    cases x with
    | data a => cases hx
    | stop => rfl
    | error => rfl
  | cons a got ih => simp [beforeStop, ih]

/-! ### C186 -/

/-- C186: when the command leaves its loop, it has checked exactly the requests that came before the first stop signal or
failure of the receiver, in the order in which they came. -/
theorem checked_in_order {http : Bool} {cap : Nat} {timeout admin : Bool} {ls : List (Label α)} {s : St α}
    (h : run http cap (init timeout admin) ls = some s) (hp : s.main.past = true) : s.got = beforeStop s.sent := by
  obtain ⟨_, _, x, rest, hsent, hx⟩ := (chan_run h).2.2 hp
  rw [hsent, beforeStop_eq _ _ _ hx]

/-- C186: a request is confirmed if and only if it goes into the channel. -/
theorem confirmed_sent {http : Bool} {cap : Nat} {timeout admin : Bool} {ls : List (Label α)} {s : St α}
    (h : run http cap (init timeout admin) ls = some s) : s.acked = dataOf s.sent := (chan_run h).1

example : ∃ s : St Nat, run false 100 (init false true) [.start, .export 1, .export 2, .recv, .signal, .recv, .recv] = some s ∧
    s.main.past = true ∧ s.got = [1, 2] ∧ s.acked = [1, 2] := ⟨_, rfl, rfl, rfl, rfl⟩

end Verif.Receiver
