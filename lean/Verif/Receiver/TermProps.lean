import Verif.Receiver.EndProps
/-
That the command ends, what `/stop` answers, and what happens when the receiver fails (C189 to C192).
-/
namespace Verif.Receiver

variable {α : Type}

/-! ### C189: the command ends -/

/-- The command is over. -/
def Main.over : Main → Bool
  | .done _ => true
  | _ => false

/-- What there is left to do, at most. -/
def Main.weight : Main → Nat
  | .starting => 5
  | .receiving => 4
  | .finished => 3
  | .rendering => 2
  | .waiting => 1
  | .done _ => 0

def Handler.weight (h : Handler) : Nat :=
  match h.phase with
  | .sending => 3
  | .waiting => 1
  | _ => 0

def weights : List Handler → Nat
  | [] => 0
  | h :: hs => h.weight + weights hs

def work (s : St α) : Nat := s.main.weight + weights s.handlers + s.queue.length + if s.adminDone then 0 else 1

theorem weights_setPhase (p : Phase) : ∀ (hs : List Handler) (i : Nat) (h : Handler), hs[i]? = some h →
    weights (setPhase i p hs) + h.weight = weights hs + ({ h with phase := p } : Handler).weight := by
  intro hs
  induction hs with
  | nil => intro i h hh; cases hh
  | cons x xs ih =>
    intro i h hh
    cases i with
    | zero =>
      have hh : some x = some h := hh
      injection hh with hh; subst hh
      change ({ x with phase := p } : Handler).weight + weights xs + x.weight = x.weight + weights xs + _
      omega
    | succ i =>
      have hh : xs[i]? = some h := hh
      have := ih i h hh
      change x.weight + weights (setPhase i p xs) + h.weight = x.weight + weights xs + _
      omega

theorem weights_give (x : Inbox) : ∀ (hs : List Handler) (i : Nat), weights (give i x hs) = weights hs := by
  intro hs
  induction hs with
  | nil => intro i; cases i <;> rfl
  | cons y ys ih =>
    intro i
    cases i with
    | zero =>
      change (if y.inbox = .empty then { y with inbox := x } else y : Handler).weight + weights ys = y.weight + weights ys
      split <;> rfl
    | succ i =>
      change y.weight + weights (give i x ys) = y.weight + weights ys
      rw [ih i]

theorem work_step {http : Bool} {cap : Nat} (l : Label α) (s s' : St α) (hl : l.internal = true)
    (hs : step http cap l s = some s') : work s' + 1 ≤ work s := by
  cases l with
  | «export» a => cases hl
  | signal => cases hl
  | fault => cases hl
  | inactive => cases hl
  | arrive => cases hl
  | leave i => cases hl
  | start =>
    unfold step at hs
    dsimp only at hs
    split at hs
    · rename_i hm; injection hs with hs; subst hs
      unfold work; dsimp only; rw [hm]; simp only [Main.weight]; omega
    · cases hs
  | send i =>
    unfold step at hs
    dsimp only at hs
    split at hs
    · rename_i h hget
      split at hs
      · rename_i hph
        obtain ⟨s1, h1, h2⟩ := Option.map_eq_some_iff.1 hs
        obtain ⟨a, _, c, _, e⟩ := sendIgnoring_same h1
        have hq : s1.queue.length ≤ s.queue.length + 1 := by
          rcases sendIgnoring_cases h1 with ⟨_, rfl⟩ | ⟨_, rfl⟩
          · omega
          · simp [St.put]
        have hw : h.weight = 3 := by unfold Handler.weight; rw [hph]
        split at h2
        · subst h2
          have := weights_setPhase .waiting s.handlers i h hget
          have hw' : ({ h with phase := .waiting } : Handler).weight = 1 := rfl
          unfold work; dsimp only; rw [a, c, e]; omega
        · subst h2
          have := weights_setPhase (.answered .ok) s.handlers i h hget
          have hw' : ({ h with phase := .answered .ok } : Handler).weight = 0 := rfl
          unfold work; dsimp only; rw [a, c, e]; omega
      · cases hs
    · cases hs
  | answer i =>
    unfold step at hs
    dsimp only at hs
    split at hs
    · rename_i h hget
      split at hs
      · rename_i hph
        have hw : h.weight = 1 := by unfold Handler.weight; rw [hph]
        split at hs
        · injection hs with hs; subst hs
          have := weights_setPhase (.answered .report) s.handlers i h hget
          have hw' : ({ h with phase := .answered .report } : Handler).weight = 0 := rfl
          unfold work; dsimp only; omega
        · injection hs with hs; subst hs
          have := weights_setPhase (.answered .failed) s.handlers i h hget
          have hw' : ({ h with phase := .answered .failed } : Handler).weight = 0 := rfl
          unfold work; dsimp only; omega
        · cases hs
      · cases hs
    · cases hs
  | timeout i =>
    unfold step at hs
    dsimp only at hs
    split at hs
    · rename_i h hget
      split at hs
      · rename_i hph
        have hw : h.weight = 1 := by unfold Handler.weight; rw [hph.1]
        injection hs with hs; subst hs
        have := weights_setPhase (.answered .timeout) s.handlers i h hget
        have hw' : ({ h with phase := .answered .timeout } : Handler).weight = 0 := rfl
        unfold work; dsimp only; omega
      · cases hs
    · cases hs
  | recv =>
    unfold step at hs
    dsimp only at hs
    split at hs
    · rename_i hm
      split at hs
      · rename_i hq
        injection hs with hs; subst hs
        unfold work; dsimp only; rw [hq]; simp only [List.length_cons]; omega
      · injection hs with hs; subst hs
        unfold work; dsimp only; rw [hm]; simp only [Main.weight, List.length_nil]; omega
      · cases hs
    · cases hs
  | check =>
    unfold step at hs
    dsimp only at hs
    split at hs
    · rename_i hm
      injection hs with hs; subst hs
      unfold work; dsimp only; rw [hm]
      split <;> (simp only [Main.weight]; omega)
    · cases hs
  | renderFails =>
    unfold step at hs
    dsimp only at hs
    split at hs
    · rename_i hm; injection hs with hs; subst hs
      unfold work; dsimp only; rw [hm]; simp only [Main.weight]; omega
    · cases hs
  | deliver =>
    unfold step at hs
    dsimp only at hs
    split at hs
    · rename_i hm; injection hs with hs; subst hs
      have key : weights (match s.slot with
        | some i => match s.handlers[i]? with
          | some h => if h.alive then give i .report s.handlers else s.handlers
          | none => s.handlers
        | none => s.handlers) = weights s.handlers := by
        repeat' split
        all_goals first
          | rfl
          | exact weights_give _ _ _
      have : ∀ n, n = weights s.handlers → Main.waiting.weight + n + s.queue.length + (if s.adminDone = true then 0 else 1) + 1 ≤
          s.main.weight + weights s.handlers + s.queue.length + (if s.adminDone = true then 0 else 1) := by
        intro n hn; rw [hn, hm]; simp only [Main.weight]; omega
      exact this _ key
    · cases hs
  | drain =>
    unfold step at hs
    dsimp only at hs
    split at hs
    · rename_i hc
      injection hs with hs; subst hs
      unfold work; dsimp only; rw [hc.2.1]; simp
    · cases hs
  | drainTimeout =>
    unfold step at hs
    dsimp only at hs
    split at hs
    · rename_i hc
      injection hs with hs; subst hs
      unfold work; dsimp only; rw [hc.2]; simp
    · cases hs
  | finish =>
    unfold step at hs
    dsimp only at hs
    split at hs
    · rename_i hm; injection hs with hs; subst hs
      unfold work; dsimp only; rw [hm.1]; simp only [Main.weight]; omega
    · cases hs

theorem work_run {http : Bool} {cap : Nat} : ∀ (ls : List (Label α)) (s s' : St α), (∀ l ∈ ls, l.internal = true) →
    run http cap s ls = some s' → ls.length + work s' ≤ work s := by
  intro ls
  induction ls with
  | nil => intro s s' _ h; injection h with h; subst h; simp
  | cons l ls ih =>
    intro s s' hl h
    unfold run at h
    cases hs : step http cap l s with
    | none => rw [hs] at h; cases h
    | some t =>
      rw [hs] at h
      have h1 := work_step l s t (hl l (List.mem_cons_self ..)) hs
      have h2 := ih t s' (fun x hx => hl x (List.mem_cons_of_mem _ hx)) h
      simp only [List.length_cons]; omega

/-- What a run in which no client goes away keeps. -/
def Stay (s : St α) : Prop :=
  (∀ (i : Nat) (h : Handler), s.handlers[i]? = some h → h.phase ≠ .gone) ∧ (s.main.handed = true → ∃ h, s.handlers[0]? = some h)

theorem Stay.same {s s' : St α} (h : Stay s) (h1 : s'.handlers = s.handlers) (h3 : s'.main.handed = s.main.handed) : Stay s' := by
  unfold Stay at h ⊢
  rw [h1, h3]; exact h

theorem Stay.phase {s : St α} (h : Stay s) (i : Nat) (p : Phase) (t : St α) (ht : t.handlers = setPhase i p s.handlers)
    (hm : t.main = s.main) (hp : p ≠ .gone) : Stay t := by
  refine ⟨fun j y hj => ?_, fun hh => ?_⟩
  · rw [ht] at hj
    obtain ⟨x, h1, _, _, h2⟩ := setPhase_get hj
    rcases h2 with ⟨_, h2⟩ | ⟨_, h2⟩
    · rw [h2]; exact h.1 j x h1
    · rw [h2]; exact hp
  · rw [hm] at hh
    obtain ⟨x, hx⟩ := h.2 hh
    obtain ⟨y, hy, _⟩ := get_setPhase (i := i) (p := p) hx
    rw [ht]; exact ⟨y, hy⟩

theorem Stay.append {s : St α} (h : Stay s) (hs : List Handler) (t : St α) (ht : t.handlers = hs ++ [{ waits := x }])
    (hl : hs.length = s.handlers.length) (hk : ∀ (i : Nat) (h : Handler), hs[i]? = some h → h.phase ≠ .gone)
    (hm : t.main = s.main) : Stay t := by
  refine ⟨fun j y hj => ?_, fun hh => ?_⟩
  · rw [ht] at hj
    rcases Nat.lt_or_ge j hs.length with hlt | hge
    · rw [List.getElem?_append_left hlt] at hj; exact hk j y hj
    · rw [List.getElem?_append_right hge] at hj
      cases hn : j - hs.length with
      | zero => rw [hn] at hj; injection hj with hj; subst hj; exact fun h => nomatch h
      | succ n => rw [hn] at hj; cases hj
  · rw [ht]
    cases hs with
    | nil => exact ⟨_, rfl⟩
    | cons a as => exact ⟨a, rfl⟩

theorem stay_step {http : Bool} {cap : Nat} (l : Label α) (s s' : St α) (hl : l.stays = true)
    (h : Stops http s ∧ Stay s) (hs : step http cap l s = some s') : Stops http s' ∧ Stay s' := by
  refine ⟨stops_step l s s' h.1 hs, ?_⟩
  obtain ⟨hS, h⟩ := h
  cases l with
  | leave i => cases hl
  | start =>
    unfold step at hs
    dsimp only at hs
    split at hs
    · rename_i hm; injection hs with hs; subst hs; exact h.same rfl (by rw [hm]; rfl)
    · cases hs
  | «export» a =>
    unfold step at hs
    dsimp only at hs
    split at hs
    · cases hs
    · split at hs
      · injection hs with hs; subst hs; exact h.same rfl rfl
      · cases hs
  | signal => obtain ⟨a, b, c, _⟩ := sendIgnoring_same hs; exact h.same a (by rw [c])
  | fault => obtain ⟨a, b, c, _⟩ := sendIgnoring_same hs; exact h.same a (by rw [c])
  | inactive =>
    unfold step at hs
    dsimp only at hs
    split at hs
    · obtain ⟨s1, h1, rfl⟩ := Option.map_eq_some_iff.1 hs
      obtain ⟨a, b, c, _⟩ := sendIgnoring_same h1
      exact h.same a (by rw [← c])
    · cases hs
  | arrive =>
    unfold step at hs
    dsimp only at hs
    split at hs
    · cases hs
    · split at hs
      · injection hs with hs; subst hs
        refine h.append (dropSlot s.slot s.handlers) _ rfl (dropSlot_length _ _) (fun i x hi => ?_) rfl
        unfold dropSlot at hi
        split at hi
        · obtain ⟨y, h1, _, h2, _⟩ := give_get hi
          rw [h2]; exact h.1 i y h1
        · exact h.1 i x hi
      · injection hs with hs; subst hs
        exact h.append s.handlers _ rfl rfl h.1 rfl
  | send i =>
    unfold step at hs
    dsimp only at hs
    split at hs
    · split at hs
      · obtain ⟨s1, h1, h2⟩ := Option.map_eq_some_iff.1 hs
        obtain ⟨a, b, c, _⟩ := sendIgnoring_same h1
        split at h2
        · subst h2; exact h.phase i .waiting _ (by dsimp only; rw [a]) c (fun h => nomatch h)
        · subst h2; exact h.phase i (.answered .ok) _ (by dsimp only; rw [a]) c (fun h => nomatch h)
      · cases hs
    · cases hs
  | answer i =>
    unfold step at hs
    dsimp only at hs
    split at hs
    · split at hs
      · split at hs
        · injection hs with hs; subst hs; exact h.phase i _ _ rfl rfl (fun h => nomatch h)
        · injection hs with hs; subst hs; exact h.phase i _ _ rfl rfl (fun h => nomatch h)
        · cases hs
      · cases hs
    · cases hs
  | timeout i =>
    unfold step at hs
    dsimp only at hs
    split at hs
    · split at hs
      · injection hs with hs; subst hs; exact h.phase i _ _ rfl rfl (fun h => nomatch h)
      · cases hs
    · cases hs
  | recv =>
    unfold step at hs
    dsimp only at hs
    split at hs
    · rename_i hm
      split at hs
      · injection hs with hs; subst hs
        exact h.same rfl rfl
      · injection hs with hs; subst hs
        exact h.same rfl (by rw [hm]; rfl)
      · cases hs
    · cases hs
  | check =>
    unfold step at hs
    dsimp only at hs
    split at hs
    · rename_i hm
      injection hs with hs; subst hs
      refine h.same rfl ?_
      rw [hm]; dsimp only; split <;> rfl
    · cases hs
  | renderFails =>
    unfold step at hs
    dsimp only at hs
    split at hs
    · rename_i hm; injection hs with hs; subst hs
      exact h.same rfl (by rw [hm]; rfl)
    · cases hs
  | deliver =>
    unfold step at hs
    dsimp only at hs
    split at hs
    · rename_i hm; injection hs with hs; subst hs
      obtain ⟨i, hi⟩ := Option.ne_none_iff_exists'.1 (hS.2.2.1 hm)
      obtain ⟨x, hx, hw, hb⟩ := hS.1.slotWaits i hi
      have h0 : ∃ y, s.handlers[0]? = some y := by
        cases hh : s.handlers with
        | nil => rw [hh] at hx; cases hx
        | cons a as => exact ⟨a, rfl⟩
      obtain ⟨y, hy⟩ := h0
      unfold Stay
      dsimp only
      rw [hi]; dsimp only; rw [hx]; dsimp only
      split
      · refine ⟨fun j z hz => ?_, fun _ => ?_⟩
        · obtain ⟨w, h1, _, h2, _⟩ := give_get hz
          rw [h2]; exact h.1 j w h1
        · obtain ⟨w, h1, _⟩ := get_give (i := i) (x := .report) hy
          exact ⟨w, h1⟩
      · exact ⟨h.1, fun _ => ⟨y, hy⟩⟩
    · cases hs
  | drain =>
    unfold step at hs
    dsimp only at hs
    split at hs
    · injection hs with hs; subst hs; exact h.same rfl rfl
    · cases hs
  | drainTimeout =>
    unfold step at hs
    dsimp only at hs
    split at hs
    · injection hs with hs; subst hs; exact h.same rfl rfl
    · cases hs
  | finish =>
    unfold step at hs
    dsimp only at hs
    split at hs
    · rename_i hm; injection hs with hs; subst hs
      exact h.same rfl (by rw [hm.1]; rfl)
    · cases hs

/-- While the command is not over, and something has stopped the receiver, there is a step the process can make. -/
theorem progress {http : Bool} {cap : Nat} {s : St α} (hC : Chan s) (hS : Stops http s) (hT : Stay s) (hd : Stopped s)
    (hm : s.main.over = false) : ∃ l : Label α, l.internal = true ∧ (step http cap l s).isSome = true := by
  cases hmain : s.main with
  | starting => exact ⟨.start, rfl, by unfold step; dsimp only; rw [if_pos hmain]; rfl⟩
  | receiving =>
    obtain ⟨x, hx, hxd⟩ := hd
    have hsent := (hC.2.1 (by rw [hmain]; rfl)).2
    rw [hsent] at hx
    rcases List.mem_append.1 hx with hx | hx
    · obtain ⟨a, _, rfl⟩ := List.mem_map.1 hx; cases hxd
    · cases hq : s.queue with
      | nil => rw [hq] at hx; cases hx
      | cons y q =>
        cases y with
        | data a => exact ⟨.recv, rfl, by unfold step; dsimp only; rw [if_pos hmain, hq]; rfl⟩
        | stop => exact ⟨.recv, rfl, by unfold step; dsimp only; rw [if_pos hmain, hq]; rfl⟩
        | error => exact ⟨.recv, rfl, by unfold step; dsimp only; rw [if_pos hmain, hq]; rfl⟩
  | finished => exact ⟨.check, rfl, by unfold step; dsimp only; rw [if_pos hmain]; rfl⟩
  | rendering => exact ⟨.deliver, rfl, by unfold step; dsimp only; rw [if_pos hmain]; rfl⟩
  | done o => rw [hmain] at hm; cases hm
  | waiting =>
    cases had : s.adminDone with
    | true => exact ⟨.finish, rfl, by unfold step; dsimp only; rw [if_pos ⟨hmain, had⟩]; rfl⟩
    | false =>
      cases htr : s.trigger with
      | true => exact ⟨.drainTimeout, rfl, by unfold step; dsimp only; rw [if_pos ⟨htr, had⟩]; rfl⟩
      | false =>
        obtain ⟨h, hget⟩ := hT.2 (by rw [hmain]; rfl)
        cases hp : h.phase with
        | sending =>
          have hcl := (hC.2.2 (by rw [hmain]; rfl)).1
          refine ⟨.send 0, rfl, ?_⟩
          unfold step; dsimp only; rw [hget]; dsimp only; rw [if_pos hp]
          unfold St.sendIgnoring
          rw [if_pos hcl]; rfl
        | waiting =>
          cases hb : h.inbox with
          | empty =>
            refine ⟨.timeout 0, rfl, ?_⟩
            unfold step; dsimp only; rw [hget]; dsimp only; rw [if_pos ⟨hp, hb⟩]; rfl
          | report =>
            refine ⟨.answer 0, rfl, ?_⟩
            unfold step; dsimp only; rw [hget]; dsimp only; rw [if_pos hp, hb]; rfl
          | dropped =>
            refine ⟨.answer 0, rfl, ?_⟩
            unfold step; dsimp only; rw [hget]; dsimp only; rw [if_pos hp, hb]; rfl
        | answered a => have := hS.1.triggered 0 h a hget hp; rw [htr] at this; cases this
        | gone => exact absurd hp (hT.1 0 h hget)

/-- C189: if no client of a `/stop` request goes away, then after whatever stops the receiver the command ends: from there
it makes a bounded number of steps by itself, whatever their order, and when it can make no more it is over. Missing: clients
that go away (see `ends_refuted`). -/
theorem ends_partial {http : Bool} {cap : Nat} {timeout admin : Bool} {ls : List (Label α)} {s : St α}
    (hl : ∀ l ∈ ls, l.stays = true) (h : run http cap (init timeout admin) ls = some s) (hd : Stopped s) :
    ∃ n, ∀ (ls' : List (Label α)) (s' : St α), (∀ l ∈ ls', l.internal = true) → run http cap s ls' = some s' →
      ls'.length ≤ n ∧ (s'.main.over = true ∨ ∃ l : Label α, l.internal = true ∧ (step http cap l s').isSome = true) := by
  have hP := run_induct (P := fun s => Stops http s ∧ Stay s) (ok := fun l => l.stays = true)
    (fun l s s' hl h hs => stay_step l s s' hl h hs) ls _ _ hl ⟨stops_init _ _ _, by
      refine ⟨fun i x hi => ?_, fun hh => ?_⟩
      · cases admin <;> cases hi
      · cases admin <;> cases hh⟩ h
  refine ⟨work s, fun ls' s' hl' h' => ⟨by have := work_run ls' s s' hl' h'; omega, ?_⟩⟩
  have hP' := run_induct (P := fun s => Stops http s ∧ Stay s) (ok := fun l => l.stays = true)
    (fun l s s' hl h hs => stay_step l s s' hl h hs) ls' _ _
    (fun l hx => by have := hl' l hx; cases l <;> first | rfl | cases this) hP h'
  have hC' := run_induct (P := fun s => Chan s) (ok := fun _ => True) (fun l s s' _ => chan_step l s s') ls' _ _
    (fun _ _ => trivial) (chan_run h) h'
  cases ho : s'.main.over with
  | true => exact .inl rfl
  | false =>
    refine .inr (progress hC' hP'.1 hP'.2 ?_ ho)
    obtain ⟨x, hx, hxd⟩ := hd
    obtain ⟨r, hr⟩ := sent_run h'
    exact ⟨x, by rw [← hr]; exact List.mem_append_left _ hx, hxd⟩

/-- The claim of `ends_partial` without its restriction: the command can end, without the help of another `/stop` request. -/
def Ends : Prop :=
  ∀ (cap : Nat) (ls : List (Label Nat)) (s : St Nat), run true cap (init false true) ls = some s → Stopped s →
    ∃ (ls' : List (Label Nat)) (s' : St Nat), (∀ l ∈ ls', l.arrives = false) ∧ run true cap s ls' = some s' ∧ s'.main.over = true

/-- The state in which the command waits for a request whose client has gone. -/
def Hangs (s : St α) : Prop :=
  s.main = .waiting ∧ s.trigger = false ∧ s.adminDone = false ∧ s.closed = true ∧
  ∀ (i : Nat) (h : Handler), s.handlers[i]? = some h → h.phase = .gone

theorem hangs_step {http : Bool} {cap : Nat} (l : Label α) (s s' : St α) (hl : l.arrives = false) (h : Hangs s)
    (hs : step http cap l s = some s') : Hangs s' := by
  obtain ⟨hm, ht, ha, hc, hg⟩ := h
  have send : ∀ {x : Item α} {t : St α}, s.sendIgnoring cap x = some t → t = s := by
    intro x t h
    rcases sendIgnoring_cases h with ⟨_, h⟩ | ⟨h, _⟩
    · exact h
    · rw [hc] at h; cases h
  cases l with
  | arrive => cases hl
  | signal => rw [send hs]; exact ⟨hm, ht, ha, hc, hg⟩
  | fault => rw [send hs]; exact ⟨hm, ht, ha, hc, hg⟩
  | inactive =>
    unfold step at hs
    dsimp only at hs
    split at hs
    · obtain ⟨s1, h1, rfl⟩ := Option.map_eq_some_iff.1 hs
      have := send h1; subst this
      exact ⟨hm, ht, ha, hc, hg⟩
    · cases hs
  | start => simp [step, hm] at hs
  | «export» a => simp [step, hc] at hs
  | send i =>
    unfold step at hs
    dsimp only at hs
    split at hs
    · rename_i h hget; rw [hg i h hget] at hs; simp at hs
    · cases hs
  | answer i =>
    unfold step at hs
    dsimp only at hs
    split at hs
    · rename_i h hget; rw [hg i h hget] at hs; simp at hs
    · cases hs
  | timeout i =>
    unfold step at hs
    dsimp only at hs
    split at hs
    · rename_i h hget; rw [hg i h hget] at hs; simp at hs
    · cases hs
  | leave i =>
    unfold step at hs
    dsimp only at hs
    split at hs
    · rename_i h hget; unfold Handler.alive at hs; rw [hg i h hget] at hs; simp at hs
    · cases hs
  | recv => simp [step, hm] at hs
  | check => simp [step, hm] at hs
  | renderFails => simp [step, hm] at hs
  | deliver => simp [step, hm] at hs
  | drain => simp [step, ht] at hs
  | drainTimeout => simp [step, ht] at hs
  | finish => simp [step, ha] at hs

/-- C189: false in general. With `--output http`, if the client of the `/stop` request goes away before it has its answer, the
command waits for ever: nothing but another `/stop` request ends it, neither CTRL+C nor the inactivity timeout. -/
theorem ends_refuted : ¬ Ends := by
  intro h
  obtain ⟨ls', s', hl, hr, ho⟩ := h 100 [.start, .arrive, .send 0, .leave 0, .recv, .check, .deliver] _ rfl
    ⟨.stop, by simp [init, St.put, St.sent], rfl⟩
  have := run_induct (P := fun s => Hangs s) (ok := fun l => l.arrives = false) (fun l s s' hl h hs => hangs_step l s s' hl h hs)
    ls' _ _ hl ⟨rfl, rfl, rfl, rfl, by
      intro i x hi
      cases i with
      | zero => injection hi with hi; subst hi; rfl
      | succ i => cases hi⟩ hr
  rw [this.1] at ho; cases ho

example : ∃ s : St Nat, run true 100 (init false true) [.start, .export 1, .arrive, .send 0] = some s ∧ Stopped s ∧
    (∀ l ∈ [Label.start, .export 1, .arrive, .send 0], l.stays = true) ∧
    ∃ s', run true 100 s [.recv, .recv, .check, .deliver, .answer 0, .drain, .finish] = some s' ∧ s'.main.over = true :=
  ⟨_, rfl, ⟨.stop, by simp [init, St.put, St.sent], rfl⟩, by decide, _, rfl, rfl⟩

/-! ### C190: what `/stop` answers -/

def Told (http : Bool) (s : St α) : Prop :=
  s.main ≠ .starting ∧ s.expect = http ∧ ∀ (i : Nat) (h : Handler), s.handlers[i]? = some h → h.waits = http

theorem Told.same {http : Bool} {s s' : St α} (h : Told http s) (h1 : s'.handlers = s.handlers) (h2 : s'.expect = s.expect)
    (h3 : s'.main ≠ .starting) : Told http s' := by
  unfold Told
  rw [h1, h2]; exact ⟨h3, h.2⟩

theorem Told.phase {http : Bool} {s t : St α} (h : Told http s) (i : Nat) (p : Phase) (h1 : t.handlers = setPhase i p s.handlers)
    (h2 : t.expect = s.expect) (h3 : t.main = s.main) : Told http t := by
  refine ⟨by rw [h3]; exact h.1, by rw [h2]; exact h.2.1, fun j y hj => ?_⟩
  rw [h1] at hj
  obtain ⟨x, h4, h5, _⟩ := setPhase_get hj
  rw [h5]; exact h.2.2 j x h4

theorem sendIgnoring_expect {s s' : St α} {cap : Nat} {x : Item α} (hs : s.sendIgnoring cap x = some s') :
    s'.expect = s.expect := by
  rcases sendIgnoring_cases hs with ⟨_, rfl⟩ | ⟨_, rfl⟩ <;> rfl

theorem told_step {http : Bool} {cap : Nat} (l : Label α) (s s' : St α) (h : Told http s) (hs : step http cap l s = some s') :
    Told http s' := by
  have send : ∀ {x : Item α} {t : St α}, s.sendIgnoring cap x = some t → Told http t := by
    intro x t ht
    obtain ⟨a, _, c, _⟩ := sendIgnoring_same ht
    exact h.same a (sendIgnoring_expect ht) (by rw [c]; exact h.1)
  cases l with
  | start => simp [step, h.1] at hs
  | signal => exact send hs
  | fault => exact send hs
  | «export» a =>
    unfold step at hs
    dsimp only at hs
    split at hs
    · cases hs
    · split at hs
      · injection hs with hs; subst hs; exact h.same rfl rfl h.1
      · cases hs
  | inactive =>
    unfold step at hs
    dsimp only at hs
    split at hs
    · obtain ⟨s1, h1, rfl⟩ := Option.map_eq_some_iff.1 hs
      exact (send h1).same rfl rfl (send h1).1
    · cases hs
  | arrive =>
    unfold step at hs
    dsimp only at hs
    split at hs
    · cases hs
    · split at hs
      · rename_i he
        have hh : http = true := by rw [← h.2.1]; exact he
        injection hs with hs; subst hs
        refine ⟨h.1, h.2.1, fun j y hj => ?_⟩
        dsimp only at hj
        rcases Nat.lt_or_ge j (dropSlot s.slot s.handlers).length with hlt | hge
        · rw [List.getElem?_append_left hlt] at hj
          unfold dropSlot at hj
          split at hj
          · obtain ⟨x, h1, h2, _⟩ := give_get hj
            rw [h2]; exact h.2.2 j x h1
          · exact h.2.2 j y hj
        · rw [List.getElem?_append_right hge] at hj
          cases hn : j - (dropSlot s.slot s.handlers).length with
          | zero => rw [hn] at hj; injection hj with hj; subst hj; rw [hh]
          | succ n => rw [hn] at hj; cases hj
      · rename_i he
        have hh : http = false := by rw [← h.2.1]; simpa using he
        injection hs with hs; subst hs
        refine ⟨h.1, h.2.1, fun j y hj => ?_⟩
        dsimp only at hj
        rcases Nat.lt_or_ge j s.handlers.length with hlt | hge
        · rw [List.getElem?_append_left hlt] at hj; exact h.2.2 j y hj
        · rw [List.getElem?_append_right hge] at hj
          cases hn : j - s.handlers.length with
          | zero => rw [hn] at hj; injection hj with hj; subst hj; rw [hh]
          | succ n => rw [hn] at hj; cases hj
  | send i =>
    unfold step at hs
    dsimp only at hs
    split at hs
    · split at hs
      · obtain ⟨s1, h1, h2⟩ := Option.map_eq_some_iff.1 hs
        have hT := send h1
        split at h2
        · subst h2; exact hT.phase i _ rfl rfl rfl
        · subst h2; exact hT.phase i _ rfl rfl rfl
      · cases hs
    · cases hs
  | answer i =>
    unfold step at hs
    dsimp only at hs
    split at hs
    · split at hs
      · split at hs
        · injection hs with hs; subst hs; exact h.phase i _ rfl rfl rfl
        · injection hs with hs; subst hs; exact h.phase i _ rfl rfl rfl
        · cases hs
      · cases hs
    · cases hs
  | timeout i =>
    unfold step at hs
    dsimp only at hs
    split at hs
    · split at hs
      · injection hs with hs; subst hs; exact h.phase i _ rfl rfl rfl
      · cases hs
    · cases hs
  | leave i =>
    unfold step at hs
    dsimp only at hs
    split at hs
    · split at hs
      · injection hs with hs; subst hs; exact h.phase i _ rfl rfl rfl
      · cases hs
    · cases hs
  | recv =>
    unfold step at hs
    dsimp only at hs
    split at hs
    · split at hs
      · injection hs with hs; subst hs; exact h.same rfl rfl h.1
      · injection hs with hs; subst hs; exact h.same rfl rfl (fun h => nomatch h)
      · cases hs
    · cases hs
  | check =>
    unfold step at hs
    dsimp only at hs
    split at hs
    · injection hs with hs; subst hs
      refine h.same rfl rfl ?_
      dsimp only; split <;> exact fun h => nomatch h
    · cases hs
  | renderFails =>
    unfold step at hs
    dsimp only at hs
    split at hs
    · injection hs with hs; subst hs; exact h.same rfl rfl (fun h => nomatch h)
    · cases hs
  | deliver =>
    unfold step at hs
    dsimp only at hs
    split at hs
    · injection hs with hs; subst hs
      refine ⟨(fun h => nomatch h), h.2.1, fun j y hj => ?_⟩
      dsimp only at hj
      split at hj
      · split at hj
        · split at hj
          · obtain ⟨x, h1, h2, _⟩ := give_get hj
            rw [h2]; exact h.2.2 j x h1
          · exact h.2.2 j y hj
        · exact h.2.2 j y hj
      · exact h.2.2 j y hj
    · cases hs
  | drain =>
    unfold step at hs
    dsimp only at hs
    split at hs
    · injection hs with hs; subst hs; exact h.same rfl rfl h.1
    · cases hs
  | drainTimeout =>
    unfold step at hs
    dsimp only at hs
    split at hs
    · injection hs with hs; subst hs; exact h.same rfl rfl h.1
    · cases hs
  | finish =>
    unfold step at hs
    dsimp only at hs
    split at hs
    · injection hs with hs; subst hs; exact h.same rfl rfl (fun h => nomatch h)
    · cases hs

/-- C190: once the command is started, a `/stop` request is answered without a report if the command was not asked for
`--output http`; if it was, it is answered with the report, unless it takes too long or another `/stop` request came after it.
Missing: those before, and that nothing else happens (see `stop_answers_refuted`, `stop_twice_refuted`). -/
theorem stop_answers_partial {http : Bool} {cap : Nat} {timeout admin : Bool} {ls : List (Label α)} {s : St α}
    (h : run http cap (init timeout admin) (.start :: ls) = some s) (i : Nat) (x : Handler) (a : Answer)
    (hi : s.handlers[i]? = some x) (ha : x.phase = .answered a) :
    (http = false → a = .ok) ∧
    (http = true → a = .timeout ∨ (a = .report ∧ x.inbox = .report ∧ s.main.handed = true) ∨
      (a = .failed ∧ ∃ (j : Nat) (y : Handler), i < j ∧ s.handlers[j]? = some y)) := by
  have hS := stops_run h
  have hT : Told http s := by
    unfold run at h
    cases hs : step http cap .start (init timeout admin : St α) with
    | none => rw [hs] at h; cases h
    | some t =>
      rw [hs] at h
      refine run_induct (P := fun s => Told http s) (ok := fun _ => True) (fun l s s' _ => told_step l s s') ls t _
        (fun _ _ => trivial) ?_ h
      unfold step at hs
      dsimp only at hs
      split at hs
      · injection hs with hs; subst hs
        refine ⟨(fun h => nomatch h), rfl, fun j y hj => ?_⟩
        cases admin <;> cases hj
      · cases hs
  have hw := hT.2.2 i x hi
  cases a with
  | ok =>
    have := hS.1.ansOk i x hi ha
    refine ⟨fun _ => rfl, fun hh => ?_⟩
    rw [hw, hh] at this; cases this
  | report =>
    have hb := hS.1.ansReport i x hi ha
    have hh := hS.1.report i x hi hb
    refine ⟨fun hf => ?_, fun _ => .inr (.inl ⟨rfl, hb, hh⟩)⟩
    have := hS.2.2.2 hh; rw [hf] at this; cases this
  | failed =>
    have hb := hS.1.ansFailed i x hi ha
    obtain ⟨j, y, h1, h2, h3⟩ := hS.1.dropped i x hi hb
    refine ⟨fun hf => ?_, fun _ => .inr (.inr ⟨rfl, j, y, h1, h2⟩)⟩
    have := hS.1.waits j y h2 h3; rw [hf] at this; cases this
  | timeout =>
    have := hS.1.ansTimeout i x hi ha
    refine ⟨fun hf => ?_, fun _ => .inl rfl⟩
    rw [hw, hf] at this; cases this

/-- The claim of `stop_answers_partial` without its restrictions: with `--output http`, if nobody is impatient, a `/stop`
request that is answered is answered with the report. -/
def StopAnswers (first : List (Label Nat)) : Prop :=
  ∀ (cap : Nat) (ls : List (Label Nat)) (s : St Nat) (x : Handler) (a : Answer), (∀ l ∈ ls, l.patient = true) →
    run true cap (init false true) (first ++ ls) = some s → x ∈ s.handlers → x.phase = .answered a → a = .report

/-- C190: false in general: the admin server answers before the command has told it that a report is to be expected. -/
theorem stop_answers_refuted : ¬ StopAnswers [] := by
  intro h
  have := h 100 [.arrive, .start, .send 0] _ ⟨false, .answered .ok, .empty⟩ .ok (by decide) rfl (by decide) rfl
  cases this

/-- C190: false in general, even after the start: a second `/stop` request makes the first one fail. -/
theorem stop_twice_refuted : ¬ StopAnswers [.start] := by
  intro h
  have := h 100 [.arrive, .send 0, .arrive, .answer 0] _ ⟨true, .answered .failed, .dropped⟩ .failed (by decide) rfl (by decide) rfl
  cases this

/-! ### C191, C192: a receiver that fails -/

/-- A failure taken for a stop. -/
def Item.forget : Item α → Item α
  | .error => .stop
  | x => x

def Label.forget : Label α → Label α
  | .fault => .signal
  | l => l

def St.forget (s : St α) : St α := { s with queue := s.queue.map Item.forget, sent := s.sent.map Item.forget }

theorem forget_send {cap : Nat} {s s' : St α} {x : Item α} (h : s.sendIgnoring cap x = some s') :
    s.forget.sendIgnoring cap x.forget = some s'.forget := by
  unfold St.sendIgnoring at h ⊢
  have hq : s.forget.queue.length = s.queue.length := List.length_map ..
  have hc : s.forget.closed = s.closed := rfl
  rw [hq, hc]
  split at h
  · rename_i c; injection h with h; subst h; rw [if_pos c]
  · rename_i c
    rw [if_neg c]
    split at h
    · rename_i d; injection h with h; subst h; rw [if_pos d]
      simp [St.forget, St.put]
    · cases h

theorem forget_step {http : Bool} {cap : Nat} (l : Label α) (s s' : St α) (hs : step http cap l s = some s') :
    step http cap l.forget s.forget = some s'.forget := by
  cases l with
  | signal => exact forget_send hs
  | fault => exact forget_send hs
  | «export» a =>
    unfold step at hs
    dsimp only at hs
    change (if s.activity = false ∨ s.closed = true then none else if (s.queue.map Item.forget).length < cap then _ else none) = _
    rw [List.length_map]
    split at hs
    · cases hs
    · rename_i c
      rw [if_neg c]
      split at hs
      · rename_i d; injection hs with hs; subst hs; rw [if_pos d]
        simp [St.forget, St.put, Item.forget]
      · cases hs
  | inactive =>
    unfold step at hs
    dsimp only at hs
    change (if s.monitor = true then (s.forget.sendIgnoring cap .stop).map _ else none) = _
    split at hs
    · rename_i c
      obtain ⟨s1, h1, rfl⟩ := Option.map_eq_some_iff.1 hs
      have := forget_send h1
      change s.forget.sendIgnoring cap .stop = _ at this
      rw [if_pos c, this]; rfl
    · cases hs
  | send i =>
    unfold step at hs
    dsimp only at hs
    change (match s.handlers[i]? with
      | some h => if h.phase = Phase.sending then (s.forget.sendIgnoring cap .stop).map _ else none
      | none => none) = _
    split at hs
    · rename_i h hget
      split at hs
      · rename_i c
        obtain ⟨s1, h1, h2⟩ := Option.map_eq_some_iff.1 hs
        have := forget_send h1
        change s.forget.sendIgnoring cap .stop = _ at this
        rw [hget]; dsimp only
        rw [if_pos c, this]
        subst h2
        rw [Option.map_some]
        split <;> rfl
      · cases hs
    · cases hs
  | recv =>
    unfold step at hs
    dsimp only at hs
    split at hs
    · rename_i hm
      change (if s.main = .receiving then (match s.queue.map Item.forget with
        | .data a :: q => _
        | _ :: _ => _
        | [] => none) else none) = _
      rw [if_pos hm]
      split at hs
      · rename_i a q hq
        injection hs with hs; subst hs
        rw [hq]; rfl
      · rename_i x q hx hq
        injection hs with hs; subst hs
        rw [hq]
        cases x with
        | data a => exact absurd rfl (hx a)
        | stop => rfl
        | error => rfl
      · cases hs
    · cases hs
  | check =>
    unfold step at hs
    dsimp only at hs
    split at hs
    · rename_i hm; injection hs with hs; subst hs
      change (if s.main = .finished then _ else none) = _
      rw [if_pos hm]; rfl
    · cases hs
  | _ =>
    unfold step at hs ⊢
    dsimp only [Label.forget, St.forget] at hs ⊢
    repeat' split at hs
    all_goals first
      | (cases hs; done)
      | (injection hs with hs; subst hs; simp_all)

theorem forget_run {http : Bool} {cap : Nat} : ∀ (ls : List (Label α)) (s s' : St α), run http cap s ls = some s' →
    run http cap s.forget (ls.map Label.forget) = some s'.forget := by
  intro ls
  induction ls with
  | nil => intro s s' h; injection h with h; subst h; rfl
  | cons l ls ih =>
    intro s s' h
    unfold run at h
    cases hs : step http cap l s with
    | none => rw [hs] at h; cases h
    | some t =>
      rw [hs] at h
      rw [List.map_cons]
      unfold run
      rw [forget_step l s t hs]
      exact ih t s' h

/-- What a user sees: how the command ended, the answers to the `/stop` requests, what was checked and which requests were
confirmed. -/
def St.seen (s : St α) : Main × List Handler × List α × List α := (s.main, s.handlers, s.got, s.acked)

/-- C191: a receiver that fails does not lose what it has received: whatever happens, the same would have been seen if the
receiver had been stopped by CTRL+C where it failed. -/
theorem failure_as_stop {http : Bool} {cap : Nat} {timeout : Bool} {ls : List (Label α)} {s : St α}
    (h : run http cap (init timeout true) ls = some s) :
    ∃ s', run http cap (init timeout true) (ls.map Label.forget) = some s' ∧ s'.seen = s.seen ∧ Label.fault ∉ ls.map Label.forget := by
  refine ⟨s.forget, forget_run ls _ _ h, rfl, fun hm => ?_⟩
  obtain ⟨l, _, hl⟩ := List.mem_map.1 hm
  cases l <;> cases hl

example : ∃ s : St Nat, run false 100 (init false true) [.start, .export 1, .fault, .recv, .recv, .check] = some s ∧
    s.main = .done .printed ∧ s.got = [1] := ⟨_, rfl, rfl, rfl⟩

theorem slot_untriggered {http : Bool} {cap : Nat} (l : Label α) (s s' : St α)
    (h : s.trigger = true ∧ s.slot = none ∧ s.main ≠ .rendering ∧ s.main.handed = false ∧ s.main ≠ .done .failed) (hs : step http cap l s = some s') :
    s'.trigger = true ∧ s'.slot = none ∧ s'.main ≠ .rendering ∧ s'.main.handed = false ∧ s'.main ≠ .done .failed := by
  obtain ⟨ht, hsl, hr, hh, hf⟩ := h
  have send : ∀ {x : Item α} {t : St α}, s.sendIgnoring cap x = some t →
      t.trigger = true ∧ t.slot = none ∧ t.main ≠ .rendering ∧ t.main.handed = false ∧ t.main ≠ .done .failed := by
    intro x t h
    obtain ⟨_, b, c, d, _⟩ := sendIgnoring_same h
    rw [b, c, d]; exact ⟨ht, hsl, hr, hh, hf⟩
  cases l with
  | signal => exact send hs
  | fault => exact send hs
  | inactive =>
    unfold step at hs
    dsimp only at hs
    split at hs
    · obtain ⟨s1, h1, rfl⟩ := Option.map_eq_some_iff.1 hs
      exact send (t := s1) h1
    · cases hs
  | send i =>
    unfold step at hs
    dsimp only at hs
    split at hs
    · split at hs
      · obtain ⟨s1, h1, h2⟩ := Option.map_eq_some_iff.1 hs
        obtain ⟨k1, k2, k3, k4, k5⟩ := send (t := s1) h1
        split at h2
        · subst h2; exact ⟨k1, k2, k3, k4, k5⟩
        · subst h2; exact ⟨rfl, k2, k3, k4, k5⟩
      · cases hs
    · cases hs
  | _ =>
    unfold step at hs
    dsimp only at hs
    repeat' split at hs
    all_goals first
      | (cases hs; done)
      | (injection hs with hs; subst hs; simp_all [Main.handed, St.put])

/-- C192: if the admin port is taken, the command checks nothing and ends, whatever else happens, as if it had been stopped:
the report it prints is about nothing. -/
theorem admin_port_taken {http : Bool} {cap : Nat} {timeout : Bool} {ls : List (Label α)} {s : St α}
    (h : run http cap (init timeout false) ls = some s) :
    s.got = [] ∧ (s.main.over = true → s.main = .done .printed) := by
  have hS := run_induct (P := fun s => s.trigger = true ∧ s.slot = none ∧ s.main ≠ .rendering ∧ s.main.handed = false ∧ s.main ≠ .done .failed)
    (ok := fun _ => True) (fun l s s' _ => slot_untriggered l s s') ls _ _ (fun _ _ => trivial)
    (show true = true ∧ (none : Option Nat) = none ∧ Main.starting ≠ .rendering ∧ Main.starting.handed = false ∧
      Main.starting ≠ .done .failed by decide) h
  constructor
  · obtain ⟨r, hr⟩ := sent_run h
    change [Item.error] ++ r = s.sent at hr
    cases hp : s.main.past with
    | true => rw [checked_in_order h hp, ← hr]; rfl
    | false =>
      have := ((chan_run h).2.1 hp).2
      rw [← hr] at this
      cases hg : s.got with
      | nil => rfl
      | cons a as => rw [hg] at this; injection this with this; cases this
  · intro ho
    cases hm : s.main with
    | done o =>
      cases o with
      | printed => rfl
      | handed => have := hS.2.2.2.1; rw [hm] at this; cases this
      | failed => exact absurd hm hS.2.2.2.2
    | _ => rw [hm] at ho; cases ho

/-- That a user can see whether it was a failure that ended the loop. -/
def FailureSeen : Prop :=
  ∃ told : Main × List Handler × List Nat × List Nat → Bool, ∀ (ls : List (Label Nat)) (s : St Nat),
    run false 100 (init false true) ls = some s → s.main.over = true → told s.seen = decide (s.sent[s.got.length]? = some .error)

/-- C192: a failure of the receiver cannot be told from a stop. -/
theorem failure_seen_refuted : ¬ FailureSeen := by
  rintro ⟨told, h⟩
  have h1 := h [.start, .export 1, .fault, .recv, .recv, .check] _ rfl rfl
  have h2 := h [.start, .export 1, .signal, .recv, .recv, .check] _ rfl rfl
  have e : ∀ b c : Bool, told (.done .printed, [], [1], [1]) = b → told (.done .printed, [], [1], [1]) = c → b = c :=
    fun b c hb hc => hb.symm.trans hc
  have := e true false h1 h2
  cases this

example : ∃ s : St Nat, run true 100 (init true false) [.export 1, .start, .recv, .check] = some s ∧ s.main.over = true ∧
    s.acked = [1] ∧ s.got = [] := ⟨_, rfl, rfl, rfl, rfl⟩

end Verif.Receiver
