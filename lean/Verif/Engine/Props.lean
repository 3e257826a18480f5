import Verif.Engine.Model
import Verif.Engine.CacheProps
import Verif.Util.Forall2
/-
What the resolver engine promises, in every history of its use (C166 …).
-/
namespace Verif.Engine
open Verif.Util Verif.Resolver Verif.Loader
variable {B : Type}

/-! ### Specification -/

/-- The caches an engine of capacity `cap` can have: it is new, or has loaded a registry or answered a request before.
Files, overrides and the network may be different at every call. -/
inductive Reached (cap : Nat) : Cache B → Prop
  | new : Reached cap []
  | loaded {c c' : Cache B} (h : Host B) (n : Nat) (visit : Item B → Bool) (r : Repo) (res : Res B) :
      h.cap = cap → Reached cap c → loadAndResolve h n visit r c = some (res, c') → Reached cap c'
  | requested {c c' : Cache B} (h : Host B) (n : Nat) (u : SchemaUrl) (res : Res B) :
      h.cap = cap → Reached cap c → request h n u c = some (res, c') → Reached cap c'
  | viewed {c c' : Cache B} (h : Host B) (n : Nat) (s : Schema B) (res : Except Err (View B × List Note)) :
      h.cap = cap → Reached cap c → view h n s c = some (res, c') → Reached cap c'

/-- Every schema is filed under its URL. -/
def Keyed (c : Cache B) : Prop := ∀ p ∈ c, p.2.url = p.1

/-! ### What every run keeps -/

/-- What holds of the cache before holds after, if using and storing keep it. -/
structure Kept (h : Host B) (P : Cache B → Prop) : Prop where
  get : ∀ c u, P c → P (Lru.get u c).2
  put : ∀ c (s : Schema B), P c → P (Lru.put h.cap s.url s c)

theorem resolveAll_kept {P : Cache B → Prop} {rec : Item B → Cache B → Option (Res B × Cache B)}
    (hr : ∀ i c r, rec i c = some r → P c → P r.2) (is : List (Item B)) :
    ∀ c rs, resolveAll rec is c = some rs → P c → P rs.2 := by
  induction is with
  | nil => intro c rs h hc; simp only [resolveAll, Option.some.injEq] at h; subst h; exact hc
  | cons i is ih =>
    intro c rs h hc
    simp only [resolveAll] at h
    cases h1 : rec i c with
    | none => rw [h1] at h; cases h
    | some r =>
      rw [h1] at h; simp only at h
      cases h2 : resolveAll rec is r.2 with
      | none => rw [h2] at h; cases h
      | some rs' =>
        rw [h2] at h; simp only [Option.some.injEq] at h; subst h
        exact (ih _ rs' h2 (hr _ _ _ h1 hc) :)

theorem finish_kept {h : Host B} {P : Cache B → Prop} (k : Kept h P) (r : Repo) (ss : List (Schema B)) (c : Cache B)
    (hc : P c) : P (finish h r ss c).2 := by
  unfold finish
  cases h.build r ss (chosenOf ss) (fun u => Lru.peek u c) with
  | error m => exact hc
  | ok p => exact k.put c { url := ownUrl r, deps := builtFrom ss, body := p.1 } hc

theorem run_kept {h : Host B} {P : Cache B → Prop} (k : Kept h P) (n : Nat) :
    (∀ i c r, resolveLoaded h n i c = some r → P c → P r.2) ∧ (∀ i c r, resolveDep h n i c = some r → P c → P r.2) := by
  induction n with
  | zero =>
    exact ⟨fun i c r h => by simp [resolveLoaded] at h, fun i c r h => by simp [resolveDep] at h⟩
  | succ n ih =>
    refine ⟨fun i c r hr hc => ?_, fun i c r hr hc => ?_⟩
    · cases i with
      | ready s => simp only [resolveLoaded, Option.some.injEq] at hr; subst hr; exact k.put c s hc
      | source rp is =>
        simp only [resolveLoaded] at hr
        cases h1 : resolveAll (resolveDep h n) is c with
        | none => rw [h1] at hr; cases hr
        | some rs =>
          rw [h1] at hr; simp only at hr
          have h2 := resolveAll_kept ih.2 is c rs h1 hc
          cases h3 : settled rs.1 with
          | error e => rw [h3] at hr; simp only [Option.some.injEq] at hr; subst hr; exact h2
          | ok ss => rw [h3] at hr; simp only [Option.some.injEq] at hr; subst hr; exact finish_kept k rp ss _ h2
    · simp only [resolveDep] at hr
      have hg := k.get c i.url hc
      rcases hget : Lru.get i.url c with ⟨o, c'⟩
      rw [hget] at hr hg
      cases o with
      | some s => simp only [Option.some.injEq] at hr; subst hr; exact hg
      | none =>
        simp only at hr
        cases ho : h.override i.url with
        | none => rw [ho] at hr; exact ih.1 _ _ _ hr hc
        | some path =>
          rw [ho] at hr; simp only at hr
          cases hf : h.fetch { url := i.url, path := path } with
          | error m => rw [hf] at hr; simp only [Option.some.injEq] at hr; subst hr; exact hc
          | ok fr =>
            rw [hf] at hr; simp only at hr
            cases hl : load h fr.1 c with
            | error e => rw [hl] at hr; simp only [Option.some.injEq] at hr; subst hr; exact hc
            | ok p => rw [hl] at hr; exact ih.1 _ _ _ hr hc

theorem loadAndResolve_kept {h : Host B} {P : Cache B → Prop} (k : Kept h P) {n : Nat} {visit : Item B → Bool} {r : Repo}
    {c : Cache B} {res : Res B × Cache B} (hr : loadAndResolve h n visit r c = some res) (hc : P c) : P res.2 := by
  unfold loadAndResolve at hr
  cases hl : load h r c with
  | error e => rw [hl] at hr; simp only [Option.some.injEq] at hr; subst hr; exact hc
  | ok p =>
    rw [hl] at hr; simp only at hr
    split at hr
    · cases hq : resolveLoaded h n p.1 c with
      | none => rw [hq] at hr; cases hr
      | some q =>
        have := (run_kept k n).1 _ _ _ hq hc
        obtain ⟨o, c'⟩ := q
        rw [hq] at hr
        cases o with
        | error e => simp only [Option.some.injEq] at hr; subst hr; exact this
        | ok q => simp only [Option.some.injEq] at hr; subst hr; exact this
    · simp only [Option.some.injEq] at hr; subst hr; exact hc

theorem request_kept {h : Host B} {P : Cache B → Prop} (k : Kept h P) {n : Nat} {u : SchemaUrl} {c : Cache B}
    {res : Res B × Cache B} (hr : request h n u c = some res) (hc : P c) : P res.2 := by
  unfold request at hr
  have hg := k.get c u hc
  rcases hget : Lru.get u c with ⟨o, c1⟩
  rw [hget] at hr hg
  cases o with
  | some s => simp only [Option.some.injEq] at hr; subst hr; exact hg
  | none =>
    simp only at hr
    cases hf : h.fetch { url := u, path := (h.override u).getD "" } with
    | error m => rw [hf] at hr; simp only [Option.some.injEq] at hr; subst hr; exact hc
    | ok fr =>
      rw [hf] at hr; simp only at hr
      cases hl : loadAndResolve h n (fun _ => true) fr.1 c with
      | none => rw [hl] at hr; cases hr
      | some q =>
        have h1 := loadAndResolve_kept k hl hc
        obtain ⟨o, c'⟩ := q
        rw [hl] at hr
        cases o with
        | error e => simp only [Option.some.injEq] at hr; subst hr; exact h1
        | ok p =>
          simp only at hr
          split at hr
          · simp only [Option.some.injEq] at hr; subst hr; exact h1
          · rename_i e
            simp only [Option.some.injEq] at hr; subst hr
            have e' : p.1.url = u := Classical.not_not.1 e
            subst e'
            exact k.put c' p.1 h1

theorem viewAll_kept {P : Cache B → Prop} {req : SchemaUrl → Cache B → Option (Res B × Cache B)}
    {rec : Schema B → Cache B → Option (Except Err (View B × List Note) × Cache B)}
    (h1 : ∀ u c r, req u c = some r → P c → P r.2) (h2 : ∀ s c r, rec s c = some r → P c → P r.2)
    (us : List SchemaUrl) : ∀ c r, viewAll req rec us c = some r → P c → P r.2 := by
  induction us with
  | nil => intro c r h hc; simp only [viewAll, Option.some.injEq] at h; subst h; exact hc
  | cons u us ih =>
    intro c r h hc
    simp only [viewAll] at h
    rcases hq : req u c with _ | ⟨o, c1⟩
    · rw [hq] at h; cases h
    · have hc1 := h1 _ _ _ hq hc
      rw [hq] at h
      cases o with
      | error e => simp only [Option.some.injEq] at h; subst h; exact hc1
      | ok p =>
        simp only at h
        rcases hv : rec p.1 c1 with _ | ⟨o, c2⟩
        · rw [hv] at h; cases h
        · have hc2 := h2 _ _ _ hv hc1
          rw [hv] at h
          cases o with
          | error e => simp only [Option.some.injEq] at h; subst h; exact hc2
          | ok q =>
            simp only at h
            rcases hs : viewAll req rec us c2 with _ | ⟨o, c3⟩
            · rw [hs] at h; cases h
            · have hc3 := ih _ _ hs hc2
              rw [hs] at h
              cases o with
              | error e => simp only [Option.some.injEq] at h; subst h; exact hc3
              | ok qs => simp only [Option.some.injEq] at h; subst h; exact hc3

theorem view_kept {h : Host B} {P : Cache B → Prop} (k : Kept h P) (n : Nat) :
    ∀ s c r, view h n s c = some r → P c → P r.2 := by
  induction n with
  | zero => intro s c r hr; simp [view] at hr
  | succ n ih =>
    intro s c r hr hc
    simp only [view] at hr
    rcases hv : viewAll (request h n) (view h n) s.deps c with _ | ⟨o, c1⟩
    · rw [hv] at hr; cases hr
    · have := viewAll_kept (fun u c r hq hc => request_kept k hq hc) ih s.deps c _ hv hc
      rw [hv] at hr
      cases o with
      | error e => simp only [Option.some.injEq] at hr; subst hr; exact this
      | ok p => simp only [Option.some.injEq] at hr; subst hr; exact this

/-- What a new cache satisfies and every use keeps holds in every history. -/
theorem reached_ind {cap : Nat} {P : Cache B → Prop} (h0 : P []) (hk : ∀ h : Host B, h.cap = cap → Kept h P)
    {c : Cache B} (hc : Reached cap c) : P c := by
  induction hc with
  | new => exact h0
  | loaded h n visit r res hcap _ hr ih => exact loadAndResolve_kept (hk h hcap) hr ih
  | requested h n u res hcap _ hr ih => exact request_kept (hk h hcap) hr ih
  | viewed h n s res hcap _ hr ih => exact view_kept (hk h hcap) n _ _ _ hr ih

theorem kept_keyed (h : Host B) : Kept h (Keyed (B := B)) where
  get := fun c u hc p hp => hc p (Lru.mem_get hp)
  put := fun c s hc p hp => by
    rcases Lru.mem_put hp with rfl | hp
    · rfl
    · exact hc p hp

theorem kept_ok (h : Host B) (cap : Nat) (e : h.cap = cap) : Kept h (Lru.Ok (K := SchemaUrl) (V := Schema B) cap) where
  get := fun _ _ hc => Lru.ok_get hc
  put := fun _ _ hc => e ▸ Lru.ok_put (e ▸ hc)

theorem reached_keyed {cap : Nat} {c : Cache B} (h : Reached cap c) : Keyed c :=
  reached_ind (P := Keyed) (by simp [Keyed]) (fun h _ => kept_keyed h) h

/-- C166: the engine never holds more schemas than its capacity, and one per URL. -/
theorem engine_bounded {cap : Nat} {c : Cache B} (h : Reached cap c) : c.length ≤ cap ∧ (c.map Prod.fst).Nodup := by
  have : Lru.Ok cap c := reached_ind (P := Lru.Ok cap) (Lru.ok_nil cap) (fun h e => kept_ok h cap e) h
  exact ⟨this.2, this.1⟩

/-! ### The URL of a requested schema -/

/-- C166: in every history, a successful request gives a schema with the requested URL. -/
theorem request_url {cap : Nat} {c c' : Cache B} (hc : Reached cap c) (h : Host B) (n : Nat) (u : SchemaUrl) (s : Schema B)
    (ms : List Note) (hr : request h n u c = some (.ok (s, ms), c')) : s.url = u := by
  unfold request at hr
  rcases hget : Lru.get u c with ⟨o, c1⟩
  rw [hget] at hr
  cases o with
  | some s' =>
    simp only [Option.some.injEq, Prod.mk.injEq, Except.ok.injEq] at hr
    obtain ⟨⟨rfl, _⟩, _⟩ := hr
    have : Lru.peek u c = some s' := by rw [← Lru.get_fst, hget]
    exact reached_keyed hc _ (Lru.peek_some_mem this)
  | none =>
    simp only at hr
    cases hf : h.fetch { url := u, path := (h.override u).getD "" } with
    | error m => rw [hf] at hr; simp at hr
    | ok fr =>
      rw [hf] at hr; simp only at hr
      rcases hl : loadAndResolve h n (fun _ => true) fr.1 c with _ | ⟨o, c2⟩
      · rw [hl] at hr; cases hr
      · rw [hl] at hr
        cases o with
        | error e => simp at hr
        | ok p =>
          simp only at hr
          split at hr
          · simp at hr
          · rename_i e
            simp only [Option.some.injEq, Prod.mk.injEq, Except.ok.injEq] at hr
            obtain ⟨⟨rfl, _⟩, _⟩ := hr
            exact Classical.not_not.1 e

theorem without_absent {u : SchemaUrl} {c : Cache B} (h : u ∉ c.map Prod.fst) : Lru.without u c = c := by
  unfold Lru.without
  rw [List.filter_eq_self]
  intro p hp
  simp only [ne_eq, decide_not, Bool.not_eq_eq_eq_not, Bool.not_true, decide_eq_false_iff_not]
  intro e
  exact h (List.mem_map.2 ⟨p, hp, e⟩)

theorem get_front {u : SchemaUrl} {s : Schema B} {c : Cache B} (h : u ∉ c.map Prod.fst) :
    Lru.get u ((u, s) :: c) = (some s, (u, s) :: c) := by
  have e : Lru.without u ((u, s) :: c) = Lru.without u c := by simp [Lru.without]
  unfold Lru.get
  simp only [Lru.peek, ↓reduceIte]
  rw [e, without_absent h]

theorem put_front {cap : Nat} (hcap : 0 < cap) (u : SchemaUrl) (s : Schema B) (c : Cache B) :
    ∃ c0, Lru.put cap u s c = (u, s) :: c0 ∧ u ∉ c0.map Prod.fst := by
  obtain ⟨k, rfl⟩ : ∃ k, cap = k + 1 := ⟨cap - 1, by omega⟩
  refine ⟨(Lru.without u c).take k, by simp [Lru.put], ?_⟩
  intro hm
  obtain ⟨p, hp, e⟩ := List.mem_map.1 hm
  have := (List.mem_filter.1 (List.mem_of_mem_take hp)).2
  simp [e] at this

theorem get_get {u : SchemaUrl} {s : Schema B} {c c' : Cache B} (h : Lru.get u c = (some s, c')) :
    ∃ c0, c' = (u, s) :: c0 ∧ u ∉ c0.map Prod.fst := by
  unfold Lru.get at h
  cases hp : Lru.peek u c with
  | none => rw [hp] at h; simp at h
  | some v =>
    rw [hp] at h
    simp only [Prod.mk.injEq, Option.some.injEq] at h
    obtain ⟨rfl, rfl⟩ := h
    refine ⟨_, rfl, ?_⟩
    rw [Lru.without_keys]; simp

/-- C166: asking again at once gives the same schema, without looking anything up and without messages, whatever has
happened outside in between. -/
theorem request_again {c c' : Cache B} (h : Host B) (n : Nat) (u : SchemaUrl) (s : Schema B) (ms : List Note)
    (hr : request h n u c = some (.ok (s, ms), c')) (h' : Host B) (n' : Nat) :
    request h' n' u c' = some (.ok (s, []), c') := by
  have key : ∃ c0, c' = (u, s) :: c0 ∧ u ∉ c0.map Prod.fst := by
    unfold request at hr
    rcases hget : Lru.get u c with ⟨o, c1⟩
    rw [hget] at hr
    cases o with
    | some s' =>
      simp only [Option.some.injEq, Prod.mk.injEq, Except.ok.injEq] at hr
      obtain ⟨⟨rfl, _⟩, rfl⟩ := hr
      exact get_get hget
    | none =>
      simp only at hr
      cases hf : h.fetch { url := u, path := (h.override u).getD "" } with
      | error m => rw [hf] at hr; simp at hr
      | ok fr =>
        rw [hf] at hr; simp only at hr
        rcases hl : loadAndResolve h n (fun _ => true) fr.1 c with _ | ⟨o, c2⟩
        · rw [hl] at hr; cases hr
        · rw [hl] at hr
          cases o with
          | error e => simp at hr
          | ok p =>
            simp only at hr
            split at hr
            · simp at hr
            · simp only [Option.some.injEq, Prod.mk.injEq, Except.ok.injEq] at hr
              obtain ⟨⟨rfl, _⟩, rfl⟩ := hr
              exact put_front h.cap_pos _ _ _
  obtain ⟨c0, rfl, hn⟩ := key
  unfold request
  rw [get_front hn]

/-- C166: a schema that was just loaded and resolved is what a request for its URL then gives. -/
theorem load_then_request {c c' : Cache B} (h : Host B) (n : Nat) (visit : Item B → Bool) (r : Repo) (s : Schema B)
    (ms : List Note) (hr : loadAndResolve h n visit r c = some (.ok (s, ms), c')) (h' : Host B) (n' : Nat) :
    request h' n' s.url c' = some (.ok (s, []), c') := by
  have key : ∃ c0, c' = (s.url, s) :: c0 ∧ s.url ∉ c0.map Prod.fst := by
    unfold loadAndResolve at hr
    cases hl : load h r c with
    | error e => rw [hl] at hr; simp at hr
    | ok p =>
      rw [hl] at hr; simp only at hr
      split at hr
      · rcases hq : resolveLoaded h n p.1 c with _ | ⟨o, c2⟩
        · rw [hq] at hr; cases hr
        · rw [hq] at hr
          cases o with
          | error e => simp at hr
          | ok q =>
            simp only [Option.some.injEq, Prod.mk.injEq, Except.ok.injEq] at hr
            obtain ⟨⟨rfl, _⟩, rfl⟩ := hr
            cases n with
            | zero => simp [resolveLoaded] at hq
            | succ n =>
              cases hi : p.1 with
              | ready s =>
                rw [hi] at hq
                simp only [resolveLoaded, Option.some.injEq, Prod.mk.injEq, Except.ok.injEq] at hq
                obtain ⟨rfl, rfl⟩ := hq
                exact put_front h.cap_pos _ _ _
              | source rp is =>
                rw [hi] at hq
                simp only [resolveLoaded] at hq
                rcases h1 : resolveAll (resolveDep h n) is c with _ | rs
                · rw [h1] at hq; cases hq
                · rw [h1] at hq; simp only at hq
                  cases h3 : settled rs.1 with
                  | error e => rw [h3] at hq; simp at hq
                  | ok ss =>
                    rw [h3] at hq
                    simp only [Option.some.injEq] at hq
                    unfold finish at hq
                    cases hb : h.build rp ss (chosenOf ss) (fun u => Lru.peek u rs.2) with
                    | error m => rw [hb] at hq; simp at hq
                    | ok b =>
                      rw [hb] at hq
                      simp only [Prod.mk.injEq, Except.ok.injEq] at hq
                      obtain ⟨rfl, rfl⟩ := hq
                      exact put_front h.cap_pos _ _ _
      · simp at hr
  obtain ⟨c0, rfl, hn⟩ := key
  unfold request
  rw [get_front hn]

end Verif.Engine
