import Verif.Engine.RunProps
/-
A new engine: the registries a schema lists, and showing it to templates (C168, C172).
-/
namespace Verif.Engine
open Verif.Util Verif.Resolver Verif.Loader
variable {B : Type}

/-! ### Specification -/

/-- The URL is that of a dependency, direct or not, of the loaded registry, or a published dependency lists it. -/
inductive Listed (u : SchemaUrl) : Item B → Prop
  | direct {r is i} : i ∈ is → u = i.url → Listed u (.source r is)
  | deeper {r is i} : i ∈ is → Listed u i → Listed u (.source r is)
  | ready {s : Schema B} : u ∈ s.deps → Listed u (.ready s)

/-- `j` is the loaded registry `i` or one of its dependencies. -/
def Part (j i : Item B) : Prop := j = i ∨ Within j i

/-- Wherever a URL occurs in the loaded registry, the same is below it. -/
def Agree (root : Item B) : Prop :=
  ∀ j k, Part j root → Part k root → j.url = k.url → ∀ u, Listed u j ↔ Listed u k

/-- Nothing in the loaded registry is already resolved. -/
def Sources (root : Item B) : Prop := ∀ j, Part j root → ∃ r is, j = .source r is

/-- The URL of what is shown. -/
def View.url : View B → SchemaUrl
  | .node s _ => s.url

/-- What templates see shows every listed registry, in order, and so on downwards. -/
inductive Whole : View B → Prop
  | node (s : Schema B) (vs : List (View B)) :
      vs.map View.url = s.deps → (∀ v ∈ vs, Whole v) → Whole (.node s vs)

/-! ### The registries listed -/

theorem within_trans {i j k : Item B} (h1 : Within i j) (h2 : Within j k) : Within i k := by
  induction h2 with
  | direct hm => exact .deeper hm h1
  | deeper hm _ ih => exact .deeper hm ih

theorem part_step {r : Repo} {is : List (Item B)} {root i : Item B} (h : Part (.source r is) root) (hi : i ∈ is) :
    Part i root := by
  rcases h with rfl | h
  · exact .inr (.direct hi)
  · exact .inr (within_trans (.direct hi) h)

theorem part_trans {i j k : Item B} (h1 : Part i j) (h2 : Part j k) : Part i k := by
  rcases h1 with rfl | h1
  · exact h2
  · rcases h2 with rfl | h2
    · exact .inr h1
    · exact .inr (within_trans h1 h2)

/-- Every cached schema lists what is below its URL in the loaded registry. -/
def Faithful (root : Item B) (c : Cache B) : Prop :=
  ∀ p ∈ c, p.2.url = p.1 ∧ ∃ j, Part j root ∧ j.url = p.1 ∧ ∀ u, u ∈ p.2.deps ↔ Listed u j

/-- The schema is what the loaded registry `i` says. -/
def Says (i : Item B) (s : Schema B) : Prop := s.url = i.url ∧ ∀ u, u ∈ s.deps ↔ Listed u i

theorem faithful_put {root i : Item B} {c : Cache B} {s : Schema B} {cap : Nat} (hc : Faithful root c) (hi : Part i root)
    (hs : Says i s) : Faithful root (Lru.put cap s.url s c) := by
  intro p hp
  rcases Lru.mem_put hp with rfl | hp
  · exact ⟨rfl, i, hi, hs.1.symm, hs.2⟩
  · exact hc p hp

theorem resolveAll_faithful {root : Item B} {rec : Item B → Cache B → Option (Res B × Cache B)}
    (hr : ∀ i c q, Part i root → rec i c = some q → Faithful root c → Faithful root q.2 ∧
      ∀ s ms, q.1 = .ok (s, ms) → Says i s) (is : List (Item B)) (his : ∀ i ∈ is, Part i root) :
    ∀ c rs, resolveAll rec is c = some rs → Faithful root c → Faithful root rs.2 ∧
      Forall2 (fun i r => ∀ s ms, r = .ok (s, ms) → Says i s) is rs.1 := by
  induction is with
  | nil => intro c rs h hc; simp only [resolveAll, Option.some.injEq] at h; subst h; exact ⟨hc, .nil⟩
  | cons i is ih =>
    intro c rs h hc
    simp only [resolveAll] at h
    cases h1 : rec i c with
    | none => rw [h1] at h; cases h
    | some r =>
      rw [h1] at h; simp only at h
      cases h2 : resolveAll rec is r.2 with
      | none => rw [h2] at h; cases h
      | some rs' =>
        rw [h2] at h; simp only [Option.some.injEq] at h; subst h
        have a := hr i c r (his i (by simp)) h1 hc
        have b := ih (fun j hj => his j (by simp [hj])) _ rs' h2 a.1
        exact ⟨b.1, .cons a.2 b.2⟩

theorem run_faithful {h : Host B} (hno : h.overrides = []) {root : Item B} (ha : Agree root) (n : Nat) :
    (∀ i c q, Part i root → resolveLoaded h n i c = some q → Faithful root c → Faithful root q.2 ∧
      ∀ s ms, q.1 = .ok (s, ms) → Says i s) ∧
    (∀ i c q, Part i root → resolveDep h n i c = some q → Faithful root c → Faithful root q.2 ∧
      ∀ s ms, q.1 = .ok (s, ms) → Says i s) := by
  induction n with
  | zero =>
    exact ⟨fun i c q _ h => by simp [resolveLoaded] at h, fun i c q _ h => by simp [resolveDep] at h⟩
  | succ n ih =>
    refine ⟨fun i c q hi hq hc => ?_, fun i c q hi hq hc => ?_⟩
    · cases i with
      | ready t =>
        simp only [resolveLoaded, Option.some.injEq] at hq
        have hs : Says (.ready t) t := ⟨rfl, fun u => ⟨.ready, fun h => by cases h; assumption⟩⟩
        subst hq
        refine ⟨faithful_put hc hi hs, ?_⟩
        intro s ms e
        simp only [Except.ok.injEq, Prod.mk.injEq] at e
        rw [← e.1]; exact hs
      | source r is =>
        simp only [resolveLoaded] at hq
        cases h1 : resolveAll (resolveDep h n) is c with
        | none => rw [h1] at hq; cases hq
        | some rs =>
          rw [h1] at hq; simp only at hq
          obtain ⟨hf, hall⟩ := resolveAll_faithful ih.2 is (fun j hj => part_step hi hj) c rs h1 hc
          cases h3 : settled rs.1 with
          | error e =>
            rw [h3] at hq; simp only [Option.some.injEq] at hq; subst hq
            exact ⟨hf, by simp⟩
          | ok ss =>
            rw [h3] at hq; simp only [Option.some.injEq] at hq
            have hsays : Forall2 (fun i s => Says i s) is ss :=
              (forall2_comp hall (settled_ok h3)).mono (by
                rintro a b ⟨r, h, ms, rfl⟩; exact h b ms rfl)
            unfold finish at hq
            cases hb : h.build r ss (chosenOf ss) (fun u => Lru.peek u rs.2) with
            | error m => rw [hb] at hq; simp only at hq; subst hq; exact ⟨hf, by simp⟩
            | ok b =>
              rw [hb] at hq; simp only at hq; subst hq
              have hs : Says (.source r is) { url := ownUrl r, deps := builtFrom ss, body := b.1 } := by
                refine ⟨rfl, fun u => ?_⟩
                rw [mem_builtFrom]
                constructor
                · rintro ⟨d, hd, h⟩
                  obtain ⟨i, hi, hid⟩ := hsays.mem_right hd
                  rcases h with rfl | h
                  · exact .direct hi hid.1
                  · exact .deeper hi ((hid.2 u).1 h)
                · intro h
                  cases h with
                  | direct hi e =>
                    obtain ⟨d, hd, hid⟩ := hsays.mem_left hi
                    exact ⟨d, hd, .inl (e.trans hid.1.symm)⟩
                  | deeper hi hl =>
                    obtain ⟨d, hd, hid⟩ := hsays.mem_left hi
                    exact ⟨d, hd, .inr ((hid.2 u).2 hl)⟩
              refine ⟨faithful_put (s := { url := ownUrl r, deps := builtFrom ss, body := b.1 }) hf hi hs, ?_⟩
              intro s ms e
              simp only [Except.ok.injEq, Prod.mk.injEq] at e
              rw [← e.1]; exact hs
    · rcases resolveDep_cases hq with ⟨s, hp, rfl⟩ | ⟨_, _, hl⟩ | ⟨_, path, ho, _⟩
      · refine ⟨fun p hp => hc p (Lru.mem_get hp), ?_⟩
        intro s' ms e
        simp only [Except.ok.injEq, Prod.mk.injEq] at e
        rw [← e.1]
        obtain ⟨h1, j, hj, hju, hjl⟩ := hc _ (Lru.peek_some_mem hp)
        exact ⟨h1, fun u => (hjl u).trans (ha j i hj hi hju u)⟩
      · exact ih.1 i c q hi hl hc
      · simp [Host.override, hno, Lru.peek] at ho

/-- C168: in a new engine without redirections, a registry lists exactly the registries it depends on, directly or not
(and what the published ones among them list), provided that a URL means the same everywhere in it. -/
theorem dependencies_complete_partial {h : Host B} (hno : h.overrides = []) {n : Nat} {visit : Item B → Bool} {r : Repo}
    {i : Item B} {ns ms : List Note} {s : Schema B} {c' : Cache B} (hl : load h r [] = .ok (i, ns)) (ha : Agree i)
    (hr : loadAndResolve h n visit r [] = some (.ok (s, ms), c')) : ∀ u, u ∈ s.deps ↔ Listed u i := by
  obtain ⟨i', ns', ms', hl', _, hq, _⟩ := loadAndResolve_ok hr
  rw [hl] at hl'
  simp only [Except.ok.injEq, Prod.mk.injEq] at hl'
  obtain ⟨rfl, rfl⟩ := hl'
  exact (((run_faithful hno ha n).1 i [] _ (.inl rfl) hq (by simp [Faithful])).2 s ms' rfl).2

/-! ### Nothing is forgotten in a run -/

/-- The cached URLs are among `ks`, one entry each, and every listed registry is cached. -/
structure Stocked (ks : List SchemaUrl) (c : Cache B) : Prop where
  nodup : (c.map Prod.fst).Nodup
  among : ∀ u ∈ c.map Prod.fst, u ∈ ks
  closed : ∀ p ∈ c, ∀ v ∈ p.2.deps, v ∈ c.map Prod.fst

theorem mem_keys_get {u v : SchemaUrl} {c : Cache B} : v ∈ (Lru.get u c).2.map Prod.fst ↔ v ∈ c.map Prod.fst := by
  have h1 := Lru.peek_none_iff (k := v) (c := (Lru.get u c).2)
  have h2 := Lru.peek_none_iff (k := v) (c := c)
  rw [Lru.peek_get, h2] at h1
  exact (Decidable.not_iff_not.1 h1).symm

theorem stocked_get {ks : List SchemaUrl} {c : Cache B} (h : Stocked ks c) (u : SchemaUrl) :
    Stocked ks (Lru.get u c).2 where
  nodup := (Lru.ok_get (cap := c.length) ⟨h.nodup, Nat.le_refl _⟩).1
  among := fun v hv => h.among v (mem_keys_get.1 hv)
  closed := fun p hp v hv => mem_keys_get.2 (h.closed p (Lru.mem_get hp) v hv)

theorem put_all {ks : List SchemaUrl} {cap : Nat} (hcap : ks.length ≤ cap) {c : Cache B} (h : Stocked ks c)
    {u : SchemaUrl} (hu : u ∈ ks) (s : Schema B) : Lru.put cap u s c = (u, s) :: Lru.without u c := by
  unfold Lru.put
  refine List.take_of_length_le ?_
  have hn := Lru.front_nodup (k := u) (v := s) h.nodup
  have := Lru.nodup_length_le hn (ks := ks) (by
    intro x hx
    simp only [List.map_cons, List.mem_cons] at hx
    rcases hx with rfl | hx
    · exact hu
    · rw [Lru.without_keys] at hx
      exact h.among x (List.mem_filter.1 hx).1)
  simpa using Nat.le_trans this hcap

theorem mem_keys_front {u v : SchemaUrl} {s : Schema B} {c : Cache B} :
    v ∈ ((u, s) :: Lru.without u c).map Prod.fst ↔ v = u ∨ v ∈ c.map Prod.fst := by
  rw [List.map_cons, List.mem_cons, Lru.without_keys, List.mem_filter]
  by_cases e : v = u <;> simp [e]

theorem stocked_put {ks : List SchemaUrl} {cap : Nat} (hcap : ks.length ≤ cap) {c : Cache B} (h : Stocked ks c)
    {u : SchemaUrl} (hu : u ∈ ks) {s : Schema B} (hs : ∀ v ∈ s.deps, v ∈ c.map Prod.fst) :
    Stocked ks (Lru.put cap u s c) ∧ ∀ v, v ∈ (Lru.put cap u s c).map Prod.fst ↔ v = u ∨ v ∈ c.map Prod.fst := by
  rw [put_all hcap h hu]
  refine ⟨⟨Lru.front_nodup h.nodup, ?_, ?_⟩, fun v => mem_keys_front⟩
  · intro v hv
    rcases mem_keys_front.1 hv with rfl | hv
    · exact hu
    · exact h.among v hv
  · intro p hp v hv
    refine mem_keys_front.2 (.inr ?_)
    rcases List.mem_cons.1 hp with rfl | hp
    · exact hs v hv
    · exact h.closed p (List.mem_filter.1 hp).1 v hv

/-- The outcome of a step that forgets nothing. -/
def Grows (ks : List SchemaUrl) (c : Cache B) (q : Res B × Cache B) : Prop :=
  Stocked ks q.2 ∧ (∀ v ∈ c.map Prod.fst, v ∈ q.2.map Prod.fst) ∧
    ∀ s ms, q.1 = .ok (s, ms) → s.url ∈ q.2.map Prod.fst ∧ ∀ v ∈ s.deps, v ∈ q.2.map Prod.fst

theorem resolveAll_grows {ks : List SchemaUrl} {root : Item B} {rec : Item B → Cache B → Option (Res B × Cache B)}
    (hr : ∀ i c q, Part i root → rec i c = some q → Stocked ks c ∧ Keyed c → Grows ks c q ∧ Keyed q.2)
    (is : List (Item B)) (his : ∀ i ∈ is, Part i root) :
    ∀ c rs, resolveAll rec is c = some rs → Stocked ks c ∧ Keyed c → (Stocked ks rs.2 ∧ Keyed rs.2) ∧
      (∀ v ∈ c.map Prod.fst, v ∈ rs.2.map Prod.fst) ∧
      ∀ r ∈ rs.1, ∀ s ms, r = .ok (s, ms) → s.url ∈ rs.2.map Prod.fst ∧ ∀ v ∈ s.deps, v ∈ rs.2.map Prod.fst := by
  induction is with
  | nil =>
    intro c rs h hc
    simp only [resolveAll, Option.some.injEq] at h; subst h
    exact ⟨hc, fun v hv => hv, by simp⟩
  | cons i is ih =>
    intro c rs h hc
    simp only [resolveAll] at h
    cases h1 : rec i c with
    | none => rw [h1] at h; cases h
    | some r =>
      rw [h1] at h; simp only at h
      cases h2 : resolveAll rec is r.2 with
      | none => rw [h2] at h; cases h
      | some rs' =>
        rw [h2] at h; simp only [Option.some.injEq] at h; subst h
        have a := hr i c r (his i (by simp)) h1 hc
        have b := ih (fun j hj => his j (by simp [hj])) _ rs' h2 ⟨a.1.1, a.2⟩
        refine ⟨b.1, fun v hv => b.2.1 v (a.1.2.1 v hv), ?_⟩
        intro r' hr' s ms e
        rcases List.mem_cons.1 hr' with rfl | hr'
        · have := a.1.2.2 s ms e
          exact ⟨b.2.1 _ this.1, fun v hv => b.2.1 v (this.2 v hv)⟩
        · exact b.2.2 r' hr' s ms e

theorem run_grows {h : Host B} (hno : h.overrides = []) {root : Item B} (hsrc : Sources root) {ks : List SchemaUrl}
    (hks : ∀ i, Part i root → i.url ∈ ks) (hcap : ks.length ≤ h.cap) (n : Nat) :
    (∀ i c q, Part i root → resolveLoaded h n i c = some q → Stocked ks c ∧ Keyed c → Grows ks c q ∧ Keyed q.2) ∧
    (∀ i c q, Part i root → resolveDep h n i c = some q → Stocked ks c ∧ Keyed c → Grows ks c q ∧ Keyed q.2) := by
  induction n with
  | zero =>
    exact ⟨fun i c q _ h => by simp [resolveLoaded] at h, fun i c q _ h => by simp [resolveDep] at h⟩
  | succ n ih =>
    refine ⟨fun i c q hi hq hc => ?_, fun i c q hi hq hc => ?_⟩
    · refine ⟨?_, (run_kept (kept_keyed h) (n + 1)).1 i c q hq hc.2⟩
      obtain ⟨r, is, rfl⟩ := hsrc i hi
      simp only [resolveLoaded] at hq
      cases h1 : resolveAll (resolveDep h n) is c with
      | none => rw [h1] at hq; cases hq
      | some rs =>
        rw [h1] at hq; simp only at hq
        obtain ⟨hst, hsub, hall⟩ := resolveAll_grows ih.2 is (fun j hj => part_step hi hj) c rs h1 hc
        cases h3 : settled rs.1 with
        | error e =>
          rw [h3] at hq; simp only [Option.some.injEq] at hq; subst hq
          exact ⟨hst.1, hsub, by simp⟩
        | ok ss =>
          rw [h3] at hq; simp only [Option.some.injEq] at hq
          unfold finish at hq
          cases hb : h.build r ss (chosenOf ss) (fun u => Lru.peek u rs.2) with
          | error m => rw [hb] at hq; simp only at hq; subst hq; exact ⟨hst.1, hsub, by simp⟩
          | ok b =>
            rw [hb] at hq; simp only at hq; subst hq
            have hdeps : ∀ v ∈ builtFrom ss, v ∈ rs.2.map Prod.fst := by
              intro v hv
              obtain ⟨d, hd, hv⟩ := (mem_builtFrom ss v).1 hv
              obtain ⟨r', hr', ms, e⟩ := (settled_ok h3).mem_right hd
              have := hall r' hr' d ms e
              rcases hv with rfl | hv
              · exact this.1
              · exact this.2 v hv
            have hp := stocked_put hcap hst.1 (hks _ hi) (s := { url := ownUrl r, deps := builtFrom ss, body := b.1 }) hdeps
            refine ⟨hp.1, fun v hv => (hp.2 v).2 (.inr (hsub v hv)), ?_⟩
            intro s ms e
            simp only [Except.ok.injEq, Prod.mk.injEq] at e
            rw [← e.1]
            exact ⟨(hp.2 _).2 (.inl rfl), fun v hv => (hp.2 v).2 (.inr (hdeps v hv))⟩
    · rcases resolveDep_cases hq with ⟨s, hp, rfl⟩ | ⟨_, _, hl⟩ | ⟨_, path, ho, _⟩
      · refine ⟨⟨stocked_get hc.1 _, fun v hv => mem_keys_get.2 hv, ?_⟩, (kept_keyed h).get c _ hc.2⟩
        intro s' ms e
        simp only [Except.ok.injEq, Prod.mk.injEq] at e
        rw [← e.1]
        have hm := Lru.peek_some_mem hp
        have hk : s.url = i.url := hc.2 _ hm
        exact ⟨mem_keys_get.2 (List.mem_map.2 ⟨_, hm, hk.symm⟩),
          fun v hv => mem_keys_get.2 (hc.1.closed _ hm v hv)⟩
      · exact ih.1 i c q hi hl hc
      · simp [Host.override, hno, Lru.peek] at ho

/-! ### Showing a schema -/

/-- Everything the loaded registry lists is cached, as it says. -/
def Supplied (root : Item B) (c : Cache B) : Prop :=
  ∀ u, Listed u root → ∃ t, Lru.peek u c = some t ∧ ∀ k, Part k root → k.url = u → Says k t

theorem supplied_get {root : Item B} {c : Cache B} (h : Supplied root c) (u : SchemaUrl) :
    Supplied root (Lru.get u c).2 := by
  intro v hv
  obtain ⟨t, ht, hk⟩ := h v hv
  exact ⟨t, by rw [Lru.peek_get]; exact ht, hk⟩

theorem listed_part {j root : Item B} (hsrc : Sources root) (hj : Part j root) {u : SchemaUrl} (h : Listed u j) :
    ∃ k, Within k j ∧ k.url = u := by
  induction h with
  | direct hi e => exact ⟨_, .direct hi, e.symm⟩
  | deeper hi _ ih =>
    obtain ⟨k, hk, e⟩ := ih (part_step hj hi)
    exact ⟨k, .deeper hi hk, e⟩
  | ready _ =>
    obtain ⟨r, is, e⟩ := hsrc _ hj
    cases e

theorem within_listed {k j : Item B} (h : Within k j) : Listed k.url j := by
  induction h with
  | direct hi => exact .direct hi rfl
  | deeper hi _ ih => exact .deeper hi ih

theorem within_size {k j : Item B} (h : Within k j) : sizeOf k < sizeOf j := by
  induction h with
  | direct hi =>
    have := List.sizeOf_lt_of_mem hi
    simp only [Item.source.sizeOf_spec]; omega
  | deeper hi _ ih =>
    have := List.sizeOf_lt_of_mem hi
    simp only [Item.source.sizeOf_spec]; omega

theorem viewAll_supplied {h : Host B} {root : Item B} (us : List SchemaUrl)
    (hus : ∀ u ∈ us, Listed u root)
    (ih : ∀ u ∈ us, ∀ t c, Supplied root c → Lru.peek u c = some t →
      ∃ n v c', v.url = u ∧ Whole v ∧ Supplied root c' ∧ ∀ m, n ≤ m → view h m t c = some (.ok (v, []), c')) :
    ∀ c, Supplied root c → ∃ n vs c', vs.map View.url = us ∧ (∀ v ∈ vs, Whole v) ∧ Supplied root c' ∧
      ∀ m, n ≤ m → viewAll (request h m) (view h m) us c = some (.ok (vs, []), c') := by
  induction us with
  | nil => intro c hc; exact ⟨0, [], c, rfl, by simp, hc, fun m _ => rfl⟩
  | cons u us ihu =>
    intro c hc
    obtain ⟨t, ht, _⟩ := hc u (hus u (by simp))
    have hget : Lru.get u c = (some t, (Lru.get u c).2) := Prod.ext (by rw [Lru.get_fst]; exact ht) rfl
    obtain ⟨n1, v, c1, hv, hw, hs1, h1⟩ := ih u (by simp) t (Lru.get u c).2 (supplied_get hc u) (by rw [Lru.peek_get]; exact ht)
    obtain ⟨n2, vs, c2, hvs, hws, hs2, h2⟩ := ihu (fun v hv => hus v (by simp [hv])) (fun v hv => ih v (by simp [hv])) c1 hs1
    refine ⟨max n1 n2, v :: vs, c2, by simp [hv, hvs], ?_, hs2, ?_⟩
    · intro x hx
      rcases List.mem_cons.1 hx with rfl | hx
      · exact hw
      · exact hws x hx
    · intro m hm
      have hreq : request h m u c = some (.ok (t, []), (Lru.get u c).2) := by
        unfold request
        rw [hget]
      simp only [viewAll, hreq]
      rw [h1 m (by omega)]
      simp only
      rw [h2 m (by omega)]
      rfl

theorem view_supplied {h : Host B} {root : Item B} (hsrc : Sources root) : ∀ (k : Nat) (j : Item B), sizeOf j < k →
    Part j root → ∀ s c, Says j s → Supplied root c →
    ∃ n v c', v.url = s.url ∧ Whole v ∧ Supplied root c' ∧ ∀ m, n ≤ m → view h m s c = some (.ok (v, []), c') := by
  intro k
  induction k with
  | zero => intro j hj; omega
  | succ k ih =>
    intro j hj hpart s c hs hc
    have hlisted : ∀ u ∈ s.deps, Listed u root := by
      intro u hu
      obtain ⟨i, hi, e⟩ := listed_part hsrc hpart ((hs.2 u).1 hu)
      have : Within i root := by
        rcases hpart with rfl | hp
        · exact hi
        · exact within_trans hi hp
      rw [← e]; exact within_listed this
    obtain ⟨n, vs, c', hvs, hws, hs', hv⟩ := viewAll_supplied (h := h) s.deps hlisted (by
      intro u hu t c hc ht
      obtain ⟨i, hi, e⟩ := listed_part hsrc hpart ((hs.2 u).1 hu)
      have hip : Part i root := part_trans (.inr hi) hpart
      obtain ⟨t', ht', hk⟩ := hc u (hlisted u hu)
      rw [ht] at ht'
      simp only [Option.some.injEq] at ht'
      subst ht'
      have hti := hk i hip e
      have hlt := within_size hi
      obtain ⟨n, v, c', h1, h2, h3, h4⟩ := ih i (by omega) hip t c hti hc
      exact ⟨n, v, c', by rw [h1, hti.1, e], h2, h3, h4⟩) c hc
    refine ⟨n + 1, .node s vs, c', rfl, .node s vs hvs hws, hs', ?_⟩
    intro m hm
    obtain ⟨m', rfl⟩ : ∃ m', m = m' + 1 := ⟨m - 1, by omega⟩
    simp only [view]
    rw [hv m' (by omega)]

/-- C172, for definition registries: a registry that a new engine resolved from definition files, without redirections
and with no more registries than the engine can hold, can be shown to templates; nothing is fetched for it, nothing is
reported, and every listed registry is shown, all the way down. -/
theorem shown_partial {h : Host B} (hno : h.overrides = []) {n : Nat} {visit : Item B → Bool} {r : Repo}
    {i : Item B} {ns ms : List Note} {s : Schema B} {c' : Cache B} (hl : load h r [] = .ok (i, ns)) (ha : Agree i)
    (hsrc : Sources i) {ks : List SchemaUrl} (hks : ∀ j, Part j i → j.url ∈ ks) (hcap : ks.length ≤ h.cap)
    (hr : loadAndResolve h n visit r [] = some (.ok (s, ms), c')) (h' : Host B) :
    ∃ m v c'', v.url = s.url ∧ Whole v ∧ view h' m s c' = some (.ok (v, []), c'') := by
  obtain ⟨i', ns', ms', hl', _, hq, _⟩ := loadAndResolve_ok hr
  rw [hl] at hl'
  simp only [Except.ok.injEq, Prod.mk.injEq] at hl'
  obtain ⟨rfl, rfl⟩ := hl'
  obtain ⟨hf, hsays⟩ := (run_faithful hno ha n).1 i [] _ (.inl rfl) hq (by simp [Faithful])
  obtain ⟨⟨hst, _, hin⟩, _⟩ := (run_grows hno hsrc hks hcap n).1 i [] _ (.inl rfl) hq
    ⟨⟨by simp, by simp, by simp⟩, by simp [Keyed]⟩
  have hs := hsays s ms' rfl
  have hsup : Supplied i c' := by
    intro u hu
    have hmem := (hin s ms' rfl).2 u ((hs.2 u).2 hu)
    cases hp : Lru.peek u c' with
    | none => exact absurd hmem (Lru.peek_none_iff.1 hp)
    | some t =>
      refine ⟨t, rfl, fun k hk e => ?_⟩
      obtain ⟨h1, j, hj, hju, hjl⟩ := hf _ (Lru.peek_some_mem hp)
      exact ⟨h1.trans e.symm, fun v => (hjl v).trans (ha j k hj hk (hju.trans e.symm) v)⟩
  obtain ⟨m, v, c'', h1, h2, _, h4⟩ := view_supplied (h := h') hsrc (sizeOf i + 1) i (by omega) (.inl rfl) s c' hs hsup
  exact ⟨m, v, c'', h1, h2, h4 m (Nat.le_refl _)⟩

end Verif.Engine
