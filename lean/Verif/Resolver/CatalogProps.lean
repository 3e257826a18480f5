import Verif.Resolver.Catalog
/-
C03 (published catalog), the clean-up part of C04 (independence of file order and hash order), C53 (order of YAML
values).
-/
namespace Verif.Resolver
open Verif.Util
variable {α β : Type}

/-! ### Specification -/

/-- The attribute a reference stands for. -/
def attrOf (c : Cat α) (r : Nat) : Option α := (c.find? (fun p => p.2 = r)).map Prod.fst

/-- A catalog as `attribute_ref` builds it: no attribute twice, no reference twice, references below the size. -/
structure CatOk (c : Cat α) : Prop where
  keys : (c.map Prod.fst).Nodup
  vals : (c.map Prod.snd).Nodup
  bound : ∀ p ∈ c, p.2 < c.length

theorem catOk_nil : CatOk ([] : Cat α) := ⟨by simp, by simp, by simp⟩

/-- Every catalog the code builds is of this form, whatever the sequence of additions; the reference returned stands for
the attribute given, and no reference given out before changes its meaning. -/
theorem attributeRef_ok [DecidableEq α] (c : Cat α) (a : α) (h : CatOk c) :
    CatOk (attributeRef c a).1 ∧ attrOf (attributeRef c a).1 (attributeRef c a).2 = some a ∧
    ∀ r b, attrOf c r = some b → attrOf (attributeRef c a).1 r = some b := by
  unfold attributeRef
  cases hf : c.find? (fun p => p.1 = a) with
  | some p =>
    refine ⟨h, ?_, fun _ _ hb => hb⟩
    have hp := List.find?_some hf
    have hm := List.mem_of_find?_eq_some hf
    simp only [decide_eq_true_eq] at hp
    unfold attrOf
    have : c.find? (fun q => q.2 = p.2) = some p := by
      have hv := h.vals
      clear hf h
      induction c with
      | nil => simp at hm
      | cons q c ih =>
        simp only [List.map_cons, List.nodup_cons, List.mem_map, not_exists, not_and] at hv
        rcases List.mem_cons.1 hm with rfl | hm
        · simp
        · rw [List.find?_cons_of_neg (by simpa using fun he => hv.1 p hm he.symm)]
          exact ih hm hv.2
    simp [this, hp]
  | none =>
    rw [List.find?_eq_none] at hf
    simp only [decide_eq_true_eq] at hf
    refine ⟨⟨?_, ?_, ?_⟩, ?_, ?_⟩
    · simp only [List.map_append, List.map_cons, List.map_nil, List.nodup_append, List.mem_map, List.mem_singleton]
      refine ⟨h.keys, by simp, ?_⟩
      rintro x ⟨p, hp, rfl⟩ y rfl
      exact hf p hp
    · simp only [List.map_append, List.map_cons, List.map_nil, List.nodup_append, List.mem_map, List.mem_singleton]
      refine ⟨h.vals, by simp, ?_⟩
      rintro x ⟨p, hp, rfl⟩ y rfl
      have := h.bound p hp; omega
    · intro p hp
      simp only [List.mem_append, List.mem_singleton] at hp
      simp only [List.length_append, List.length_singleton]
      rcases hp with hp | rfl
      · have := h.bound p hp; omega
      · simp
    · unfold attrOf
      rw [List.find?_append]
      have : c.find? (fun p => p.2 = c.length) = none := by
        rw [List.find?_eq_none]
        intro p hp
        have := h.bound p hp
        simp only [decide_eq_true_eq]; omega
      simp [this]
    · intro r b hb
      unfold attrOf at hb ⊢
      rw [List.find?_append]
      cases hc : c.find? (fun p => p.2 = r) with
      | none => rw [hc] at hb; simp at hb
      | some p => rw [hc] at hb; simpa using hb

theorem attrOf_mem {c : Cat α} (h : CatOk c) (r : Nat) (a : α) : attrOf c r = some a ↔ (a, r) ∈ c := by
  unfold attrOf
  constructor
  · intro hh
    cases hf : c.find? (fun p => p.2 = r) with
    | none => rw [hf] at hh; simp at hh
    | some p =>
      rw [hf] at hh
      simp only [Option.map_some, Option.some.injEq] at hh
      have h1 := List.find?_some hf
      simp only [decide_eq_true_eq] at h1
      have h2 := List.mem_of_find?_eq_some hf
      rw [← hh, ← h1]; exact h2
  · intro hm
    have hv := h.vals
    clear h
    induction c with
    | nil => simp at hm
    | cons q c ih =>
      simp only [List.map_cons, List.nodup_cons, List.mem_map, not_exists, not_and] at hv
      rcases List.mem_cons.1 hm with rfl | hm
      · simp
      · rw [List.find?_cons_of_neg (by simpa using fun he => hv.1 (a, r) hm he.symm)]
        exact ih hm hv.2

/-! ### Garbage collection -/

theorem gcPairs_lookup (o : Cat α) (n : Nat) (hv : (o.map Prod.snd).Nodup) :
    ∀ (i : Nat) (p : α × Nat), o[i]? = some p → (gcPairs o n).lookup p.2 = some (n + i) := by
  induction o generalizing n with
  | nil => intro i p h; simp at h
  | cons q o ih =>
    intro i p h
    simp only [List.map_cons, List.nodup_cons, List.mem_map, not_exists, not_and] at hv
    unfold gcPairs
    cases i with
    | zero => simp at h; subst h; simp
    | succ i =>
      simp only [List.getElem?_cons_succ] at h
      have hm : p ∈ o := List.mem_of_getElem? h
      have hne : p.2 ≠ q.2 := hv.1 p hm
      rw [List.lookup_cons]
      have : (p.2 == q.2) = false := by simpa using hne
      rw [this, ih (n + 1) hv.2 i p h]
      simp only [Option.some.injEq]; omega

/-- Old entries with their new reference. -/
def renumber (o : Cat α) (n : Nat) : Cat α :=
  match o with
  | [] => []
  | p :: ps => (p.1, n) :: renumber ps (n + 1)

theorem renumber_fst (o : Cat α) (n : Nat) : (renumber o n).map Prod.fst = o.map Prod.fst := by
  induction o generalizing n with
  | nil => rfl
  | cons p o ih => simp [renumber, ih]

theorem remapRefs_eq (m : List (Nat × Nat)) (l : Cat α) (f : α × Nat → Nat) (h : ∀ p ∈ l, m.lookup p.2 = some (f p)) :
    remapRefs m l = some (l.map (fun p => (p.1, f p))) := by
  induction l with
  | nil => rfl
  | cons p l ih =>
    unfold remapRefs
    rw [h p (by simp), ih (fun q hq => h q (by simp [hq]))]
    rfl

theorem renumber_eq (o : Cat α) (n : Nat) (hv : (o.map Prod.snd).Nodup) :
    o.map (fun p => (p.1, ((gcPairs o n).lookup p.2).getD 0)) = renumber o n := by
  have key : ∀ (i : Nat), (o.map (fun p => (p.1, ((gcPairs o n).lookup p.2).getD 0)))[i]? = (renumber o n)[i]? := by
    intro i
    have hr : ∀ (o : Cat α) (n i : Nat), (renumber o n)[i]? = (o[i]?).map (fun p => (p.1, n + i)) := by
      intro o
      induction o with
      | nil => intro n i; simp [renumber]
      | cons p o ih =>
        intro n i
        cases i with
        | zero => simp [renumber]
        | succ i =>
          simp only [renumber, List.getElem?_cons_succ, ih]
          congr 1
          funext q
          simp only [Prod.mk.injEq, true_and]; omega
    rw [hr, List.getElem?_map]
    cases hi : o[i]? with
    | none => rfl
    | some p => simp [gcPairs_lookup o n hv i p hi]
  exact List.ext_getElem? key

/-- What garbage collection gives: the kept entries in attribute order. -/
theorem gc_spec (le : α → α → Bool) (used : List Nat) (c : Cat α) (h : CatOk c) :
    ∃ m c', gc le used c = some (m, c') ∧
      c'.Perm (renumber (sortBy (fun p q => le p.1 q.1) (c.filter (fun p => decide (p.2 ∈ used)))) 0) ∧
      m = gcPairs (sortBy (fun p q => le p.1 q.1) (c.filter (fun p => decide (p.2 ∈ used)))) 0 := by
  unfold gc
  have hperm := sortBy_perm (fun p q : α × Nat => le p.1 q.1) (c.filter (fun p => decide (p.2 ∈ used)))
  have hv : ((sortBy (fun p q : α × Nat => le p.1 q.1) (c.filter (fun p => decide (p.2 ∈ used)))).map Prod.snd).Nodup := by
    refine (hperm.map Prod.snd).nodup_iff.2 ?_
    exact (List.Sublist.map Prod.snd List.filter_sublist).nodup h.vals
  have hl : ∀ p ∈ c.filter (fun p => decide (p.2 ∈ used)),
      (gcPairs (sortBy (fun p q : α × Nat => le p.1 q.1) (c.filter (fun p => decide (p.2 ∈ used)))) 0).lookup p.2 =
      some (((gcPairs (sortBy (fun p q : α × Nat => le p.1 q.1) (c.filter (fun p => decide (p.2 ∈ used)))) 0).lookup p.2).getD 0) := by
    intro p hp
    obtain ⟨i, hi⟩ := List.mem_iff_getElem?.1 (hperm.mem_iff.2 hp)
    rw [gcPairs_lookup _ 0 hv i p hi]; rfl
  refine ⟨_, _, by dsimp only; rw [remapRefs_eq _ _ _ hl]; rfl, ?_, rfl⟩
  refine List.Perm.trans (List.Perm.map _ hperm.symm) ?_
  rw [renumber_eq _ 0 hv]

theorem renumber_bound (o : Cat α) (n : Nat) : ∀ p ∈ renumber o n, n ≤ p.2 ∧ p.2 < n + o.length := by
  induction o generalizing n with
  | nil => simp [renumber]
  | cons q o ih =>
    intro p hp
    simp only [renumber, List.mem_cons] at hp
    simp only [List.length_cons]
    rcases hp with rfl | hp
    · simp
    · have := ih (n + 1) p hp; omega

theorem renumber_sorted (o : Cat α) (n : Nat) : Sorted (fun p q : α × Nat => decide (p.2 ≤ q.2)) (renumber o n) := by
  induction o generalizing n with
  | nil => simp [renumber, Sorted]
  | cons q o ih =>
    unfold Sorted at ih ⊢
    simp only [renumber, List.pairwise_cons]
    refine ⟨?_, ih (n + 1)⟩
    intro p hp
    have := renumber_bound o (n + 1) p hp
    simp only [decide_eq_true_eq]; omega

theorem renumber_inj (o : Cat α) (n : Nat) : ∀ p ∈ renumber o n, ∀ q ∈ renumber o n, p.2 = q.2 → p = q := by
  induction o generalizing n with
  | nil => simp [renumber]
  | cons r o ih =>
    intro p hp q hq he
    simp only [renumber, List.mem_cons] at hp hq
    rcases hp with rfl | hp <;> rcases hq with rfl | hq
    · rfl
    · have := renumber_bound o (n + 1) q hq; simp at he; omega
    · have := renumber_bound o (n + 1) p hp; simp at he; omega
    · exact ih (n + 1) p hp q hq he

theorem leSnd_total : TotalPre (fun p q : α × Nat => decide (p.2 ≤ q.2)) where
  total a b := by simp only [decide_eq_true_eq]; omega
  trans a b c := by simp only [decide_eq_true_eq]; omega

theorem drain_renumber (o : Cat α) (c' : Cat α) (h : c'.Perm (renumber o 0)) : drain c' = o.map Prod.fst := by
  unfold drain
  rw [sortBy_perm_inv leSnd_total (l₂ := renumber o 0) ?_ h, sortBy_of_sorted (renumber_sorted o 0), renumber_fst]
  intro a ha b hb h1 h2
  simp only [decide_eq_true_eq] at h1 h2
  exact renumber_inj o 0 a (h.mem_iff.1 ha) b (h.mem_iff.1 hb) (by omega)

/-! ### C03 -/

/-- C03: the clean-up never panics, and it keeps the meaning of every published group: each group that is not internal
is published once, with the same id and the same remaining fields, and its references stand, in the published list of
attributes, for exactly the attributes they stood for before (with multiplicity). -/
theorem cleanup_keeps_meaning (le : α → α → Bool) (c : Cat α) (gs : List (RGroup β)) (h : CatOk c)
    (hv : ∀ g ∈ gs, ∀ r ∈ g.attrs, ∃ a, attrOf c r = some a) :
    ∃ c' out, cleanup le c gs = some (c', out) ∧
      (out.map (fun g => (g.id, g.internal, g.rest))).Perm
        ((gs.filter (fun g => !g.internal)).map (fun g => (g.id, g.internal, g.rest))) ∧
      (∀ g ∈ gs, g.internal = false → ∃ g' ∈ out, g'.id = g.id ∧ g'.rest = g.rest ∧
        (g'.attrs.map (fun r => (drain c')[r]?)).Perm (g.attrs.map (attrOf c))) ∧
      (∀ g' ∈ out, ∃ g ∈ gs, g.internal = false ∧ g'.id = g.id ∧ g'.rest = g.rest ∧
        (g'.attrs.map (fun r => (drain c')[r]?)).Perm (g.attrs.map (attrOf c))) := by
  obtain ⟨m, c', hgc, hp, hm⟩ := gc_spec le (gs.flatMap (fun g => g.attrs)) c h
  unfold cleanup
  rw [hgc]
  refine ⟨c', _, rfl, ?_, ?_⟩
  · simp only [List.map_map]
    refine List.Perm.trans (List.Perm.map _ (List.Perm.filter _ (sortBy_perm _ _))) ?_
    rw [List.filter_map, List.map_map]
    exact List.Perm.refl _
  have hdrain := drain_renumber _ c' hp
  have hvn : ((sortBy (fun p q : α × Nat => le p.1 q.1)
      (c.filter (fun p => decide (p.2 ∈ gs.flatMap (fun g => g.attrs))))).map Prod.snd).Nodup := by
    refine ((sortBy_perm _ _).map Prod.snd).nodup_iff.2 ?_
    exact (List.Sublist.map Prod.snd List.filter_sublist).nodup h.vals
  have href : ∀ g ∈ gs, ∀ r ∈ g.attrs, (drain c')[(m.lookup r).getD r]? = attrOf c r := by
    intro g hg r hr
    obtain ⟨a, ha⟩ := hv g hg r hr
    have hmem := (attrOf_mem h r a).1 ha
    have hk : (a, r) ∈ sortBy (fun p q : α × Nat => le p.1 q.1)
        (c.filter (fun p => decide (p.2 ∈ gs.flatMap (fun g => g.attrs)))) := by
      rw [mem_sortBy, List.mem_filter]
      exact ⟨hmem, by simpa using ⟨g, hg, hr⟩⟩
    obtain ⟨i, hi⟩ := List.mem_iff_getElem?.1 hk
    have hl := gcPairs_lookup _ 0 hvn i (a, r) hi
    rw [← hm] at hl
    simp only [Nat.zero_add] at hl
    rw [hl, hdrain, ha, Option.getD_some, List.getElem?_map, hi]; rfl
  have hg' : ∀ g ∈ gs, ((sortBy (fun a b => decide (a ≤ b)) (g.attrs.map (fun a => (m.lookup a).getD a))).map
      (fun r => (drain c')[r]?)).Perm (g.attrs.map (attrOf c)) := by
    intro g hg
    refine ((sortBy_perm _ _).map _).trans ?_
    rw [List.map_map]
    have : g.attrs.map ((fun r => (drain c')[r]?) ∘ fun a => (m.lookup a).getD a) = g.attrs.map (attrOf c) :=
      List.map_congr_left (fun r hr => href g hg r hr)
    rw [this]
  constructor
  · intro g hg hi
    refine ⟨{ g with attrs := sortBy (fun a b => decide (a ≤ b)) (g.attrs.map (fun a => (m.lookup a).getD a)) }, ?_, rfl, rfl,
      hg' g hg⟩
    simp only [List.mem_map, List.mem_filter, mem_sortBy]
    exact ⟨_, ⟨⟨g, hg, rfl⟩, by simp [hi]⟩, rfl⟩
  · intro g' hgm
    simp only [List.mem_map, List.mem_filter, mem_sortBy] at hgm
    obtain ⟨_, ⟨⟨g, hg, rfl⟩, hi⟩, rfl⟩ := hgm
    exact ⟨g, hg, by simpa using hi, rfl, rfl, hg' g hg⟩

/-- C03: the published list of attributes has exactly the attributes referenced by some group (internal groups
included), each once, in the order of attributes; every published reference is an index into it; the groups come in
the order of their ids. -/
theorem cleanup_catalog_exact (le : α → α → Bool) (hle : TotalPre le) (c : Cat α) (gs : List (RGroup β)) (h : CatOk c)
    (hv : ∀ g ∈ gs, ∀ r ∈ g.attrs, ∃ a, attrOf c r = some a) :
    ∃ c' out, cleanup le c gs = some (c', out) ∧
      (∀ a, a ∈ drain c' ↔ ∃ g ∈ gs, ∃ r ∈ g.attrs, attrOf c r = some a) ∧
      (drain c').Nodup ∧ Sorted le (drain c') ∧
      (∀ g ∈ out, ∀ r ∈ g.attrs, r < (drain c').length) ∧
      (∀ g ∈ out, Sorted (fun a b => decide (a ≤ b)) g.attrs) ∧
      Sorted (fun a b : String => decide (a ≤ b)) (out.map RGroup.id) := by
  obtain ⟨m, c', hgc, hp, hm⟩ := gc_spec le (gs.flatMap (fun g => g.attrs)) c h
  obtain ⟨c2, out, hcl, _, _, hback⟩ := cleanup_keeps_meaning le c gs h hv
  have hdrain := drain_renumber _ c' hp
  have hcl' := hcl
  unfold cleanup at hcl'
  rw [hgc] at hcl'
  simp only [Option.map_some, Option.some.injEq, Prod.mk.injEq] at hcl'
  obtain ⟨rfl, hout⟩ := hcl'
  refine ⟨c', out, hcl, ?_, ?_, ?_, ?_, ?_, ?_⟩
  · intro a
    rw [hdrain, List.mem_map]
    constructor
    · rintro ⟨⟨b, r⟩, hb, rfl⟩
      rw [mem_sortBy, List.mem_filter] at hb
      have := hb.2
      simp only [decide_eq_true_eq, List.mem_flatMap] at this
      obtain ⟨g, hg, hr⟩ := this
      exact ⟨g, hg, r, hr, (attrOf_mem h r b).2 hb.1⟩
    · rintro ⟨g, hg, r, hr, ha⟩
      refine ⟨(a, r), ?_, rfl⟩
      rw [mem_sortBy, List.mem_filter]
      exact ⟨(attrOf_mem h r a).1 ha, by simpa using ⟨g, hg, hr⟩⟩
  · rw [hdrain]
    refine ((sortBy_perm _ _).map Prod.fst).nodup_iff.2 ?_
    exact (List.Sublist.map Prod.fst List.filter_sublist).nodup h.keys
  · rw [hdrain]
    have hle' : TotalPre (fun p q : α × Nat => le p.1 q.1) := ⟨fun a b => hle.total _ _, fun a b c => hle.trans _ _ _⟩
    have := sortBy_sorted hle' (c.filter (fun p => decide (p.2 ∈ gs.flatMap (fun g => g.attrs))))
    unfold Sorted at this ⊢
    rw [List.pairwise_map]; exact this
  · intro g hg r hr
    obtain ⟨g0, hg0, _, _, _, hperm⟩ := hback g hg
    have : (drain c')[r]? ∈ g.attrs.map (fun r => (drain c')[r]?) := List.mem_map.2 ⟨r, hr, rfl⟩
    rw [hperm.mem_iff] at this
    obtain ⟨r0, hr0, he⟩ := List.mem_map.1 this
    obtain ⟨a, ha⟩ := hv g0 hg0 r0 hr0
    rw [ha] at he
    exact (List.getElem?_eq_some_iff.1 he.symm).1
  · intro g hg
    rw [← hout] at hg
    obtain ⟨g0, _, rfl⟩ := List.mem_map.1 hg
    exact sortBy_sorted ⟨fun a b => by simp only [decide_eq_true_eq]; omega,
      fun a b c => by simp only [decide_eq_true_eq]; omega⟩ _
  · rw [← hout, List.map_map]
    have hid : TotalPre (fun g h : RGroup β => decide (g.id ≤ h.id)) :=
      ⟨fun a b => by simp only [decide_eq_true_eq]; exact String.le_total _ _,
       fun a b c => by simp only [decide_eq_true_eq]; exact String.le_trans⟩
    have hs := sortBy_sorted hid (gs.map (fun g => { g with attrs := g.attrs.map (fun a => (m.lookup a).getD a) }))
    have hs' := List.Pairwise.filter (fun g : RGroup β => !g.internal) hs
    unfold Sorted
    rw [List.pairwise_map]
    exact hs'

theorem nodup_of_map {γ δ : Type} {f : γ → δ} {l : List γ} (h : (l.map f).Nodup) : l.Nodup := by
  induction l with
  | nil => simp
  | cons a l ih =>
    simp only [List.map_cons, List.nodup_cons] at h ⊢
    exact ⟨fun hm => h.1 (List.mem_map.2 ⟨a, hm, rfl⟩), ih h.2⟩

/-! ### C04: the clean-up does not see file order or hash order -/

/-- Two groups that say the same: same id, visibility and fields, and the same attributes with multiplicity. -/
def SameGroup (c1 c2 : Cat α) (g1 g2 : RGroup β) : Prop :=
  g1.id = g2.id ∧ g1.internal = g2.internal ∧ g1.rest = g2.rest ∧ (g1.attrs.map (attrOf c1)).Perm (g2.attrs.map (attrOf c2))

/-- C04 (partial: the clean-up phase; the order antisymmetric on the attributes the groups use). Two runs whose groups say the same,
in whatever order and with whatever numbering of the attributes and iteration order of the hash map, publish the same
list of attributes and the same groups. -/
theorem cleanup_canonical_partial (le : α → α → Bool) (hle : TotalPre le) (c1 c2 : Cat α) (gs1 gs1' gs2 : List (RGroup β))
    (h1 : CatOk c1) (h2 : CatOk c2) (hperm : gs1.Perm gs1') (hlen : gs1'.length = gs2.length)
    (hsame : ∀ i (hi : i < gs1'.length) (hi' : i < gs2.length), SameGroup c1 c2 gs1'[i] gs2[i])
    (hv1 : ∀ g ∈ gs1, ∀ r ∈ g.attrs, ∃ a, attrOf c1 r = some a)
    (hids : (gs1.map RGroup.id).Nodup)
    (anti : ∀ a b, (∃ g ∈ gs1, ∃ r ∈ g.attrs, attrOf c1 r = some a) → (∃ g ∈ gs1, ∃ r ∈ g.attrs, attrOf c1 r = some b) →
      le a b = true → le b a = true → a = b) :
    ∃ c1' c2' out, cleanup le c1 gs1 = some (c1', out) ∧ cleanup le c2 gs2 = some (c2', out) ∧ drain c1' = drain c2' := by
  have fwd : ∀ g2 ∈ gs2, ∃ g1 ∈ gs1, SameGroup c1 c2 g1 g2 := by
    intro g2 hg
    obtain ⟨i, hi, rfl⟩ := List.mem_iff_getElem.1 hg
    exact ⟨gs1'[i]'(by omega), hperm.mem_iff.2 (List.getElem_mem _), hsame i (by omega) hi⟩
  have bwd : ∀ g1 ∈ gs1, ∃ g2 ∈ gs2, SameGroup c1 c2 g1 g2 := by
    intro g1 hg
    obtain ⟨i, hi, rfl⟩ := List.mem_iff_getElem.1 (hperm.mem_iff.1 hg)
    exact ⟨gs2[i]'(by omega), List.getElem_mem _, hsame i hi (by omega)⟩
  have hv2 : ∀ g ∈ gs2, ∀ r ∈ g.attrs, ∃ a, attrOf c2 r = some a := by
    intro g hg r hr
    obtain ⟨g1, hg1, hs⟩ := fwd g hg
    have : attrOf c2 r ∈ g.attrs.map (attrOf c2) := List.mem_map.2 ⟨r, hr, rfl⟩
    rw [← hs.2.2.2.mem_iff] at this
    obtain ⟨r1, hr1, he⟩ := List.mem_map.1 this
    obtain ⟨a, ha⟩ := hv1 g1 hg1 r1 hr1
    exact ⟨a, by rw [← he, ha]⟩
  obtain ⟨c1', out1, e1, hmem1, hnd1, hso1, hb1, hsa1, hid1⟩ := cleanup_catalog_exact le hle c1 gs1 h1 hv1
  obtain ⟨c2', out2, e2, hmem2, hnd2, hso2, hb2, hsa2, hid2⟩ := cleanup_catalog_exact le hle c2 gs2 h2 hv2
  have hdr : drain c1' = drain c2' := by
    have hp : (drain c1').Perm (drain c2') := by
      refine (List.perm_ext_iff_of_nodup hnd1 hnd2).2 ?_
      intro a
      rw [hmem1, hmem2]
      constructor
      · rintro ⟨g, hg, r, hr, ha⟩
        obtain ⟨g2, hg2, hs⟩ := bwd g hg
        have : some a ∈ g.attrs.map (attrOf c1) := List.mem_map.2 ⟨r, hr, ha⟩
        rw [hs.2.2.2.mem_iff] at this
        obtain ⟨r2, hr2, he⟩ := List.mem_map.1 this
        exact ⟨g2, hg2, r2, hr2, he⟩
      · rintro ⟨g, hg, r, hr, ha⟩
        obtain ⟨g1, hg1, hs⟩ := fwd g hg
        have : some a ∈ g.attrs.map (attrOf c2) := List.mem_map.2 ⟨r, hr, ha⟩
        rw [← hs.2.2.2.mem_iff] at this
        obtain ⟨r1, hr1, he⟩ := List.mem_map.1 this
        exact ⟨g1, hg1, r1, hr1, he⟩
    refine eq_of_sorted_perm ?_ hso1 hso2 hp
    intro a ha b hb
    exact anti a b ((hmem1 a).1 ha) ((hmem1 b).1 hb)
  refine ⟨c1', c2', out1, e1, ?_, hdr⟩
  rw [e2, Option.some.injEq, Prod.mk.injEq]
  refine ⟨rfl, Eq.symm ?_⟩
  obtain ⟨_, _, e1', hp1, hfw1, hbk1⟩ := cleanup_keeps_meaning le c1 gs1 h1 hv1
  obtain ⟨_, _, e2', hp2, hfw2, hbk2⟩ := cleanup_keeps_meaning le c2 gs2 h2 hv2
  rw [e1, Option.some.injEq, Prod.mk.injEq] at e1'
  rw [e2, Option.some.injEq, Prod.mk.injEq] at e2'
  obtain ⟨rfl, rfl⟩ := e1'
  obtain ⟨rfl, rfl⟩ := e2'
  have hids2 : (gs2.map RGroup.id).Nodup := by
    have : gs2.map RGroup.id = gs1'.map RGroup.id := by
      refine List.ext_getElem? (fun i => ?_)
      simp only [List.getElem?_map]
      by_cases hi : i < gs2.length
      · rw [List.getElem?_eq_getElem hi, List.getElem?_eq_getElem (by omega)]
        simp [(hsame i (by omega) hi).1]
      · rw [List.getElem?_eq_none (by omega), List.getElem?_eq_none (by omega)]
    rw [this]
    exact (hperm.map RGroup.id).nodup_iff.1 hids
  have idnd : ∀ (gs : List (RGroup β)) (out : List (RGroup β)), (gs.map RGroup.id).Nodup →
      (out.map (fun g => (g.id, g.internal, g.rest))).Perm
        ((gs.filter (fun g => !g.internal)).map (fun g => (g.id, g.internal, g.rest))) → (out.map RGroup.id).Nodup := by
    intro gs out hn hp
    have := hp.map Prod.fst
    simp only [List.map_map] at this
    refine this.nodup_iff.2 ?_
    exact (List.Sublist.map RGroup.id List.filter_sublist).nodup hn
  have n1 := idnd gs1 out1 hids hp1
  have n2 := idnd gs2 out2 hids2 hp2
  -- equal as sets
  have idinj : ∀ {l : List (RGroup β)}, (l.map RGroup.id).Nodup → ∀ a ∈ l, ∀ b ∈ l, a.id = b.id → a = b := by
    intro l hl
    induction l with
    | nil => simp
    | cons x l ih =>
      simp only [List.map_cons, List.nodup_cons, List.mem_map, not_exists, not_and] at hl
      intro a ha b hb he
      rcases List.mem_cons.1 ha with ha' | ha' <;> rcases List.mem_cons.1 hb with hb' | hb'
      · rw [ha', hb']
      · subst ha'; exact absurd he.symm (hl.1 b hb')
      · subst hb'; exact absurd he (hl.1 a ha')
      · exact ih hl.2 a ha' b hb' he
  have same : ∀ (o1 o2 : RGroup β), o1 ∈ out1 → o2 ∈ out2 → o1.id = o2.id → o1.internal = false → o2.internal = false →
      o1 = o2 := by
    intro o1 o2 ho1 ho2 hid hi1 hi2
    obtain ⟨g1, hg1, _, e1, er1, hpm1⟩ := hbk1 o1 ho1
    obtain ⟨g2, hg2, _, e2, er2, hpm2⟩ := hbk2 o2 ho2
    obtain ⟨g1', hg1', hs⟩ := fwd g2 hg2
    have : g1' = g1 := idinj hids g1' hg1' g1 hg1 (by rw [hs.1, ← e2, ← hid, e1])
    subst this
    have hpm : (o1.attrs.map (fun r => (drain c1')[r]?)).Perm (o2.attrs.map (fun r => (drain c1')[r]?)) := by
      rw [← hdr] at hpm2
      exact hpm1.trans (hs.2.2.2.trans hpm2.symm)
    have hattr : o1.attrs.Perm o2.attrs := by
      have hinj : ∀ (l1 l2 : List Nat), (∀ r ∈ l1, r < (drain c1').length) → (∀ r ∈ l2, r < (drain c1').length) →
          (l1.map (fun r => (drain c1')[r]?)).Perm (l2.map (fun r => (drain c1')[r]?)) → l1.Perm l2 := by
        intro l1
        induction l1 with
        | nil => intro l2 _ _ hp; simpa using hp
        | cons r l1 ih =>
          intro l2 hl1 hl2 hp
          have hr : (drain c1')[r]? ∈ l2.map (fun r => (drain c1')[r]?) := hp.mem_iff.1 (by simp)
          obtain ⟨r', hr', he⟩ := List.mem_map.1 hr
          have hrr : r' = r := by
            have b1 := hl2 r' hr'
            have b2 := hl1 r (by simp)
            rw [List.getElem?_eq_getElem b1, List.getElem?_eq_getElem b2, Option.some.injEq] at he
            exact (List.getElem_inj hnd1).1 he
          subst hrr
          obtain ⟨s, t, rfl⟩ := List.append_of_mem hr'
          have hp' : (l1.map (fun r => (drain c1')[r]?)).Perm ((s ++ t).map (fun r => (drain c1')[r]?)) := by
            have := hp.trans ((List.perm_middle (a := r') (l₁ := s) (l₂ := t)).map _)
            simpa using this
          have := ih (s ++ t) (fun r hr => hl1 r (by simp [hr]))
            (fun r hr => hl2 r (by simp at hr ⊢; rcases hr with h | h <;> simp [h])) hp'
          exact (List.Perm.cons r' this).trans List.perm_middle.symm
      exact hinj _ _ (hb1 o1 ho1) (fun r hr => by rw [hdr]; exact hb2 o2 ho2 r hr) hpm
    have hattrs : o1.attrs = o2.attrs :=
      eq_of_sorted_perm (fun a _ b _ h1 h2 => by simp only [decide_eq_true_eq] at h1 h2; omega)
        (hsa1 o1 ho1) (hsa2 o2 ho2) hattr
    cases o1; cases o2
    simp only [RGroup.mk.injEq] at *
    exact ⟨hid, hattrs, by rw [hi1, hi2], by rw [er1, hs.2.2.1, ← er2]⟩
  have nonint : ∀ (gs : List (RGroup β)) (out : List (RGroup β)),
      (out.map (fun g => (g.id, g.internal, g.rest))).Perm
        ((gs.filter (fun g => !g.internal)).map (fun g => (g.id, g.internal, g.rest))) → ∀ o ∈ out, o.internal = false := by
    intro gs out hp o ho
    have : (o.id, o.internal, o.rest) ∈ out.map (fun g => (g.id, g.internal, g.rest)) := List.mem_map.2 ⟨o, ho, rfl⟩
    rw [hp.mem_iff] at this
    obtain ⟨g, hg, he⟩ := List.mem_map.1 this
    have := (List.mem_filter.1 hg).2
    simp only [Prod.mk.injEq] at he
    rw [← he.2.1]; simpa using this
  have hsub : ∀ o, o ∈ out1 ↔ o ∈ out2 := by
    intro o
    constructor
    · intro ho
      obtain ⟨g1, hg1, hi1, e1, _⟩ := hbk1 o ho
      obtain ⟨g2, hg2, hs⟩ := bwd g1 hg1
      obtain ⟨o2, ho2, e2, _⟩ := hfw2 g2 hg2 (by rw [← hs.2.1, hi1])
      have := same o o2 ho ho2 (by rw [e1, hs.1, e2]) (nonint gs1 out1 hp1 o ho) (nonint gs2 out2 hp2 o2 ho2)
      rw [this]; exact ho2
    · intro ho
      obtain ⟨g2, hg2, hi2, e2, _⟩ := hbk2 o ho
      obtain ⟨g1, hg1, hs⟩ := fwd g2 hg2
      obtain ⟨o1, ho1, e1, _⟩ := hfw1 g1 hg1 (by rw [hs.2.1, hi2])
      have := same o1 o ho1 ho (by rw [e1, hs.1, e2]) (nonint gs1 out1 hp1 o1 ho1) (nonint gs2 out2 hp2 o ho)
      rw [← this]; exact ho1
  have hpo : out1.Perm out2 := by
    refine (List.perm_ext_iff_of_nodup ?_ ?_).2 hsub
    · exact nodup_of_map n1
    · exact nodup_of_map n2
  refine eq_of_sorted_perm (le := fun g h : RGroup β => decide (g.id ≤ h.id)) ?_ ?_ ?_ hpo
  · intro a ha b hb h1 h2
    simp only [decide_eq_true_eq] at h1 h2
    exact idinj n1 a ha b hb (String.le_antisymm h1 h2)
  · unfold Sorted at hid1 ⊢; rw [List.pairwise_map] at hid1; exact hid1
  · unfold Sorted at hid2 ⊢; rw [List.pairwise_map] at hid2; exact hid2

/-! ### Non-vacuity -/

private def exCat : Cat String := [("zeta", 0), ("alpha", 1), ("unused", 2), ("mid", 3)]
private def exGroups : List (RGroup Unit) :=
  [⟨"g2", [0, 3, 3], false, ()⟩, ⟨"g1", [3, 1], false, ()⟩, ⟨"hidden", [1], true, ()⟩]

example : CatOk exCat ∧ (∀ g ∈ exGroups, ∀ r ∈ g.attrs, ∃ a, attrOf exCat r = some a) := by
  refine ⟨⟨by decide, by decide, by decide⟩, ?_⟩
  intro g hg r hr
  simp only [exGroups, List.mem_cons, List.not_mem_nil, or_false] at hg
  rcases hg with rfl | rfl | rfl <;> simp at hr
  · rcases hr with rfl | rfl
    · exact ⟨"zeta", by decide⟩
    · exact ⟨"mid", by decide⟩
  · rcases hr with rfl | rfl
    · exact ⟨"mid", by decide⟩
    · exact ⟨"alpha", by decide⟩
  · subst hr; exact ⟨"alpha", by decide⟩

example : (cleanup (fun a b : String => decide (a ≤ b)) exCat exGroups).map (fun r => (drain r.1, r.2)) =
    some (["alpha", "mid", "zeta"], [⟨"g1", [0, 1], false, ()⟩, ⟨"g2", [1, 1, 2], false, ()⟩]) := by decide

/-! ### Findings -/

/-- C137 refuted: the published list of attributes can contain an attribute that no published group uses, because the
references of internal groups are counted before these groups are dropped. -/
theorem cleanup_keeps_unused_refuted : ∃ (c : Cat String) (gs : List (RGroup Unit)) (c' : Cat String) (out : List (RGroup Unit)),
    CatOk c ∧ cleanup (fun a b => decide (a ≤ b)) c gs = some (c', out) ∧
    ∃ i, i < (drain c').length ∧ ∀ g ∈ out, i ∉ g.attrs :=
  ⟨[("a", 0), ("b", 1)], [⟨"hidden", [0], true, ()⟩, ⟨"g", [1], false, ()⟩], [("a", 0), ("b", 1)], [⟨"g", [1], false, ()⟩],
    ⟨by decide, by decide, by decide⟩, by decide, 0, by decide, by decide⟩

/-! ### C53: the order of YAML values -/

/-- C53 refuted: different YAML values can compare as equal. -/
theorem yaml_order_not_antisymmetric_refuted : ∃ a b : YVal, a ≠ b ∧ a.cmp b = .eq ∧ b.cmp a = .eq :=
  ⟨.seq [.null], .seq [], by simp, rfl, rfl⟩

/-- C53 refuted: with a tagged value each of two values is less than the other. -/
theorem yaml_order_inconsistent_refuted : ∃ a b : YVal, a.cmp b = .lt ∧ b.cmp a = .lt :=
  ⟨.null, .tagged "t" .null, rfl, rfl⟩

/-- No tagged value at the top. -/
def YVal.untagged : YVal → Prop
  | .tagged _ _ => False
  | _ => True

/-- C53 (partial: values that are not tagged): the order is a total preorder and its reverse is consistent. -/
theorem yaml_order_total_partial (a b c : YVal) (ha : a.untagged) (hb : b.untagged) (hc : c.untagged) :
    (b.cmp a = (a.cmp b).swap) ∧ (a.cmp b ≠ .gt → b.cmp c ≠ .gt → a.cmp c ≠ .gt) := by
  constructor
  · cases a <;> cases b <;> simp_all [YVal.cmp, YVal.untagged, Ordering.swap]
    · rename_i x y; cases x <;> cases y <;> rfl
    · exact (Std.OrientedCmp.eq_swap (cmp := (compare : Int → Int → Ordering)))
    · exact (Std.OrientedCmp.eq_swap (cmp := (compare : String → String → Ordering)))
  · intro h1 h2
    cases a <;> cases b <;> cases c <;> simp_all [YVal.cmp, YVal.untagged]
    · rename_i x y z; cases x <;> cases y <;> cases z <;> simp_all [compare]
    · rename_i x y z
      rw [← Ordering.isLE_iff_ne_gt] at *
      exact Std.TransCmp.isLE_trans h1 h2
    · rename_i x y z
      rw [← Ordering.isLE_iff_ne_gt] at *
      exact Std.TransCmp.isLE_trans h1 h2

/-- Scalars: null, booleans, numbers and strings. -/
def YVal.scalar : YVal → Prop
  | .null | .bool _ | .num _ | .str _ => True
  | _ => False

/-- C53 (partial: scalars): two values compare as equal only if they are equal. -/
theorem yaml_order_eq_partial (a b : YVal) (ha : a.scalar) (hb : b.scalar) : a.cmp b = .eq ↔ a = b := by
  cases a <;> cases b <;> simp_all [YVal.cmp, YVal.scalar, Std.LawfulEqCmp.compare_eq_iff_eq]

example : (YVal.seq [.null]).untagged ∧ (YVal.num 3).scalar ∧ (YVal.num 3).cmp (.str "3") = .lt := ⟨trivial, trivial, rfl⟩

/-- An attribute reduced to its name and one annotation value, ordered as the derived `Ord` does. -/
def annLe (a b : String × YVal) : Bool :=
  match compare a.1 b.1 with
  | .lt => true
  | .gt => false
  | .eq => a.2.cmp b.2 != .gt

/-- C04 refuted: two uses of an attribute that differ only in a list-valued annotation are published in the order in
which the hash map happens to iterate. -/
theorem cleanup_hash_order_refuted : ∃ (c1 c2 : Cat (String × YVal)) (gs : List (RGroup Unit)) (r1 r2 : Cat (String × YVal) × List (RGroup Unit)),
    CatOk c1 ∧ c1.Perm c2 ∧ cleanup annLe c1 gs = some r1 ∧ cleanup annLe c2 gs = some r2 ∧ drain r1.1 ≠ drain r2.1 := by
  refine ⟨[(("a", .seq []), 0), (("a", .seq [.null]), 1)], [(("a", .seq [.null]), 1), (("a", .seq []), 0)],
    [⟨"g", [0], false, ()⟩, ⟨"h", [1], false, ()⟩], _, _, ⟨by simp, by simp, by simp⟩, .swap .., rfl, rfl, ?_⟩
  intro h
  have h0 : (drain (α := String × YVal) _)[0]? = (drain (α := String × YVal) _)[0]? := congrArg (fun l => l[0]?) h
  revert h0
  intro h0
  have := congrArg (fun o : Option (String × YVal) => o.map (fun p => match p.2 with | .seq xs => xs.length | _ => 7)) h0
  revert this
  decide

end Verif.Resolver
