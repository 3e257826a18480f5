import Verif.Versions.Model
import Verif.Resolver.VersionProps
/-
C16: renames up to a version. C17, C59, C60: inheriting a version history.
-/
namespace Verif.Versions
open Verif.Util Verif.Resolver

/-! ### Specification -/

/-- Some map gives the name a new name. -/
def Mentions (maps : List Renames) (old : String) : Prop := ∃ m ∈ maps, ∃ x, (old, x) ∈ m

/-- The new name of `old` according to a list of changes: that of the first change that mentions it. -/
def Says (maps : List Renames) (old new : String) : Prop :=
  ∃ pre m post, maps = pre ++ m :: post ∧ (old, new) ∈ m ∧ ¬ Mentions pre old

/-- The new name of `old` according to the last change that mentions it. -/
def SaysLast (maps : List Renames) (old new : String) : Prop :=
  ∃ pre m post, maps = pre ++ m :: post ∧ (old, new) ∈ m ∧ ¬ Mentions post old

/-- The sections of a version that rename something. -/
def Spec.resourceMaps (s : Spec) : List Renames := s.resources.getD []
def Spec.logMaps (s : Spec) : List Renames := s.logs.getD []
def Spec.spanMaps (s : Spec) : List Renames := s.spans.getD []
def Spec.metricMaps (s : Spec) : List Renames := (s.metrics.getD []).map (·.metrics)
def Spec.metricAttrMaps (s : Spec) : List Renames := (s.metrics.getD []).map (·.attrs)

/-- The maps have distinct keys. -/
def Maps (l : List Renames) : Prop := ∀ m ∈ l, (m.map Prod.fst).Nodup

def Spec.Valid (s : Spec) : Prop :=
  Maps s.resourceMaps ∧ Maps s.logMaps ∧ Maps s.spanMaps ∧ Maps s.metricMaps ∧ Maps s.metricAttrMaps

/-- The versions are in ascending order, without repetition. -/
def Ascending (vs : Versions) : Prop := vs.Pairwise fun a b => VerLe a.1 b.1 ∧ a.1 ≠ b.1

structure Valid (vs : Versions) : Prop where
  asc : Ascending vs
  specs : ∀ p ∈ vs, p.2.Valid

/-- Of the versions up to `v`, the most recent that renames `old` renames it to `new`. -/
def MostRecent (vs : Versions) (sec : Spec → List Renames) (v : Ver) (old new : String) : Prop :=
  ∃ p ∈ vs, VerLe p.1 v ∧ Says (sec p.2) old new ∧
    ∀ q ∈ vs, VerLe q.1 v → ¬ VerLe q.1 p.1 → ¬ Mentions (sec q.2) old

/-- No version up to `v` renames `old`. -/
def NeverRenamed (vs : Versions) (sec : Spec → List Renames) (v : Ver) (old : String) : Prop :=
  ∀ q ∈ vs, VerLe q.1 v → ¬ Mentions (sec q.2) old

/-- The name that `old` must be given. -/
def NameAt (vs : Versions) (sec : Spec → List Renames) (v : Ver) (old new : String) : Prop :=
  MostRecent vs sec v old new ∨ NeverRenamed vs sec v old ∧ new = old

/-! ### Lemmas -/

theorem aget_append (n : String) (a b : Renames) : aget n (a ++ b) = (aget n a).or (aget n b) := by
  induction a with
  | nil => rfl
  | cons p a ih =>
    obtain ⟨k, w⟩ := p
    simp only [List.cons_append, aget]
    split
    · rfl
    · exact ih

theorem aget_noteRename (n : String) (acc : Renames) (p : String × String) :
    aget n (noteRename acc p) = (aget n acc).or (aget n [p]) := by
  unfold noteRename
  obtain ⟨k, w⟩ := p
  simp only [aget]
  by_cases h : (aget k acc).isSome = true
  · rw [if_pos h]
    by_cases hk : k = n
    · subst hk; rw [Option.or_of_isSome h]
    · rw [if_neg hk, Option.or_none]
  · rw [if_neg h, aget_aset]
    by_cases hk : n = k
    · subst hk
      rw [if_pos rfl, if_pos rfl]
      rw [Option.not_isSome_iff_eq_none.1 h]
      rfl
    · rw [if_neg hk, if_neg (fun h => hk h.symm), Option.or_none]

theorem aget_foldl_note (n : String) (l : Renames) : ∀ acc, aget n (l.foldl noteRename acc) = (aget n acc).or (aget n l) := by
  induction l with
  | nil => intro acc; simp [aget]
  | cons p l ih =>
    intro acc
    rw [List.foldl_cons, ih, aget_noteRename, Option.or_assoc, ← aget_append]
    rfl

theorem mentions_iff (maps : List Renames) (n : String) : Mentions maps n ↔ n ∈ maps.flatten.map Prod.fst := by
  unfold Mentions
  simp only [List.mem_map, List.mem_flatten]
  constructor
  · rintro ⟨m, hm, x, hx⟩; exact ⟨(n, x), ⟨m, hm, hx⟩, rfl⟩
  · rintro ⟨⟨a, x⟩, ⟨m, hm, hx⟩, rfl⟩; exact ⟨m, hm, x, hx⟩

theorem not_mentions_iff (maps : List Renames) (n : String) : ¬ Mentions maps n ↔ aget n maps.flatten = none := by
  rw [mentions_iff, aget_eq_none_iff]

theorem says_iff (maps : List Renames) (h : Maps maps) (n x : String) : Says maps n x ↔ aget n maps.flatten = some x := by
  induction maps with
  | nil =>
    constructor
    · rintro ⟨pre, m, post, he, _⟩; cases pre <;> cases he
    · intro h; cases h
  | cons m maps ih =>
    rw [List.flatten_cons, aget_append]
    have ih := ih fun m hm => h m (List.mem_cons_of_mem _ hm)
    constructor
    · rintro ⟨pre, m', post, he, hm, hn⟩
      cases pre with
      | nil =>
        obtain ⟨rfl, rfl⟩ := List.cons.inj he
        rw [aget_of_mem_nodup (h m List.mem_cons_self) hm]; rfl
      | cons a pre =>
        obtain ⟨rfl, rfl⟩ := List.cons.inj he
        have : aget n m = none := by
          rw [not_mentions_iff, List.flatten_cons, aget_append] at hn
          exact (Option.or_eq_none_iff.1 hn).1
        rw [this, Option.none_or]
        refine ih.1 ⟨pre, m', post, rfl, hm, fun hc => hn ?_⟩
        obtain ⟨y, hy, hx⟩ := hc
        exact ⟨y, List.mem_cons_of_mem _ hy, hx⟩
    · intro hx
      cases hm : aget n m with
      | some y =>
        rw [hm] at hx
        rw [← Option.some.inj hx]
        exact ⟨[], m, maps, rfl, aget_some_mem hm, fun ⟨_, h, _⟩ => by cases h⟩
      | none =>
        rw [hm, Option.none_or] at hx
        obtain ⟨pre, m', post, rfl, h1, h2⟩ := ih.2 hx
        refine ⟨m :: pre, m', post, rfl, h1, ?_⟩
        rw [not_mentions_iff, List.flatten_cons, aget_append, hm, Option.none_or]
        exact (not_mentions_iff _ _).1 h2

theorem mentions_says (maps : List Renames) (h : Maps maps) (n : String) (hm : Mentions maps n) : ∃ x, Says maps n x := by
  cases hx : aget n maps.flatten with
  | none => exact absurd hm ((not_mentions_iff _ _).2 hx)
  | some x => exact ⟨x, (says_iff maps h n x).2 hx⟩

/-- Renames collected from versions in descending order. -/
theorem descending (ds : Versions) (sec : Spec → List Renames) (hd : ds.Pairwise fun a b => VerLe b.1 a.1 ∧ a.1 ≠ b.1)
    (hm : ∀ p ∈ ds, Maps (sec p.2)) (n : String) :
    (∀ x, aget n (ds.flatMap fun p => (sec p.2).flatten) = some x ↔ ∃ p ∈ ds, Says (sec p.2) n x ∧
      ∀ q ∈ ds, ¬ VerLe q.1 p.1 → ¬ Mentions (sec q.2) n) ∧
    (aget n (ds.flatMap fun p => (sec p.2).flatten) = none ↔ ∀ q ∈ ds, ¬ Mentions (sec q.2) n) := by
  induction ds with
  | nil => simp [aget]
  | cons d ds ih =>
    rw [List.pairwise_cons] at hd
    obtain ⟨ih1, ih2⟩ := ih hd.2 fun p hp => hm p (List.mem_cons_of_mem _ hp)
    have hmd := hm d List.mem_cons_self
    simp only [List.flatMap_cons, aget_append]
    constructor
    · intro x
      cases hx : aget n (sec d.2).flatten with
      | some y =>
        constructor
        · intro h
          rw [← Option.some.inj h]
          refine ⟨d, List.mem_cons_self, (says_iff _ hmd _ _).2 hx, fun q hq hn => ?_⟩
          rcases List.mem_cons.1 hq with rfl | hq
          · exact absurd (verLe_refl _) hn
          · exact absurd (hd.1 q hq).1 hn
        · rintro ⟨p, hp, hs, hq⟩
          rcases List.mem_cons.1 hp with rfl | hp
          · rw [(says_iff _ hmd _ _).1 hs] at hx
            rw [← hx]; rfl
          · refine absurd ?_ (hq d List.mem_cons_self fun hle => ?_)
            · rw [mentions_iff, mem_keys_iff]; exact ⟨y, hx⟩
            · exact (hd.1 p hp).2 (verLe_antisymm hle (hd.1 p hp).1)
      | none =>
        rw [Option.none_or, ih1]
        constructor
        · rintro ⟨p, hp, hs, hq⟩
          refine ⟨p, List.mem_cons_of_mem _ hp, hs, fun q hq' hn => ?_⟩
          rcases List.mem_cons.1 hq' with rfl | hq'
          · exact (not_mentions_iff _ _).2 hx
          · exact hq q hq' hn
        · rintro ⟨p, hp, hs, hq⟩
          rcases List.mem_cons.1 hp with rfl | hp
          · rw [(says_iff _ hmd _ _).1 hs] at hx; cases hx
          · exact ⟨p, hp, hs, fun q hq' => hq q (List.mem_cons_of_mem _ hq')⟩
    · rw [Option.or_eq_none_iff, ih2, ← not_mentions_iff]
      simp

theorem mem_descFrom (vs : Versions) (v : Ver) (p : Ver × Spec) : p ∈ versionsDescFrom vs v ↔ p ∈ vs ∧ VerLe p.1 v := by
  unfold versionsDescFrom
  rw [List.mem_reverse, List.mem_filter]
  have := ver_lt_iff p.1 v
  cases h : v.lt p.1 <;> simp_all

theorem descFrom_pairwise (vs : Versions) (v : Ver) (h : Ascending vs) :
    (versionsDescFrom vs v).Pairwise fun a b => VerLe b.1 a.1 ∧ a.1 ≠ b.1 := by
  unfold versionsDescFrom
  rw [List.pairwise_reverse]
  exact (h.filter _).imp fun ⟨h1, h2⟩ => ⟨h1, fun h => h2 h.symm⟩

/-- The five maps are collected independently. -/
theorem fold_fields (ss : List Spec) : ∀ c : Changes,
    (ss.foldl noteSpec c).resourceAttrs = (ss.flatMap fun s => s.resourceMaps.flatten).foldl noteRename c.resourceAttrs ∧
    (ss.foldl noteSpec c).logAttrs = (ss.flatMap fun s => s.logMaps.flatten).foldl noteRename c.logAttrs ∧
    (ss.foldl noteSpec c).spanAttrs = (ss.flatMap fun s => s.spanMaps.flatten).foldl noteRename c.spanAttrs ∧
    (ss.foldl noteSpec c).metricNames = (ss.flatMap fun s => s.metricMaps.flatten).foldl noteRename c.metricNames ∧
    (ss.foldl noteSpec c).metricAttrs = (ss.flatMap fun s => s.metricAttrMaps.flatten).foldl noteRename c.metricAttrs := by
  induction ss with
  | nil => intro c; exact ⟨rfl, rfl, rfl, rfl, rfl⟩
  | cons s ss ih =>
    intro c
    obtain ⟨h1, h2, h3, h4, h5⟩ := ih (noteSpec c s)
    simp only [List.foldl_cons, List.flatMap_cons, List.foldl_append]
    rw [h1, h2, h3, h4, h5]
    refine ⟨?_, ?_, ?_, ?_, ?_⟩
    · congr 1; simp only [noteSpec, Spec.resourceMaps]; cases s.resources <;> rfl
    · congr 1; simp only [noteSpec, Spec.logMaps]; cases s.logs <;> rfl
    · congr 1; simp only [noteSpec, Spec.spanMaps]; cases s.spans <;> rfl
    · congr 1; simp only [noteSpec, Spec.metricMaps, List.flatMap_def]; cases s.metrics <;> rfl
    · congr 1; simp only [noteSpec, Spec.metricAttrMaps, List.flatMap_def]; cases s.metrics <;> rfl

theorem rename_iff (vs : Versions) (sec : Spec → List Renames) (v : Ver) (hv : Ascending vs)
    (hm : ∀ p ∈ vs, Maps (sec p.2)) (m : Renames)
    (h : m = (((versionsDescFrom vs v).map (·.2)).flatMap fun s => (sec s).flatten).foldl noteRename [])
    (old new : String) : rename m old = new ↔ NameAt vs sec v old new := by
  have hg : aget old m = aget old ((versionsDescFrom vs v).flatMap fun p => (sec p.2).flatten) := by
    rw [h, aget_foldl_note, List.flatMap_map]; rfl
  obtain ⟨h1, h2⟩ := descending _ sec (descFrom_pairwise vs v hv)
    (fun p hp => hm p ((mem_descFrom vs v p).1 hp).1) old
  simp only [← hg, mem_descFrom] at h1 h2
  have h1' : ∀ x, aget old m = some x ↔ MostRecent vs sec v old x := by
    intro x
    rw [h1]
    constructor
    · rintro ⟨p, ⟨hp, hle⟩, hs, hq⟩; exact ⟨p, hp, hle, hs, fun q h h' h'' => hq q ⟨h, h'⟩ h''⟩
    · rintro ⟨p, hp, hle, hs, hq⟩; exact ⟨p, ⟨hp, hle⟩, hs, fun q h h'' => hq q h.1 h.2 h''⟩
  have h2' : aget old m = none ↔ NeverRenamed vs sec v old := by
    rw [h2]
    exact ⟨fun h q h1 h2 => h q ⟨h1, h2⟩, fun h q hq => h q hq.1 hq.2⟩
  unfold rename NameAt
  cases hx : aget old m with
  | none =>
    have hn := h2'.1 hx
    dsimp only
    constructor
    · intro h; exact .inr ⟨hn, h.symm⟩
    · rintro (h | h)
      · rw [(h1' new).2 h] at hx; cases hx
      · exact h.2.symm
  | some x =>
    dsimp only
    rw [← h1', hx]
    constructor
    · intro h; exact .inl (by rw [h])
    · rintro (h | h)
      · exact Option.some.inj h
      · rw [h2'.2 h.1] at hx; cases hx

/-- C16: `version_changes_for` gives every attribute and metric the name it has according to the most recent version,
at or below the requested one, that renames it, and leaves it alone if there is none. -/
theorem names_at (vs : Versions) (h : Valid vs) (v : Ver) (old new : String) :
    ((changesFor vs v).resourceName old = new ↔ NameAt vs Spec.resourceMaps v old new) ∧
    ((changesFor vs v).logName old = new ↔ NameAt vs Spec.logMaps v old new) ∧
    ((changesFor vs v).spanName old = new ↔ NameAt vs Spec.spanMaps v old new) ∧
    ((changesFor vs v).metricName old = new ↔ NameAt vs Spec.metricMaps v old new) ∧
    ((changesFor vs v).metricAttrName old = new ↔ NameAt vs Spec.metricAttrMaps v old new) := by
  obtain ⟨h1, h2, h3, h4, h5⟩ := fold_fields ((versionsDescFrom vs v).map (·.2)) {}
  exact ⟨rename_iff vs _ v h.asc (fun p hp => (h.specs p hp).1) _ h1 _ _,
    rename_iff vs _ v h.asc (fun p hp => (h.specs p hp).2.1) _ h2 _ _,
    rename_iff vs _ v h.asc (fun p hp => (h.specs p hp).2.2.1) _ h3 _ _,
    rename_iff vs _ v h.asc (fun p hp => (h.specs p hp).2.2.2.1) _ h4 _ _,
    rename_iff vs _ v h.asc (fun p hp => (h.specs p hp).2.2.2.2) _ h5 _ _⟩

/-- C16: the listings: from the oldest, from the newest, starting at a version, and the most recent version. -/
theorem listings (vs : Versions) (h : Ascending vs) (v : Ver) :
    versionsAsc vs = vs ∧ (versionsDesc vs).Pairwise (fun a b => VerLe b.1 a.1 ∧ a.1 ≠ b.1) ∧
    (∀ p, p ∈ versionsDesc vs ↔ p ∈ vs) ∧
    (versionsAscFrom vs v).Pairwise (fun a b => VerLe a.1 b.1 ∧ a.1 ≠ b.1) ∧
    (∀ p, p ∈ versionsAscFrom vs v ↔ p ∈ vs ∧ VerLe v p.1) ∧
    (versionsDescFrom vs v).Pairwise (fun a b => VerLe b.1 a.1 ∧ a.1 ≠ b.1) ∧
    (∀ p, p ∈ versionsDescFrom vs v ↔ p ∈ vs ∧ VerLe p.1 v) ∧
    (latestVersion vs = none ↔ vs = []) ∧
    ∀ w, latestVersion vs = some w → (∃ s, (w, s) ∈ vs) ∧ ∀ p ∈ vs, VerLe p.1 w := by
  refine ⟨rfl, ?_, fun p => List.mem_reverse, h.filter _, fun p => ?_, descFrom_pairwise vs v h, mem_descFrom vs v, ?_, ?_⟩
  · unfold versionsDesc
    rw [List.pairwise_reverse]
    exact h.imp fun ⟨h1, h2⟩ => ⟨h1, fun h => h2 h.symm⟩
  · unfold versionsAscFrom
    rw [List.mem_filter]
    have := ver_lt_iff v p.1
    cases h : p.1.lt v <;> simp_all
  · simp [latestVersion]
  · intro w hw
    unfold latestVersion at hw
    rw [List.getLast?_eq_some_iff] at hw
    obtain ⟨ys, hy⟩ := hw
    obtain ⟨l1, l2, rfl, h1, h2⟩ := List.map_eq_append_iff.1 hy
    obtain ⟨q, rfl, rfl⟩ := List.map_eq_singleton_iff.1 h2
    refine ⟨⟨q.2, by simp⟩, fun p hp => ?_⟩
    rcases List.mem_append.1 hp with hp | hp
    · exact ((List.pairwise_append.1 h).2.2 p hp q (List.mem_singleton.2 rfl)).1
    · rw [List.mem_singleton.1 hp]; exact verLe_refl _

/-! ### Extending -/

theorem missing_aux (loc : List Renames) (par : Renames) : ∀ acc : Renames, (acc.map Prod.fst).Nodup →
    ((par.foldl (fun acc p => if loc.any (fun m => (aget p.1 m).isSome) then acc else aset p.1 p.2 acc) acc).map Prod.fst).Nodup ∧
    ∀ n, aget n (par.foldl (fun acc p => if loc.any (fun m => (aget p.1 m).isSome) then acc else aset p.1 p.2 acc) acc) =
      if loc.any (fun m => (aget n m).isSome) then aget n acc else (aget n par.reverse).or (aget n acc) := by
  induction par with
  | nil => intro acc h; refine ⟨h, fun n => ?_⟩; simp [aget]
  | cons p par ih =>
    intro acc h
    obtain ⟨k, w⟩ := p
    rw [List.foldl_cons]
    by_cases hk : loc.any (fun m => (aget k m).isSome) = true
    · rw [if_pos hk]
      obtain ⟨h1, h2⟩ := ih acc h
      refine ⟨h1, fun n => ?_⟩
      rw [h2, List.reverse_cons, aget_append]
      by_cases hn : loc.any (fun m => (aget n m).isSome) = true
      · rw [if_pos hn, if_pos hn]
      · rw [if_neg hn, if_neg hn]
        have : k ≠ n := fun h => hn (h ▸ hk)
        simp [aget, this]
    · rw [if_neg hk]
      obtain ⟨h1, h2⟩ := ih (aset k w acc) (nodup_aset h)
      refine ⟨h1, fun n => ?_⟩
      rw [h2, List.reverse_cons, aget_append, aget_aset]
      by_cases hkn : n = k
      · subst hkn
        rw [if_neg hk, if_neg hk]
        simp only [if_pos, aget]
        cases aget n par.reverse <;> rfl
      · have hkn' : k ≠ n := fun h => hkn h.symm
        rw [if_neg hkn]
        simp [aget, hkn']

theorem extendMap_aux (new : Renames) : ∀ m : Renames, (m.map Prod.fst).Nodup → ((extendMap m new).map Prod.fst).Nodup ∧
    ∀ n, aget n (extendMap m new) = (aget n new.reverse).or (aget n m) := by
  induction new with
  | nil => intro m h; exact ⟨h, fun n => rfl⟩
  | cons p new ih =>
    intro m h
    obtain ⟨k, w⟩ := p
    obtain ⟨h1, h2⟩ := ih (aset k w m) (nodup_aset h)
    refine ⟨h1, fun n => ?_⟩
    show aget n (extendMap (aset k w m) new) = _
    rw [h2, List.reverse_cons, aget_append, aget_aset, Option.or_assoc]
    by_cases hk : n = k
    · subst hk; simp [aget]
    · have hk' : k ≠ n := fun h => hk h.symm
      simp [aget, hk, hk']

theorem aget_reverse_nodup (n : String) (m : Renames) (h : (m.map Prod.fst).Nodup) : aget n m.reverse = aget n m := by
  cases hx : aget n m with
  | none =>
    rw [aget_eq_none_iff] at hx ⊢
    simpa using hx
  | some x =>
    refine aget_of_mem_nodup ?_ (List.mem_reverse.2 (aget_some_mem hx))
    rw [List.map_reverse]
    exact ((List.reverse_perm _).nodup_iff).2 h

theorem any_mentions (loc : List Renames) (n : String) : loc.any (fun m => (aget n m).isSome) = true ↔ Mentions loc n := by
  rw [List.any_eq_true]
  constructor
  · rintro ⟨m, hm, hs⟩
    obtain ⟨x, hx⟩ := Option.isSome_iff_exists.1 hs
    exact ⟨m, hm, x, aget_some_mem hx⟩
  · rintro ⟨m, hm, x, hx⟩
    refine ⟨m, hm, ?_⟩
    obtain ⟨y, hy⟩ := mem_keys_iff.1 (List.mem_map.2 ⟨(n, x), hx, rfl⟩ : n ∈ m.map Prod.fst)
    rw [hy]; rfl

theorem saysLast_iff (maps : List Renames) (h : Maps maps) (n x : String) :
    SaysLast maps n x ↔ aget n maps.flatten.reverse = some x := by
  rw [List.reverse_flatten]
  have hm : Maps (maps.map List.reverse).reverse := by
    intro m hm
    obtain ⟨m', hm', rfl⟩ := List.mem_map.1 (List.mem_reverse.1 hm)
    rw [List.map_reverse]
    exact ((List.reverse_perm _).nodup_iff).2 (h m' hm')
  rw [← says_iff _ hm]
  have hment : ∀ l : List Renames, Mentions (l.map List.reverse).reverse n ↔ Mentions l n := by
    intro l
    unfold Mentions
    constructor
    · rintro ⟨m, hm, y, hy⟩
      obtain ⟨m', hm', rfl⟩ := List.mem_map.1 (List.mem_reverse.1 hm)
      exact ⟨m', hm', y, List.mem_reverse.1 hy⟩
    · rintro ⟨m, hm, y, hy⟩
      exact ⟨m.reverse, List.mem_reverse.2 (List.mem_map.2 ⟨m, hm, rfl⟩), y, List.mem_reverse.2 hy⟩
  constructor
  · rintro ⟨pre, m, post, rfl, h1, h2⟩
    refine ⟨(post.map List.reverse).reverse, m.reverse, (pre.map List.reverse).reverse, by simp, by simpa using h1, ?_⟩
    rwa [hment]
  · rintro ⟨pre, m, post, he, h1, h2⟩
    have he' : maps = (post.map List.reverse).reverse ++ m.reverse :: (pre.map List.reverse).reverse := by
      have := congrArg (fun l : List Renames => (l.map List.reverse).reverse) he
      have hid : (maps.map (List.reverse ∘ List.reverse)) = maps := by
        rw [show (List.reverse ∘ List.reverse : Renames → Renames) = id from funext List.reverse_reverse, List.map_id]
      simpa [hid] using this
    exact ⟨_, _, _, he', by simpa using h1, by rwa [hment]⟩

/-- What extending a list of changes by the parent's must yield: local renames stay, those of the parent are added for
names not renamed locally, and nothing else. -/
def Extended (loc par ext : List Renames) : Prop :=
  ∀ old new, Says ext old new ↔ Says loc old new ∨ ¬ Mentions loc old ∧ SaysLast par old new

theorem extended_of_missing (loc par : List Renames) (hl : Maps loc) (hp : Maps par) :
    (missing loc par.flatten = [] → Extended loc par loc) ∧
    (loc = [] → Maps [missing loc par.flatten] ∧ Extended loc par [missing loc par.flatten]) ∧
    (∀ m rest, loc = m :: rest → Maps (extendMap m (missing loc par.flatten) :: rest) ∧
      Extended loc par (extendMap m (missing loc par.flatten) :: rest)) := by
  obtain ⟨hn, hg⟩ := missing_aux loc par.flatten [] List.nodup_nil
  change ((missing loc par.flatten).map Prod.fst).Nodup at hn
  change ∀ n, aget n (missing loc par.flatten) = _ at hg
  have hg' : ∀ n x, aget n (missing loc par.flatten) = some x ↔ ¬ Mentions loc n ∧ SaysLast par n x := by
    intro n x
    rw [hg, saysLast_iff par hp]
    by_cases h : loc.any (fun m => (aget n m).isSome) = true
    · rw [if_pos h]
      simp [aget, (any_mentions loc n).1 h]
    · rw [if_neg h]
      simp [aget, show ¬ Mentions loc n from fun hc => h ((any_mentions loc n).2 hc)]
  refine ⟨fun he old new => ?_, fun he => ?_, fun m rest he => ?_⟩
  · have := hg' old new
    rw [he] at this
    rw [← this]; simp [aget]
  · subst he
    have hm : Maps [missing [] par.flatten] := by
      intro m hm
      rw [List.mem_singleton.1 hm]; exact hn
    refine ⟨hm, fun old new => ?_⟩
    rw [says_iff _ hm, ← hg', says_iff [] hl]
    simp [aget]
  · obtain ⟨h1, h2⟩ := extendMap_aux (missing loc par.flatten) m (hl m (by rw [he]; exact List.mem_cons_self))
    have hm : Maps (extendMap m (missing loc par.flatten) :: rest) := by
      intro x hx
      rcases List.mem_cons.1 hx with rfl | hx
      · exact h1
      · exact hl x (by rw [he]; exact List.mem_cons_of_mem _ hx)
    refine ⟨hm, fun old new => ?_⟩
    rw [says_iff _ hm, ← hg', says_iff loc hl, List.flatten_cons, aget_append, h2, aget_reverse_nodup _ _ hn]
    have hex : aget old loc.flatten = (aget old m).or (aget old rest.flatten) := by
      rw [he, List.flatten_cons, aget_append]
    cases hx : aget old (missing loc par.flatten) with
    | none =>
      rw [Option.none_or, ← hex]; simp
    | some x =>
      have := (not_mentions_iff _ _).1 ((hg' old x).1 hx).1
      rw [this]
      simp

theorem extendSection_spec (loc par : Option (List Renames)) (hl : Maps (loc.getD [])) (hp : Maps (par.getD [])) :
    Maps ((extendSection loc par).getD []) ∧ Extended (loc.getD []) (par.getD []) ((extendSection loc par).getD []) := by
  unfold extendSection
  cases par with
  | none =>
    refine ⟨hl, fun old new => ?_⟩
    simp only [Option.getD_none, iff_self_or]
    rintro ⟨_, pre, m, post, he, _⟩
    cases pre <;> cases he
  | some ps =>
    dsimp only
    obtain ⟨h1, h2, h3⟩ := extended_of_missing (loc.getD []) ps hl hp
    split
    · rename_i he
      have := h1 he
      by_cases hx : ps.flatten.isEmpty = true
      · rw [if_pos hx]; exact ⟨hl, this⟩
      · rw [if_neg hx]; exact ⟨hl, this⟩
    · split
      · rename_i hloc
        rw [hloc]
        have := h2 hloc
        rw [hloc] at this
        exact this
      · rename_i m rest hloc
        have := h3 m rest hloc
        exact this

theorem extendMetrics_spec (loc par : Option (List MetricsChange)) (hl : Maps ((loc.getD []).map (·.metrics)))
    (hp : Maps ((par.getD []).map (·.metrics))) :
    Maps (((extendMetrics loc par).getD []).map (·.metrics)) ∧
    Extended ((loc.getD []).map (·.metrics)) ((par.getD []).map (·.metrics))
      (((extendMetrics loc par).getD []).map (·.metrics)) ∧
    ∀ old new, Says (((extendMetrics loc par).getD []).map (·.attrs)) old new ↔
      Says ((loc.getD []).map (·.attrs)) old new := by
  unfold extendMetrics
  cases par with
  | none =>
    refine ⟨hl, fun old new => ?_, fun _ _ => .rfl⟩
    simp only [Option.getD_none, iff_self_or]
    rintro ⟨_, pre, m, post, he, _⟩
    cases pre <;> cases he
  | some ps =>
    dsimp only
    obtain ⟨h1, h2, h3⟩ := extended_of_missing ((loc.getD []).map (·.metrics)) (ps.map (·.metrics)) hl hp
    rw [← List.flatMap_def] at h1 h2 h3
    split
    · rename_i he
      have := h1 he
      by_cases hx : (ps.flatMap (·.metrics)).isEmpty = true
      · rw [if_pos hx]; exact ⟨hl, this, fun _ _ => .rfl⟩
      · rw [if_neg hx]; exact ⟨hl, this, fun _ _ => .rfl⟩
    · split
      · rename_i hloc
        rw [hloc]
        obtain ⟨h4, h5⟩ := h2 (by rw [hloc]; rfl)
        rw [hloc] at h4 h5
        refine ⟨h4, h5, fun old new => ?_⟩
        constructor
        · rintro ⟨pre, m, post, he, hx, _⟩
          have hm : m ∈ pre ++ m :: post := by simp
          rw [← he] at hm
          simp only [Option.getD_some, List.map_cons, List.map_nil, List.mem_singleton] at hm
          rw [hm] at hx
          cases hx
        · rintro ⟨pre, m, post, he, _⟩
          cases pre <;> cases he
      · rename_i m rest hloc
        obtain ⟨h4, h5⟩ := h3 m.metrics (rest.map (·.metrics)) (by rw [hloc]; rfl)
        refine ⟨h4, h5, fun old new => ?_⟩
        rw [hloc]
        exact .rfl

/-- C17: extending one version by the same version of the parent: local renames stay, and the parent's renames of
resource, log and span attributes and of metrics are added for the names that are not renamed locally. If the parent
renames a name in several changes the last one counts. -/
theorem extend_spec (loc par : Spec) (hl : loc.Valid) (hp : par.Valid) :
    Extended loc.resourceMaps par.resourceMaps (loc.extend par).resourceMaps ∧
    Extended loc.logMaps par.logMaps (loc.extend par).logMaps ∧
    Extended loc.spanMaps par.spanMaps (loc.extend par).spanMaps ∧
    Extended loc.metricMaps par.metricMaps (loc.extend par).metricMaps ∧
    (∀ old new, Says (loc.extend par).metricAttrMaps old new ↔ Says loc.metricAttrMaps old new) ∧
    (loc.extend par).all = loc.all :=
  ⟨(extendSection_spec _ _ hl.1 hp.1).2, (extendSection_spec _ _ hl.2.1 hp.2.1).2,
    (extendSection_spec _ _ hl.2.2.1 hp.2.2.1).2, (extendMetrics_spec _ _ hl.2.2.2.1 hp.2.2.2.1).2.1,
    (extendMetrics_spec _ _ hl.2.2.2.1 hp.2.2.2.1).2.2, rfl⟩

theorem extendMetrics_attrs (loc par : Option (List MetricsChange)) (hl : Maps ((loc.getD []).map (·.attrs))) :
    Maps (((extendMetrics loc par).getD []).map (·.attrs)) := by
  unfold extendMetrics
  cases par with
  | none => exact hl
  | some ps =>
    dsimp only
    split
    · split
      · exact hl
      · exact hl
    · split
      · intro m hm
        simp only [Option.getD_some, List.map_cons, List.map_nil, List.mem_singleton] at hm
        rw [hm]; exact List.nodup_nil
      · rename_i hloc
        rw [hloc] at hl
        exact hl

theorem extend_spec_valid (loc par : Spec) (hl : loc.Valid) (hp : par.Valid) : (loc.extend par).Valid :=
  ⟨(extendSection_spec _ _ hl.1 hp.1).1, (extendSection_spec _ _ hl.2.1 hp.2.1).1,
    (extendSection_spec _ _ hl.2.2.1 hp.2.2.1).1, (extendMetrics_spec _ _ hl.2.2.2.1 hp.2.2.2.1).1,
    extendMetrics_attrs _ _ hl.2.2.2.2⟩

theorem extendOne_spec (v : Ver) (p : Spec) (vs : Versions) (h : Ascending vs) :
    (∀ w s, (w, s) ∈ extendOne v p vs ↔ w ≠ v ∧ (w, s) ∈ vs ∨
      w = v ∧ ((∃ a, (v, a) ∈ vs ∧ s = a.extend p) ∨ (¬ ∃ a, (v, a) ∈ vs) ∧ s = p)) ∧
    Ascending (extendOne v p vs) := by
  induction vs with
  | nil =>
    refine ⟨fun w s => ?_, List.pairwise_singleton _ _⟩
    simp [extendOne]
  | cons q vs ih =>
    obtain ⟨w0, s0⟩ := q
    have hp := List.pairwise_cons.1 h
    obtain ⟨ih1, ih2⟩ := ih hp.2
    unfold extendOne
    by_cases he : w0 = v
    · subst he
      rw [if_pos rfl]
      have hne : ∀ a, (w0, a) ∉ vs := fun a ha => (hp.1 _ ha).2 rfl
      refine ⟨fun w s => ?_, List.pairwise_cons.2 ⟨hp.1, hp.2⟩⟩
      constructor
      · intro hm
        rcases List.mem_cons.1 hm with hm | hm
        · obtain ⟨rfl, rfl⟩ := Prod.mk.inj hm
          exact .inr ⟨rfl, .inl ⟨s0, List.mem_cons_self, rfl⟩⟩
        · exact .inl ⟨fun hc => hne s (hc ▸ hm), List.mem_cons_of_mem _ hm⟩
      · rintro (⟨h1, h2⟩ | ⟨rfl, ⟨a, ha, rfl⟩ | ⟨hn, _⟩⟩)
        · rcases List.mem_cons.1 h2 with h2 | h2
          · exact absurd (Prod.mk.inj h2).1 h1
          · exact List.mem_cons_of_mem _ h2
        · rcases List.mem_cons.1 ha with ha | ha
          · rw [(Prod.mk.inj ha).2]; exact List.mem_cons_self
          · exact absurd ha (hne a)
        · exact absurd ⟨s0, List.mem_cons_self⟩ hn
    · rw [if_neg he]
      by_cases hlt : v.lt w0 = true
      · rw [if_pos hlt]
        rw [ver_lt_iff] at hlt
        have hvw : VerLe v w0 := (verLe_total v w0).resolve_right hlt
        have hne : ∀ a, (v, a) ∉ (w0, s0) :: vs := by
          intro a ha
          rcases List.mem_cons.1 ha with ha | ha
          · exact he (Prod.mk.inj ha).1.symm
          · exact hlt (hp.1 _ ha).1
        refine ⟨fun w s => ?_, List.pairwise_cons.2 ⟨fun x hx => ?_, h⟩⟩
        · constructor
          · intro hm
            rcases List.mem_cons.1 hm with hm | hm
            · obtain ⟨rfl, rfl⟩ := Prod.mk.inj hm
              exact .inr ⟨rfl, .inr ⟨fun ⟨a, ha⟩ => hne a ha, rfl⟩⟩
            · exact .inl ⟨fun hc => hne s (hc ▸ hm), hm⟩
          · rintro (⟨_, h2⟩ | ⟨rfl, ⟨a, ha, _⟩ | ⟨_, rfl⟩⟩)
            · exact List.mem_cons_of_mem _ h2
            · exact absurd ha (hne a)
            · exact List.mem_cons_self
        · rcases List.mem_cons.1 hx with rfl | hx
          · exact ⟨hvw, fun hc => he hc.symm⟩
          · refine ⟨verLe_trans hvw (hp.1 x hx).1, fun hc => ?_⟩
            exact hne x.2 (List.mem_cons_of_mem _ (by rw [show v = x.1 from hc]; exact hx))
      · rw [if_neg hlt]
        refine ⟨fun w s => ?_, List.pairwise_cons.2 ⟨fun x hx => ?_, ih2⟩⟩
        · rw [List.mem_cons, ih1]
          constructor
          · rintro (hm | ⟨h1, h2⟩ | ⟨rfl, h3⟩)
            · obtain ⟨rfl, rfl⟩ := Prod.mk.inj hm
              exact .inl ⟨he, List.mem_cons_self⟩
            · exact .inl ⟨h1, List.mem_cons_of_mem _ h2⟩
            · refine .inr ⟨rfl, h3.elim (fun ⟨a, ha, hs⟩ => .inl ⟨a, List.mem_cons_of_mem _ ha, hs⟩)
                fun ⟨hn, hs⟩ => .inr ⟨fun ⟨a, ha⟩ => ?_, hs⟩⟩
              rcases List.mem_cons.1 ha with ha | ha
              · exact he (Prod.mk.inj ha).1.symm
              · exact hn ⟨a, ha⟩
          · rintro (⟨h1, h2⟩ | ⟨rfl, h3⟩)
            · rcases List.mem_cons.1 h2 with h2 | h2
              · exact .inl h2
              · exact .inr (.inl ⟨h1, h2⟩)
            · refine .inr (.inr ⟨rfl, h3.elim (fun ⟨a, ha, hs⟩ => .inl ⟨a, ?_, hs⟩)
                fun ⟨hn, hs⟩ => .inr ⟨fun ⟨a, ha⟩ => hn ⟨a, List.mem_cons_of_mem _ ha⟩, hs⟩⟩)
              rcases List.mem_cons.1 ha with ha | ha
              · exact absurd (Prod.mk.inj ha).1.symm he
              · exact ha
        · obtain ⟨w, s⟩ := x
          have hvw : VerLe w0 v := by
            have := fun h => hlt ((ver_lt_iff w0 v).2 h)
            exact Classical.not_not.1 this
          rcases (ih1 w s).1 hx with ⟨_, h2⟩ | ⟨rfl, _⟩
          · exact hp.1 _ h2
          · exact ⟨hvw, he⟩

/-- C17: extending a version history by that of the parent. Versions of only one of the two are kept as they are, and a
version of both is extended. -/
theorem extend_versions (vs par : Versions) (hv : Valid vs) (hp : Valid par) :
    Valid (extend vs par) ∧ ∀ v s, (v, s) ∈ extend vs par ↔
      ((v, s) ∈ vs ∧ ∀ b, (v, b) ∉ par) ∨ ((v, s) ∈ par ∧ ∀ a, (v, a) ∉ vs) ∨
      ∃ a b, (v, a) ∈ vs ∧ (v, b) ∈ par ∧ s = a.extend b := by
  have main : ∀ par vs : Versions, Ascending vs → Ascending par → Ascending (extend vs par) ∧
      ∀ v s, (v, s) ∈ extend vs par ↔ ((v, s) ∈ vs ∧ ∀ b, (v, b) ∉ par) ∨ ((v, s) ∈ par ∧ ∀ a, (v, a) ∉ vs) ∨
        ∃ a b, (v, a) ∈ vs ∧ (v, b) ∈ par ∧ s = a.extend b := by
    intro par
    induction par with
    | nil => intro vs h1 _; exact ⟨h1, fun v s => by simp [extend]⟩
    | cons q par ih =>
      intro vs h1 h2
      obtain ⟨w, p⟩ := q
      have hq := List.pairwise_cons.1 h2
      have hne : ∀ a, (w, a) ∉ par := fun a ha => (hq.1 _ ha).2 rfl
      obtain ⟨h3, h4⟩ := extendOne_spec w p vs h1
      obtain ⟨h5, h6⟩ := ih (extendOne w p vs) h4 hq.2
      refine ⟨h5, fun v s => ?_⟩
      show (v, s) ∈ extend (extendOne w p vs) par ↔ _
      rw [h6]
      by_cases hvw : v = w
      · subst hvw
        have e1 : ∀ s, (v, s) ∈ (v, p) :: par ↔ s = p := fun s => by
          rw [List.mem_cons]
          exact ⟨fun h => h.elim (fun h => (Prod.mk.inj h).2) fun h => absurd h (hne s), fun h => .inl (by rw [h])⟩
        have e2 : ∀ s, (v, s) ∈ extendOne v p vs ↔
            (∃ a, (v, a) ∈ vs ∧ s = a.extend p) ∨ (¬ ∃ a, (v, a) ∈ vs) ∧ s = p := fun s => by
          rw [h3]; simp
        constructor
        · rintro (⟨ha, _⟩ | ⟨hb, _⟩ | ⟨_, b, _, hb, _⟩)
          · rcases (e2 s).1 ha with ⟨a, ha', rfl⟩ | ⟨hn, rfl⟩
            · exact .inr (.inr ⟨a, p, ha', List.mem_cons_self, rfl⟩)
            · exact .inr (.inl ⟨List.mem_cons_self, fun a ha => hn ⟨a, ha⟩⟩)
          · exact absurd hb (hne s)
          · exact absurd hb (hne b)
        · rintro (⟨_, hb⟩ | ⟨hs, hn⟩ | ⟨a, b, ha, hb, rfl⟩)
          · exact absurd List.mem_cons_self (hb p)
          · exact .inl ⟨(e2 s).2 (.inr ⟨fun ⟨a, ha⟩ => hn a ha, (e1 s).1 hs⟩), hne⟩
          · rw [(e1 b).1 hb]
            exact .inl ⟨(e2 _).2 (.inl ⟨a, ha, rfl⟩), hne⟩
      · have e1 : ∀ s, (v, s) ∈ (w, p) :: par ↔ (v, s) ∈ par := fun s => by
          rw [List.mem_cons]
          exact ⟨fun h => h.elim (fun h => absurd (Prod.mk.inj h).1 hvw) id, .inr⟩
        have e2 : ∀ s, (v, s) ∈ extendOne w p vs ↔ (v, s) ∈ vs := fun s => by
          rw [h3]; simp [hvw]
        simp only [e1, e2]
  obtain ⟨h1, h2⟩ := main par vs hv.asc hp.asc
  refine ⟨⟨h1, fun q hq => ?_⟩, h2⟩
  rcases (h2 q.1 q.2).1 hq with ⟨h, _⟩ | ⟨h, _⟩ | ⟨a, b, ha, hb, he⟩
  · exact hv.specs _ h
  · exact hp.specs _ h
  · rw [he]; exact extend_spec_valid a b (hv.specs _ ha) (hp.specs _ hb)

/-! ### What extending loses -/

def v1 : Ver := ⟨1, 1, 0, 0⟩
def v2 : Ver := ⟨1, 2, 0, 0⟩

/-- C59: the parent's renames of metric attributes, and its section `all`, are lost for a version that exists locally,
even if the local version is empty. -/
theorem parent_lost_refuted : ∃ vs par : Versions, vs = [(v1, {})] ∧
    (changesFor par v1).metricAttrName "a" = "b" ∧ (changesFor (extend vs par) v1).metricAttrName "a" = "a" ∧
    (∃ s, (v1, s) ∈ par ∧ s.all = some [[("c", "d")]]) ∧ ∃ s, extend vs par = [(v1, s)] ∧ s.all = none :=
  ⟨[(v1, {})], [(v1, { all := some [[("c", "d")]], metrics := some [{ attrs := [("a", "b")] }] })], rfl, by decide,
    by decide, ⟨_, List.mem_cons_self, rfl⟩, _, rfl, rfl⟩

/-- C59: if the parent renames a name twice in one version, the inherited history disagrees with the parent's. -/
theorem parent_twice_refuted : ∃ vs par : Versions, vs = [(v1, {})] ∧
    (changesFor par v1).resourceName "a" = "b" ∧ (changesFor (extend vs par) v1).resourceName "a" = "c" :=
  ⟨[(v1, {})], [(v1, { resources := some [[("a", "b")], [("a", "c")]] })], rfl, by decide, by decide⟩

/-- No two changes rename the same name. -/
def Once (maps : List Renames) : Prop := (maps.flatten.map Prod.fst).Nodup

theorem once_says (maps : List Renames) (h : Once maps) (hm : Maps maps) (n x : String) :
    SaysLast maps n x ↔ Says maps n x := by
  rw [says_iff maps hm, saysLast_iff maps hm, aget_reverse_nodup _ _ h]

/-- C59, part: if no version of the parent renames a name twice in a section, the extended version says what the local
one says, and else what the parent's says, for resource, log and span attributes and metric names. Missing: metric
attributes and `all`, which are lost, and names renamed twice. -/
theorem extend_agrees_partial (loc par : Spec) (hl : loc.Valid) (hp : par.Valid) (h1 : Once par.resourceMaps)
    (h2 : Once par.logMaps) (h3 : Once par.spanMaps) (h4 : Once par.metricMaps) (old new : String) :
    (Says (loc.extend par).resourceMaps old new ↔
      Says loc.resourceMaps old new ∨ ¬ Mentions loc.resourceMaps old ∧ Says par.resourceMaps old new) ∧
    (Says (loc.extend par).logMaps old new ↔
      Says loc.logMaps old new ∨ ¬ Mentions loc.logMaps old ∧ Says par.logMaps old new) ∧
    (Says (loc.extend par).spanMaps old new ↔
      Says loc.spanMaps old new ∨ ¬ Mentions loc.spanMaps old ∧ Says par.spanMaps old new) ∧
    (Says (loc.extend par).metricMaps old new ↔
      Says loc.metricMaps old new ∨ ¬ Mentions loc.metricMaps old ∧ Says par.metricMaps old new) := by
  obtain ⟨k1, k2, k3, k4, _⟩ := extend_spec loc par hl hp
  rw [k1, k2, k3, k4, once_says _ h1 hp.1, once_says _ h2 hp.2.1, once_says _ h3 hp.2.2.1, once_says _ h4 hp.2.2.2.1]
  exact ⟨.rfl, .rfl, .rfl, .rfl⟩

/-- C60: a name renamed in one version and again in a later one is not followed to its present name. -/
theorem chain_refuted : ∃ vs : Versions, Valid vs ∧ (changesFor vs v2).resourceName "a" = "b" ∧
    (changesFor vs v2).resourceName "b" = "c" :=
  ⟨[(v1, { resources := some [[("a", "b")]] }), (v2, { resources := some [[("b", "c")]] })],
    ⟨by simp only [Ascending, List.pairwise_cons, List.mem_singleton, List.not_mem_nil, false_implies, implies_true,
          List.Pairwise.nil, and_true]
        rintro p rfl
        exact ⟨by unfold VerLe v1 v2; decide, by decide⟩,
      by
        intro p hp
        simp only [List.mem_cons, List.not_mem_nil, or_false] at hp
        rcases hp with rfl | rfl <;>
          simp [Spec.Valid, Spec.resourceMaps, Spec.logMaps, Spec.spanMaps, Spec.metricMaps, Spec.metricAttrMaps, Maps]⟩,
    by decide, by decide⟩

/-- C60, part: if the new name is not itself renamed in any version up to the requested one, it is the final one. -/
theorem final_name_partial (vs : Versions) (h : Valid vs) (v : Ver) (old new : String)
    (h1 : (changesFor vs v).resourceName old = new) (h2 : NeverRenamed vs Spec.resourceMaps v new) :
    (changesFor vs v).resourceName new = new := ((names_at vs h v new new).1).2 (.inr ⟨h2, rfl⟩)

/-! ### Examples -/

def sample : Versions :=
  [(v1, { resources := some [[("a", "b"), ("k", "l")]], metrics := some [{ metrics := [("m", "n")] }] }),
   (v2, { resources := some [[("x", "y")], [("a", "c")]] })]

example : (changesFor sample v2).resourceName "a" = "c" ∧ (changesFor sample v1).resourceName "a" = "b" ∧
    (changesFor sample v2).resourceName "k" = "l" ∧ (changesFor sample v2).metricName "m" = "n" ∧
    (changesFor sample v1).resourceName "x" = "x" := by decide

example : Valid sample where
  asc := by
    simp only [sample, Ascending, List.pairwise_cons, List.mem_singleton, List.not_mem_nil, false_implies, implies_true,
      List.Pairwise.nil, and_true]
    rintro p rfl
    exact ⟨by unfold VerLe v1 v2; decide, by decide⟩
  specs := by
    intro p hp
    simp only [sample, List.mem_cons, List.not_mem_nil, or_false] at hp
    rcases hp with rfl | rfl <;>
      simp [Spec.Valid, Spec.resourceMaps, Spec.logMaps, Spec.spanMaps, Spec.metricMaps, Spec.metricAttrMaps, Maps]

example : (changesFor (extend [(v1, { resources := some [[("a", "z")]] })] sample) v1).resourceName "a" = "z" ∧
    (changesFor (extend [(v1, { resources := some [[("a", "z")]] })] sample) v1).resourceName "k" = "l" ∧
    (extend [(v2, {})] sample).map (·.1) = [v1, v2] := by decide

end Verif.Versions
