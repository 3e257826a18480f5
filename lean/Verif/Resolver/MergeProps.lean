import Verif.Resolver.Merge
/-
C10: merging annotations. Specification vocabulary: `at? v path` is the value found by walking `path` through nested
mappings.
-/
namespace Verif.Resolver
open Verif.Util

/-! ### Specification -/

/-- The value at a path of mapping keys. -/
def at? : Yaml → List String → Option Yaml
  | v, [] => some v
  | .map m, k :: p => match aget k m with
    | some v => at? v p
    | none => none
  | _, _ :: _ => none

/-- `v` is a mapping. -/
def isMap : Yaml → Bool
  | .map _ => true
  | _ => false

/-- `o` says nothing about `path`: walking it one reaches a mapping in which the next key is missing. -/
def Silent : Yaml → List String → Prop
  | .map m, k :: p => match aget k m with
    | some v => Silent v p
    | none => True
  | _, _ => False

/-- No mapping, at any depth, has two entries with the same key (what the YAML reader guarantees). -/
inductive WF : Yaml → Prop
  | leaf (s : String) : WF (.leaf s)
  | bool (b : Bool) : WF (.bool b)
  | seq (xs : List Yaml) : WF (.seq xs)
  | map (m : List (String × Yaml)) : (m.map Prod.fst).Nodup → (∀ p ∈ m, WF p.2) → WF (.map m)

/-! ### Lemmas -/

theorem mergeEntries_get (om bm : List (String × Yaml)) (h : (om.map Prod.fst).Nodup) (k : String) :
    aget k (mergeEntries bm om) =
      match aget k om with
      | some v => some (match aget k bm with
        | some old => mergeYaml old v
        | none => v)
      | none => aget k bm := by
  induction om generalizing bm with
  | nil => simp [mergeEntries, aget]
  | cons p om ih =>
    obtain ⟨a, v⟩ := p
    simp only [List.map_cons, List.nodup_cons] at h
    have hnone : aget a om = none := aget_eq_none_iff.2 h.1
    simp only [mergeEntries]
    rw [ih _ h.2]
    simp only [mergeEntry, aget]
    by_cases hak : a = k
    · subst hak
      rw [if_pos rfl, hnone]
      simp only
      cases hb : aget a bm <;> simp [aget_aset]
    · rw [if_neg hak]
      have hka : ¬ k = a := fun e => hak e.symm
      cases hb : aget a bm <;> simp [aget_aset, hka]

theorem mergeEntries_keys (om bm : List (String × Yaml)) (x : String) :
    x ∈ (mergeEntries bm om).map Prod.fst ↔ x ∈ bm.map Prod.fst ∨ x ∈ om.map Prod.fst := by
  induction om generalizing bm with
  | nil => simp [mergeEntries]
  | cons p om ih =>
    obtain ⟨a, v⟩ := p
    simp only [mergeEntries, ih, mergeEntry]
    cases hb : aget a bm <;> simp only [keys_aset_mem, List.map_cons, List.mem_cons] <;> grind

theorem mergeEntries_nodup (om bm : List (String × Yaml)) (h : (bm.map Prod.fst).Nodup) :
    ((mergeEntries bm om).map Prod.fst).Nodup := by
  induction om generalizing bm with
  | nil => simpa [mergeEntries]
  | cons p om ih =>
    obtain ⟨a, v⟩ := p
    simp only [mergeEntries, mergeEntry]
    apply ih
    cases hb : aget a bm <;> exact nodup_aset h

theorem mergeYaml_nonmap (b o : Yaml) (h : isMap o = false) : mergeYaml b o = o := by
  cases o <;> cases b <;> simp_all [mergeYaml, isMap]

theorem mergeYaml_onto_nonmap (b o : Yaml) (h : isMap b = false) : mergeYaml b o = o := by
  cases o <;> cases b <;> simp_all [mergeYaml, isMap]

theorem mergeYaml_map (bm om : List (String × Yaml)) : mergeYaml (.map bm) (.map om) = .map (mergeEntries bm om) := by
  simp [mergeYaml]

theorem aset_self {V : Type} {k : String} {v : V} {m : List (String × V)} (h : aget k m = some v) : aset k v m = m := by
  induction m with
  | nil => simp [aget] at h
  | cons p m ih => obtain ⟨a, w⟩ := p; simp only [aget] at h; simp only [aset]; grind

theorem WF.entries {m : List (String × Yaml)} (h : WF (.map m)) :
    (m.map Prod.fst).Nodup ∧ ∀ p ∈ m, WF p.2 := by
  cases h with
  | map _ h1 h2 => exact ⟨h1, h2⟩

theorem WF.get {m : List (String × Yaml)} (h : WF (.map m)) {k : String} {v : Yaml} (hg : aget k m = some v) : WF v :=
  h.entries.2 _ (aget_some_mem hg)

theorem mergeEntries_noop (om bm : List (String × Yaml))
    (h : ∀ p ∈ om, ∃ old, aget p.1 bm = some old ∧ mergeYaml old p.2 = old) : mergeEntries bm om = bm := by
  induction om with
  | nil => simp [mergeEntries]
  | cons p om ih =>
    obtain ⟨a, v⟩ := p
    obtain ⟨old, h1, h2⟩ := h (a, v) (by simp)
    simp only at h1 h2
    simp only [mergeEntries, mergeEntry, h1, h2]
    rw [aset_self h1]
    exact ih (fun p hp => h p (by simp [hp]))

/-- Lists with distinct keys, the same key sequence and the same lookups are equal. -/
theorem alist_ext {V : Type} {m n : List (String × V)} (hm : (m.map Prod.fst).Nodup)
    (hk : m.map Prod.fst = n.map Prod.fst) (h : ∀ k, aget k m = aget k n) : m = n := by
  induction m generalizing n with
  | nil => cases n with
    | nil => rfl
    | cons q n => simp at hk
  | cons p m ih =>
    cases n with
    | nil => simp at hk
    | cons q n =>
      obtain ⟨a, v⟩ := p; obtain ⟨b, w⟩ := q
      simp only [List.map_cons, List.cons.injEq] at hk
      obtain ⟨rfl, hk⟩ := hk
      simp only [List.map_cons, List.nodup_cons] at hm
      have hv : v = w := by have := h a; simpa [aget] using this
      subst hv
      congr 1
      refine ih hm.2 hk ?_
      intro k
      by_cases hak : a = k
      · subst hak
        rw [aget_eq_none_iff.2 hm.1, aget_eq_none_iff.2 (hk ▸ hm.1)]
      · have := h k; simpa [aget, hak] using this

theorem aset_keys {V : Type} (k : String) (v : V) (m : List (String × V)) :
    (aset k v m).map Prod.fst = if k ∈ m.map Prod.fst then m.map Prod.fst else m.map Prod.fst ++ [k] := by
  induction m with
  | nil => simp [aset]
  | cons p m ih =>
    obtain ⟨a, w⟩ := p
    simp only [aset]
    by_cases hak : a = k
    · subst hak; simp
    · rw [if_neg hak]
      have hka : ¬ k = a := fun e => hak e.symm
      simp only [List.map_cons, ih, List.mem_cons, hka, false_or]
      split <;> simp

theorem mergeEntry_keys (bm : List (String × Yaml)) (k : String) (v : Yaml) :
    (mergeEntry bm (k, v)).map Prod.fst = if k ∈ bm.map Prod.fst then bm.map Prod.fst else bm.map Prod.fst ++ [k] := by
  simp only [mergeEntry]
  cases hb : aget k bm <;> simp only [aset_keys]

/-- Key order: the base's keys, then the new ones in the override's order. -/
theorem mergeEntries_keys_eq (om bm : List (String × Yaml)) (h : (om.map Prod.fst).Nodup) :
    (mergeEntries bm om).map Prod.fst =
      bm.map Prod.fst ++ (om.map Prod.fst).filter (fun k => !decide (k ∈ bm.map Prod.fst)) := by
  induction om generalizing bm with
  | nil => simp [mergeEntries]
  | cons p om ih =>
    obtain ⟨a, v⟩ := p
    simp only [List.map_cons, List.nodup_cons] at h
    simp only [mergeEntries]
    rw [ih _ h.2, mergeEntry_keys]
    by_cases ha : a ∈ bm.map Prod.fst
    · rw [if_pos ha]
      simp only [List.map_cons]
      rw [List.filter_cons_of_neg (by simp only [ha]; decide)]
    · rw [if_neg ha]
      simp only [List.map_cons]
      rw [List.filter_cons_of_pos (by simp only [ha]; decide)]
      simp only [List.append_assoc, List.singleton_append, List.append_cancel_left_eq, List.cons.injEq, true_and]
      apply List.filter_congr
      intro x hx
      have : x ≠ a := by rintro rfl; exact h.1 hx
      simp [this]

theorem mergeYaml_wf (b o : Yaml) (hb : WF b) (ho : WF o) : WF (mergeYaml b o) := by
  induction ho generalizing b with
  | leaf s => rw [mergeYaml_nonmap _ _ rfl]; exact .leaf s
  | bool s => rw [mergeYaml_nonmap _ _ rfl]; exact .bool s
  | seq s => rw [mergeYaml_nonmap _ _ rfl]; exact .seq s
  | map om hn hw ih =>
    cases hb with
    | map bm hbn hbw =>
      rw [mergeYaml_map]
      have hnd := mergeEntries_nodup om bm hbn
      refine .map _ hnd ?_
      intro p hp
      obtain ⟨k, v⟩ := p
      have hg := aget_of_mem_nodup hnd hp
      rw [mergeEntries_get om bm hn] at hg
      simp only
      cases ho : aget k om with
      | none => rw [ho] at hg; exact hbw _ (aget_some_mem hg)
      | some ov =>
        rw [ho] at hg
        simp only [Option.some.injEq] at hg
        cases hbk : aget k bm with
        | none => rw [hbk] at hg; subst hg; exact hw _ (aget_some_mem ho)
        | some old =>
          rw [hbk] at hg; simp only at hg; subst hg
          exact ih _ (aget_some_mem ho) old (hbw _ (aget_some_mem hbk))
    | leaf s => rw [mergeYaml_onto_nonmap _ _ rfl]; exact .map om hn hw
    | bool s => rw [mergeYaml_onto_nonmap _ _ rfl]; exact .map om hn hw
    | seq s => rw [mergeYaml_onto_nonmap _ _ rfl]; exact .map om hn hw

theorem merge_twice_aux (o : Yaml) (ho : WF o) :
    (∀ b, mergeYaml (mergeYaml b o) o = mergeYaml b o) ∧ mergeYaml o o = o := by
  induction ho with
  | leaf s => exact ⟨fun b => by rw [mergeYaml_nonmap _ _ rfl, mergeYaml_nonmap b _ rfl], mergeYaml_nonmap _ _ rfl⟩
  | bool s => exact ⟨fun b => by rw [mergeYaml_nonmap _ _ rfl, mergeYaml_nonmap b _ rfl], mergeYaml_nonmap _ _ rfl⟩
  | seq s => exact ⟨fun b => by rw [mergeYaml_nonmap _ _ rfl, mergeYaml_nonmap b _ rfl], mergeYaml_nonmap _ _ rfl⟩
  | map om hn hw ih =>
    have h2 : mergeYaml (.map om) (.map om) = .map om := by
      rw [mergeYaml_map, mergeEntries_noop]
      intro p hp
      exact ⟨p.2, aget_of_mem_nodup hn hp, (ih p hp).2⟩
    refine ⟨?_, h2⟩
    intro b
    cases b with
    | map bm =>
      rw [mergeYaml_map, mergeYaml_map, mergeEntries_noop]
      intro p hp
      obtain ⟨k, v⟩ := p
      have hg := mergeEntries_get om bm hn k
      rw [aget_of_mem_nodup hn hp] at hg
      refine ⟨_, hg, ?_⟩
      cases hb : aget k bm with
      | none => exact (ih _ hp).2
      | some old => exact (ih _ hp).1 old
    | leaf s => rw [mergeYaml_onto_nonmap (.leaf s) _ rfl, h2]
    | bool s => rw [mergeYaml_onto_nonmap (.bool s) _ rfl, h2]
    | seq s => rw [mergeYaml_onto_nonmap (.seq s) _ rfl, h2]

theorem mergeAnnots_get (override base : Annots) (h : (override.map Prod.fst).Nodup) (k : String) :
    aget k (mergeAnnots base override) =
      match aget k override with
      | some v => some (match aget k base with
        | some old => mergeYaml old v
        | none => v)
      | none => aget k base := by
  induction override generalizing base with
  | nil => simp [mergeAnnots, aget]
  | cons p om ih =>
    obtain ⟨a, v⟩ := p
    simp only [List.map_cons, List.nodup_cons] at h
    have hnone : aget a om = none := aget_eq_none_iff.2 h.1
    have hstep : mergeAnnots base ((a, v) :: om) = mergeAnnots (match aget a base with
      | some old => bins a (mergeYaml old v) base
      | none => bins a v base) om := by simp [mergeAnnots]; rfl
    rw [hstep, ih _ h.2]
    simp only [aget]
    by_cases hak : a = k
    · subst hak
      rw [if_pos rfl, hnone]
      simp only
      cases hb : aget a base <;> simp [aget_bins]
    · rw [if_neg hak]
      have hka : ¬ k = a := fun e => hak e.symm
      cases hb : aget a base <;> simp [aget_bins, hka]

theorem mergeAnnots_sorted (override base : Annots) (h : KeySorted base) : KeySorted (mergeAnnots base override) := by
  induction override generalizing base with
  | nil => simpa [mergeAnnots]
  | cons p om ih =>
    simp only [mergeAnnots, List.foldl_cons]
    apply ih
    split <;> exact keySorted_bins h

/-! ### Theorems: values at paths -/

/-- C10: at every path where the overriding side has a scalar or a list, that value wins. -/
theorem merge_override_wins (b o : Yaml) (ho : WF o) (p : List String) (v : Yaml) (hv : isMap v = false)
    (h : at? o p = some v) : at? (mergeYaml b o) p = some v := by
  induction p generalizing b o with
  | nil =>
    simp only [at?, Option.some.injEq] at h
    subst h
    rw [mergeYaml_nonmap _ _ hv]; rfl
  | cons k p ih =>
    cases o with
    | map om =>
      simp only [at?] at h
      cases hg : aget k om with
      | none => rw [hg] at h; simp at h
      | some ov =>
        rw [hg] at h; simp only at h
        cases b with
        | map bm =>
          rw [mergeYaml_map]
          simp only [at?, mergeEntries_get om bm ho.entries.1, hg]
          cases hb : aget k bm with
          | none => exact h
          | some old => exact ih old ov (ho.get hg) h
        | leaf s => rw [mergeYaml_onto_nonmap _ _ rfl]; simp only [at?, hg]; exact h
        | bool s => rw [mergeYaml_onto_nonmap _ _ rfl]; simp only [at?, hg]; exact h
        | seq s => rw [mergeYaml_onto_nonmap _ _ rfl]; simp only [at?, hg]; exact h
    | leaf s => simp [at?] at h
    | bool s => simp [at?] at h
    | seq s => simp [at?] at h

/-- C10: where the overriding side says nothing, the base value is kept. -/
theorem merge_silent_keeps (b o : Yaml) (ho : WF o) (p : List String) (h : Silent o p) :
    at? (mergeYaml b o) p = at? b p := by
  induction p generalizing b o with
  | nil => cases o <;> simp [Silent] at h
  | cons k p ih =>
    cases o with
    | map om =>
      simp only [Silent] at h
      cases b with
      | map bm =>
        rw [mergeYaml_map]
        simp only [at?, mergeEntries_get om bm ho.entries.1]
        cases hg : aget k om with
        | none => rfl
        | some ov =>
          rw [hg] at h; simp only at h ⊢
          cases hb : aget k bm with
          | some old => exact ih old ov (ho.get hg) h
          | none =>
            have := ih (.leaf "") ov (ho.get hg) h
            rw [mergeYaml_onto_nonmap _ _ rfl] at this
            simp only
            rw [this]
            cases p with
            | nil => cases ov <;> simp [Silent] at h
            | cons _ _ => rfl
      | leaf s => rw [mergeYaml_onto_nonmap _ _ rfl]; exact silent_none _ _ h
      | bool s => rw [mergeYaml_onto_nonmap _ _ rfl]; exact silent_none _ _ h
      | seq s => rw [mergeYaml_onto_nonmap _ _ rfl]; exact silent_none _ _ h
    | leaf s => simp [Silent] at h
    | bool s => simp [Silent] at h
    | seq s => simp [Silent] at h
where
  silent_none (om : List (String × Yaml)) {k : String} (p : List String)
      (h : match aget k om with
        | some v => Silent v p
        | none => True) : at? (.map om) (k :: p) = none := by
    simp only [at?]
    cases hg : aget k om with
    | none => rfl
    | some v =>
      rw [hg] at h; simp only at h ⊢
      exact silent_at_none v p h
  silent_at_none (v : Yaml) (p : List String) (h : Silent v p) : at? v p = none := by
    induction p generalizing v with
    | nil => cases v <;> simp [Silent] at h
    | cons k p ih =>
      cases v with
      | map m =>
        simp only [Silent] at h
        simp only [at?]
        cases hg : aget k m with
        | none => rfl
        | some w => rw [hg] at h; exact ih w h
      | leaf s => rfl
      | bool s => rfl
      | seq s => rfl

/-- C10: every path of the overriding side exists in the result. -/
theorem merge_keeps_override_paths (b o : Yaml) (ho : WF o) (p : List String) (h : (at? o p).isSome) :
    (at? (mergeYaml b o) p).isSome := by
  induction p generalizing b o with
  | nil => simp [at?]
  | cons k p ih =>
    cases o with
    | map om =>
      simp only [at?] at h
      cases hg : aget k om with
      | none => rw [hg] at h; simp at h
      | some ov =>
        rw [hg] at h; simp only at h
        cases b with
        | map bm =>
          rw [mergeYaml_map]
          simp only [at?, mergeEntries_get om bm ho.entries.1, hg]
          cases hb : aget k bm with
          | none => exact h
          | some old => exact ih old ov (ho.get hg) h
        | leaf s => rw [mergeYaml_onto_nonmap _ _ rfl]; simp only [at?, hg]; exact h
        | bool s => rw [mergeYaml_onto_nonmap _ _ rfl]; simp only [at?, hg]; exact h
        | seq s => rw [mergeYaml_onto_nonmap _ _ rfl]; simp only [at?, hg]; exact h
    | leaf s => simp [at?] at h
    | bool s => simp [at?] at h
    | seq s => simp [at?] at h

/-- C10: nothing is invented: every scalar or list of the result stands at the same path on one of the sides. -/
theorem merge_invents_nothing (b o : Yaml) (ho : WF o) (p : List String) (v : Yaml) (hv : isMap v = false)
    (h : at? (mergeYaml b o) p = some v) : at? o p = some v ∨ at? b p = some v := by
  induction p generalizing b o with
  | nil =>
    simp only [at?, Option.some.injEq] at h ⊢
    cases o with
    | map om =>
      cases b with
      | map bm => rw [mergeYaml_map] at h; subst h; simp [isMap] at hv
      | leaf s => rw [mergeYaml_onto_nonmap _ _ rfl] at h; exact .inl h
      | bool s => rw [mergeYaml_onto_nonmap _ _ rfl] at h; exact .inl h
      | seq s => rw [mergeYaml_onto_nonmap _ _ rfl] at h; exact .inl h
    | leaf s => rw [mergeYaml_nonmap _ _ rfl] at h; exact .inl h
    | bool s => rw [mergeYaml_nonmap _ _ rfl] at h; exact .inl h
    | seq s => rw [mergeYaml_nonmap _ _ rfl] at h; exact .inl h
  | cons k p ih =>
    cases o with
    | map om =>
      cases b with
      | map bm =>
        rw [mergeYaml_map] at h
        simp only [at?, mergeEntries_get om bm ho.entries.1] at h ⊢
        cases hg : aget k om with
        | none => rw [hg] at h; exact .inr h
        | some ov =>
          rw [hg] at h; simp only at h ⊢
          cases hb : aget k bm with
          | none => rw [hb] at h; exact .inl h
          | some old => rw [hb] at h; exact ih old ov (ho.get hg) h
      | leaf s => rw [mergeYaml_onto_nonmap _ _ rfl] at h; exact .inl h
      | bool s => rw [mergeYaml_onto_nonmap _ _ rfl] at h; exact .inl h
      | seq s => rw [mergeYaml_onto_nonmap _ _ rfl] at h; exact .inl h
    | leaf s => rw [mergeYaml_nonmap _ _ rfl] at h; exact .inl h
    | bool s => rw [mergeYaml_nonmap _ _ rfl] at h; exact .inl h
    | seq s => rw [mergeYaml_nonmap _ _ rfl] at h; exact .inl h

private def exBase : Yaml := .map [("a", .map [("x", .leaf "1"), ("y", .leaf "2")]), ("b", .leaf "3")]
private def exOver : Yaml := .map [("a", .map [("y", .leaf "9"), ("z", .leaf "8")])]
private theorem exOver_wf : WF exOver := by
  refine .map _ (by decide) ?_
  intro p hp
  simp only [List.mem_singleton] at hp; subst hp
  refine .map _ (by decide) ?_
  intro p hp
  simp only [List.mem_cons, List.not_mem_nil, or_false] at hp
  rcases hp with rfl | rfl <;> exact .leaf _

example : WF exOver ∧ at? exOver ["a", "y"] = some (.leaf "9") ∧ Silent exOver ["a", "x"] ∧ Silent exOver ["b"] ∧
    at? (mergeYaml exBase exOver) ["a", "x"] = some (.leaf "1") ∧
    at? (mergeYaml exBase exOver) ["a", "y"] = some (.leaf "9") ∧
    at? (mergeYaml exBase exOver) ["a", "z"] = some (.leaf "8") ∧
    at? (mergeYaml exBase exOver) ["b"] = some (.leaf "3") :=
  ⟨exOver_wf, rfl, trivial, trivial, rfl, rfl, rfl, rfl⟩

/-! ### Theorems: algebra -/

/-- C10: merging the same override twice changes nothing. -/
theorem merge_twice (b o : Yaml) (ho : WF o) : mergeYaml (mergeYaml b o) o = mergeYaml b o :=
  (merge_twice_aux o ho).1 b

/-- C10: merging a value with itself changes nothing. -/
theorem merge_self (o : Yaml) (ho : WF o) : mergeYaml o o = o := (merge_twice_aux o ho).2

/-- C10: the empty mapping is neutral on both sides. -/
theorem merge_neutral (m : List (String × Yaml)) (h : WF (.map m)) :
    mergeYaml (.map m) (.map []) = .map m ∧ mergeYaml (.map []) (.map m) = .map m := by
  constructor
  · simp [mergeYaml, mergeEntries]
  · rw [mergeYaml_map]
    congr 1
    have hn := h.entries.1
    refine alist_ext (mergeEntries_nodup _ _ (by simp)) ?_ ?_
    · rw [mergeEntries_keys_eq _ _ hn]; simp
    · intro k
      rw [mergeEntries_get _ _ hn]
      cases aget k m <;> simp [aget]

/-- C139, refuted: merging is not associative. A scalar in the middle erases the base mapping for the
left grouping only. -/
theorem merge_assoc_refuted : ∃ a b c : Yaml, WF a ∧ WF b ∧ WF c ∧
    mergeYaml (mergeYaml a b) c ≠ mergeYaml a (mergeYaml b c) := by
  refine ⟨.map [("x", .leaf "1")], .leaf "0", .map [("y", .leaf "2")], ?_, .leaf _, ?_, ?_⟩
  · refine .map _ (by decide) ?_
    intro p hp; simp only [List.mem_singleton] at hp; subst hp; exact .leaf _
  · refine .map _ (by decide) ?_
    intro p hp; simp only [List.mem_singleton] at hp; subst hp; exact .leaf _
  · intro h
    have := congrArg (fun v => (at? v ["x"]).isSome) h
    revert this; decide

/-- C139, what holds: merging is associative (including the order of the keys) as long as the last override does not
turn a scalar or list of the middle one into a mapping. Missing with respect to the full statement: exactly the
triples where it does, see `merge_assoc_refuted`. -/
theorem merge_assoc_partial (a b c : Yaml) (ha : WF a) (hb : WF b) (hc : WF c)
    (h : ∀ p x m, at? b p = some x → at? c p = some (.map m) → isMap x = true) :
    mergeYaml (mergeYaml a b) c = mergeYaml a (mergeYaml b c) := by
  induction hc generalizing a b with
  | leaf s => rw [mergeYaml_nonmap _ _ rfl, mergeYaml_nonmap b _ rfl, mergeYaml_nonmap a _ rfl]
  | bool s => rw [mergeYaml_nonmap _ _ rfl, mergeYaml_nonmap b _ rfl, mergeYaml_nonmap a _ rfl]
  | seq s => rw [mergeYaml_nonmap _ _ rfl, mergeYaml_nonmap b _ rfl, mergeYaml_nonmap a _ rfl]
  | map cm hcn hcw ih =>
    have hbm := h [] b cm rfl rfl
    cases hb with
    | leaf s => simp [isMap] at hbm
    | bool s => simp [isMap] at hbm
    | seq s => simp [isMap] at hbm
    | map bm hbn hbw =>
      cases ha with
      | leaf s => rw [mergeYaml_onto_nonmap (.leaf s) (.map bm) rfl, mergeYaml_onto_nonmap (.leaf s) _ rfl]
      | bool s => rw [mergeYaml_onto_nonmap (.bool s) (.map bm) rfl, mergeYaml_onto_nonmap (.bool s) _ rfl]
      | seq s => rw [mergeYaml_onto_nonmap (.seq s) (.map bm) rfl, mergeYaml_onto_nonmap (.seq s) _ rfl]
      | map am han haw =>
        simp only [mergeYaml_map]
        congr 1
        have hbcn := mergeEntries_nodup cm bm hbn
        refine alist_ext (mergeEntries_nodup _ _ (mergeEntries_nodup _ _ han)) ?_ ?_
        · rw [mergeEntries_keys_eq _ _ hcn, mergeEntries_keys_eq _ _ hbn, mergeEntries_keys_eq _ _ hbcn,
            mergeEntries_keys_eq _ _ hcn]
          simp only [List.filter_append, List.append_assoc, List.append_cancel_left_eq, List.filter_filter]
          apply List.filter_congr
          intro x _
          simp only [List.mem_append, List.mem_filter, Bool.not_eq_eq_eq_not, Bool.not_true, decide_eq_false_iff_not]
          grind
        · intro k
          rw [mergeEntries_get _ _ hcn, mergeEntries_get _ _ hbn, mergeEntries_get _ _ hbcn, mergeEntries_get _ _ hcn]
          cases hck : aget k cm with
          | none => rfl
          | some cv =>
            cases hbk : aget k bm with
            | none => rfl
            | some bv =>
              cases hak : aget k am with
              | none => rfl
              | some av =>
                simp only
                rw [ih _ (aget_some_mem hck) av bv (haw _ (aget_some_mem hak)) (hbw _ (aget_some_mem hbk))]
                intro p x m h1 h2
                exact h (k :: p) x m (by simp only [at?, hbk]; exact h1) (by simp only [at?, hck]; exact h2)

example : ∃ a b c : Yaml, WF a ∧ WF b ∧ WF c ∧
    (∀ p x m, at? b p = some x → at? c p = some (.map m) → isMap x = true) ∧
    mergeYaml (mergeYaml a b) c ≠ c := by
  refine ⟨.map [("x", .leaf "1")], .map [("z", .leaf "0")], .map [("y", .leaf "2")], ?_, ?_, ?_, ?_, ?_⟩
  · refine .map _ (by decide) ?_
    intro p hp; simp only [List.mem_singleton] at hp; subst hp; exact .leaf _
  · refine .map _ (by decide) ?_
    intro p hp; simp only [List.mem_singleton] at hp; subst hp; exact .leaf _
  · refine .map _ (by decide) ?_
    intro p hp; simp only [List.mem_singleton] at hp; subst hp; exact .leaf _
  · intro p x m h1 h2
    cases p with
    | nil => simp only [at?, Option.some.injEq] at h1; subst h1; rfl
    | cons k p =>
      simp only [at?, aget] at h1 h2
      by_cases hk : "z" = k
      · subst hk; simp at h2
      · simp [hk] at h1
  · intro h
    have := congrArg (fun v => (at? v ["x"]).isSome) h
    revert this; decide

/-! ### Theorems: the annotations map of a refinement -/

/-- C10: the merged annotations of a refinement, key by key: keys of one side only are kept as they are, keys of both
sides are merged; the result is again a well-formed ordered map. -/
theorem mergeAnnots_exact (base override : Annots) (hb : KeySorted base) (ho : (override.map Prod.fst).Nodup) :
    KeySorted (mergeAnnots base override) ∧ ∀ k,
      (aget k override = none → aget k (mergeAnnots base override) = aget k base) ∧
      (aget k base = none → aget k (mergeAnnots base override) = aget k override) ∧
      (∀ x y, aget k base = some x → aget k override = some y →
        aget k (mergeAnnots base override) = some (mergeYaml x y)) := by
  refine ⟨mergeAnnots_sorted _ _ hb, fun k => ?_⟩
  rw [mergeAnnots_get _ _ ho]
  refine ⟨fun h => by rw [h], fun h => ?_, fun x y h1 h2 => by rw [h1, h2]⟩
  cases hk : aget k override <;> simp [h]

/-- C10: merging annotations twice changes nothing. -/
theorem mergeAnnots_twice (base override : Annots) (hb : KeySorted base) (ho : (override.map Prod.fst).Nodup)
    (hw : ∀ p ∈ override, WF p.2) :
    mergeAnnots (mergeAnnots base override) override = mergeAnnots base override := by
  have hs := mergeAnnots_sorted override base hb
  refine keySorted_ext (mergeAnnots_sorted _ _ hs) hs ?_
  intro k
  rw [mergeAnnots_get _ _ ho, mergeAnnots_get _ _ ho]
  cases hk : aget k override with
  | none => rfl
  | some v =>
    have := merge_twice_aux v (hw _ (aget_some_mem hk))
    cases hb : aget k base <;> simp [this]

/-- C10: no annotations on either side are neutral. -/
theorem mergeAnnots_neutral (m : Annots) (h : KeySorted m) : mergeAnnots m [] = m ∧ mergeAnnots [] m = m := by
  refine ⟨by simp [mergeAnnots], ?_⟩
  refine keySorted_ext (mergeAnnots_sorted _ _ (by simp [KeySorted])) h ?_
  intro k
  rw [mergeAnnots_get _ _ (keySorted_nodup h)]
  cases aget k m <;> simp [aget]

/-- C10/C06: an exclusion on the parent reaches the refinement unless the refinement itself sets the flag: if the
parent is excluded and the merged map is not, then the override carries a `dependency_resolution` entry. -/
theorem mergeAnnots_exclusion (base override : Annots) (ho : (override.map Prod.fst).Nodup)
    (hx : isExcluded base = true) (hno : isExcluded (mergeAnnots base override) = false) :
    ∃ v, aget "dependency_resolution" override = some v := by
  cases h : aget "dependency_resolution" override with
  | some v => exact ⟨v, rfl⟩
  | none =>
    exfalso
    have hg := mergeAnnots_get override base ho "dependency_resolution"
    rw [h] at hg
    simp only at hg
    unfold isExcluded at hx hno
    rw [hg, hx] at hno
    exact Bool.noConfusion hno

/-- C10/C06: an override that excludes makes the result excluded, whatever the parent says. -/
theorem mergeAnnots_override_excludes (base override : Annots) (ho : (override.map Prod.fst).Nodup)
    (hw : ∀ p ∈ override, WF p.2)
    (hx : isExcluded override = true) : isExcluded (mergeAnnots base override) = true := by
  unfold isExcluded at hx
  cases h : aget "dependency_resolution" override with
  | none => rw [h] at hx; simp at hx
  | some v =>
    rw [h] at hx
    cases v with
    | map m =>
      simp only at hx
      cases he : aget "exclude" m with
      | none => rw [he] at hx; simp at hx
      | some e =>
        rw [he] at hx
        cases e with
        | bool b =>
          simp only at hx; subst hx
          have hg := mergeAnnots_get override base ho "dependency_resolution"
          rw [h] at hg; simp only at hg
          unfold isExcluded
          rw [hg]
          cases hb : aget "dependency_resolution" base with
          | none => simp only [he]
          | some bv =>
            have hwf := hw _ (aget_some_mem h)
            have h1 := merge_override_wins bv (.map m) hwf ["exclude"] (.bool true) rfl (by simp only [at?, he])
            cases bv with
            | map bm =>
              rw [mergeYaml_map] at h1
              simp only [at?] at h1
              simp only [mergeYaml_map]
              cases hz : aget "exclude" (mergeEntries bm m) with
              | none => rw [hz] at h1; simp at h1
              | some z => rw [hz] at h1; simp only [Option.some.injEq] at h1; subst h1; rfl
            | leaf s => simp only [mergeYaml_onto_nonmap _ _ (rfl : isMap (.leaf s) = false), he]
            | bool s => simp only [mergeYaml_onto_nonmap _ _ (rfl : isMap (.bool s) = false), he]
            | seq s => simp only [mergeYaml_onto_nonmap _ _ (rfl : isMap (.seq s) = false), he]
        | leaf s => simp at hx
        | seq s => simp at hx
        | map s => simp at hx
    | leaf s => simp at hx
    | bool s => simp at hx
    | seq s => simp at hx

example : isExcluded [("dependency_resolution", .map [("exclude", .bool true)])] = true ∧
    isExcluded (mergeAnnots [("dependency_resolution", .map [("exclude", .bool true)])]
      [("code", .leaf "x")]) = true ∧
    isExcluded (mergeAnnots [("dependency_resolution", .map [("exclude", .bool true)])]
      [("dependency_resolution", .map [("exclude", .bool false)])]) = false := by decide

end Verif.Resolver
