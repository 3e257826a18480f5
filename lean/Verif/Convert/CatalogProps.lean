import Verif.Convert.Model
/-
The v2 catalog: every v1 attribute has exactly one entry there. Used for C13.
-/
namespace Verif.Convert
open Verif.Util Verif.Resolver Verif.Semconv

/-- The descriptive fields of a converted item are those of the original: no stability means `development`, no
annotations means none. -/
def SameCommon (brief note : String) (st : Option Stability) (dep : Option Deprecated) (ann : Option Annots)
    (c : Common) : Prop :=
  c.brief = brief ∧ c.note = note ∧ c.deprecated = dep ∧
  (st = some c.stability ∨ st = none ∧ c.stability = .development) ∧
  (ann = some c.annotations ∨ ann = none ∧ c.annotations = [])

/-- A v2 attribute says what a v1 attribute says. -/
def SameAttr (a : A1) (b : A2) : Prop :=
  b.key = a.name ∧ b.type = a.type ∧ b.examples = a.examples ∧
  SameCommon a.brief a.note a.stability a.deprecated a.annotations b.common

theorem sameCommon_iff (brief note : String) (st : Option Stability) (dep : Option Deprecated) (ann : Option Annots)
    (c : Common) : SameCommon brief note st dep ann c ↔ c = common brief note st dep ann := by
  unfold SameCommon common
  obtain ⟨b, n, s, d, an⟩ := c
  cases st <;> cases ann <;> simp [eq_comm] <;> grind

theorem matchesAttr_iff (a : A1) (b : A2) : matchesAttr a b = true ↔ SameAttr a b := by
  unfold matchesAttr SameAttr SameCommon
  cases h1 : a.stability <;> cases h2 : a.annotations <;>
    simp only [Bool.and_eq_true, decide_eq_true_eq, List.isEmpty_iff, Option.getD_some, Option.getD_none] <;> grind

theorem sameAttr_iff (i : In) (a : A1) (b : A2) : SameAttr a b ∧ b.prov = attrProv i a.name ↔ b = convertAttr i a := by
  unfold SameAttr convertAttr
  rw [sameCommon_iff]
  obtain ⟨k, t, e, c, p⟩ := b
  simp only [A2.mk.injEq]
  constructor
  · rintro ⟨⟨h1, h2, h3, h4⟩, h5⟩; exact ⟨h1, h2, h3, h4, h5⟩
  · rintro ⟨h1, h2, h3, h4, h5⟩; exact ⟨⟨h1, h2, h3, h4⟩, h5⟩

theorem catalog2_perm (i : In) : (catalog2 i).Perm (uniq (i.catalog.map (convertAttr i))) :=
  (sortBy_perm _ _).trans (i.ord_perm _)

theorem mem_catalog2 (i : In) (b : A2) : b ∈ catalog2 i ↔ ∃ a ∈ i.catalog, b = convertAttr i a := by
  rw [(catalog2_perm i).mem_iff, (uniq_spec _).2, List.mem_map]
  simp [eq_comm]

theorem catalog2_nodup (i : In) : (catalog2 i).Nodup := (catalog2_perm i).nodup_iff.2 (uniq_spec _).1

/-- An entry of the catalog that says what `a` says is the conversion of `a`. -/
theorem eq_of_same (i : In) (a : A1) (b : A2) (hb : b ∈ catalog2 i) (h : SameAttr a b) : b = convertAttr i a := by
  obtain ⟨a', _, rfl⟩ := (mem_catalog2 i b).1 hb
  refine (sameAttr_iff i a _).1 ⟨h, ?_⟩
  show attrProv i a'.name = attrProv i a.name
  have : a'.name = a.name := h.1
  rw [this]

theorem getElem?_inj_nodup {α : Type} {l : List α} (h : l.Nodup) {m n : Nat} {a : α} (h1 : l[m]? = some a)
    (h2 : l[n]? = some a) : m = n := by
  obtain ⟨hm, h1⟩ := List.getElem?_eq_some_iff.1 h1
  obtain ⟨hn, h2⟩ := List.getElem?_eq_some_iff.1 h2
  have hp := List.pairwise_iff_getElem.1 h
  rcases Nat.lt_trichotomy m n with hlt | heq | hgt
  · exact absurd (h1.trans h2.symm) (hp m n hm hn hlt)
  · exact heq
  · exact absurd (h2.trans h1.symm) (hp n m hn hm hgt)

/-- A reference is converted to `n` exactly when the entry at `n` says what the attribute says. -/
theorem convertRef_iff (i : In) (a : A1) (n : Nat) :
    convertRef (catalog2 i) a = some n ↔ ∃ b, (catalog2 i)[n]? = some b ∧ SameAttr a b := by
  unfold convertRef
  constructor
  · intro h
    rw [List.findIdx?_eq_some_iff_getElem] at h
    obtain ⟨hn, hm, _⟩ := h
    exact ⟨(catalog2 i)[n], List.getElem?_eq_getElem hn, (matchesAttr_iff _ _).1 hm⟩
  · rintro ⟨b, hb, hs⟩
    have hmem := List.mem_of_getElem? hb
    have he := eq_of_same i a b hmem hs
    cases hf : (catalog2 i).findIdx? (matchesAttr a) with
    | none =>
      rw [List.findIdx?_eq_none_iff] at hf
      have := hf b hmem
      rw [(matchesAttr_iff a b).2 hs] at this
      cases this
    | some m =>
      rw [List.findIdx?_eq_some_iff_getElem] at hf
      obtain ⟨hm, hmm, _⟩ := hf
      have he' := eq_of_same i a _ (List.getElem_mem hm) ((matchesAttr_iff _ _).1 hmm)
      rw [getElem?_inj_nodup (catalog2_nodup i) (List.getElem?_eq_getElem hm)
        (by rw [hb, he, he'])]

/-- Every attribute of the v1 catalog has an entry. -/
theorem convertRef_some (i : In) (a : A1) (ha : a ∈ i.catalog) : ∃ n, convertRef (catalog2 i) a = some n := by
  have hm : convertAttr i a ∈ catalog2 i := (mem_catalog2 i _).2 ⟨a, ha, rfl⟩
  obtain ⟨n, hn, h⟩ := List.mem_iff_getElem.1 hm
  exact ⟨n, (convertRef_iff i a n).2 ⟨_, by rw [List.getElem?_eq_getElem hn, h], ((sameAttr_iff i a _).2 rfl).1⟩⟩

theorem catLe_totalPre (hash : A2 → Nat) : TotalPre (catLe hash) where
  total a b := by
    unfold catLe
    rcases str_trichotomy a.key b.key with h | h | h
    · simp [h]
    · rcases Nat.le_total (hash a) (hash b) with h' | h' <;> simp [h, h']
    · simp [h]
  trans a b c := by
    unfold catLe
    simp only [Bool.or_eq_true, Bool.and_eq_true, decide_eq_true_eq]
    rintro (h | ⟨h, h'⟩) (k | ⟨k, k'⟩)
    · exact .inl (String.lt_trans h k)
    · rw [← k]; exact .inl h
    · rw [h]; exact .inl k
    · exact .inr ⟨h.trans k, Nat.le_trans h' k'⟩

end Verif.Convert
