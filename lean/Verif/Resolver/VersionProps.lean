import Verif.Resolver.Version
/-
C05: the dependency version conflict strategy.
-/
namespace Verif.Resolver
open Verif.Util

/-! ### Specification -/

/-- `a ≤ b` in semantic version order, spelled out. -/
def VerLe (a b : Ver) : Prop :=
  a.major < b.major ∨ (a.major = b.major ∧ (a.minor < b.minor ∨ (a.minor = b.minor ∧
    (a.patch < b.patch ∨ (a.patch = b.patch ∧ a.rest ≤ b.rest)))))

/-- Two URLs of one registry can be reconciled: both versions are semver and share the major version. -/
def Compatible (a b : SchemaUrl) : Prop :=
  ∃ va vb, a.sv = some va ∧ b.sv = some vb ∧ va.major = vb.major

/-! ### Lemmas -/

theorem ver_lt_iff (a b : Ver) : b.lt a = true ↔ ¬ VerLe a b := by
  unfold Ver.lt VerLe
  split
  · simp only [decide_eq_true_eq]; omega
  · split
    · simp only [decide_eq_true_eq]; omega
    · split <;> simp only [decide_eq_true_eq] <;> omega

theorem verLe_total (a b : Ver) : VerLe a b ∨ VerLe b a := by unfold VerLe; omega
theorem verLe_refl (a : Ver) : VerLe a a := by unfold VerLe; omega
theorem verLe_trans {a b c : Ver} (h1 : VerLe a b) (h2 : VerLe b c) : VerLe a c := by unfold VerLe at *; omega
theorem verLe_antisymm {a b : Ver} (h1 : VerLe a b) (h2 : VerLe b a) : a = b := by
  cases a; cases b; unfold VerLe at *; simp only [Ver.mk.injEq] at *; omega

theorem resolve_eq (u1 u2 : SchemaUrl) (hn : u1.name = u2.name) (v1 v2 : Ver) (h1 : u1.sv = some v1)
    (h2 : u2.sv = some v2) (hm : v1.major = v2.major) :
    resolveVersions u1 u2 = .ok (if v2.lt v1 then u1 else u2) := by
  simp only [resolveVersions, hn, h1, h2, hm]
  simp only [ne_eq, not_true_eq_false, if_false, if_true]
  split <;> rfl

/-! ### Theorems -/

/-- C05: the strategy fails exactly when the registry names differ, a version is not a semantic version, or the major
versions differ. -/
theorem conflict_error_iff (u1 u2 : SchemaUrl) :
    (∃ e, resolveVersions u1 u2 = .error e) ↔ u1.name ≠ u2.name ∨ ¬ Compatible u1 u2 := by
  unfold resolveVersions Compatible
  by_cases hn : u1.name = u2.name
  · simp only [hn, ne_eq, not_true_eq_false, if_false, false_or]
    cases h1 : u1.sv with
    | none => simp
    | some v1 =>
      cases h2 : u2.sv with
      | none => simp
      | some v2 =>
        simp only
        by_cases hm : v1.major = v2.major
        · rw [if_pos hm]; constructor
          · rintro ⟨e, he⟩; split at he <;> simp at he
          · intro h; exact absurd ⟨v1, v2, rfl, rfl, hm⟩ h
        · rw [if_neg hm]; constructor
          · rintro _ ⟨a, b, ha, hb, hab⟩
            simp only [Option.some.injEq] at ha hb; subst ha; subst hb; exact hm hab
          · intro _; exact ⟨_, rfl⟩
  · simp only [ne_eq, hn, not_false_eq_true, if_true, true_or, iff_true]; exact ⟨_, rfl⟩

/-- C05: when it succeeds the result is one of the two URLs and its version is the greatest of both. -/
theorem conflict_picks_greatest (u1 u2 u : SchemaUrl) (h : resolveVersions u1 u2 = .ok u) :
    (u = u1 ∨ u = u2) ∧ ∃ v v1 v2, u.sv = some v ∧ u1.sv = some v1 ∧ u2.sv = some v2 ∧
      v1.major = v2.major ∧ VerLe v1 v ∧ VerLe v2 v := by
  have hne : ¬ ∃ e, resolveVersions u1 u2 = .error e := by rintro ⟨e, he⟩; rw [h] at he; simp at he
  rw [conflict_error_iff] at hne
  simp only [ne_eq, not_or, Classical.not_not] at hne
  obtain ⟨hn, v1, v2, h1, h2, hm⟩ := hne
  rw [resolve_eq u1 u2 hn v1 v2 h1 h2 hm] at h
  simp only [Except.ok.injEq] at h
  cases hlt : v2.lt v1
  · rw [hlt] at h; simp at h; subst h
    refine ⟨.inr rfl, v2, v1, v2, h2, h1, h2, hm, ?_, verLe_refl _⟩
    rcases Classical.em (VerLe v1 v2) with h' | h'
    · exact h'
    · rw [(ver_lt_iff v1 v2).2 h'] at hlt; simp at hlt
  · rw [hlt] at h; simp at h; subst h
    refine ⟨.inl rfl, v1, v1, v2, h1, h1, h2, hm, verLe_refl _, ?_⟩
    have := (ver_lt_iff v1 v2).1 hlt
    rcases verLe_total v1 v2 with h' | h'
    · exact absurd h' this
    · exact h'

private def u10 : SchemaUrl := { name := "acme.com/r", tail := "1.0.0", sv := some ⟨1, 0, 0, 0⟩ }
private def u12 : SchemaUrl := { name := "acme.com/r", tail := "1.2.0", sv := some ⟨1, 2, 0, 0⟩ }
private def u12v : SchemaUrl := { name := "acme.com/r", tail := "v1.2.0", sv := some ⟨1, 2, 0, 0⟩ }
private def u20 : SchemaUrl := { name := "acme.com/r", tail := "2.0.0", sv := some ⟨2, 0, 0, 0⟩ }

example : resolveVersions u12 u10 = .ok u12 ∧ resolveVersions u10 u12 = .ok u12 ∧
    (∃ e, resolveVersions u10 u20 = .error e) := ⟨rfl, rfl, _, rfl⟩

/-- C138, refuted: the order in which two URLs are met can change the chosen one, when two different
URL texts denote the same version (`1.2.0` and `v1.2.0`, or `http` and `https`). -/
theorem conflict_order_refuted : ∃ a b : SchemaUrl, resolveVersions a b ≠ resolveVersions b a ∧
    (∃ x, resolveVersions a b = .ok x) ∧ (∃ y, resolveVersions b a = .ok y) :=
  ⟨u12, u12v, fun h => absurd (Except.ok.inj (show Except.ok u12v = Except.ok u12 from h)) (by decide),
    ⟨u12v, rfl⟩, ⟨u12, rfl⟩⟩

/-- C05, what holds: both orders succeed or both fail, the chosen version is the same, and the chosen URL is the same
unless two different URL texts denote the same version. -/
theorem conflict_order (a b x : SchemaUrl) (h : resolveVersions a b = .ok x) :
    ∃ y, resolveVersions b a = .ok y ∧ y.sv = x.sv ∧ (a.sv ≠ b.sv ∨ a = b → y = x) := by
  obtain ⟨hx, v, v1, v2, hv, h1, h2, hm, hl1, hl2⟩ := conflict_picks_greatest a b x h
  have hn : a.name = b.name := by
    by_cases hn : a.name = b.name
    · exact hn
    · have : ∃ e, resolveVersions a b = .error e := (conflict_error_iff a b).2 (.inl hn)
      obtain ⟨e, he⟩ := this; rw [h] at he; simp at he
  refine ⟨_, resolve_eq b a hn.symm v2 v1 h2 h1 hm.symm, ?_, ?_⟩
  · rcases hx with rfl | rfl
    · rw [h1] at hv; simp only [Option.some.injEq] at hv; subst hv
      cases hlt : v1.lt v2 with
      | false => simp
      | true => exact absurd hl2 ((ver_lt_iff v2 v1).1 hlt)
    · rw [h2] at hv; simp only [Option.some.injEq] at hv; subst hv
      cases hlt : v1.lt v2 with
      | true => simp
      | false =>
        have h3 : VerLe v2 v1 := by
          rcases Classical.em (VerLe v2 v1) with h' | h'
          · exact h'
          · rw [(ver_lt_iff v2 v1).2 h'] at hlt; simp at hlt
        simp [h1, h2, verLe_antisymm hl1 h3]
  · intro hne
    rcases hne with hne | rfl
    · rw [h1, h2] at hne
      rcases hx with rfl | rfl
      · rw [h1] at hv; simp only [Option.some.injEq] at hv; subst hv
        cases hlt : v1.lt v2 with
        | false => simp
        | true => exact absurd hl2 ((ver_lt_iff v2 v1).1 hlt)
      · rw [h2] at hv; simp only [Option.some.injEq] at hv; subst hv
        cases hlt : v1.lt v2 with
        | true => simp
        | false =>
          exfalso
          rcases Classical.em (VerLe v2 v1) with h' | h'
          · exact hne (by rw [verLe_antisymm hl1 h'])
          · rw [(ver_lt_iff v2 v1).2 h'] at hlt; simp at hlt
    · rcases hx with rfl | rfl <;> simp

example : ∃ x, resolveVersions u10 u12 = .ok x ∧ u10.sv ≠ u12.sv := ⟨u12, rfl, by decide⟩

/-- The state of the loader after having met `seen`: the choice for a name is one of the URLs met under that name and
is at least as recent as all of them, and all of them can be reconciled. -/
structure ChosenInv (seen : List SchemaUrl) (chosen : Chosen) : Prop where
  isSeen : ∀ n c, aget n chosen = some c → c ∈ seen ∧ c.name = n
  covers : ∀ u ∈ seen, ∃ c, aget u.name chosen = some c ∧
    (c = u ∨ ∃ vc vu, c.sv = some vc ∧ u.sv = some vu ∧ vc.major = vu.major ∧ VerLe vu vc)

theorem noteStrict_inv (seen : List SchemaUrl) (chosen chosen' : Chosen) (u : SchemaUrl)
    (hi : ChosenInv seen chosen) (h : noteStrict chosen u = .ok chosen') : ChosenInv (seen ++ [u]) chosen' := by
  unfold noteStrict at h
  cases hg : aget u.name chosen with
  | none =>
    rw [hg] at h; simp only [Except.ok.injEq] at h; subst h
    refine ⟨?_, ?_⟩
    · intro n c hc
      rw [aget_aset] at hc
      by_cases hn : n = u.name
      · rw [if_pos hn] at hc; simp only [Option.some.injEq] at hc; subst hc; exact ⟨by simp, hn.symm⟩
      · rw [if_neg hn] at hc; obtain ⟨h1, h2⟩ := hi.isSeen n c hc; exact ⟨by simp [h1], h2⟩
    · intro w hw
      rcases List.mem_append.1 hw with hw | hw
      · obtain ⟨c, hc, hr⟩ := hi.covers w hw
        have : w.name ≠ u.name := by intro e; rw [e, hg] at hc; simp at hc
        exact ⟨c, by rw [aget_aset, if_neg this]; exact hc, hr⟩
      · simp only [List.mem_singleton] at hw; subst hw
        exact ⟨w, by rw [aget_aset, if_pos rfl], .inl rfl⟩
  | some prev =>
    rw [hg] at h
    simp only at h
    by_cases hpu : prev = u
    · rw [if_neg (by simp [hpu])] at h; simp only [Except.ok.injEq] at h; subst h
      refine ⟨?_, ?_⟩
      · intro n c hc; obtain ⟨h1, h2⟩ := hi.isSeen n c hc; exact ⟨by simp [h1], h2⟩
      · intro w hw
        rcases List.mem_append.1 hw with hw | hw
        · exact hi.covers w hw
        · simp only [List.mem_singleton] at hw; subst hw; exact ⟨prev, hg, .inl hpu⟩
    · rw [if_pos hpu] at h
      cases hr : resolveVersions prev u with
      | error e => rw [hr] at h; simp at h
      | ok c =>
        rw [hr] at h; simp only [Except.ok.injEq] at h; subst h
        obtain ⟨hcc, v, v1, v2, hv, h1, h2, hm, hl1, hl2⟩ := conflict_picks_greatest _ _ _ hr
        have hpn := (hi.isSeen _ _ hg)
        have hvm : v.major = v1.major := by
          rcases hcc with rfl | rfl
          · rw [h1] at hv; simp only [Option.some.injEq] at hv; rw [hv]
          · rw [h2] at hv; simp only [Option.some.injEq] at hv; rw [← hv, hm]
        refine ⟨?_, ?_⟩
        · intro n d hd
          rw [aget_aset] at hd
          by_cases hn : n = u.name
          · rw [if_pos hn] at hd; simp only [Option.some.injEq] at hd; subst hd
            rcases hcc with rfl | rfl
            · exact ⟨by simp [hpn.1], by rw [hpn.2, hn]⟩
            · exact ⟨by simp, hn.symm⟩
          · rw [if_neg hn] at hd; obtain ⟨h3, h4⟩ := hi.isSeen n d hd; exact ⟨by simp [h3], h4⟩
        · intro w hw
          rcases List.mem_append.1 hw with hw | hw
          · obtain ⟨d, hd, hrel⟩ := hi.covers w hw
            by_cases hn : w.name = u.name
            · refine ⟨c, by rw [aget_aset, if_pos hn], .inr ?_⟩
              rw [hn, hg] at hd; simp only [Option.some.injEq] at hd; subst hd
              rcases hrel with rfl | ⟨vc, vu, h3, h4, h5, h6⟩
              · exact ⟨v, v1, hv, h1, hvm, hl1⟩
              · rw [h1] at h3; simp only [Option.some.injEq] at h3; subst h3
                exact ⟨v, vu, hv, h4, by rw [hvm, h5], verLe_trans h6 hl1⟩
            · exact ⟨d, by rw [aget_aset, if_neg hn]; exact hd, hrel⟩
          · simp only [List.mem_singleton] at hw; subst hw
            exact ⟨c, by rw [aget_aset, if_pos rfl], .inr ⟨v, v2, hv, h2, by rw [hvm, hm], hl2⟩⟩

theorem noteAllStrict_inv (us seen : List SchemaUrl) (chosen chosen' : Chosen) (hi : ChosenInv seen chosen)
    (h : noteAllStrict chosen us = .ok chosen') : ChosenInv (seen ++ us) chosen' := by
  induction us generalizing seen chosen with
  | nil => simp only [noteAllStrict, Except.ok.injEq] at h; subst h; simpa using hi
  | cons u us ih =>
    simp only [noteAllStrict] at h
    cases hs : noteStrict chosen u with
    | error e => rw [hs] at h; simp at h
    | ok c =>
      rw [hs] at h
      have := ih (seen ++ [u]) c (noteStrict_inv seen chosen c u hi hs) h
      simpa using this

/-- C05 for any number of requirements: if the loader accepts a sequence of schema URLs, then for every registry name
met, the version chosen is one of those met and the most recent of them. -/
theorem loader_chooses_latest (us : List SchemaUrl) (chosen : Chosen) (h : noteAllStrict [] us = .ok chosen) :
    (∀ n c, aget n chosen = some c → c ∈ us ∧ c.name = n) ∧
    (∀ u ∈ us, ∃ c, aget u.name chosen = some c ∧
      (c = u ∨ ∃ vc vu, c.sv = some vc ∧ u.sv = some vu ∧ vc.major = vu.major ∧ VerLe vu vc)) := by
  have := noteAllStrict_inv us [] [] chosen ⟨by simp [aget], by simp⟩ h
  simp only [List.nil_append] at this
  exact ⟨this.isSeen, this.covers⟩

/-- C05 for any number of requirements: the loader accepts a sequence of schema URLs exactly when any two different
URLs of one registry can be reconciled. In particular acceptance does not depend on the order. -/
theorem loader_accepts_iff (us : List SchemaUrl) :
    (∃ chosen, noteAllStrict [] us = .ok chosen) ↔
      ∀ a ∈ us, ∀ b ∈ us, a.name = b.name → a = b ∨ Compatible a b := by
  constructor
  · rintro ⟨chosen, h⟩ a ha b hb hn
    obtain ⟨_, hcov⟩ := loader_chooses_latest us chosen h
    obtain ⟨c, hc, h1⟩ := hcov a ha
    obtain ⟨d, hd, h2⟩ := hcov b hb
    rw [hn, hd] at hc; simp only [Option.some.injEq] at hc; subst hc
    rcases h1 with rfl | ⟨vc, va, e1, e2, e3, _⟩
    · rcases h2 with rfl | ⟨vd, vb, f1, f2, f3, _⟩
      · exact .inl rfl
      · exact .inr ⟨vd, vb, f1, f2, f3⟩
    · rcases h2 with rfl | ⟨vd, vb, f1, f2, f3, _⟩
      · exact .inr ⟨va, vc, e2, e1, e3.symm⟩
      · rw [e1] at f1; simp only [Option.some.injEq] at f1; subst f1
        exact .inr ⟨va, vb, e2, f2, by rw [← e3, f3]⟩
  · intro h
    suffices H : ∀ (us seen : List SchemaUrl) (chosen : Chosen), ChosenInv seen chosen →
        (∀ a ∈ seen ++ us, ∀ b ∈ seen ++ us, a.name = b.name → a = b ∨ Compatible a b) →
        ∃ c, noteAllStrict chosen us = .ok c by
      exact H us [] [] ⟨by simp [aget], by simp⟩ (by simpa using h)
    intro us
    induction us with
    | nil => intro seen chosen _ _; exact ⟨_, rfl⟩
    | cons u us ih =>
      intro seen chosen hi hc
      have hok : ∃ c, noteStrict chosen u = .ok c := by
        unfold noteStrict
        cases hg : aget u.name chosen with
        | none => exact ⟨_, rfl⟩
        | some prev =>
          simp only
          by_cases hpu : prev = u
          · rw [if_neg (by simp [hpu])]; exact ⟨_, rfl⟩
          · rw [if_pos hpu]
            obtain ⟨hm, hn⟩ := hi.isSeen _ _ hg
            have hcomp := hc prev (by simp [hm]) u (by simp) hn
            rcases hcomp with e | hcomp
            · exact absurd e hpu
            · cases hr : resolveVersions prev u with
              | ok c => exact ⟨_, rfl⟩
              | error e =>
                exfalso
                rcases (conflict_error_iff prev u).1 ⟨e, hr⟩ with h1 | h1
                · exact h1 hn
                · exact h1 hcomp
      obtain ⟨c, hcs⟩ := hok
      simp only [noteAllStrict, hcs]
      refine ih (seen ++ [u]) c (noteStrict_inv seen chosen c u hi hcs) ?_
      simpa using hc

/-- C05: acceptance by the loader does not depend on the order in which the dependencies are met. -/
theorem loader_order_independent (us vs : List SchemaUrl) (hp : us.Perm vs) :
    (∃ c, noteAllStrict [] us = .ok c) ↔ (∃ c, noteAllStrict [] vs = .ok c) := by
  rw [loader_accepts_iff, loader_accepts_iff]
  constructor
  · intro h a ha b hb; exact h a (hp.mem_iff.2 ha) b (hp.mem_iff.2 hb)
  · intro h a ha b hb; exact h a (hp.mem_iff.1 ha) b (hp.mem_iff.1 hb)

/-- C05: the version chosen for a registry does not depend on the order either. -/
theorem loader_choice_order_independent (us vs : List SchemaUrl) (hp : us.Perm vs) (c d : Chosen)
    (h1 : noteAllStrict [] us = .ok c) (h2 : noteAllStrict [] vs = .ok d) (n : String) (x y : SchemaUrl)
    (hx : aget n c = some x) (hy : aget n d = some y) : x.sv = y.sv := by
  obtain ⟨s1, k1⟩ := loader_chooses_latest us c h1
  obtain ⟨s2, k2⟩ := loader_chooses_latest vs d h2
  obtain ⟨mx, nx⟩ := s1 n x hx
  obtain ⟨my, ny⟩ := s2 n y hy
  obtain ⟨y', hy', r1⟩ := k2 x (hp.mem_iff.1 mx)
  obtain ⟨x', hx', r2⟩ := k1 y (hp.mem_iff.2 my)
  rw [nx, hy] at hy'; simp only [Option.some.injEq] at hy'; subst hy'
  rw [ny, hx] at hx'; simp only [Option.some.injEq] at hx'; subst hx'
  rcases r1 with rfl | ⟨vy, vx, e1, e2, _, e4⟩
  · rfl
  · rcases r2 with rfl | ⟨vx', vy', f1, f2, _, f4⟩
    · rfl
    · rw [e2] at f1; rw [e1] at f2
      simp only [Option.some.injEq] at f1 f2; subst f1; subst f2
      rw [e1, e2, verLe_antisymm e4 f4]

example : (∃ c, noteAllStrict [] [u10, u12, u12v] = .ok c ∧ aget "acme.com/r" c = some u12v) ∧
    (∃ c, noteAllStrict [] [u12v, u10, u12] = .ok c ∧ aget "acme.com/r" c = some u12) ∧
    (∃ e, noteAllStrict [] [u10, u20] = .error e) := ⟨⟨_, rfl, by decide⟩, ⟨_, rfl, by decide⟩, _, rfl⟩

/-- C138, refuted for the choice used while resolving: with two major versions in the graph the chosen URL depends on
the order of the dependencies, and no error is reported. -/
theorem resolver_choice_order_refuted : ∃ us vs : List SchemaUrl, us.Perm vs ∧
    aget "acme.com/r" (noteAllLenient us) ≠ aget "acme.com/r" (noteAllLenient vs) :=
  ⟨[u10, u20], [u20, u10], List.Perm.swap _ _ _, by decide⟩

theorem noteLenient_eq_strict (chosen : Chosen) (u : SchemaUrl) (c : Chosen)
    (h : noteStrict chosen u = .ok c) : ∀ n, aget n (noteLenient chosen u) = aget n c := by
  intro n
  unfold noteStrict at h
  unfold noteLenient
  cases hg : aget u.name chosen with
  | none => rw [hg] at h; simp only [Except.ok.injEq] at h; subst h; rfl
  | some prev =>
    rw [hg] at h; simp only at h ⊢
    by_cases hpu : prev = u
    · rw [if_neg (by simp [hpu])] at h; simp only [Except.ok.injEq] at h; subst h
      cases hr : resolveVersions prev u with
      | error e => rfl
      | ok d =>
        have := (conflict_picks_greatest _ _ _ hr).1
        have hd : d = u := by rcases this with rfl | rfl <;> simp_all
        subst hd
        simp only [aget_aset]
        split
        · rename_i e; rw [e, hg, hpu]
        · rfl
    · rw [if_pos hpu] at h
      cases hr : resolveVersions prev u with
      | error e => rw [hr] at h; simp at h
      | ok d => rw [hr] at h; simp only [Except.ok.injEq] at h; subst h; rfl

theorem lookup_congr_strict (c c' : Chosen) (hc : ∀ n, aget n c = aget n c') (u : SchemaUrl) (d : Chosen)
    (h : noteStrict c u = .ok d) : ∃ d', noteStrict c' u = .ok d' ∧ ∀ n, aget n d = aget n d' := by
  unfold noteStrict at h ⊢
  rw [← hc u.name]
  cases hg : aget u.name c with
  | none => rw [hg] at h; simp only [Except.ok.injEq] at h; subst h
            exact ⟨_, rfl, fun n => by simp only [aget_aset, hc]⟩
  | some prev =>
    rw [hg] at h; simp only at h ⊢
    by_cases hpu : prev = u
    · rw [if_neg (by simp [hpu])] at h ⊢; simp only [Except.ok.injEq] at h; subst h; exact ⟨_, rfl, hc⟩
    · rw [if_pos hpu] at h ⊢
      cases hr : resolveVersions prev u with
      | error e => rw [hr] at h; simp at h
      | ok x => rw [hr] at h; simp only [Except.ok.injEq] at h; subst h
                exact ⟨_, rfl, fun n => by simp only [aget_aset, hc]⟩

/-- C138, what holds for the choice used while resolving: whenever the loader accepts the same URLs (all of one
registry share a major version), both make the same choice for every registry. Missing with respect to the full
statement: graphs whose conflicts the loader does not see (`resolver_choice_order_refuted`). -/
theorem resolver_choice_partial (us : List SchemaUrl) (chosen : Chosen) (h : noteAllStrict [] us = .ok chosen) :
    ∀ n, aget n (noteAllLenient us) = aget n chosen := by
  suffices H : ∀ (us : List SchemaUrl) (a b chosen : Chosen), (∀ n, aget n a = aget n b) →
      noteAllStrict a us = .ok chosen → ∀ n, aget n (us.foldl noteLenient b) = aget n chosen from
    H us [] [] chosen (fun _ => rfl) h
  intro us
  induction us with
  | nil => intro a b chosen hab h n
           simp only [noteAllStrict, Except.ok.injEq] at h; subst h; exact (hab n).symm
  | cons u us ih =>
    intro a b chosen hab h n
    simp only [noteAllStrict] at h
    cases hs : noteStrict a u with
    | error e => rw [hs] at h; simp at h
    | ok c =>
      rw [hs] at h
      obtain ⟨d, hd, hcd⟩ := lookup_congr_strict a b hab u c hs
      have hl := noteLenient_eq_strict b u d hd
      simp only [List.foldl_cons]
      exact ih c (noteLenient b u) chosen (fun n => by rw [hcd, hl]) h n

example : ∃ c, noteAllStrict [] [u10, u12] = .ok c ∧ aget "acme.com/r" (noteAllLenient [u10, u12]) = some u12 :=
  ⟨_, rfl, by decide⟩

end Verif.Resolver
