import Verif.Resolver.RefsProps
import Verif.Resolver.VersionProps
/-
C06 and C54: which attribute a lookup in the dependencies gives, and the upgrade to the chosen version.
-/
namespace Verif.Resolver
open Verif.Util

/-! ### Specification -/

/-- Some dependency answers `k` with this attribute, declared by the registry `u`. -/
def Answer (w : World) (k : String) (a : Attr) (u : SchemaUrl) : Prop := ∃ d ∈ w.deps, d k = .ok (some (a, u))

/-- `u` and `u'` are versions of one registry with the same major version, `u` at least as new. -/
def AtLeast (u u' : SchemaUrl) : Prop :=
  u.name = u'.name ∧ ∃ v v', u.sv = some v ∧ u'.sv = some v' ∧ v.major = v'.major ∧ VerLe v' v

theorem AtLeast.trans {a b c : SchemaUrl} (h1 : AtLeast a b) (h2 : AtLeast b c) : AtLeast a c := by
  obtain ⟨n1, v1, v2, e1, e2, m1, l1⟩ := h1
  obtain ⟨n2, v3, v4, e3, e4, m2, l2⟩ := h2
  rw [e2] at e3
  injection e3 with e3
  subst e3
  exact ⟨n1.trans n2, v1, v4, e1, e4, m1.trans m2, verLe_trans l2 l1⟩

theorem resolveVersions_atLeast (u u2 x : SchemaUrl) (h : resolveVersions u u2 = .ok x) :
    (x = u ∧ AtLeast u u2) ∨ (x = u2 ∧ AtLeast u2 u) := by
  have hn : u.name = u2.name := by
    by_cases hn : u.name = u2.name
    · exact hn
    · have : ∃ e, resolveVersions u u2 = .error e := (conflict_error_iff u u2).2 (.inl hn)
      obtain ⟨e, he⟩ := this
      rw [h] at he; simp at he
  obtain ⟨hx, v, v1, v2, hv, h1, h2, hm, l1, l2⟩ := conflict_picks_greatest u u2 x h
  rcases hx with rfl | rfl
  · rw [h1] at hv; injection hv with hv; subst hv
    exact .inl ⟨rfl, hn, v1, v2, h1, h2, hm, l2⟩
  · rw [h2] at hv; injection hv with hv; subst hv
    exact .inr ⟨rfl, hn.symm, v2, v1, h2, h1, hm.symm, l1⟩

/-- What a set of answers and the answer kept so far have in common. -/
structure Best (S : List Rooted) (e : Rooted) : Prop where
  mem : e ∈ S
  excl : e.excl = true → ∀ m ∈ S, m.excl = true
  newest : e.excl = false → ∀ m ∈ S, m.excl = false → m = e ∨ ∃ u u', e.src = .dep u ∧ m.src = .dep u' ∧ AtLeast u u'

theorem foldMatches_best (k : String) (S : List Rooted) (e : Rooted) (ms : List Rooted) (o : Option Rooted)
    (hb : Best S e) (hd : ∀ m ∈ S ++ ms, m.isDef = true ∧ ∃ u, m.src = .dep u) (h : foldMatches k (some e) ms = .ok o) :
    ∃ r, o = some r ∧ Best (S ++ ms) r := by
  induction ms generalizing S e with
  | nil =>
    simp only [foldMatches, Except.ok.injEq] at h
    exact ⟨e, h.symm, by simpa using hb⟩
  | cons m ms ih =>
    have hassoc : S ++ m :: ms = (S ++ [m]) ++ ms := by simp
    rw [hassoc] at hd ⊢
    unfold foldMatches at h
    dsimp only at h
    by_cases hx : (m.excl || e.excl) = true
    · rw [if_pos hx] at h
      refine ih (S ++ [m]) _ ?_ hd h
      cases hm : m.excl with
      | true =>
        simp only [if_true]
        refine ⟨by simp [hb.mem], fun he x hxm => ?_, fun he x hxm hxx => ?_⟩
        · simp only [List.mem_append, List.mem_singleton] at hxm
          rcases hxm with hxm | rfl
          · exact hb.excl he x hxm
          · exact hm
        · simp only [List.mem_append, List.mem_singleton] at hxm
          rcases hxm with hxm | rfl
          · exact hb.newest he x hxm hxx
          · rw [hm] at hxx; simp at hxx
      | false =>
        have he : e.excl = true := by simpa [hm] using hx
        simp only [Bool.false_eq_true, if_false]
        refine ⟨by simp, fun h' => by rw [hm] at h'; simp at h', fun _ x hxm hxx => ?_⟩
        simp only [List.mem_append, List.mem_singleton] at hxm
        rcases hxm with hxm | rfl
        · rw [hb.excl he x hxm] at hxx; simp at hxx
        · exact .inl rfl
    · rw [if_neg hx] at h
      have hm : m.excl = false := by
        cases hm : m.excl with
        | false => rfl
        | true => simp [hm] at hx
      have he : e.excl = false := by
        cases he : e.excl with
        | false => rfl
        | true => simp [he] at hx
      obtain ⟨hmd, um, hum⟩ := hd m (by simp)
      obtain ⟨hed, ue, hue⟩ := hd e (by simp [hb.mem])
      have hres : resolveRoots k m e = match resolveVersions um ue with
          | .ok w => if w = ue then .ok e else .ok m
          | .error _ => .error (.ambiguous k um ue) := by
        unfold resolveRoots
        rw [hm, he, hmd, hed, hum, hue]
        simp only [ne_eq, not_true_eq_false, if_false, Bool.not_true, Bool.and_false, Bool.false_eq_true, Bool.false_and]
        cases resolveVersions um ue <;> rfl
      rw [hres] at h
      cases hv : resolveVersions um ue with
      | error er => rw [hv] at h; simp at h
      | ok win =>
        rw [hv] at h
        dsimp only at h
        by_cases hw : win = ue
        · rw [if_pos hw] at h
          refine ih (S ++ [m]) e ⟨by simp [hb.mem], fun h' => (by rw [he] at h'; simp at h'), fun _ x hxm hxx => ?_⟩ hd h
          simp only [List.mem_append, List.mem_singleton] at hxm
          rcases hxm with hxm | rfl
          · exact hb.newest he x hxm hxx
          · right
            refine ⟨ue, um, hue, hum, ?_⟩
            rcases resolveVersions_atLeast _ _ _ hv with ⟨h1, h2⟩ | ⟨_, h2⟩
            · rw [hw] at h1; subst h1; exact h2
            · exact h2
        · rw [if_neg hw] at h
          have hge : AtLeast um ue := by
            rcases resolveVersions_atLeast _ _ _ hv with ⟨_, h2⟩ | ⟨h1, _⟩
            · exact h2
            · exact absurd h1 hw
          refine ih (S ++ [m]) m ⟨by simp, fun h' => (by rw [hm] at h'; simp at h'), fun _ x hxm hxx => ?_⟩ hd h
          simp only [List.mem_append, List.mem_singleton] at hxm
          rcases hxm with hxm | rfl
          · rcases hb.newest he x hxm hxx with rfl | ⟨u, u', hu, hu', hal⟩
            · exact .inr ⟨um, ue, hum, hue, hge⟩
            · rw [hue] at hu; injection hu with hu; subst hu
              exact .inr ⟨um, u', hum, hu', hge.trans hal⟩
          · exact .inl rfl

theorem depMatches_spec (k : String) (ds : List AttrLookup) (ms : List Rooted) (h : depMatches k ds = .ok ms) :
    (∀ m, m ∈ ms ↔ ∃ d ∈ ds, ∃ a u, d k = .ok (some (a, u)) ∧ m = ⟨a, .dep u, true⟩) ∧ ∀ d ∈ ds, ∃ x, d k = .ok x := by
  induction ds generalizing ms with
  | nil => simp only [depMatches, Except.ok.injEq] at h; subst h; simp
  | cons d ds ih =>
    unfold depMatches at h
    cases hdk : d k with
    | error e => rw [hdk] at h; simp at h
    | ok x =>
      rw [hdk] at h
      dsimp only at h
      cases hr : depMatches k ds with
      | error e => rw [hr] at h; simp at h
      | ok ms' =>
        rw [hr] at h
        obtain ⟨h1, h2⟩ := ih ms' hr
        cases x with
        | none =>
          injection h with h; subst h
          refine ⟨fun m => ?_, fun d' hd' => ?_⟩
          · rw [h1 m]
            simp [hdk]
          · rcases List.mem_cons.1 hd' with rfl | hd'
            · exact ⟨_, hdk⟩
            · exact h2 d' hd'
        | some p =>
          injection h with h; subst h
          refine ⟨fun m => ?_, fun d' hd' => ?_⟩
          · simp only [List.mem_cons, h1 m, exists_eq_or_imp, hdk, Except.ok.injEq, Option.some.injEq]
            constructor
            · rintro (rfl | h)
              · exact .inl ⟨p.1, p.2, rfl, rfl⟩
              · exact .inr h
            · rintro (⟨a, u, rfl, rfl⟩ | h)
              · exact .inl rfl
              · exact .inr h
          · rcases List.mem_cons.1 hd' with rfl | hd'
            · exact ⟨_, hdk⟩
            · exact h2 d' hd'

/-- C54, C06: what a lookup in the dependencies gives is one of their answers; it is excluded only if all answers are;
and otherwise every other answer that is not excluded comes from the same registry, with the same major version and no
newer. -/
theorem depLookup_best (w : World) (k : String) (r : Rooted) (h : depLookup w k = .ok (some r)) :
    ∃ u, r.src = .dep u ∧ Answer w k r.attr u ∧
      (r.excl = true → ∀ a u', Answer w k a u' → isExcludedOpt a.annotations = true) ∧
      (r.excl = false → ∀ a u', Answer w k a u' → isExcludedOpt a.annotations = false →
        (a = r.attr ∧ u' = u) ∨ AtLeast u u') := by
  unfold depLookup at h
  cases hm : depMatches k w.deps with
  | error e => rw [hm] at h; simp at h
  | ok ms =>
    rw [hm] at h
    dsimp only at h
    obtain ⟨hs, _⟩ := depMatches_spec k w.deps ms hm
    have hd : ∀ m ∈ ms, m.isDef = true ∧ ∃ u, m.src = .dep u := by
      intro m hmm
      obtain ⟨d, _, a, u, _, rfl⟩ := (hs m).1 hmm
      exact ⟨rfl, u, rfl⟩
    have hb : Best ms r := by
      cases ms with
      | nil => simp [foldMatches] at h
      | cons m ms =>
        unfold foldMatches at h
        dsimp only at h
        obtain ⟨r', hr', hb⟩ := foldMatches_best k [m] m ms (some r)
          ⟨by simp, fun he x hx => by simp at hx; rw [hx]; exact he, fun _ x hx _ => .inl (by simpa using hx)⟩ (by simpa using hd) h
        injection hr' with hr'; subst hr'
        exact hb
    obtain ⟨d, hdm, a, u, hdk, rfl⟩ := (hs r).1 hb.mem
    refine ⟨u, rfl, ⟨d, hdm, hdk⟩, ?_, ?_⟩
    · intro he a' u' ⟨d', hd', hk'⟩
      exact hb.excl he ⟨a', .dep u', true⟩ ((hs _).2 ⟨d', hd', a', u', hk', rfl⟩)
    · intro he a' u' ⟨d', hd', hk'⟩ hx
      rcases hb.newest he ⟨a', .dep u', true⟩ ((hs _).2 ⟨d', hd', a', u', hk', rfl⟩) hx with h1 | ⟨v, v', h1, h2, h3⟩
      · left
        simp only [Rooted.mk.injEq, Src.dep.injEq] at h1
        exact ⟨h1.1, h1.2.1⟩
      · right
        simp only [Src.dep.injEq] at h1 h2
        rw [h1, h2]; exact h3

/-- C54: a lookup in the dependencies finds nothing exactly when no dependency has the attribute (and none fails). -/
theorem depLookup_none_iff (w : World) (k : String) :
    depLookup w k = .ok none ↔ ∀ d ∈ w.deps, d k = .ok none := by
  constructor
  · intro h
    unfold depLookup at h
    cases hm : depMatches k w.deps with
    | error e => rw [hm] at h; simp at h
    | ok ms =>
      rw [hm] at h
      dsimp only at h
      obtain ⟨hs, hall⟩ := depMatches_spec k w.deps ms hm
      have hnil : ms = [] := by
        cases ms with
        | nil => rfl
        | cons m ms =>
          exfalso
          unfold foldMatches at h
          dsimp only at h
          obtain ⟨r', hr', _⟩ := foldMatches_best k [m] m ms none
            ⟨by simp, fun he x hx => by simp at hx; rw [hx]; exact he, fun _ x hx _ => .inl (by simpa using hx)⟩
            (by
              intro x hx
              obtain ⟨d, _, a, u, _, rfl⟩ := (hs x).1 (by simpa using hx)
              exact ⟨rfl, u, rfl⟩) h
          simp at hr'
      intro d hd
      obtain ⟨x, hx⟩ := hall d hd
      cases x with
      | none => exact hx
      | some p =>
        have : (⟨p.1, .dep p.2, true⟩ : Rooted) ∈ ms := (hs _).2 ⟨d, hd, p.1, p.2, hx, rfl⟩
        rw [hnil] at this; simp at this
  · intro h
    have : ∀ ds : List AttrLookup, (∀ d ∈ ds, d k = .ok none) → depMatches k ds = .ok [] := by
      intro ds
      induction ds with
      | nil => intro _; rfl
      | cons d ds ih =>
        intro hh
        unfold depMatches
        rw [hh d (by simp), ih (fun x hx => hh x (by simp [hx]))]
    unfold depLookup
    rw [this w.deps h]
    rfl

/-- C54, C06: two answers that are not excluded, from different registries, are an error, never a silent
choice. -/
theorem depLookup_ambiguous (w : World) (k : String) (a1 a2 : Attr) (u1 u2 : SchemaUrl) (h1 : Answer w k a1 u1)
    (h2 : Answer w k a2 u2) (hn : u1.name ≠ u2.name) (e1 : isExcludedOpt a1.annotations = false)
    (e2 : isExcludedOpt a2.annotations = false) : ∃ e, depLookup w k = .error e := by
  cases h : depLookup w k with
  | error e => exact ⟨e, rfl⟩
  | ok o =>
    exfalso
    cases o with
    | none =>
      rw [depLookup_none_iff] at h
      obtain ⟨d, hd, hk⟩ := h1
      rw [h d hd] at hk; simp at hk
    | some r =>
      obtain ⟨u, _, _, hx, hnew⟩ := depLookup_best w k r h
      cases hr : r.excl with
      | true => rw [hx hr a1 u1 h1] at e1; simp at e1
      | false =>
        have q1 : u.name = u1.name := by
          rcases hnew hr a1 u1 h1 e1 with ⟨_, rfl⟩ | h
          · rfl
          · exact h.1
        have q2 : u.name = u2.name := by
          rcases hnew hr a2 u2 h2 e2 with ⟨_, rfl⟩ | h
          · rfl
          · exact h.1
        exact hn (q1.symm.trans q2)

/-- C54: when a newer version of the declaring registry was chosen for the whole graph and its schema is known, the
attribute used is the one of that version, and the registry recorded for it is that version; if that version does not
have the attribute, resolution fails. -/
theorem upgrade_uses_chosen (w : World) (a : Attr) (b : Bool) (u c : SchemaUrl) (s : AttrLookup) (v vc : Ver)
    (hc : w.chosen u.name = some c) (hname : c.name = u.name) (hv : u.sv = some v) (hvc : c.sv = some vc)
    (hmaj : v.major = vc.major) (hle : VerLe v vc) (hne : c ≠ u) (hs : w.schema c = some s) (o : Except String (Option (Attr × SchemaUrl)))
    (ho : s a.name = o) :
    upgrade w ⟨a, .dep u, b⟩ = match o with
      | .error e => .error (.invalidUrl e)
      | .ok (some p) => .ok ⟨p.1, .dep c, true⟩
      | .ok none => .error (.notInUpgraded a.name u c) := by
  have hres : resolveVersions u c = .ok c := by
    rw [resolve_eq u c hname.symm v vc hv hvc hmaj]
    have : ¬ vc.lt v = true := by rw [ver_lt_iff]; simpa using hle
    rw [if_neg this]
  unfold upgrade
  simp only [hc, if_pos hne, hres, if_true, hs, ho]
  cases o with
  | error e => rfl
  | ok x => cases x <;> rfl

/-- C54: an attribute is never replaced by that of an older version, nor by that of another registry. -/
theorem upgrade_never_older (w : World) (r o : Rooted) (h : upgrade w r = .ok o) :
    o = r ∨ ∃ u c, r.src = .dep u ∧ o.src = .dep c ∧ AtLeast c u := by
  unfold upgrade at h
  split at h
  · injection h with h; exact .inl h.symm
  · rename_i u hu
    split at h
    · injection h with h; exact .inl h.symm
    · rename_i c hc
      split at h
      · split at h
        · simp at h
        · rename_i win hw
          split at h
          · rename_i hwin
            split at h
            · injection h with h; exact .inl h.symm
            · split at h
              · simp at h
              · rename_i p hp
                injection h with h
                subst h
                refine .inr ⟨u, c, hu, rfl, ?_⟩
                rcases resolveVersions_atLeast _ _ _ hw with ⟨h1, h2⟩ | ⟨_, h2⟩
                · rw [hwin] at h1; subst h1; exact h2
                · exact h2
              · simp at h
          · injection h with h; exact .inl h.symm
      · injection h with h; exact .inl h.symm

/-! ### Non-vacuity -/

private def acme (m : Nat) : SchemaUrl := { name := "acme", tail := "/1", sv := some ⟨1, m, 0, 0⟩ }
private def attrB (b : String) : Attr := { name := "x", type := "int", brief := b }
private def exW : World :=
  ⟨[fun _ => .ok (some (attrB "old", acme 0)), fun _ => .ok none, fun _ => .ok (some (attrB "new", acme 2))],
   fun _ => some (acme 3), fun u => if u = acme 3 then some (fun _ => .ok (some (attrB "newest", acme 3))) else none⟩

example : depLookup exW "x" = .ok (some ⟨attrB "new", .dep (acme 2), true⟩) := by rfl
example : upgrade exW ⟨attrB "new", .dep (acme 2), true⟩ = .ok ⟨attrB "newest", .dep (acme 3), true⟩ := by rfl

end Verif.Resolver
