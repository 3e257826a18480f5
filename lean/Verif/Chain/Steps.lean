import Verif.Chain.Model
import Verif.Resolver.PipelineProps
import Verif.Resolver.InheritProps
/-
Facts about the phases of resolution that the theorems about chains of registries need: what inheritance leaves as a
definition, and what the root attributes of a resolved registry are.
-/
namespace Verif.Chain
open Verif.Util Verif.Resolver Verif.Pipeline

/-! ### Inheritance makes no definitions -/

/-- A specification that is a reference, or a definition without a dependency as its origin, satisfies `D`. -/
def GoodSpec (D : AttrSpec → Prop) (s : AttrSpec) (origin : Option SchemaUrl) : Prop :=
  (s.isRef = true ∨ origin = none) → D s

/-- `D` is kept when a reference is laid over an attribute of the same name. -/
def Closed (D : AttrSpec → Prop) : Prop :=
  ∀ s old : AttrSpec, s.isRef = true → old.key = s.key → D s → D old → D (overlay s old)

/-- A reference after an attribute of the same name finds it of local origin. -/
def Below2 (b a : UAttr) : Prop := b.spec.key = a.spec.key → a.spec.isRef = true → b.origin = none

/-- The attributes of a group on its way through inheritance. -/
structure GoodAttrs (D : AttrSpec → Prop) (as : List UAttr) : Prop where
  each : ∀ a ∈ as, GoodSpec D a.spec a.origin
  pair : as.Pairwise Below2

theorem goodSpec_overlay {D : AttrSpec → Prop} (hD : Closed D) {s old : AttrSpec} {o o' : Option SchemaUrl}
    (hs : s.isRef = true → D s) (hi : s.isRef = false → GoodSpec D s o) (ho : GoodSpec D old o') (hk : old.key = s.key)
    (h : s.isRef = true → o = none → o' = none) : GoodSpec D (overlay s old) o := by
  cases s with
  | id i f => rw [overlay_def]; exact hi rfl
  | ref r f =>
    intro hor
    refine hD _ _ rfl hk (hs rfl) (ho ?_)
    cases old with
    | ref r' p => exact .inl rfl
    | id i p =>
      rcases hor with h1 | h1
      · simp [overlay, resolveInheritanceAttr, AttrSpec.isRef] at h1
      · exact .inr (h rfl h1)

/-- The map after some base attributes. -/
structure BaseInv (D : AttrSpec → Prop) (seen : List UAttr) (m : List (String × Entry)) : Prop where
  good : ∀ k e, aget k m = some e → GoodSpec D e.spec e.origin ∧ e.spec.key = k ∧
    ∃ b ∈ seen, b.spec.key = k ∧ b.origin = e.origin
  sorted : KeySorted m

theorem stepBase_inv {D : AttrSpec → Prop} (hD : Closed D) {seen : List UAttr} {m : List (String × Entry)} (g : String) (a : UAttr)
    (hi : BaseInv D seen m) (ha : GoodSpec D a.spec a.origin) (hb : ∀ b ∈ seen, Below2 b a) :
    BaseInv D (seen ++ [a]) (stepBase g m a) := by
  have old : ∀ (v : Entry), GoodSpec D v.spec v.origin → v.spec.key = a.spec.key → v.origin = a.origin →
      BaseInv D (seen ++ [a]) (bins a.spec.key v m) := by
    intro v hv hk ho
    refine ⟨?_, keySorted_bins hi.sorted⟩
    intro k e hke
    rw [aget_bins] at hke
    by_cases h : k = a.spec.key
    · rw [if_pos h] at hke
      injection hke with hke
      subst hke
      exact ⟨hv, hk.trans h.symm, a, by simp, h.symm, ho.symm⟩
    · rw [if_neg h] at hke
      obtain ⟨h1, h2, b, hb1, hb2⟩ := hi.good k e hke
      exact ⟨h1, h2, b, by simp [hb1], hb2⟩
  unfold stepBase
  cases hg : aget a.spec.key m with
  | none => exact old _ ha rfl rfl
  | some e =>
    obtain ⟨h1, h2, b, hb1, hb2, hb3⟩ := hi.good _ _ hg
    dsimp only
    refine old _ ?_ ?_ rfl
    · dsimp only
      rw [resolve_val]
      refine goodSpec_overlay hD (fun h => ha (.inl h)) (fun _ => ha) h1 h2 ?_
      intro hr _
      rw [← hb3]
      exact hb b hb1 hb2 hr
    · dsimp only
      rw [resolve_val, overlay_key]

theorem foldBase_inv {D : AttrSpec → Prop} (hD : Closed D) (g : String) (as seen : List UAttr) (m : List (String × Entry))
    (hi : BaseInv D seen m) (ha : ∀ a ∈ as, GoodSpec D a.spec a.origin) (hp : (seen ++ as).Pairwise Below2) :
    BaseInv D (seen ++ as) (as.foldl (stepBase g) m) := by
  induction as generalizing seen m with
  | nil => simpa using hi
  | cons a as ih =>
    have h1 : BaseInv D (seen ++ [a]) (stepBase g m a) := stepBase_inv hD g a hi (ha a (by simp))
      (fun b hb => (List.pairwise_append.1 hp).2.2 b hb a (by simp))
    have := ih (seen ++ [a]) _ h1 (fun x hx => ha x (by simp [hx])) (by simpa using hp)
    simpa using this

theorem foldBases_inv {D : AttrSpec → Prop} (hD : Closed D) (bases : List (String × List UAttr)) (seen : List UAttr)
    (m : List (String × Entry)) (hi : BaseInv D seen m)
    (ha : ∀ a ∈ bases.flatMap (fun b => b.2), GoodSpec D a.spec a.origin)
    (hp : (seen ++ bases.flatMap (fun b => b.2)).Pairwise Below2) :
    BaseInv D (seen ++ bases.flatMap (fun b => b.2)) (bases.foldl (fun m b => b.2.foldl (stepBase b.1) m) m) := by
  induction bases generalizing seen m with
  | nil => simpa using hi
  | cons b bases ih =>
    simp only [List.flatMap_cons, List.mem_append, List.foldl_cons] at ha hp ⊢
    rw [← List.append_assoc] at hp ⊢
    exact ih _ _ (foldBase_inv hD b.1 b.2 seen m hi (fun a h => ha a (.inl h)) (List.pairwise_append.1 hp).1)
      (fun a h => ha a (.inr h)) hp

theorem stepOwn_inv {D : AttrSpec → Prop} (hD : Closed D) {m : List (String × Entry)} (g : String) (a : UAttr)
    (hi : (∀ k e, aget k m = some e → GoodSpec D e.spec e.origin ∧ e.spec.key = k) ∧ KeySorted m)
    (ha : GoodSpec D a.spec a.origin) :
    (∀ k e, aget k (stepOwn g m a) = some e → GoodSpec D e.spec e.origin ∧ e.spec.key = k) ∧
      KeySorted (stepOwn g m a) := by
  have old : ∀ (i : String) (v : Entry), GoodSpec D v.spec v.origin → v.spec.key = i →
      (∀ k e, aget k (bins i v m) = some e → GoodSpec D e.spec e.origin ∧ e.spec.key = k) ∧ KeySorted (bins i v m) := by
    intro i v hv hk
    refine ⟨?_, keySorted_bins hi.2⟩
    intro k e hke
    rw [aget_bins] at hke
    by_cases h : k = i
    · rw [if_pos h] at hke
      injection hke with hke
      subst hke
      exact ⟨hv, hk.trans h.symm⟩
    · rw [if_neg h] at hke
      exact hi.1 k e hke
  obtain ⟨s, o⟩ := a
  unfold stepOwn
  cases s with
  | id i f => exact old i _ ha rfl
  | ref r f =>
    dsimp only
    cases hg : aget r m with
    | none => exact old r _ ha rfl
    | some e =>
      obtain ⟨h1, h2⟩ := hi.1 _ _ hg
      dsimp only
      refine old r _ ?_ ?_
      · dsimp only
        rw [resolve_val]
        exact goodSpec_overlay hD (fun _ => ha (.inl rfl)) (fun h => by cases h) h1 h2 (fun _ h => h)
      · dsimp only
        rw [resolve_val, overlay_key]; rfl

theorem foldOwn_inv {D : AttrSpec → Prop} (hD : Closed D) (g : String) (as : List UAttr) (m : List (String × Entry))
    (hi : (∀ k e, aget k m = some e → GoodSpec D e.spec e.origin ∧ e.spec.key = k) ∧ KeySorted m)
    (ha : ∀ a ∈ as, GoodSpec D a.spec a.origin) :
    (∀ k e, aget k (as.foldl (stepOwn g) m) = some e → GoodSpec D e.spec e.origin ∧ e.spec.key = k) ∧
      KeySorted (as.foldl (stepOwn g) m) := by
  induction as generalizing m with
  | nil => exact hi
  | cons a as ih => exact ih _ (stepOwn_inv hD g a hi (ha a (by simp))) (fun x hx => ha x (by simp [hx]))

theorem inheritAttrs_good {D : AttrSpec → Prop} (hD : Closed D) (gid : String) (own : List UAttr) (bases : List (String × List UAttr))
    (ho : ∀ a ∈ own, GoodSpec D a.spec a.origin) (hb : GoodAttrs D (bases.flatMap (fun b => b.2))) :
    GoodAttrs D (inheritAttrs gid own bases) := by
  have h0 : BaseInv D [] [] := ⟨fun k e h => by simp [aget] at h, .nil⟩
  have h1 := foldBases_inv hD bases [] [] h0 hb.each (by simpa using hb.pair)
  have h2 := foldOwn_inv hD gid own _ ⟨fun k e h => ⟨(h1.good k e h).1, (h1.good k e h).2.1⟩, h1.sorted⟩ ho
  change (∀ k e, aget k (inheritMap gid own bases) = some e → _) ∧ KeySorted (inheritMap gid own bases) at h2
  have hn := keySorted_nodup h2.2
  refine ⟨?_, ?_⟩
  · intro a ha
    obtain ⟨⟨k, e⟩, hp, rfl⟩ := List.mem_map.1 ha
    exact (h2.1 k e (aget_of_mem_nodup hn hp)).1
  · unfold inheritAttrs
    rw [List.pairwise_map]
    have hs := h2.2
    unfold KeySorted at hs
    rw [List.pairwise_iff_getElem] at hs ⊢
    intro i j hi hj hij hk _
    have hlt := hs i j hi hj hij
    generalize hei : (inheritMap gid own bases)[i] = p at hk hlt
    generalize hej : (inheritMap gid own bases)[j] = q at hk hlt
    obtain ⟨k1, e1⟩ := p
    obtain ⟨k2, e2⟩ := q
    have m1 := (h2.1 k1 e1 (aget_of_mem_nodup hn (hei ▸ List.getElem_mem hi))).2
    have m2 := (h2.1 k2 e2 (aget_of_mem_nodup hn (hej ▸ List.getElem_mem hj))).2
    dsimp only at hk hlt
    rw [m1, m2] at hk
    subst hk
    exact absurd hlt (String.lt_irrefl _)

/-! ### `extends` and `include_groups` -/

/-- Group `c` during the resolution of the groups `gs`. -/
structure GoodGroup (D : AttrSpec → Prop) (gs : List UGroup) (c : UGroup) : Prop where
  attrs : GoodAttrs D c.attrs
  from_ : ∃ g ∈ gs, c.id = g.id ∧ c.pfx = g.pfx
  pending : isPending c = true → c ∈ gs

theorem applyParent_pfx (g : UGroup) (x : String) (p : Summary) : (applyParent g x p).pfx = g.pfx := by
  unfold applyParent inheritV2; dsimp only; split <;> rfl

theorem attempt_good {D : AttrSpec → Prop} (hD : Closed D) {gs : List UGroup} {deps : List DepLookup} {idx : String → Option Summary}
    {g : UGroup} {d : Done} (hdeps : ∀ dl ∈ deps, ∀ x s, dl x = some s → GoodAttrs D s.attrs)
    (hmix : ∀ g ∈ gs, g.ext = none ∨ g.includes = [])
    (hidx : ∀ x s, idx x = some s → GoodAttrs D s.attrs) (hg : GoodGroup D gs g) (hpend : isPending g = true)
    (h : attempt deps idx g = .ok d) : GoodGroup D gs d.group := by
  obtain ⟨⟨h1, h2⟩, h3⟩ := (attempt_ok_iff deps idx g d).1 h
  have hinc : ∀ b ∈ includedAttrs idx g.includes, GoodAttrs D b.2 := by
    intro b hb
    obtain ⟨i, hi, hs⟩ := List.mem_filterMap.1 hb
    cases hx : idx i with
    | none => simp [hx] at hs
    | some s =>
      rw [hx] at hs
      simp only [Option.map_some, Option.some.injEq] at hs
      subst hs
      exact hidx i s hx
  obtain ⟨g0, hg0, hid, hpf⟩ := hg.from_
  rcases h3 with ⟨_, rfl⟩ | ⟨x, p, hx, hl, _, rfl⟩
  · refine ⟨?_, ⟨g0, hg0, hid, hpf⟩, by simp [finalize, isPending]⟩
    refine inheritAttrs_good hD _ _ _ hg.attrs.each ⟨?_, ?_⟩
    · intro a ha
      obtain ⟨b, hb, hab⟩ := List.mem_flatMap.1 ha
      exact (hinc b hb).each a hab
    · refine (List.pairwise_map.1 h2).imp ?_
      intro a b hab hk
      exact absurd hk hab
  · refine ⟨?_, ⟨g0, hg0, ?_, ?_⟩, by simp [finalize, isPending]⟩
    · have hincl : g.includes = [] := by
        rcases hmix g (hg.pending hpend) with h | h
        · rw [h] at hx; cases hx
        · exact h
      have hp : GoodAttrs D p.attrs := by
        unfold lookupGroup at hl
        cases hi : idx x with
        | some s => rw [hi] at hl; dsimp only at hl; injection hl with hl; subst hl; exact hidx x s hi
        | none =>
          rw [hi] at hl
          dsimp only at hl
          have key : ∀ (ds : List DepLookup), (∀ dl ∈ ds, dl ∈ deps) → ∀ ex, lookupDeps ds x ex = .found p → GoodAttrs D p.attrs := by
            intro ds
            induction ds with
            | nil => intro _ ex h; unfold lookupDeps at h; split at h <;> cases h
            | cons dl ds ih =>
              intro hm ex h
              unfold lookupDeps at h
              cases hdx : dl x with
              | none => rw [hdx] at h; exact ih (fun y hy => hm y (by simp [hy])) ex h
              | some s =>
                rw [hdx] at h
                dsimp only at h
                split at h
                · exact ih (fun y hy => hm y (by simp [hy])) true h
                · injection h with h
                  subst h
                  exact hdeps dl (hm dl (by simp)) x s hdx
          exact key deps (fun _ h => h) false hl
      dsimp only [finalize]
      rw [applyParent_attrs]
      refine inheritAttrs_good hD _ _ _ hg.attrs.each ?_
      rw [hincl]
      simpa [includedAttrs] using hp
    · simp [finalize, applyParent_id, hid]
    · simp [finalize, applyParent_pfx, hpf]

theorem pass_good {D : AttrSpec → Prop} (hD : Closed D) {gs : List UGroup} {deps : List DepLookup}
    (hdeps : ∀ dl ∈ deps, ∀ x s, dl x = some s → GoodAttrs D s.attrs)
    (hmix : ∀ g ∈ gs, g.ext = none ∨ g.includes = []) (cs : List UGroup) (idx : List (String × Summary))
    (hidx : ∀ x s, aget x idx = some s → GoodAttrs D s.attrs) (hc : ∀ c ∈ cs, GoodGroup D gs c) :
    ∀ c ∈ (pass deps idx cs).groups, GoodGroup D gs c := by
  induction cs generalizing idx with
  | nil => simp [pass]
  | cons c cs ih =>
    have hcs : ∀ c ∈ cs, GoodGroup D gs c := fun x hx => hc x (by simp [hx])
    have same : ∀ x ∈ c :: (pass deps idx cs).groups, GoodGroup D gs x := by
      intro x hx
      rcases List.mem_cons.1 hx with rfl | hx
      · exact hc x (by simp)
      · exact ih idx hidx hcs x hx
    unfold pass
    split
    · rename_i hpend
      split
      · exact same
      · rename_i d hd
        have hd' := attempt_good hD hdeps hmix hidx (hc c (by simp)) hpend hd
        intro x hx
        rcases List.mem_cons.1 hx with rfl | hx
        · exact hd'
        · refine ih _ ?_ hcs x hx
          intro y s hy
          rw [aget_aset] at hy
          split at hy
          · injection hy with hy; subst hy; exact hd'.attrs
          · exact hidx y s hy
    · exact same

theorem buildIndex_good {D : AttrSpec → Prop} {gs : List UGroup} (cs : List UGroup) (hc : ∀ c ∈ cs, GoodGroup D gs c) :
    ∀ x s, aget x (buildIndex cs) = some s → GoodAttrs D s.attrs := by
  unfold buildIndex
  suffices H : ∀ (m : List (String × Summary)), (∀ x s, aget x m = some s → GoodAttrs D s.attrs) →
      ∀ x s, aget x (cs.foldl (fun m g => if isPending g then m else aset g.id g.summary m) m) = some s →
        GoodAttrs D s.attrs from H [] (fun x s h => by simp [aget] at h)
  induction cs with
  | nil => intro m hm; exact hm
  | cons c cs ih =>
    intro m hm
    refine ih (fun x hx => hc x (by simp [hx])) _ ?_
    intro x s hx
    dsimp only at hx
    split at hx
    · exact hm x s hx
    · rw [aget_aset] at hx
      split at hx
      · injection hx with hx; subst hx; exact (hc c (by simp)).attrs
      · exact hm x s hx

/-- What inheritance leaves: the references, and the definitions of local origin, satisfy what those of the files do. -/
theorem resolveExtends_good {D : AttrSpec → Prop} (hD : Closed D) {gs cs : List UGroup} {deps : List DepLookup}
    (hdeps : ∀ dl ∈ deps, ∀ x s, dl x = some s → GoodAttrs D s.attrs)
    (hmix : ∀ g ∈ gs, g.ext = none ∨ g.includes = []) (hgs : ∀ g ∈ gs, GoodAttrs D g.attrs)
    (h : resolveExtends deps gs = .ok cs) : ∀ c ∈ cs, GoodGroup D gs c := by
  have loop : ∀ n xs fatal ys f, (∀ c ∈ xs, GoodGroup D gs c) → extLoop deps n xs fatal = .done ys f →
      ∀ c ∈ ys, GoodGroup D gs c := by
    intro n
    induction n with
    | zero => intro xs fatal ys f _ h; simp [extLoop] at h
    | succ n ih =>
      intro xs fatal ys f hx h
      have hp := pass_good hD hdeps hmix xs (buildIndex xs) (buildIndex_good xs hx) hx
      unfold extLoop at h
      dsimp only at h
      split at h
      · injection h with h1 h2; subst h1; exact hp
      · split at h
        · cases h
        · exact ih _ _ _ _ hp h
  unfold resolveExtends runExtends at h
  split at h
  · rename_i gs' hr
    injection h with h; subst h
    exact loop _ _ _ _ _ (fun g hg => ⟨hgs g hg, ⟨g, hg, rfl, rfl⟩, fun _ => hg⟩) hr
  · cases h
  · cases h
  · cases h

/-! ### The root attributes -/

/-- What holds of the state of the attribute phase whenever every step keeps it, holds at the end. `A p a` is what is known
of an attribute `a` of a group with prefix `p`. -/
theorem passAttrs_ind {w : World} (A : String → UAttr → Prop) (Q : RState → Prop)
    (b : Bool) (hstep : ∀ g st a, A g.pfx a → (b = true → a.spec.isRef = false) → Q st → Q (resolveAttr w g st a).1)
    (g : RGrp) (as : List UAttr) (has : ∀ a ∈ as, A g.pfx a) (st : RState) (hi : Q st) (o : RefPassOut)
    (h : passAttrs w b g st as = .ok o) : Q o.st ∧ ∀ a ∈ o.still, a ∈ as := by
  induction as generalizing st o with
  | nil => simp only [passAttrs, Except.ok.injEq] at h; subst h; exact ⟨hi, by simp⟩
  | cons a as ih =>
    have ih := ih (fun x hx => has x (by simp [hx]))
    have keep : ∀ st1 o1 (o2 : RefPassOut), Q st1 → passAttrs w b g st1 as = .ok o1 → o2.st = o1.st →
        (∀ x ∈ o2.still, x = a ∨ x ∈ o1.still) → Q o2.st ∧ ∀ x ∈ o2.still, x ∈ a :: as := by
      intro st1 o1 o2 hq h1 e1 e2
      obtain ⟨q, m⟩ := ih st1 hq o1 h1
      refine ⟨e1 ▸ q, ?_⟩
      intro x hx
      rcases e2 x hx with rfl | hx
      · simp
      · simp [m x hx]
    unfold passAttrs at h
    split at h
    · split at h
      · cases h
      · rename_i o1 h1
        injection h with h; subst h
        exact keep st o1 _ hi h1 rfl (fun x hx => by simpa using hx)
    · rename_i hb
      dsimp only at h
      have hs := hstep g st a (has a (by simp)) (by intro e; subst e; simpa using hb) hi
      split at h
      · split at h
        · cases h
        · rename_i o1 h1
          injection h with h; subst h
          exact keep _ o1 _ hs h1 rfl (fun x hx => .inr hx)
      · split at h
        · cases h
        · rename_i o1 h1
          injection h with h; subst h
          exact keep _ o1 _ hs h1 rfl (fun x hx => by simpa using hx)
      · split at h
        · cases h
        · rename_i o1 h1
          injection h with h; subst h
          exact keep _ o1 _ hs h1 rfl (fun x hx => by simpa using hx)
      · cases h

theorem passGroups_ind {w : World} (A : String → UAttr → Prop) (Q : RState → Prop)
    (b : Bool) (hstep : ∀ g st a, A g.pfx a → (b = true → a.spec.isRef = false) → Q st → Q (resolveAttr w g st a).1)
    (gs : List RGrp) (hgs : ∀ g ∈ gs, ∀ a ∈ g.pending, A g.pfx a) (st : RState) (hi : Q st) (o : GroupsOut)
    (h : passGroups w b st gs = .ok o) : Q o.st ∧ ∀ g ∈ o.groups, ∀ a ∈ g.pending, A g.pfx a := by
  induction gs generalizing st o with
  | nil => simp only [passGroups, Except.ok.injEq] at h; subst h; exact ⟨hi, by simp⟩
  | cons g gs ih =>
    unfold passGroups at h
    split at h
    · cases h
    · rename_i o1 h1
      split at h
      · cases h
      · rename_i r hr
        injection h with h; subst h
        obtain ⟨q1, m1⟩ := passAttrs_ind A Q b hstep g _ (hgs g (by simp)) st hi o1 h1
        obtain ⟨q2, m2⟩ := ih (fun x hx => hgs x (by simp [hx])) _ q1 r hr
        refine ⟨q2, ?_⟩
        intro c hc a ha
        rcases List.mem_cons.1 hc with rfl | hc
        · exact hgs g (by simp) a (m1 a ha)
        · exact m2 c hc a ha

theorem resolveRefs_ind {w : World} (A : String → UAttr → Prop) (Q : RState → Prop)
    (hstep : ∀ g st a, A g.pfx a → Q st → Q (resolveAttr w g st a).1)
    (gs : List RGrp) (hgs : ∀ g ∈ gs, ∀ a ∈ g.pending, A g.pfx a) (h0 : Q ⟨[], []⟩) (st' : RState) (gs' : List RGrp)
    (h : resolveRefs w ⟨[], []⟩ gs = .ok st' gs') : Q st' := by
  have loop : ∀ init n st cs, (∀ g ∈ cs, ∀ a ∈ g.pending, A g.pfx a) → Q st → refLoop w init n st cs = .ok st' gs' → Q st' := by
    intro init n
    induction n with
    | zero => intro st cs _ _ h; simp [refLoop] at h
    | succ n ih =>
      intro st cs hcs hi h
      unfold refLoop at h
      split at h
      · cases h
      · rename_i r hr
        obtain ⟨q, m⟩ := passGroups_ind A Q false (fun g st a ha _ => hstep g st a ha) cs hcs st hi r hr
        split at h
        · injection h with h1 h2; subst h1; exact q
        · split at h
          · cases h
          · exact ih _ _ m q h
  unfold resolveRefs at h
  split at h
  · cases h
  · rename_i r hr
    obtain ⟨q, m⟩ := passGroups_ind A Q true (fun g st a ha _ => hstep g st a ha) gs hgs _ h0 r hr
    exact loop _ _ _ _ m q h

/-- Every attribute of the catalog has a root attribute of its name. -/
def Cover (st : RState) : Prop := ∀ p ∈ st.cat, ∃ r, aget p.1.name st.roots = some r

theorem attributeRef_mem {c : Cat Attr} {x : Attr} {p : Attr × Nat} (h : p ∈ (attributeRef c x).1) : p.1 = x ∨ p ∈ c := by
  unfold attributeRef at h
  split at h
  · exact .inr h
  · rcases List.mem_append.1 h with h | h
    · exact .inr h
    · simp only [List.mem_cons, List.not_mem_nil, or_false] at h
      subst h; exact .inl rfl

theorem aset_keeps (k k' : String) {V : Type} (v : V) (m : List (String × V)) (h : ∃ r, aget k m = some r) :
    ∃ r, aget k (aset k' v m) = some r := by
  rw [aget_aset]
  split
  · exact ⟨_, rfl⟩
  · exact h

theorem cover_step (w : World) (g : RGrp) (st : RState) (a : UAttr) (h : Cover st) : Cover (resolveAttr w g st a).1 := by
  have add : ∀ (roots : List (String × Rooted)) (x : Attr), (∀ k, (∃ r, aget k st.roots = some r) → ∃ r, aget k roots = some r) →
      (∃ r, aget x.name roots = some r) → Cover ⟨roots, (attributeRef st.cat x).1⟩ := by
    intro roots x hk hx p hp
    rcases attributeRef_mem hp with h1 | h1
    · rw [h1]; exact hx
    · exact hk _ (h p h1)
  have use : ∀ (roots : List (String × Rooted)) r f root,
      (∀ k, (∃ r, aget k st.roots = some r) → ∃ r, aget k roots = some r) → (∃ x, aget r roots = some x) →
      Cover (useRoot g { st with roots := roots } r f root).1 := by
    intro roots r f root hk hr
    unfold useRoot
    split
    · exact fun p hp => hk _ (h p hp)
    · dsimp only
      rw [overlayRef_attr]
      split
      · exact add _ _ (fun k hx => aset_keeps k _ _ _ (hk k hx)) (by rw [aget_aset]; exact ⟨_, if_pos rfl⟩)
      · exact add _ _ hk hr
  obtain ⟨s, o⟩ := a
  unfold resolveAttr
  cases s with
  | ref r f =>
    dsimp only
    split
    · rename_i root hroot
      refine use st.roots r f root (fun _ h => h) ?_
      unfold knownDef at hroot
      split at hroot
      · rename_i x hx; exact ⟨x, hx⟩
      · cases hroot
    · split
      · exact h
      · exact h
      · split
        · exact h
        · exact use _ r f _ (fun k hx => aset_keeps k _ _ _ hx) ⟨_, by rw [aget_aset]; exact if_pos rfl⟩
  | id i f =>
    dsimp only
    unfold useId
    split
    · exact h
    · dsimp only
      split
      · exact h
      · exact add _ _ (fun k hx => aset_keeps k _ _ _ hx) ⟨_, by rw [aget_aset]; exact if_pos rfl⟩

/-! ### Definitions come first -/

/-- The root of `k` is a definition of this registry. -/
def OwnRoot (k : String) (st : RState) : Prop := ∃ r g, aget k st.roots = some r ∧ r.isDef = true ∧ r.src = .loc g

/-- During the pass over the definitions: the root of `k` is a definition of this registry that is not excluded. -/
def OwnRoot1 (k : String) (st : RState) : Prop :=
  ∃ r g, aget k st.roots = some r ∧ r.isDef = true ∧ r.src = .loc g ∧ r.excl = false

/-- During the pass over the definitions: a root that is a definition is one of this registry. -/
def LocalDefs (st : RState) : Prop := ∀ k r, aget k st.roots = some r → r.isDef = true → ∃ g, r.src = .loc g

/-- `a` defines `k`, and not as excluded. -/
def DefinesPlainly (k : String) (a : UAttr) : Prop :=
  a.origin = none ∧ ∃ f, a.spec = .id k f ∧ isExcludedOpt f.annotations = false

/-- What the definition `i` of group `g`, with origin `o`, is as a root. -/
def rootOf (g : RGrp) (i : String) (f : IdFields) (o : Option SchemaUrl) : Rooted :=
  { attr := attrOfId i f, src := (match o with | some u => Src.dep u | none => Src.loc g.id), isDef := o.isNone }

theorem resolveAttr_id (w : World) (g : RGrp) (st : RState) (i : String) (f : IdFields) (o : Option SchemaUrl) :
    resolveAttr w g st ⟨.id i f, o⟩ = useId g st o i f := rfl

theorem useId_eq (g : RGrp) (st : RState) (i : String) (f : IdFields) (o : Option SchemaUrl) :
    ((useId g st o i f).1 = st ∧ ∃ e, (useId g st o i f).2 = .err e) ∨
    ∃ r', (aget i st.roots = none ∧ r' = rootOf g i f o ∨ ∃ e, aget i st.roots = some e ∧ resolveRoots i (rootOf g i f o) e = .ok r') ∧
      (useId g st o i f).1.roots = aset i r' st.roots := by
  unfold useId rootOf
  split
  · exact .inl ⟨rfl, _, rfl⟩
  · dsimp only
    cases he : aget i st.roots with
    | none => exact .inr ⟨rootOf g i f o, .inl ⟨rfl, rfl⟩, by cases o <;> rfl⟩
    | some e =>
      dsimp only
      cases o with
      | none =>
        dsimp only
        split
        · exact .inl ⟨rfl, _, rfl⟩
        · rename_i r' hr'
          exact .inr ⟨r', .inr ⟨e, rfl, hr'⟩, rfl⟩
      | some u =>
        dsimp only
        split
        · exact .inl ⟨rfl, _, rfl⟩
        · rename_i r' hr'
          exact .inr ⟨r', .inr ⟨e, rfl, hr'⟩, rfl⟩

theorem localDefs_step (w : World) (g : RGrp) (st : RState) (a : UAttr) (ha : a.spec.isRef = false) (h : LocalDefs st) :
    LocalDefs (resolveAttr w g st a).1 := by
  obtain ⟨s, o⟩ := a
  cases s with
  | ref r f => cases ha
  | id i f =>
    rw [resolveAttr_id]
    have new : (rootOf g i f o).isDef = true → ∃ g', (rootOf g i f o).src = .loc g' := by
      intro hx
      cases o with
      | none => exact ⟨_, rfl⟩
      | some u => cases hx
    rcases useId_eq g st i f o with ⟨h1, _⟩ | ⟨r', h1, h2⟩
    · rw [h1]; exact h
    · intro k r hk hd
      rw [h2, aget_aset] at hk
      split at hk
      · injection hk with hk
        subst hk
        rcases h1 with ⟨_, h1⟩ | ⟨e, he, h1⟩
        · rw [h1] at hd ⊢; exact new hd
        · rcases resolveRoots_one _ _ _ _ h1 with h3 | h3
          · rw [h3] at hd ⊢; exact new hd
          · rw [h3] at hd ⊢; exact h _ _ he hd
      · exact h k r hk hd

theorem ownRoot1_step (w : World) (k : String) (g : RGrp) (st : RState) (a : UAttr) (ha : a.spec.isRef = false)
    (h : OwnRoot1 k st) : OwnRoot1 k (resolveAttr w g st a).1 := by
  obtain ⟨r0, g0, hk, hd, hs, he⟩ := h
  obtain ⟨s, o⟩ := a
  cases s with
  | ref r f => cases ha
  | id i f =>
    rw [resolveAttr_id]
    rcases useId_eq g st i f o with ⟨h1, _⟩ | ⟨r', h1, h2⟩
    · rw [h1]; exact ⟨r0, g0, hk, hd, hs, he⟩
    · refine ⟨r0, g0, ?_, hd, hs, he⟩
      rw [h2, aget_aset]
      split
      · rename_i hik
        subst hik
        rcases h1 with ⟨h1, _⟩ | ⟨e, h1, h3⟩
        · rw [hk] at h1; cases h1
        · rw [hk] at h1
          injection h1 with h1
          subst h1
          congr 1
          unfold resolveRoots at h3
          rw [he] at h3
          by_cases hx : (rootOf g k f o).excl = true
          · rw [hx] at h3
            simp only [ne_eq, Bool.true_eq_false, not_false_eq_true, if_true, Except.ok.injEq] at h3
            exact h3.symm
          · rw [if_neg (by simpa using hx)] at h3
            cases o with
            | none =>
              rw [if_neg (by simp [hd]), if_neg (by simp [rootOf])] at h3
              simp only [rootOf, Except.ok.injEq] at h3
              exact h3.symm
            | some u =>
              rw [if_neg (by simp [rootOf]), if_pos (by simp [hd, rootOf])] at h3
              injection h3 with h3
              exact h3.symm
      · exact hk

theorem ownRoot1_new (w : World) (k : String) (g : RGrp) (st : RState) (a : UAttr) (ha : DefinesPlainly k a)
    (h : LocalDefs st) (n : Nat) (l : Option (String × AttrLineage)) (hr : (resolveAttr w g st a).2 = .done n l) :
    OwnRoot1 k (resolveAttr w g st a).1 := by
  obtain ⟨s, o⟩ := a
  obtain ⟨ho, f, hs, hf⟩ := ha
  dsimp only at ho hs
  subst ho; subst hs
  rw [resolveAttr_id] at hr ⊢
  have hx : (rootOf g k f none).excl = false := hf
  rcases useId_eq g st k f none with ⟨_, e, h1⟩ | ⟨r', h1, h2⟩
  · rw [h1] at hr; cases hr
  · refine ⟨r', ?_⟩
    have hget : aget k (useId g st none k f).1.roots = some r' := by rw [h2, aget_aset, if_pos rfl]
    rcases h1 with ⟨_, h1⟩ | ⟨e, he, h3⟩
    · subst h1
      exact ⟨g.id, hget, rfl, rfl, hx⟩
    · have mine : resolveRoots k (rootOf g k f none) e = .ok (rootOf g k f none) → ∃ g', aget k (useId g st none k f).1.roots = some r' ∧
          r'.isDef = true ∧ r'.src = .loc g' ∧ r'.excl = false := by
        intro h4
        rw [h4] at h3
        injection h3 with h3
        subst h3
        exact ⟨g.id, hget, rfl, rfl, hx⟩
      by_cases hex : e.excl = true
      · refine mine ?_
        unfold resolveRoots
        rw [hx, hex]
        simp
      · have hex : e.excl = false := by simpa using hex
        by_cases hed : e.isDef = true
        · obtain ⟨g1, hg1⟩ := h k e he hed
          have : resolveRoots k (rootOf g k f none) e = .ok e := by
            unfold resolveRoots
            rw [hx, hex, if_neg (by simp), if_neg (by simp [hed]), if_neg (by simp [rootOf])]
            rfl
          rw [this] at h3
          injection h3 with h3
          subst h3
          exact ⟨g1, hget, hed, hg1, hex⟩
        · refine mine ?_
          unfold resolveRoots
          rw [hx, hex, if_neg (by simp), if_pos (by simp [hed, rootOf])]

/-- The pass over the definitions of a group, when it reports nothing. -/
theorem passAttrs_first {w : World} (k : String) (g : RGrp) (as : List UAttr) (st : RState) (o : RefPassOut)
    (hl : LocalDefs st) (h : passAttrs w true g st as = .ok o) (he : o.errs = []) :
    LocalDefs o.st ∧ (∀ a ∈ o.still, a.spec.isRef = true) ∧
      ((OwnRoot1 k st ∨ ∃ a ∈ as, DefinesPlainly k a) → OwnRoot1 k o.st) := by
  induction as generalizing st o with
  | nil =>
    simp only [passAttrs, Except.ok.injEq] at h
    subst h
    exact ⟨hl, by simp, by
      rintro (h | ⟨a, ha, _⟩)
      · exact h
      · cases ha⟩
  | cons a as ih =>
    unfold passAttrs at h
    split at h
    · rename_i hb
      have hb : a.spec.isRef = true := by simpa using hb
      split at h
      · cases h
      · rename_i o1 h1
        injection h with h; subst h
        obtain ⟨i1, i2, i3⟩ := ih st o1 hl h1 he
        refine ⟨i1, ?_, ?_⟩
        · intro x hx
          rcases List.mem_cons.1 hx with rfl | hx
          · exact hb
          · exact i2 x hx
        · rintro (h | ⟨x, hx, hd⟩)
          · exact i3 (.inl h)
          · rcases List.mem_cons.1 hx with rfl | hx
            · obtain ⟨_, f, hs, _⟩ := hd
              rw [hs] at hb; cases hb
            · exact i3 (.inr ⟨x, hx, hd⟩)
    · rename_i hb
      have hb : a.spec.isRef = false := by simpa using hb
      dsimp only at h
      split at h
      · rename_i n l hres
        split at h
        · cases h
        · rename_i o1 h1
          injection h with h; subst h
          obtain ⟨i1, i2, i3⟩ := ih _ o1 (localDefs_step w g st a hb hl) h1 he
          refine ⟨i1, i2, ?_⟩
          rintro (h | ⟨x, hx, hd⟩)
          · exact i3 (.inl (ownRoot1_step w k g st a hb h))
          · rcases List.mem_cons.1 hx with rfl | hx
            · exact i3 (.inl (ownRoot1_new w k g st x hd hl n l hres))
            · exact i3 (.inr ⟨x, hx, hd⟩)
      · split at h
        · cases h
        · rename_i o1 h1
          injection h with h; subst h
          cases he
      · split at h
        · cases h
        · rename_i o1 h1
          injection h with h; subst h
          cases he
      · cases h

theorem passGroups_first {w : World} (k : String) (gs : List RGrp) (st : RState) (o : GroupsOut)
    (hl : LocalDefs st) (h : passGroups w true st gs = .ok o) (he : o.errs = []) :
    LocalDefs o.st ∧ (∀ g ∈ o.groups, ∀ a ∈ g.pending, a.spec.isRef = true) ∧
      ((OwnRoot1 k st ∨ ∃ g ∈ gs, ∃ a ∈ g.pending, DefinesPlainly k a) → OwnRoot1 k o.st) := by
  induction gs generalizing st o with
  | nil =>
    simp only [passGroups, Except.ok.injEq] at h
    subst h
    exact ⟨hl, by simp, by
      rintro (h | ⟨a, ha, _⟩)
      · exact h
      · cases ha⟩
  | cons g gs ih =>
    unfold passGroups at h
    split at h
    · cases h
    · rename_i o1 h1
      split at h
      · cases h
      · rename_i r hr
        injection h with h; subst h
        dsimp only at he
        obtain ⟨e1, e2⟩ := List.append_eq_nil_iff.1 he
        obtain ⟨a1, a2, a3⟩ := passAttrs_first k g g.pending st o1 hl h1 e1
        obtain ⟨b1, b2, b3⟩ := ih o1.st r a1 hr e2
        refine ⟨b1, ?_, ?_⟩
        · intro x hx
          rcases List.mem_cons.1 hx with rfl | hx
          · exact a2
          · exact b2 x hx
        · rintro (h | ⟨x, hx, y, hy, hd⟩)
          · exact b3 (.inl (a3 (.inl h)))
          · rcases List.mem_cons.1 hx with rfl | hx
            · exact b3 (.inl (a3 (.inr ⟨y, hy, hd⟩)))
            · exact b3 (.inr ⟨x, hx, y, hy, hd⟩)

theorem ownRoot_step (w : World) (k : String) (g : RGrp) (st : RState) (a : UAttr) (ha : a.spec.isRef = true)
    (h : OwnRoot k st) : OwnRoot k (resolveAttr w g st a).1 := by
  obtain ⟨r0, g0, hk, hd, hs⟩ := h
  obtain ⟨s, o⟩ := a
  have use : ∀ (roots : List (String × Rooted)) r f root, aget k roots = some r0 →
      OwnRoot k (useRoot g { st with roots := roots } r f root).1 := by
    intro roots r f root hk
    unfold useRoot
    split
    · exact ⟨r0, g0, hk, hd, hs⟩
    · dsimp only
      split
      · by_cases hkr : k = g.pfx ++ "." ++ r
        · exact ⟨_, g.id, by rw [aget_aset]; exact if_pos hkr, rfl, rfl⟩
        · exact ⟨r0, g0, by rw [aget_aset, if_neg hkr]; exact hk, hd, hs⟩
      · exact ⟨r0, g0, hk, hd, hs⟩
  cases s with
  | id i f => cases ha
  | ref r f =>
    unfold resolveAttr
    dsimp only
    split
    · exact use st.roots r f _ hk
    · rename_i hnone
      have hne : k ≠ r := by
        rintro rfl
        unfold knownDef at hnone
        rw [hk] at hnone
        simp [hd] at hnone
      split
      · exact ⟨r0, g0, hk, hd, hs⟩
      · exact ⟨r0, g0, hk, hd, hs⟩
      · split
        · exact ⟨r0, g0, hk, hd, hs⟩
        · exact use _ r f _ (by rw [aget_aset, if_neg hne]; exact hk)

theorem refLoop_init {w : World} {st' : RState} {gs' : List RGrp} (init : List RErr) (n : Nat) (st : RState) (cs : List RGrp)
    (h : refLoop w init n st cs = .ok st' gs') : init = [] := by
  induction n generalizing st cs with
  | zero => simp [refLoop] at h
  | succ n ih =>
    unfold refLoop at h
    split at h
    · cases h
    · split at h
      · rename_i he
        simp only [List.isEmpty_iff, List.append_eq_nil_iff] at he
        exact he.1
      · split at h
        · cases h
        · exact ih _ _ h

/-- After resolution the root of a name that a group defines, not as excluded, is a definition of this registry. -/
theorem resolveRefs_own {w : World} {gs gs' : List RGrp} {st' : RState} (k : String)
    (hd : ∃ g ∈ gs, ∃ a ∈ g.pending, DefinesPlainly k a) (h : resolveRefs w ⟨[], []⟩ gs = .ok st' gs') : OwnRoot k st' := by
  have loop : ∀ init n st cs, (∀ g ∈ cs, ∀ a ∈ g.pending, a.spec.isRef = true) → OwnRoot k st →
      refLoop w init n st cs = .ok st' gs' → OwnRoot k st' := by
    intro init n
    induction n with
    | zero => intro st cs _ _ h; simp [refLoop] at h
    | succ n ih =>
      intro st cs hcs hi h
      unfold refLoop at h
      split at h
      · cases h
      · rename_i r hr
        obtain ⟨q, m⟩ := passGroups_ind (fun _ a => a.spec.isRef = true) (OwnRoot k) false
          (fun g st a ha _ => ownRoot_step w k g st a ha) cs hcs st hi r hr
        split at h
        · injection h with h1 h2; subst h1; exact q
        · split at h
          · cases h
          · exact ih _ _ m q h
  unfold resolveRefs at h
  split at h
  · cases h
  · rename_i r hr
    obtain ⟨_, h2, h3⟩ := passGroups_first k gs ⟨[], []⟩ r (fun k r hk => by simp [aget] at hk) hr (refLoop_init _ _ _ _ h)
    obtain ⟨r0, g0, a1, a2, a3, _⟩ := h3 (.inr hd)
    exact loop _ _ _ _ h2 ⟨r0, g0, a1, a2, a3⟩ h

/-! ### References are looked up -/

/-- There is a definition for `k`. -/
def Known (k : String) (st : RState) : Prop := ∃ r, aget k st.roots = some r ∧ r.isDef = true

theorem known_aset {k x : String} {r : Rooted} {roots : List (String × Rooted)} {c : Cat Attr} (hr : r.isDef = true)
    (h : ∃ y, aget k roots = some y ∧ y.isDef = true) : Known k ⟨aset x r roots, c⟩ := by
  unfold Known
  dsimp only
  rw [aget_aset]
  split
  · exact ⟨r, rfl, hr⟩
  · exact h

theorem known_step (w : World) (k : String) (g : RGrp) (st : RState) (a : UAttr) (ha : a.spec.isRef = true) :
    (Known k st → Known k (resolveAttr w g st a).1) ∧
    (a.spec.key = k → ∀ n l, (resolveAttr w g st a).2 = .done n l → Known k (resolveAttr w g st a).1) := by
  obtain ⟨s, o⟩ := a
  have use : ∀ (roots : List (String × Rooted)) r f root, (∃ y, aget k roots = some y ∧ y.isDef = true) →
      Known k (useRoot g { st with roots := roots } r f root).1 := by
    intro roots r f root h
    unfold useRoot
    split
    · exact h
    · dsimp only
      split
      · exact known_aset rfl h
      · exact h
  cases s with
  | id i f => cases ha
  | ref r f =>
    simp only [AttrSpec.key]
    unfold resolveAttr
    dsimp only
    split
    · rename_i root hroot
      refine ⟨fun h => use st.roots r f root h, ?_⟩
      rintro rfl n l _
      refine use st.roots r f root ?_
      unfold knownDef at hroot
      split at hroot
      · rename_i x hx
        split at hroot
        · rename_i hd; exact ⟨x, hx, hd⟩
        · cases hroot
      · cases hroot
    · split
      · exact ⟨id, fun _ n l h => by cases h⟩
      · exact ⟨id, fun _ n l h => by cases h⟩
      · rename_i d hd
        split
        · exact ⟨id, fun _ n l h => by cases h⟩
        · rename_i d' hd'
          have hdef := upgrade_isDef w d d' (depLookup_isDef w r d hd) hd'
          refine ⟨fun h => use _ r f _ (known_aset (c := []) hdef h), ?_⟩
          rintro rfl n l _
          refine use _ r f _ ⟨d', ?_, hdef⟩
          rw [aget_aset, if_pos rfl]

theorem passAttrs_known {w : World} (k : String) (g : RGrp) (as : List UAttr) (has : ∀ a ∈ as, a.spec.isRef = true)
    (st : RState) (o : RefPassOut) (h : passAttrs w false g st as = .ok o) :
    (∀ a ∈ o.still, a ∈ as) ∧ (Known k st → Known k o.st) ∧ (∀ a ∈ as, a.spec.key = k → a ∈ o.still ∨ Known k o.st) := by
  induction as generalizing st o with
  | nil => simp only [passAttrs, Except.ok.injEq] at h; subst h; exact ⟨by simp, id, by simp⟩
  | cons a as ih =>
    have ih := ih (fun x hx => has x (by simp [hx]))
    obtain ⟨s1, s2⟩ := known_step w k g st a (has a (by simp))
    unfold passAttrs at h
    simp only [Bool.false_and, Bool.false_eq_true, if_false] at h
    have later : ∀ o1, passAttrs w false g (resolveAttr w g st a).1 as = .ok o1 → ∀ o2 : RefPassOut, o2.st = o1.st →
        o2.still = a :: o1.still → (∀ x ∈ o2.still, x ∈ a :: as) ∧ (Known k st → Known k o2.st) ∧
          (∀ x ∈ a :: as, x.spec.key = k → x ∈ o2.still ∨ Known k o2.st) := by
      intro o1 h1 o2 e1 e2
      obtain ⟨i1, i2, i3⟩ := ih _ o1 h1
      rw [e1, e2]
      refine ⟨?_, fun h => i2 (s1 h), ?_⟩
      · intro x hx
        rcases List.mem_cons.1 hx with rfl | hx
        · simp
        · simp [i1 x hx]
      · intro x hx hxk
        rcases List.mem_cons.1 hx with rfl | hx
        · simp
        · rcases i3 x hx hxk with h | h
          · simp [h]
          · exact .inr h
    split at h
    · rename_i n l hres
      split at h
      · cases h
      · rename_i o1 h1
        injection h with h; subst h
        obtain ⟨i1, i2, i3⟩ := ih _ o1 h1
        refine ⟨fun x hx => by simp [i1 x hx], fun h => i2 (s1 h), ?_⟩
        intro x hx hxk
        rcases List.mem_cons.1 hx with rfl | hx
        · exact .inr (i2 (s2 hxk n l hres))
        · exact i3 x hx hxk
    · split at h
      · cases h
      · rename_i o1 h1
        injection h with h
        exact later o1 h1 o (by rw [← h]) (by rw [← h])
    · split at h
      · cases h
      · rename_i o1 h1
        injection h with h
        exact later o1 h1 o (by rw [← h]) (by rw [← h])
    · cases h

theorem passGroups_known {w : World} (k : String) (gs : List RGrp) (has : ∀ g ∈ gs, ∀ a ∈ g.pending, a.spec.isRef = true)
    (st : RState) (o : GroupsOut) (h : passGroups w false st gs = .ok o) :
    (∀ g ∈ o.groups, ∀ a ∈ g.pending, a.spec.isRef = true) ∧ (Known k st → Known k o.st) ∧
    (∀ g ∈ gs, ∀ a ∈ g.pending, a.spec.key = k → (∃ g' ∈ o.groups, a ∈ g'.pending) ∨ Known k o.st) := by
  induction gs generalizing st o with
  | nil => simp only [passGroups, Except.ok.injEq] at h; subst h; exact ⟨by simp, id, by simp⟩
  | cons g gs ih =>
    unfold passGroups at h
    split at h
    · cases h
    · rename_i o1 h1
      split at h
      · cases h
      · rename_i r hr
        injection h with h; subst h
        obtain ⟨a1, a2, a3⟩ := passAttrs_known k g g.pending (has g (by simp)) st o1 h1
        obtain ⟨b1, b2, b3⟩ := ih (fun x hx => has x (by simp [hx])) o1.st r hr
        refine ⟨?_, fun h => b2 (a2 h), ?_⟩
        · intro x hx a ha
          rcases List.mem_cons.1 hx with rfl | hx
          · exact has g (by simp) a (a1 a ha)
          · exact b1 x hx a ha
        · intro x hx a ha hak
          rcases List.mem_cons.1 hx with rfl | hx
          · rcases a3 a ha hak with h | h
            · exact .inl ⟨x.after o1, by simp, h⟩
            · exact .inr (b2 h)
          · rcases b3 x hx a ha hak with ⟨g', hg', h⟩ | h
            · exact .inl ⟨g', by simp [hg'], h⟩
            · exact .inr h

theorem passAttrs_skips {w : World} (g : RGrp) (as : List UAttr) (st : RState) (o : RefPassOut)
    (h : passAttrs w true g st as = .ok o) : ∀ a ∈ as, a.spec.isRef = true → a ∈ o.still := by
  induction as generalizing st o with
  | nil => simp
  | cons a as ih =>
    intro x hx hr
    unfold passAttrs at h
    have tail : ∀ st1 o1, passAttrs w true g st1 as = .ok o1 → ∀ o2 : RefPassOut, (∀ y ∈ o1.still, y ∈ o2.still) →
        (x = a → x ∈ o2.still) → x ∈ o2.still := by
      intro st1 o1 h1 o2 hsub hself
      rcases List.mem_cons.1 hx with hxa | hx
      · exact hself hxa
      · exact hsub x (ih st1 o1 h1 x hx hr)
    split at h
    · split at h
      · cases h
      · rename_i o1 h1
        injection h with h; subst h
        exact tail st o1 h1 _ (fun y hy => by simp [hy]) (fun h => by simp [h])
    · rename_i hb
      have hne : x ≠ a := by rintro rfl; simp [hr] at hb
      dsimp only at h
      split at h
      · split at h
        · cases h
        · rename_i o1 h1
          injection h with h; subst h
          exact tail _ o1 h1 _ (fun y hy => hy) (fun h => absurd h hne)
      · split at h
        · cases h
        · rename_i o1 h1
          injection h with h; subst h
          exact tail _ o1 h1 _ (fun y hy => by simp [hy]) (fun h => absurd h hne)
      · split at h
        · cases h
        · rename_i o1 h1
          injection h with h; subst h
          exact tail _ o1 h1 _ (fun y hy => by simp [hy]) (fun h => absurd h hne)
      · cases h

theorem passGroups_skips {w : World} (gs : List RGrp) (st : RState) (o : GroupsOut)
    (h : passGroups w true st gs = .ok o) : ∀ g ∈ gs, ∀ a ∈ g.pending, a.spec.isRef = true → ∃ g' ∈ o.groups, a ∈ g'.pending := by
  induction gs generalizing st o with
  | nil => simp
  | cons g gs ih =>
    intro x hx a ha hr
    unfold passGroups at h
    split at h
    · cases h
    · rename_i o1 h1
      split at h
      · cases h
      · rename_i r hrr
        injection h with h; subst h
        rcases List.mem_cons.1 hx with rfl | hx
        · exact ⟨x.after o1, by simp, passAttrs_skips x x.pending st o1 h1 a ha hr⟩
        · obtain ⟨g', hg', h'⟩ := ih _ r hrr x hx a ha hr
          exact ⟨g', by simp [hg'], h'⟩

/-- After resolution there is a definition for every name referred to. -/
theorem resolveRefs_known {w : World} {gs gs' : List RGrp} {st' : RState} (k : String) (hnew : ∀ g ∈ gs, g.attrs = [])
    (hd : ∃ g ∈ gs, ∃ a ∈ g.pending, a.spec.isRef = true ∧ a.spec.key = k)
    (h : resolveRefs w ⟨[], []⟩ gs = .ok st' gs') : Known k st' := by
  have hcomp := (refs_success_complete w gs gs' st' hnew h).1
  have loop : ∀ init n st cs, (∀ g ∈ cs, ∀ a ∈ g.pending, a.spec.isRef = true) →
      ((∃ g ∈ cs, ∃ a ∈ g.pending, a.spec.key = k) ∨ Known k st) →
      refLoop w init n st cs = .ok st' gs' → Known k st' := by
    intro init n
    induction n with
    | zero => intro st cs _ _ h; simp [refLoop] at h
    | succ n ih =>
      intro st cs hcs hi h
      unfold refLoop at h
      split at h
      · cases h
      · rename_i r hr
        obtain ⟨q1, q2, q3⟩ := passGroups_known k cs hcs st r hr
        have hi' : (∃ g ∈ r.groups, ∃ a ∈ g.pending, a.spec.key = k) ∨ Known k r.st := by
          rcases hi with ⟨g, hg, a, ha, hk⟩ | hi
          · rcases q3 g hg a ha hk with ⟨g', hg', ha'⟩ | h
            · exact .inl ⟨g', hg', a, ha', hk⟩
            · exact .inr h
          · exact .inr (q2 hi)
        split at h
        · injection h with h1 h2
          subst h1; subst h2
          rcases hi' with ⟨g, hg, a, ha, _⟩ | h
          · rw [hcomp g hg] at ha; cases ha
          · exact h
        · split at h
          · cases h
          · exact ih _ _ q1 hi' h
  unfold resolveRefs at h
  split at h
  · cases h
  · rename_i r hr
    obtain ⟨g, hg, a, ha, har, hak⟩ := hd
    obtain ⟨_, h2, _⟩ := passGroups_first k gs ⟨[], []⟩ r (fun k r hk => by simp [aget] at hk) hr (refLoop_init _ _ _ _ h)
    obtain ⟨g', hg', ha'⟩ := passGroups_skips gs _ r hr g hg a ha har
    exact loop _ _ _ _ h2 (.inl ⟨g', hg', a, ha', hak⟩) h

/-- A group without `extends` and `include_groups` goes through the phase as it is. -/
theorem resolveExtends_keeps {deps : List DepLookup} {gs cs : List UGroup} (g : UGroup) (hg : g ∈ gs)
    (hp : isPending g = false) (h : resolveExtends deps gs = .ok cs) : g ∈ cs := by
  have hpass : ∀ (xs : List UGroup) idx, g ∈ xs → g ∈ (pass deps idx xs).groups := by
    intro xs
    induction xs with
    | nil => intro idx h; cases h
    | cons x xs ih =>
      intro idx h
      unfold pass
      rcases List.mem_cons.1 h with rfl | h
      · rw [if_neg (by simp [hp])]
        simp
      · split
        · split
          · simp [ih _ h]
          · simp [ih _ h]
        · simp [ih _ h]
  have loop : ∀ n xs fatal ys f, g ∈ xs → extLoop deps n xs fatal = .done ys f → g ∈ ys := by
    intro n
    induction n with
    | zero => intro xs fatal ys f _ h; simp [extLoop] at h
    | succ n ih =>
      intro xs fatal ys f hx h
      unfold extLoop at h
      dsimp only at h
      split at h
      · injection h with h1 h2; subst h1; exact hpass xs _ hx
      · split at h
        · cases h
        · exact ih _ _ _ _ (hpass xs _ hx) h
  unfold resolveExtends runExtends at h
  split at h
  · rename_i gs' hr
    injection h with h; subst h
    exact loop _ _ _ _ _ hg hr
  · cases h
  · cases h
  · cases h

/-! ### A registry that imports nothing -/

theorem importDep_none (w : Imports.World) (d : Imports.Dep) (cs : List Imports.Imported)
    (h : Imports.importDep w [] d = .ok cs) : cs = [] := by
  have hf : ∀ f k, Imports.fieldMatch w [] f k = false := by intro f k; rfl
  cases d with
  | v1 s =>
    change Imports.importV1 w [] s = .ok cs at h
    unfold Imports.importV1 at h
    split at h
    · cases h
    · have hb : s.groups.filter (Imports.blocksMatch w []) = [] := by
        rw [List.filter_eq_nil_iff]
        intro g _
        unfold Imports.blocksMatch
        split
        · simp
        · simp [hf]
      dsimp only at h
      rw [hb] at h
      simpa using h.symm
  | v2 s =>
    change Imports.importV2 w [] s = .ok cs at h
    unfold Imports.importV2 at h
    have hd : ∀ e : Imports.Field × GroupType × Imports.Sig, Imports.decideV2 w [] e.1 e.2.1 e.2.2 = .skip := by
      intro e; unfold Imports.decideV2; rw [if_neg (by simp [hf])]
    have hk : s.signals.filter (fun e => decide (Imports.decideV2 w [] e.1 e.2.1 e.2.2 = .include)) = [] := by
      rw [List.filter_eq_nil_iff]
      intro e _
      simp [hd]
    dsimp only at h
    rw [hk] at h
    split at h
    · cases h
    · simpa [Imports.attachOrigins] using h.symm

theorem importLoop_none (e : Env) (st : RState) (acc : List (Imports.Imported × List Nat)) (ds : List Imports.Dep)
    (im : RState × List (Imports.Imported × List Nat)) (h : importLoop e [] st acc ds = .ok im) : im = (st, acc) := by
  induction ds with
  | nil => simp only [importLoop, Except.ok.injEq] at h; exact h.symm
  | cons d ds ih =>
    unfold importLoop at h
    split at h
    · cases h
    · rename_i cs hcs
      rw [importDep_none _ _ _ hcs] at h
      simp only [registerGroups, List.foldl_nil] at h
      exact ih h

/-- What there is to know of a registry that imports nothing, when it was resolved. -/
structure Facts (le : Attr → Attr → Bool) (e : Env) (specs : List UGroup) (out : Output) where
  cs : List UGroup
  rs : List RGrp
  st : RState
  extends_ : resolveExtends e.groups (prepared specs) = .ok cs
  refs : resolveRefs e.refWorld ⟨[], []⟩ (cs.map toRef) = .ok st rs
  roots : out.roots = st.roots
  inv : RInv e.refWorld (cs.map toRef) st
  own : ∀ g ∈ out.groups, ∃ u, g.rest = .own u
  covered : ∀ a ∈ out.attrs, ∃ r, aget a.name out.roots = some r

theorem resolveRefs_rinv {w : World} {gs gs' : List RGrp} {st' : RState} (hnew : ∀ g ∈ gs, g.attrs = [])
    (h : resolveRefs w ⟨[], []⟩ gs = .ok st' gs') : RInv w gs st' := by
  unfold resolveRefs at h
  split at h
  · cases h
  · rename_i r hr
    have h0 : RInv w gs ⟨[], []⟩ := ⟨catOk_nil, fun k r hk => by simp [aget] at hk⟩
    obtain ⟨i1, _, a1⟩ := passGroups_general true gs gs ⟨[], []⟩ h0 (progress_start w gs gs (fun _ h => h) hnew) r hr
    exact (refLoop_general r.errs _ gs r.groups r.st i1 a1 st' gs' h).1

theorem attrOf_mem {c : Cat Attr} {r : Nat} {a : Attr} (h : attrOf c r = some a) : ∃ p ∈ c, p.1 = a := by
  unfold attrOf at h
  cases hf : c.find? (fun p => p.2 = r) with
  | none => rw [hf] at h; cases h
  | some p => rw [hf] at h; exact ⟨p, List.mem_of_find?_eq_some hf, by simpa using h⟩

theorem facts {le : Attr → Attr → Bool} (hle : TotalPre le) {e : Env} {specs : List UGroup} {out : Output}
    (h : resolveRegistry le e false specs [] = .ok out) : Nonempty (Facts le e specs out) := by
  obtain ⟨run⟩ := resolve_run h
  have him := importLoop_none _ _ _ _ _ run.imports
  obtain ⟨hcat, hall, _, _⟩ := before_spec run
  have hval := before_valid run
  have hpub := run.published
  change publish le run.im.1.cat run.before run.origins _ run.im.1.roots = .ok out at hpub
  have hbef : ∀ g ∈ run.before, ∃ u, g.rest = .own u := by
    intro g hg
    unfold Run.before at hg
    rw [him] at hg
    simp only [List.map_nil, List.append_nil] at hg
    obtain ⟨p, _, rfl⟩ := List.mem_map.1 hg
    exact ⟨_, rfl⟩
  obtain ⟨c', groups, hcl, hids, hfw, hbw⟩ := cleanup_keeps_meaning le run.im.1.cat run.before hcat hval
  obtain ⟨c2, groups2, hcl2, hmem, _⟩ := cleanup_catalog_exact le hle run.im.1.cat run.before hcat hval
  rw [hcl] at hcl2
  injection hcl2 with hcl2
  injection hcl2 with hcl2 hcl3
  subst hcl2; subst hcl3
  unfold publish at hpub
  rw [hcl] at hpub
  dsimp only at hpub
  injection hpub with hpub
  have eg : out.groups = groups := (congrArg Output.groups hpub).symm
  have ea : out.attrs = drain c' := (congrArg Output.attrs hpub).symm
  have er : out.roots = run.st.roots := (congrArg Output.roots hpub).symm.trans (congrArg (fun x => x.1.roots) him)
  refine ⟨⟨run.cs, run.rs, run.st, run.extends_, run.refs, er, ?_, ?_, ?_⟩⟩
  · exact resolveRefs_rinv (by intro g hg; obtain ⟨c, _, rfl⟩ := List.mem_map.1 hg; rfl) run.refs
  · intro g hg
    obtain ⟨b, hb, _, _, h2, _⟩ := hbw g (by rw [eg] at hg; exact hg)
    rw [h2]
    exact hbef b hb
  · intro a ha
    rw [er]
    obtain ⟨g, _, r, _, hr⟩ := (hmem a).1 (by rw [ea] at ha; exact ha)
    rw [him] at hr
    obtain ⟨p, hp, rfl⟩ := attrOf_mem hr
    exact resolveRefs_ind (w := e.refWorld) (fun _ _ => True) Cover (fun g st a _ h => cover_step _ g st a h) _
      (fun _ _ _ _ => trivial) (fun p hp => by simp at hp) _ _ run.refs p hp

end Verif.Chain
