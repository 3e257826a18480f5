import Verif.Resolver.RefsProps
import Verif.Resolver.ExtendsProps
/-
C54 and C06 for every registry, `prefix: true` references included.
-/
namespace Verif.Resolver
open Verif.Util

/-! ### Specification -/

/-- The name a reference gives its attribute: the name it refers to, after the prefix of the group when the reference says
`prefix: true`. -/
def refName (g : RGrp) (r : String) (f : RefFields) : String := if f.prefixFlag then g.pfx ++ "." ++ r else r

/-- `IsRoot w gs k root`: `root` is an attribute that a reference to `k` may be resolved against in the registry `gs`.
It is a definition of `k` in the registry, or what the dependencies give for `k`, or what a `prefix: true` reference of
the registry makes of an attribute it may use, when `k` is the prefixed name. -/
inductive IsRoot (w : World) (gs : List RGrp) : String → Rooted → Prop
  | defined (k : String) (r : Rooted) : r ∈ rootsOf gs k → r.isDef = true → IsRoot w gs k r
  | dependency (k : String) (r : Rooted) : depRoot w k = .ok (some r) → IsRoot w gs k r
  | prefixed (g : RGrp) (a : UAttr) (r : String) (f : RefFields) (root : Rooted) : g ∈ gs → a ∈ g.pending →
      a.spec = .ref r f → f.prefixFlag = true → IsRoot w gs r root → Allowed g root →
      IsRoot w gs (g.pfx ++ "." ++ r) { attr := overlaid (g.pfx ++ "." ++ r) f root.attr, src := .loc g.id, isDef := true }

/-- `Gives w gs g a x`: the attribute `a` of group `g` may give the resolved attribute `x`. A definition gives what it
says, and is not an excluded one in a group that is not excluded. A reference gives the fields it sets over those of an
attribute of that name that the group may use. -/
inductive Gives (w : World) (gs : List RGrp) (g : RGrp) (a : UAttr) : Attr → Prop
  | definition (i : String) (f : IdFields) : a.spec = .id i f → (g.excluded = true ∨ isExcludedOpt f.annotations = false) →
      Gives w gs g a (attrOfId i f)
  | reference (r : String) (f : RefFields) (root : Rooted) : a.spec = .ref r f → IsRoot w gs r root → Allowed g root →
      Gives w gs g a (overlaid (refName g r f) f root.attr)

/-- `Resolved w gs g as xs`: the resolved attributes `xs` are what the attributes `as` of `g` give, one each, in some
order. -/
def Resolved (w : World) (gs : List RGrp) (g : RGrp) (as : List UAttr) (xs : List Attr) : Prop :=
  ∃ l : List (UAttr × Attr), (l.map Prod.fst).Perm as ∧ l.map Prod.snd = xs ∧ ∀ p ∈ l, Gives w gs g p.1 p.2

/-! ### The state -/

/-- What holds of the catalog at every moment. -/
structure RInv (w : World) (gs : List RGrp) (st : RState) : Prop where
  cat : CatOk st.cat
  roots : ∀ k r, aget k st.roots = some r → (r.isDef = true → IsRoot w gs k r) ∧ (r.isDef = false → r ∈ rootsOf gs k)

/-- `c` is group `g` at some moment. -/
structure Same (g c : RGrp) : Prop where
  id : c.id = g.id
  pfx : c.pfx = g.pfx
  excluded : c.excluded = g.excluded

theorem allowed_same {g c : RGrp} (h : Same g c) (root : Rooted) : Allowed c root ↔ Allowed g root := by
  unfold Allowed; rw [h.excluded]

theorem useRoot_general {w : World} {gs : List RGrp} {g c : RGrp} {st : RState} {a : UAttr} {r : String} {f : RefFields}
    {root : Rooted} (hg : g ∈ gs) (hc : Same g c) (ha : a ∈ g.pending) (hs : a.spec = .ref r f) (hi : RInv w gs st)
    (hr : IsRoot w gs r root) :
    RInv w gs (useRoot c st r f root).1 ∧ Ext st.cat (useRoot c st r f root).1.cat ∧
    ∀ n l, (useRoot c st r f root).2 = .done n l →
      ∃ x, attrOf (useRoot c st r f root).1.cat n = some x ∧ Gives w gs g a x := by
  unfold useRoot
  by_cases hf : refFails c root = true
  · rw [if_pos hf]
    exact ⟨hi, fun _ _ h => h, fun n l h => by simp at h⟩
  · rw [if_neg hf]
    have hal : Allowed g root := (allowed_same hc root).1 ((allowed_iff c root).1 (by simpa using hf))
    dsimp only
    obtain ⟨h1, h2, h3⟩ := attributeRef_ok st.cat
      (overlayRef (if f.prefixFlag = true then c.pfx ++ "." ++ r else r) f root.attr (rootLineage root)).2 hi.cat
    refine ⟨⟨h1, ?_⟩, h3, ?_⟩
    · intro k r' hk
      dsimp only at hk
      by_cases hp : f.prefixFlag = true
      · rw [if_pos hp] at hk
        rw [aget_aset] at hk
        by_cases hkn : k = (if f.prefixFlag = true then c.pfx ++ "." ++ r else r)
        · rw [if_pos hkn] at hk
          injection hk with hk
          subst hk
          refine ⟨fun _ => ?_, fun h => by simp at h⟩
          rw [overlayRef_attr, hkn, if_pos hp, hc.pfx, hc.id]
          exact .prefixed g a r f root hg ha hs hp hr hal
        · rw [if_neg hkn] at hk
          exact hi.roots k r' hk
      · rw [if_neg hp] at hk
        exact hi.roots k r' hk
    · intro n l h
      injection h with hn _
      subst hn
      refine ⟨_, h2, ?_⟩
      rw [overlayRef_attr, hc.pfx]
      exact .reference r f root hs hr hal

theorem useId_general {w : World} {gs : List RGrp} {g c : RGrp} {st : RState} {a : UAttr} {i : String} {f : IdFields}
    (hg : g ∈ gs) (hc : Same g c) (ha : a ∈ g.pending) (hs : a.spec = .id i f) (hi : RInv w gs st) :
    RInv w gs (useId c st a.origin i f).1 ∧ Ext st.cat (useId c st a.origin i f).1.cat ∧
    ∀ n l, (useId c st a.origin i f).2 = .done n l →
      ∃ x, attrOf (useId c st a.origin i f).1.cat n = some x ∧ Gives w gs g a x := by
  unfold useId
  by_cases hb : (!c.excluded && isExcludedOpt f.annotations) = true
  · rw [if_pos hb]
    exact ⟨hi, fun _ _ h => h, fun n l h => by simp at h⟩
  · rw [if_neg hb]
    dsimp only
    have hroot : (Rooted.mk (attrOfId i f) (match a.origin with | some u => Src.dep u | none => Src.loc c.id) a.origin.isNone) ∈ rootsOf gs i := by
      unfold rootsOf rootsIn
      rw [List.mem_flatMap]
      refine ⟨g, hg, List.mem_filterMap.2 ⟨a, ha, ?_⟩⟩
      have : badId g a = false := by
        unfold badId; rw [hs]; dsimp only
        rw [← hc.excluded]; simpa using hb
      rw [hs]; dsimp only
      rw [if_pos ⟨rfl, this⟩, hc.id]
      cases a.origin <;> rfl
    generalize hrt : (Rooted.mk (attrOfId i f) (match a.origin with | some u => Src.dep u | none => Src.loc c.id) a.origin.isNone) = root at hroot
    have hnew : (root.isDef = true → IsRoot w gs i root) ∧ (root.isDef = false → root ∈ rootsOf gs i) :=
      ⟨fun h => .defined i root hroot h, fun _ => hroot⟩
    obtain ⟨h1, h2, h3⟩ := attributeRef_ok st.cat (attrOfId i f) hi.cat
    have done : ∀ r', ((r'.isDef = true → IsRoot w gs i r') ∧ (r'.isDef = false → r' ∈ rootsOf gs i)) →
        RInv w gs { roots := aset i r' st.roots, cat := (attributeRef st.cat (attrOfId i f)).1 } := by
      intro r' hr'
      refine ⟨h1, ?_⟩
      intro k x hk
      dsimp only at hk
      rw [aget_aset] at hk
      by_cases hki : k = i
      · rw [if_pos hki] at hk
        injection hk with hk
        subst hk; subst hki
        exact hr'
      · rw [if_neg hki] at hk
        exact hi.roots k x hk
    have fin : ∀ n l, RRes.done (attributeRef st.cat (attrOfId i f)).2 none = RRes.done n l →
        ∃ x, attrOf (attributeRef st.cat (attrOfId i f)).1 n = some x ∧ Gives w gs g a x := by
      intro n l h
      injection h with hn _
      subst hn
      refine ⟨_, h2, .definition i f hs ?_⟩
      rw [← hc.excluded]
      cases h4 : c.excluded with
      | true => exact .inl rfl
      | false => rw [h4] at hb; exact .inr (by simpa using hb)
    cases hex : aget i st.roots with
    | none => exact ⟨done root hnew, h3, fin⟩
    | some ex =>
      dsimp only
      cases hres : resolveRoots i root ex with
      | error er => exact ⟨hi, fun _ _ h => h, fun n l h => by simp at h⟩
      | ok r' =>
        dsimp only
        refine ⟨done r' ?_, h3, fin⟩
        rcases resolveRoots_one i root ex r' hres with h | h
        · rw [h]; exact hnew
        · rw [h]; exact hi.roots i ex hex

theorem resolveAttr_general {w : World} {gs : List RGrp} {g c : RGrp} {st : RState} {a : UAttr} (hg : g ∈ gs)
    (hc : Same g c) (ha : a ∈ g.pending) (hi : RInv w gs st) :
    RInv w gs (resolveAttr w c st a).1 ∧ Ext st.cat (resolveAttr w c st a).1.cat ∧
    ∀ n l, (resolveAttr w c st a).2 = .done n l → ∃ x, attrOf (resolveAttr w c st a).1.cat n = some x ∧ Gives w gs g a x := by
  unfold resolveAttr
  cases hs : a.spec with
  | id i f => exact useId_general hg hc ha hs hi
  | ref r f =>
    dsimp only
    cases hk : knownDef st.roots r with
    | some root =>
      refine useRoot_general hg hc ha hs hi ?_
      unfold knownDef at hk
      split at hk
      · rename_i root' h1
        split at hk
        · rename_i h2
          injection hk with hk; subst hk
          exact (hi.roots r root' h1).1 h2
        · simp at hk
      · simp at hk
    | none =>
      dsimp only
      cases hd : depLookup w r with
      | error e => exact ⟨hi, fun _ _ h => h, fun n l h => by simp at h⟩
      | ok o =>
        cases o with
        | none => exact ⟨hi, fun _ _ h => h, fun n l h => by simp at h⟩
        | some d =>
          dsimp only
          cases hu : upgrade w d with
          | error e => exact ⟨hi, fun _ _ h => h, fun n l h => by simp at h⟩
          | ok d' =>
            dsimp only
            have hdr : depRoot w r = .ok (some d') := by unfold depRoot; rw [hd]; dsimp only; rw [hu]
            have hroot : IsRoot w gs r d' := .dependency r d' hdr
            have hi' : RInv w gs { st with roots := aset r d' st.roots } := by
              refine ⟨hi.cat, ?_⟩
              intro k x hk'
              dsimp only at hk'
              rw [aget_aset] at hk'
              by_cases hkr : k = r
              · rw [if_pos hkr] at hk'
                injection hk' with hk'
                subst hk'; subst hkr
                exact ⟨fun _ => hroot, fun h => by rw [depRoot_isDef w k d' hdr] at h; simp at h⟩
              · rw [if_neg hkr] at hk'
                exact hi.roots k x hk'
            exact useRoot_general hg hc ha hs hi' hroot

/-! ### The passes -/

theorem denote_ext {c c' : Cat Attr} (h : Ext c c') (refs : List Nat) (xs : List Attr)
    (hd : denote c refs = xs.map some) : denote c' refs = xs.map some := by
  induction refs generalizing xs with
  | nil => cases xs <;> simp_all [denote]
  | cons r rs ih =>
    cases xs with
    | nil => simp [denote] at hd
    | cons x xs =>
      simp only [denote, List.map_cons, List.cons.injEq] at hd ⊢
      exact ⟨h r x hd.1, ih xs hd.2⟩

theorem passAttrs_general {w : World} {gs : List RGrp} {g c : RGrp} (hg : g ∈ gs) (hc : Same g c) (b : Bool)
    (as : List UAttr) (has : ∀ a ∈ as, a ∈ g.pending) (st : RState) (hi : RInv w gs st) (o : RefPassOut)
    (h : passAttrs w b c st as = .ok o) :
    RInv w gs o.st ∧ Ext st.cat o.st.cat ∧ ∃ l : List (UAttr × Attr), denote o.st.cat o.refs = (l.map Prod.snd).map some ∧
      (l.map Prod.fst ++ o.still).Perm as ∧ ∀ p ∈ l, Gives w gs g p.1 p.2 := by
  induction as generalizing st o with
  | nil =>
    simp only [passAttrs, Except.ok.injEq] at h
    subst h
    exact ⟨hi, fun _ _ h => h, [], rfl, .refl _, by simp⟩
  | cons a as ih =>
    have ih := ih (fun x hx => has x (by simp [hx]))
    have later : ∀ (st1 : RState), RInv w gs st1 → Ext st.cat st1.cat → ∀ o1, passAttrs w b c st1 as = .ok o1 → ∀ o2 : RefPassOut,
        o2.st = o1.st → o2.refs = o1.refs → o2.still = a :: o1.still →
        RInv w gs o2.st ∧ Ext st.cat o2.st.cat ∧ ∃ l : List (UAttr × Attr), denote o2.st.cat o2.refs = (l.map Prod.snd).map some ∧
          (l.map Prod.fst ++ o2.still).Perm (a :: as) ∧ ∀ p ∈ l, Gives w gs g p.1 p.2 := by
      intro st1 hi1 hx1 o1 h1 o2 e1 e2 e3
      obtain ⟨i2, x2, l, d2, p2, g2⟩ := ih st1 hi1 o1 h1
      rw [e1, e2, e3]
      exact ⟨i2, hx1.trans x2, l, d2, (List.perm_middle).trans (p2.cons a), g2⟩
    unfold passAttrs at h
    split at h
    · split at h
      · simp at h
      · rename_i o1 h1
        injection h with h
        exact later st hi (fun _ _ h => h) o1 h1 o (by rw [← h]) (by rw [← h]) (by rw [← h])
    · obtain ⟨i1, x1, g1⟩ := resolveAttr_general (w := w) hg hc (has a (by simp)) hi
      dsimp only at h
      generalize hra : resolveAttr w c st a = ra at h i1 x1 g1
      obtain ⟨st1, res⟩ := ra
      dsimp only at h i1 x1 g1
      cases res with
      | done n l =>
        dsimp only at h
        split at h
        · simp at h
        · rename_i o1 h1
          injection h with h
          obtain ⟨x, hx, hgx⟩ := g1 n l rfl
          obtain ⟨i2, x2, l2, d2, p2, g2⟩ := ih st1 i1 o1 h1
          rw [← h]
          dsimp only
          refine ⟨i2, x1.trans x2, (a, x) :: l2, ?_, ?_, ?_⟩
          · simp only [denote, List.map_cons]
            rw [x2 n x hx]
            exact congrArg _ d2
          · simp only [List.map_cons, List.cons_append]
            exact p2.cons a
          · intro p hp
            rcases List.mem_cons.1 hp with rfl | hp
            · exact hgx
            · exact g2 p hp
      | missing =>
        dsimp only at h
        split at h
        · simp at h
        · rename_i o1 h1
          injection h with h
          exact later st1 i1 x1 o1 h1 o (by rw [← h]) (by rw [← h]) (by rw [← h])
      | err e =>
        cases e with
        | excluded i u =>
          dsimp only at h
          split at h
          · simp at h
          · rename_i o1 h1
            injection h with h
            exact later st1 i1 x1 o1 h1 o (by rw [← h]) (by rw [← h]) (by rw [← h])
        | unresolvedRef a b => simp at h
        | ambiguous a b c => simp at h
        | conflict a => simp at h
        | notInUpgraded a b c => simp at h
        | invalidUrl a => simp at h

/-- Group `g` at some moment: what has been resolved is what some of its attributes give, the others are pending. -/
structure Progress (w : World) (gs : List RGrp) (cat : Cat Attr) (g c : RGrp) : Prop where
  same : Same g c
  mem : g ∈ gs
  part : ∃ l : List (UAttr × Attr), denote cat c.attrs = (l.map Prod.snd).map some ∧
    (l.map Prod.fst ++ c.pending).Perm g.pending ∧ ∀ p ∈ l, Gives w gs g p.1 p.2

theorem Progress.ext {w : World} {gs : List RGrp} {c c' : Cat Attr} {g x : RGrp} (h : Progress w gs c g x) (he : Ext c c') :
    Progress w gs c' g x := by
  obtain ⟨h1, h2, l, h3, h4, h5⟩ := h
  exact ⟨h1, h2, l, denote_ext he _ _ h3, h4, h5⟩

theorem passGroups_general {w : World} {gs : List RGrp} (b : Bool) (as cs : List RGrp) (st : RState) (hi : RInv w gs st)
    (hp : All2 (Progress w gs st.cat) as cs) (o : GroupsOut) (h : passGroups w b st cs = .ok o) :
    RInv w gs o.st ∧ Ext st.cat o.st.cat ∧ All2 (Progress w gs o.st.cat) as o.groups := by
  induction cs generalizing as st o with
  | nil =>
    cases hp
    simp only [passGroups, Except.ok.injEq] at h
    subst h
    exact ⟨hi, fun _ _ h => h, .nil⟩
  | cons c cs ih =>
    cases hp with
    | cons hgc htl =>
      rename_i g as
      unfold passGroups at h
      split at h
      · simp at h
      · rename_i o1 h1
        split at h
        · simp at h
        · rename_i r hr
          injection h with h
          subst h
          obtain ⟨hsame, hmem, l0, d0, p0, g0⟩ := hgc
          obtain ⟨i1, x1, l1, d1, p1, g1⟩ := passAttrs_general hmem hsame b c.pending
            (fun a ha => p0.mem_iff.1 (by simp [ha])) st hi o1 h1
          obtain ⟨i2, x2, a2⟩ := ih as o1.st i1 (htl.imp (fun _ _ h => h.ext x1)) r hr
          refine ⟨i2, x1.trans x2, .cons (Progress.ext (c := o1.st.cat) ?_ x2) a2⟩
          refine ⟨⟨hsame.id, hsame.pfx, hsame.excluded⟩, hmem, l0 ++ l1, ?_, ?_, ?_⟩
          · have := denote_ext x1 _ _ d0
            unfold denote at this d1 ⊢
            simp only [RGrp.after, List.map_append, this, d1]
          · simp only [RGrp.after, List.map_append, List.append_assoc]
            exact (List.Perm.append_left _ p1).trans p0
          · intro p hp
            rcases List.mem_append.1 hp with hp | hp
            · exact g0 p hp
            · exact g1 p hp

theorem refLoop_general {w : World} {gs : List RGrp} (init : List RErr) (n : Nat) (as cs : List RGrp) (st : RState)
    (hi : RInv w gs st) (hp : All2 (Progress w gs st.cat) as cs) (st' : RState) (gs' : List RGrp)
    (h : refLoop w init n st cs = .ok st' gs') : RInv w gs st' ∧ All2 (Progress w gs st'.cat) as gs' := by
  induction n generalizing cs st with
  | zero => simp [refLoop] at h
  | succ n ih =>
    unfold refLoop at h
    split at h
    · simp at h
    · rename_i r hr
      obtain ⟨i1, _, a1⟩ := passGroups_general false as cs st hi hp r hr
      split at h
      · injection h with h1 h2
        subst h1; subst h2
        exact ⟨i1, a1⟩
      · split at h
        · simp at h
        · exact ih r.groups r.st i1 a1 h

theorem progress_start (w : World) (gs as : List RGrp) (hm : ∀ g ∈ as, g ∈ gs) (hnew : ∀ g ∈ as, g.attrs = []) :
    All2 (Progress w gs ([] : Cat Attr)) as as := by
  induction as with
  | nil => exact .nil
  | cons g as ih =>
    refine .cons ⟨⟨rfl, rfl, rfl⟩, hm g (by simp), [], ?_, .refl _, by simp⟩
      (ih (fun x hx => hm x (by simp [hx])) (fun x hx => hnew x (by simp [hx])))
    rw [hnew g (by simp)]; rfl

/-! ### C54, C06 -/

/-- C54, C06, for every registry, `prefix: true` references included: when attribute resolution succeeds, the groups are
the same, in the same order; each has one resolved attribute for each of its attributes and none is left over; the
attribute of a definition is what the definition says; the attribute of a reference is the fields it sets over those of
an attribute of that name: a definition in the registry, what a prefixed reference of the registry makes under that name,
or the dependencies' attribute. No reference uses an excluded attribute of a dependency, nor, from a group that is not
excluded, an excluded local attribute; and no group that is not excluded keeps an excluded definition. -/
theorem ref_resolves (w : World) (gs gs' : List RGrp) (st' : RState) (hnew : ∀ g ∈ gs, g.attrs = [])
    (h : resolveRefs w ⟨[], []⟩ gs = .ok st' gs') :
    CatOk st'.cat ∧ All2 (fun g g' => g'.id = g.id ∧ g'.pending = [] ∧
      ∃ xs, denote st'.cat g'.attrs = xs.map some ∧ Resolved w gs g g.pending xs) gs gs' := by
  have hcomp := (refs_success_complete w gs gs' st' hnew h).1
  unfold resolveRefs at h
  split at h
  · simp at h
  · rename_i r hr
    have h0 : RInv w gs ⟨[], []⟩ := ⟨catOk_nil, fun k r hk => by simp [aget] at hk⟩
    obtain ⟨i1, _, a1⟩ := passGroups_general true gs gs ⟨[], []⟩ h0 (progress_start w gs gs (fun _ h => h) hnew) r hr
    obtain ⟨i2, a2⟩ := refLoop_general r.errs _ gs r.groups r.st i1 a1 st' gs' h
    refine ⟨i2.cat, ?_⟩
    have key : ∀ {as bs : List RGrp}, All2 (Progress w gs st'.cat) as bs → (∀ g ∈ bs, g.pending = []) →
        All2 (fun g g' => g'.id = g.id ∧ g'.pending = [] ∧
          ∃ xs, denote st'.cat g'.attrs = xs.map some ∧ Resolved w gs g g.pending xs) as bs := by
      intro as bs hab
      induction hab with
      | nil => intro _; exact .nil
      | @cons a b as bs hab _ ih =>
        intro hpend
        refine .cons ?_ (ih (fun g hg => hpend g (by simp [hg])))
        obtain ⟨hsame, _, l, d, p, gv⟩ := hab
        have hb := hpend b (by simp)
        refine ⟨hsame.id, hb, l.map Prod.snd, d, l, ?_, rfl, gv⟩
        rw [hb, List.append_nil] at p
        exact p
    exact key a2 hcomp

/-- C54: a reference to a name that neither the registry nor its prefixed references nor the dependencies know makes
resolution fail. -/
theorem unknown_ref_fails (w : World) (gs : List RGrp) (hnew : ∀ g ∈ gs, g.attrs = []) (g : RGrp) (hg : g ∈ gs) (a : UAttr)
    (ha : a ∈ g.pending) (r : String) (f : RefFields) (hs : a.spec = .ref r f) (hno : ∀ root, ¬ IsRoot w gs r root)
    (st' : RState) (gs' : List RGrp) : resolveRefs w ⟨[], []⟩ gs ≠ .ok st' gs' := by
  intro h
  obtain ⟨_, hall⟩ := ref_resolves w gs gs' st' hnew h
  obtain ⟨_, _, _, _, xs, _, l, hl, _, hg⟩ := hall.left hg
  have := hl.mem_iff.2 ha
  obtain ⟨p, hp, hpa⟩ := List.mem_map.1 this
  obtain ⟨a', x⟩ := p
  dsimp only at hpa
  subst hpa
  have hgx := hg _ hp
  dsimp only at hgx
  cases hgx with
  | definition i f' h1 _ => rw [hs] at h1; simp at h1
  | reference r' f' root h1 h2 _ =>
    rw [hs] at h1
    injection h1 with h1 _
    subst h1
    exact hno root h2

/-- In a registry without prefixed references, the attribute a reference is resolved against is a definition of the
registry or the dependencies' attribute. -/
theorem isRoot_plain (w : World) (gs : List RGrp) (hp : NoPrefix gs) (k : String) (root : Rooted) (h : IsRoot w gs k root) :
    (root ∈ rootsOf gs k ∧ root.isDef = true) ∨ depRoot w k = .ok (some root) := by
  cases h with
  | defined _ _ h1 h2 => exact .inl ⟨h1, h2⟩
  | dependency _ _ h1 => exact .inr h1
  | prefixed g a r f root hg ha hs hpf _ _ => rw [hp g hg a ha r f hs] at hpf; simp at hpf

/-- A registry with a prefixed reference and a reference to what it makes: `srv.x` has the fields of `x`. -/
private def exPrefixed : List RGrp :=
  [{ id := "use", pending := [⟨.ref "srv.x" { note := some "used" }, none⟩] },
   { id := "p", pfx := "srv", pending := [⟨.ref "x" { prefixFlag := true, brief := some "of the server" }, none⟩] },
   { id := "def", pending := [⟨.id "x" { type := "int", brief := some "plain" }, none⟩] }]

private def wNone : World := ⟨[], fun _ => none, fun _ => none⟩

example : (∀ g ∈ exPrefixed, g.attrs = []) ∧ (resolveRefs wNone ⟨[], []⟩ exPrefixed).view =
    some [("use", [some { name := "srv.x", type := "int", brief := "of the server", note := "used" }]),
          ("p", [some { name := "srv.x", type := "int", brief := "of the server", prefixFlag := true }]),
          ("def", [some { name := "x", type := "int", brief := "plain" }])] := by decide

/-- A reference that nothing defines. -/
example : resolveRefs wNone ⟨[], []⟩ [{ id := "use", pending := [⟨.ref "nope" {}, none⟩] }] =
    .stuck [.unresolvedRef "use" "nope"] := by rfl

end Verif.Resolver
