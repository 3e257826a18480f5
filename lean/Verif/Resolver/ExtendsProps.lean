import Verif.Resolver.Extends
/-
C01 (and the `extends` part of C04 and C06).
-/
namespace Verif.Resolver
open Verif.Util

/-! ### Specification -/

/-- The groups a group refers to. -/
def UGroup.refs (g : UGroup) : List String := g.ext.toList ++ g.includes

/-- `Resolves gs deps g g' fs`: in the registry `gs` with dependencies `deps`, group `g` resolves to `g'` (with the
entity-identity errors `fs`). A group without parents resolves to itself. A group with parents resolves once all the
local groups it refers to resolve, and then to what one attempt with exactly these resolved groups at hand gives. This
mentions no order of groups and no iteration. -/
inductive Resolves (gs : List UGroup) (deps : List DepLookup) : UGroup → UGroup → List ExtErr → Prop
  | root (g : UGroup) : g ∈ gs → isPending g = false → Resolves gs deps g g []
  | step (g : UGroup) (d : Done) (par : String → UGroup × UGroup) (pfs : String → List ExtErr) :
      g ∈ gs → isPending g = true →
      (∀ x ∈ g.refs, x ∈ gs.map UGroup.id → (par x).1 ∈ gs ∧ (par x).1.id = x) →
      (∀ x ∈ g.refs, x ∈ gs.map UGroup.id → Resolves gs deps (par x).1 (par x).2 (pfs x)) →
      attempt deps (fun x => if x ∈ gs.map UGroup.id then some (par x).2.summary else none) g = .ok d →
      Resolves gs deps g d.group d.fatal

/-- No dependency offers a group with the id of a local group that has parents itself and is extended. -/
def NoShadow (gs : List UGroup) (deps : List DepLookup) : Prop :=
  ∀ g ∈ gs, ∀ h ∈ gs, g.ext = some h.id → isPending h = true → ∀ d ∈ deps, d h.id = none

/-! ### One attempt -/

theorem dupErrs_fst (groups seen : List String) (as : List UAttr) :
    (dupErrs groups seen as).1 = [] ↔ (∀ a ∈ as, a.spec.key ∉ seen) ∧ (as.map (fun a => a.spec.key)).Nodup := by
  induction as generalizing seen with
  | nil => simp [dupErrs]
  | cons a as ih =>
    unfold dupErrs
    by_cases h : a.spec.key ∈ seen
    · simp [h]
    · simp only [h, if_false, ih, List.mem_cons, not_or, List.map_cons, List.nodup_cons, List.mem_map]
      constructor
      · rintro ⟨h1, h2⟩
        refine ⟨?_, ?_, h2⟩
        · rintro b (rfl | hb)
          · exact h
          · exact (h1 b hb).2
        · rintro ⟨b, hb, he⟩; exact (h1 b hb).1 he
      · rintro ⟨h1, h2, h3⟩
        exact ⟨fun b hb => ⟨fun he => h2 ⟨b, hb, he⟩, h1 b (.inr hb)⟩, h3⟩

theorem dupErrs_snd (groups seen : List String) (as : List UAttr) (x : String) :
    x ∈ (dupErrs groups seen as).2 ↔ x ∈ seen ∨ x ∈ as.map (fun a => a.spec.key) := by
  induction as generalizing seen with
  | nil => simp [dupErrs]
  | cons a as ih =>
    unfold dupErrs
    by_cases h : a.spec.key ∈ seen
    · simp only [h, if_true, ih, List.map_cons, List.mem_cons]
      constructor
      · rintro (h1 | h1)
        · exact .inl h1
        · exact .inr (.inr h1)
      · rintro (h1 | rfl | h1)
        · exact .inl h1
        · exact .inl h
        · exact .inr h1
    · simp only [h, if_false, ih, List.map_cons, List.mem_cons]
      constructor
      · rintro ((rfl | h1) | h1)
        · exact .inr (.inl rfl)
        · exact .inl h1
        · exact .inr (.inr h1)
      · rintro (h1 | rfl | h1)
        · exact .inl (.inr h1)
        · exact .inl (.inl rfl)
        · exact .inr h1

/-- The attributes of the included groups, in order. -/
def includedAttrs (idx : String → Option Summary) (is : List String) : List (String × List UAttr) :=
  is.filterMap (fun i => (idx i).map (fun s => (i, s.attrs)))

theorem collect_ok (g : UGroup) (idx : String → Option Summary) (seen is : List String) :
    (collectIncluded g idx seen is).1 = [] ↔
      (∀ i ∈ is, ∃ s, idx i = some s ∧ excludedParent g s = false) ∧
      (∀ k ∈ ((includedAttrs idx is).flatMap (fun b => b.2)).map (fun a => a.spec.key), k ∉ seen) ∧
      (((includedAttrs idx is).flatMap (fun b => b.2)).map (fun a => a.spec.key)).Nodup := by
  induction is generalizing seen with
  | nil => simp [collectIncluded, includedAttrs]
  | cons i is ih =>
    unfold collectIncluded
    cases hi : idx i with
    | none => simp [hi]
    | some s =>
      by_cases he : excludedParent g s = true
      · simp [hi, he]
      · have he' : excludedParent g s = false := by simpa using he
        simp only [he', Bool.false_eq_true, if_false, List.append_eq_nil_iff, dupErrs_fst, ih, dupErrs_snd]
        have hinc : includedAttrs idx (i :: is) = (i, s.attrs) :: includedAttrs idx is := by
          simp [includedAttrs, hi]
        rw [hinc]
        simp only [List.flatMap_cons, List.map_append, List.nodup_append, List.mem_append, List.mem_cons,
          forall_eq_or_imp, hi, Option.some.injEq, exists_eq_left', he']
        constructor
        · rintro ⟨⟨h1, h2⟩, h3, h4, h5⟩
          refine ⟨⟨trivial, h3⟩, ?_, h2, h5, ?_⟩
          · rintro k (hk | hk)
            · obtain ⟨a, ha, rfl⟩ := List.mem_map.1 hk
              exact h1 a ha
            · exact fun hs => h4 k hk (.inl hs)
          · rintro a ha b hb rfl
            exact h4 a hb (.inr ha)
        · rintro ⟨⟨_, h3⟩, h4, h2, h5, h6⟩
          refine ⟨⟨fun a ha => h4 _ (.inl (List.mem_map_of_mem ha)), h2⟩, h3, ?_, h5⟩
          rintro k hk (hs | hs)
          · exact h4 k (.inr hk) hs
          · exact h6 k hs k hk rfl

theorem collect_snd (g : UGroup) (idx : String → Option Summary) (seen is : List String)
    (h : (collectIncluded g idx seen is).1 = []) : (collectIncluded g idx seen is).2 = includedAttrs idx is := by
  induction is generalizing seen with
  | nil => simp [collectIncluded, includedAttrs]
  | cons i is ih =>
    unfold collectIncluded at h ⊢
    cases hi : idx i with
    | none => simp [hi] at h
    | some s =>
      simp only [hi] at h ⊢
      by_cases he : excludedParent g s = true
      · simp [he] at h
      · have he' : excludedParent g s = false := by simpa using he
        simp only [he', Bool.false_eq_true, if_false, List.append_eq_nil_iff] at h ⊢
        rw [ih _ h.2]
        simp [includedAttrs, hi]

theorem collect_congr (g : UGroup) (idx idx' : String → Option Summary) (seen is : List String)
    (h : ∀ i ∈ is, idx i = idx' i) : collectIncluded g idx seen is = collectIncluded g idx' seen is := by
  induction is generalizing seen with
  | nil => rfl
  | cons i is ih =>
    unfold collectIncluded
    rw [h i (by simp)]
    have ih' : ∀ seen, collectIncluded g idx seen is = collectIncluded g idx' seen is :=
      fun seen => ih seen (fun j hj => h j (by simp [hj]))
    cases idx' i <;> simp [ih']

theorem attempt_congr (deps : List DepLookup) (idx idx' : String → Option Summary) (g : UGroup)
    (h : ∀ x ∈ g.refs, idx x = idx' x) : attempt deps idx g = attempt deps idx' g := by
  unfold attempt
  rw [collect_congr g idx idx' [] g.includes (fun i hi => h i (by simp [UGroup.refs, hi]))]
  cases he : g.ext with
  | none => rfl
  | some x =>
    have := h x (by simp [UGroup.refs, he])
    simp only [lookupGroup, this]

/-- C01: what makes an attempt succeed. All included groups are at hand and may be used, no attribute id comes from two
included groups, and the parent, if there is one, is found (locally first, then in a dependency that does not exclude
it) and may be used. The attributes are then the inherited ones (C02) with the parent below the included groups. -/
theorem attempt_ok_iff (deps : List DepLookup) (idx : String → Option Summary) (g : UGroup) (d : Done) :
    attempt deps idx g = .ok d ↔
      ((∀ i ∈ g.includes, ∃ s, idx i = some s ∧ excludedParent g s = false) ∧
       (((includedAttrs idx g.includes).flatMap (fun b => b.2)).map (fun a => a.spec.key)).Nodup) ∧
      ((g.ext = none ∧ d = { group := finalize g (includedAttrs idx g.includes), soft := [], fatal := [] }) ∨
       ∃ x p, g.ext = some x ∧ lookupGroup deps idx x = .found p ∧ excludedParent g p = false ∧
         d = { group := finalize (applyParent g x p) ((x, p.attrs) :: includedAttrs idx g.includes)
               soft := refinementErrs g x p, fatal := identityErrs g x p }) := by
  unfold attempt
  by_cases hc : (collectIncluded g idx [] g.includes).1 = []
  · have hc' := (collect_ok g idx [] g.includes).1 hc
    simp only [hc, ne_eq, not_true_eq_false, if_false, collect_snd g idx [] g.includes hc]
    constructor
    · intro h
      refine ⟨⟨hc'.1, hc'.2.2⟩, ?_⟩
      cases he : g.ext with
      | none => rw [he] at h; simp at h; exact .inl ⟨rfl, h.symm⟩
      | some x =>
        rw [he] at h
        simp only at h
        cases hl : lookupGroup deps idx x with
        | missing => rw [hl] at h; simp at h
        | onlyExcluded => rw [hl] at h; simp at h
        | found p =>
          rw [hl] at h
          simp only at h
          by_cases hx : excludedParent g p = true
          · rw [if_pos hx] at h; simp at h
          · rw [if_neg hx] at h
            exact .inr ⟨x, p, rfl, hl, by simpa using hx, (Except.ok.inj h).symm⟩
    · rintro ⟨_, ⟨he, rfl⟩ | ⟨x, p, he, hl, hx, rfl⟩⟩
      · rw [he]
      · simp [he, hl, hx]
  · constructor
    · intro h; simp [hc] at h
    · rintro ⟨⟨h1, h2⟩, _⟩
      exact absurd ((collect_ok g idx [] g.includes).2 ⟨h1, by simp, h2⟩) hc

theorem applyParent_id (g : UGroup) (x : String) (p : Summary) : (applyParent g x p).id = g.id := by
  unfold applyParent inheritV2; dsimp only; split <;> rfl
theorem applyParent_attrs (g : UGroup) (x : String) (p : Summary) : (applyParent g x p).attrs = g.attrs := by
  unfold applyParent inheritV2; dsimp only; split <;> rfl

theorem attempt_ok_shape {deps : List DepLookup} {idx : String → Option Summary} {g : UGroup} {d : Done}
    (h : attempt deps idx g = .ok d) : isPending d.group = false ∧ d.group.id = g.id := by
  rcases ((attempt_ok_iff deps idx g d).1 h).2 with ⟨_, rfl⟩ | ⟨x, p, _, _, _, rfl⟩
  · simp [finalize, isPending]
  · simp [finalize, isPending, applyParent_id]

theorem attempt_error_ne {deps : List DepLookup} {idx : String → Option Summary} {g : UGroup} {es : List ExtErr}
    (h : attempt deps idx g = .error es) : es ≠ [] := by
  unfold attempt at h
  by_cases hc : (collectIncluded g idx [] g.includes).1 = []
  · simp only [hc, ne_eq, not_true_eq_false, if_false] at h
    cases he : g.ext with
    | none => rw [he] at h; simp at h
    | some x =>
      rw [he] at h
      simp only at h
      cases hl : lookupGroup deps idx x with
      | missing => rw [hl] at h; have := Except.error.inj h; rw [← this]; simp
      | onlyExcluded => rw [hl] at h; have := Except.error.inj h; rw [← this]; simp
      | found p =>
        rw [hl] at h
        simp only at h
        by_cases hx : excludedParent g p = true
        · rw [if_pos hx] at h; have := Except.error.inj h; rw [← this]; simp
        · rw [if_neg hx] at h; simp at h
  · simp only [ne_eq, hc, not_false_eq_true, if_true] at h
    have := Except.error.inj h; rw [← this]; exact hc

/-! ### Termination -/

theorem pass_count (deps : List DepLookup) (idx : List (String × Summary)) (gs : List UGroup) :
    pendingCount (pass deps idx gs).groups + (pass deps idx gs).count = pendingCount gs := by
  induction gs generalizing idx with
  | nil => simp [pass, pendingCount]
  | cons g gs ih =>
    unfold pass
    by_cases hp : isPending g = true
    · simp only [hp, if_true]
      cases ha : attempt deps (fun x => aget x idx) g with
      | error es =>
        have := ih idx
        simp only [pendingCount, List.countP_cons, hp, if_true] at this ⊢
        omega
      | ok d =>
        have hs := (attempt_ok_shape ha).1
        have := ih (aset d.group.id d.group.summary idx)
        simp only [pendingCount, List.countP_cons, hp, hs, if_true, Bool.false_eq_true, if_false] at this ⊢
        omega
    · have := ih idx
      simp only [hp, Bool.false_eq_true, if_false, pendingCount, List.countP_cons] at this ⊢
      omega

theorem extLoop_fuel (deps : List DepLookup) (n : Nat) (gs : List UGroup) (fatal : List ExtErr)
    (h : pendingCount gs < n) : extLoop deps n gs fatal ≠ .outOfFuel := by
  induction n generalizing gs fatal with
  | zero => omega
  | succ n ih =>
    simp only [extLoop]
    split
    · simp
    · split
      · simp
      · rename_i hc
        have := pass_count deps (buildIndex gs) gs
        exact ih _ _ (by omega)

/-- C01: resolution finishes for every set of groups, after at most one more pass than there are groups with parents;
more passes never change the outcome. -/
theorem extends_terminates (deps : List DepLookup) (gs : List UGroup) :
    runExtends deps gs ≠ .outOfFuel ∧ ∀ n, pendingCount gs < n → extLoop deps n gs [] = runExtends deps gs := by
  refine ⟨extLoop_fuel deps _ gs [] (by omega), ?_⟩
  suffices H : ∀ (n m : Nat) (gs : List UGroup) (fatal : List ExtErr), pendingCount gs < n → pendingCount gs < m →
      extLoop deps n gs fatal = extLoop deps m gs fatal from fun n hn => H n _ gs [] hn (by omega)
  intro n
  induction n with
  | zero => intro m gs fatal h; omega
  | succ n ih =>
    intro m gs fatal hn hm
    cases m with
    | zero => omega
    | succ m =>
      simp only [extLoop]
      split
      · rfl
      · split
        · rfl
        · have := pass_count deps (buildIndex gs) gs
          exact ih m _ _ (by omega) (by omega)

/-! ### Invariant of the passes -/

variable {gs : List UGroup} {deps : List DepLookup}

/-- The index holds exactly the resolved groups of the current list. -/
def IdxOk (idx : List (String × Summary)) (cs : List UGroup) : Prop :=
  ∀ x s, aget x idx = some s ↔ ∃ c ∈ cs, isPending c = false ∧ c.id = x ∧ c.summary = s

theorem nodup_id_inj {cs : List UGroup} (h : (cs.map UGroup.id).Nodup) {a b : UGroup} (ha : a ∈ cs) (hb : b ∈ cs)
    (hid : a.id = b.id) : a = b := by
  induction cs with
  | nil => simp at ha
  | cons c cs ih =>
    simp only [List.map_cons, List.nodup_cons, List.mem_map, not_exists, not_and] at h
    rcases List.mem_cons.1 ha with ha' | ha' <;> rcases List.mem_cons.1 hb with hb' | hb'
    · rw [ha', hb']
    · subst ha'; exact absurd hid.symm (h.1 b hb')
    · subst hb'; exact absurd hid (h.1 a ha')
    · exact ih h.2 ha' hb'

theorem buildIndex_ok (cs : List UGroup) (h : (cs.map UGroup.id).Nodup) : IdxOk (buildIndex cs) cs := by
  suffices H : ∀ (cs pre : List UGroup) (m : List (String × Summary)), ((pre ++ cs).map UGroup.id).Nodup → IdxOk m pre →
      IdxOk (cs.foldl (fun m g => if isPending g then m else aset g.id g.summary m) m) (pre ++ cs) by
    have := H cs [] [] (by simpa using h) (by intro x s; simp [aget])
    simpa [buildIndex] using this
  intro cs
  induction cs with
  | nil => intro pre m _ h; simpa using h
  | cons c cs ih =>
    intro pre m hn hm
    simp only [List.foldl_cons]
    have e : pre ++ c :: cs = (pre ++ [c]) ++ cs := by simp
    rw [e]
    refine ih (pre ++ [c]) _ (by rw [← e]; exact hn) ?_
    by_cases hp : isPending c = true
    · rw [if_pos hp]
      intro x s
      rw [hm x s]
      constructor
      · rintro ⟨d, hd, h1⟩; exact ⟨d, by simp [hd], h1⟩
      · rintro ⟨d, hd, h1, h2⟩
        rcases List.mem_append.1 hd with hd | hd
        · exact ⟨d, hd, h1, h2⟩
        · simp at hd; subst hd; rw [hp] at h1; cases h1
    · rw [if_neg hp]
      intro x s
      rw [aget_aset]
      by_cases hx : x = c.id
      · rw [if_pos hx]
        constructor
        · intro hs; exact ⟨c, by simp, by simpa using hp, hx.symm, by simpa using hs⟩
        · rintro ⟨d, hd, h1, h2, h3⟩
          have : d = c := by
            rw [e] at hn
            refine nodup_id_inj hn (by simp at hd ⊢; rcases hd with hd | hd <;> simp [hd]) (by simp) ?_
            rw [h2, hx]
          subst this; rw [h3]
      · rw [if_neg hx, hm x s]
        constructor
        · rintro ⟨d, hd, h1⟩; exact ⟨d, by simp [hd], h1⟩
        · rintro ⟨d, hd, h1, h2, h3⟩
          rcases List.mem_append.1 hd with hd | hd
          · exact ⟨d, hd, h1, h2, h3⟩
          · simp at hd; subst hd; exact absurd h2.symm hx

/-- How a current group relates to the original one: still untouched, or resolved. -/
def Rel (gs : List UGroup) (deps : List DepLookup) (fatal : List ExtErr) (g c : UGroup) : Prop :=
  (c = g ∧ isPending g = true ∧ g ∈ gs) ∨ (isPending c = false ∧ ∃ fs, Resolves gs deps g c fs ∧ ∀ e ∈ fs, e ∈ fatal)

theorem resolves_shape {g c : UGroup} {fs : List ExtErr} (h : Resolves gs deps g c fs) :
    g ∈ gs ∧ isPending c = false ∧ c.id = g.id := by
  cases h with
  | root _ hg hp => exact ⟨hg, hp, rfl⟩
  | step _ d par pfs hg hp h1 h2 ha => exact ⟨hg, (attempt_ok_shape ha).1, (attempt_ok_shape ha).2⟩

theorem Rel.id {fatal : List ExtErr} {g c : UGroup} (h : Rel gs deps fatal g c) : c.id = g.id := by
  rcases h with ⟨rfl, _⟩ | ⟨_, fs, h, _⟩
  · rfl
  · exact (resolves_shape h).2.2

theorem Rel.mem {fatal : List ExtErr} {g c : UGroup} (h : Rel gs deps fatal g c) : g ∈ gs := by
  rcases h with ⟨_, _, h⟩ | ⟨_, fs, h, _⟩
  · exact h
  · exact (resolves_shape h).1

theorem Rel.mono {f f' : List ExtErr} (hf : ∀ e ∈ f, e ∈ f') {g c : UGroup} (h : Rel gs deps f g c) : Rel gs deps f' g c := by
  rcases h with h | ⟨h1, fs, h2, h3⟩
  · exact .inl h
  · exact .inr ⟨h1, fs, h2, fun e he => hf e (h3 e he)⟩

/-- Pairs of lists related element by element. -/
inductive All2 {α β : Type} (R : α → β → Prop) : List α → List β → Prop
  | nil : All2 R [] []
  | cons {a b as bs} : R a b → All2 R as bs → All2 R (a :: as) (b :: bs)

theorem All2.imp {α β : Type} {R S : α → β → Prop} (h : ∀ a b, R a b → S a b) {as : List α} {bs : List β}
    (hr : All2 R as bs) : All2 S as bs := by
  induction hr with
  | nil => exact .nil
  | cons h1 _ ih => exact .cons (h _ _ h1) ih

theorem All2.append {α β : Type} {R : α → β → Prop} {as as' : List α} {bs bs' : List β}
    (h : All2 R as bs) (h' : All2 R as' bs') : All2 R (as ++ as') (bs ++ bs') := by
  induction h with
  | nil => exact h'
  | cons h1 _ ih => exact .cons h1 ih

theorem All2.right {α β : Type} {R : α → β → Prop} {as : List α} {bs : List β} (h : All2 R as bs) {b : β} (hb : b ∈ bs) :
    ∃ a ∈ as, R a b := by
  induction h with
  | nil => simp at hb
  | cons h1 _ ih =>
    rcases List.mem_cons.1 hb with rfl | hb
    · exact ⟨_, by simp, h1⟩
    · obtain ⟨a, ha, hr⟩ := ih hb; exact ⟨a, by simp [ha], hr⟩

theorem All2.left {α β : Type} {R : α → β → Prop} {as : List α} {bs : List β} (h : All2 R as bs) {a : α} (ha : a ∈ as) :
    ∃ b ∈ bs, R a b := by
  induction h with
  | nil => simp at ha
  | cons h1 _ ih =>
    rcases List.mem_cons.1 ha with rfl | ha
    · exact ⟨_, by simp, h1⟩
    · obtain ⟨b, hb, hr⟩ := ih ha; exact ⟨b, by simp [hb], hr⟩

theorem All2.ids {fatal : List ExtErr} {as bs : List UGroup} (h : All2 (Rel gs deps fatal) as bs) :
    bs.map UGroup.id = as.map UGroup.id := by
  induction h with
  | nil => rfl
  | cons h1 _ ih => simp [h1.id, ih]

/-- Success of one attempt inside a pass is a derivation of `Resolves`. -/
theorem attempt_resolves (hn : (gs.map UGroup.id).Nodup) (hs : NoShadow gs deps) {fatal : List ExtErr} {cs : List UGroup}
    (hcs : All2 (Rel gs deps fatal) gs cs) {idx : List (String × Summary)} (hidx : IdxOk idx cs) {g : UGroup}
    (hg : g ∈ gs) (hp : isPending g = true) {d : Done} (ha : attempt deps (fun x => aget x idx) g = .ok d) :
    Resolves gs deps g d.group d.fatal := by
  have key : ∀ x ∈ g.refs, x ∈ gs.map UGroup.id →
      ∃ h c fs, h ∈ gs ∧ h.id = x ∧ Resolves gs deps h c fs ∧ aget x idx = some c.summary := by
    intro x hx hloc
    have hsome : ∃ s, aget x idx = some s := by
      have hok := (attempt_ok_iff deps _ g d).1 ha
      rcases List.mem_append.1 hx with hx | hx
      · have hext : g.ext = some x := by cases he : g.ext <;> rw [he] at hx <;> simp at hx; rw [hx]
        rcases hok.2 with ⟨h0, _⟩ | ⟨y, p, hy, hl, _⟩
        · rw [h0] at hext; cases hext
        · rw [hext] at hy; cases hy
          cases hi : aget x idx with
          | some s => exact ⟨s, rfl⟩
          | none =>
            exfalso
            obtain ⟨h, hh, rfl⟩ := List.mem_map.1 hloc
            have hpend : isPending h = true := by
              obtain ⟨c, hc, hrel⟩ := hcs.left hh
              rcases hrel with ⟨_, h2, _⟩ | ⟨h1, fs, h2, _⟩
              · exact h2
              · have := (hidx h.id c.summary).2 ⟨c, hc, h1, (resolves_shape h2).2.2, rfl⟩
                rw [hi] at this; cases this
            have hno := hs g hg h hh hext hpend
            have hld : ∀ (ds : List DepLookup) (ex : Bool), (∀ d ∈ ds, d h.id = none) → lookupDeps ds h.id ex ≠ .found p := by
              intro ds
              induction ds with
              | nil => intro ex _; unfold lookupDeps; cases ex <;> simp
              | cons e ds ih =>
                intro ex hd
                unfold lookupDeps
                rw [hd e (by simp)]
                exact ih ex (fun d' hd' => hd d' (by simp [hd']))
            simp only [lookupGroup, hi] at hl
            exact hld deps false hno hl
      · obtain ⟨s, h1, _⟩ := hok.1.1 x hx
        exact ⟨s, h1⟩
    obtain ⟨s, hs'⟩ := hsome
    obtain ⟨c, hc, hcp, hcid, hcs'⟩ := (hidx x s).1 hs'
    obtain ⟨h, hh, hrel⟩ := hcs.right hc
    rcases hrel with ⟨rfl, h2, _⟩ | ⟨_, fs, h2, _⟩
    · rw [hcp] at h2; cases h2
    · refine ⟨h, c, fs, hh, ?_, h2, by rw [hs', hcs']⟩
      rw [← (resolves_shape h2).2.2, hcid]
  let pick : String → (UGroup × UGroup) × List ExtErr := fun x =>
    open Classical in
    if hx : x ∈ g.refs ∧ x ∈ gs.map UGroup.id then
      let h := key x hx.1 hx.2
      ((h.choose, h.choose_spec.choose), h.choose_spec.choose_spec.choose)
    else ((g, g), [])
  have hpick : ∀ x (hx : x ∈ g.refs) (hl : x ∈ gs.map UGroup.id), (pick x).1.1 ∈ gs ∧ (pick x).1.1.id = x ∧
      Resolves gs deps (pick x).1.1 (pick x).1.2 (pick x).2 ∧ aget x idx = some (pick x).1.2.summary := by
    intro x hx hl
    have := (key x hx hl).choose_spec.choose_spec.choose_spec
    simp only [pick, hx, hl, and_self, dif_pos]
    exact this
  refine Resolves.step g d (fun x => (pick x).1) (fun x => (pick x).2) hg hp ?_ ?_ ?_
  · intro x hx hl; exact ⟨(hpick x hx hl).1, (hpick x hx hl).2.1⟩
  · intro x hx hl; exact (hpick x hx hl).2.2.1
  · rw [← ha]
    refine attempt_congr deps _ _ g ?_
    intro x hx
    by_cases hl : x ∈ gs.map UGroup.id
    · rw [if_pos hl]; exact (hpick x hx hl).2.2.2.symm
    · rw [if_neg hl]
      cases hi : aget x idx with
      | none => rfl
      | some s =>
        exfalso
        obtain ⟨c, hc, _, hcid, _⟩ := (hidx x s).1 hi
        obtain ⟨h, hh, hrel⟩ := hcs.right hc
        exact hl (List.mem_map.2 ⟨h, hh, by rw [← hrel.id, hcid]⟩)

theorem pass_inv (hn : (gs.map UGroup.id).Nodup) (hs : NoShadow gs deps) :
    ∀ (suf gsuf pre gpre : List UGroup) (fatal : List ExtErr) (idx : List (String × Summary)),
      gs = gpre ++ gsuf → All2 (Rel gs deps fatal) gpre pre → All2 (Rel gs deps fatal) gsuf suf → IdxOk idx (pre ++ suf) →
      All2 (Rel gs deps (fatal ++ (pass deps idx suf).fatal)) gsuf (pass deps idx suf).groups ∧
      (∀ e ∈ (pass deps idx suf).fatal, ∃ g c fs, Resolves gs deps g c fs ∧ e ∈ fs) := by
  intro suf
  induction suf with
  | nil =>
    intro gsuf pre gpre fatal idx _ _ h _
    cases h
    simp [pass]; exact .nil
  | cons c suf ih =>
    intro gsuf pre gpre fatal idx hgs hpre hsuf hidx
    cases hsuf with
    | cons hrel hrest =>
      rename_i g gsuf
      have hall : All2 (Rel gs deps fatal) gs (pre ++ c :: suf) := by
        have := hpre.append (All2.cons hrel hrest)
        rw [hgs]; rw [hgs] at this; exact this
      unfold pass
      by_cases hp : isPending c = true
      · simp only [hp, if_true]
        have hcg : c = g ∧ isPending g = true ∧ g ∈ gs := by
          rcases hrel with h | ⟨h, _⟩
          · exact h
          · rw [hp] at h; cases h
        obtain ⟨rfl, hpg, hgm⟩ := hcg
        cases ha : attempt deps (fun x => aget x idx) c with
        | error es =>
          have := ih gsuf (pre ++ [c]) (gpre ++ [c]) fatal idx (by simp [hgs])
            (hpre.append (.cons hrel .nil)) hrest (by simpa using hidx)
          exact ⟨.cons (.inl ⟨rfl, hpg, hgm⟩) this.1, this.2⟩
        | ok d =>
          have hres := attempt_resolves hn hs hall hidx hgm hpg ha
          have hsh := attempt_ok_shape ha
          have hmono : ∀ e ∈ fatal, e ∈ fatal ++ d.fatal := fun e he => by simp [he]
          have hidx' : IdxOk (aset d.group.id d.group.summary idx) ((pre ++ [d.group]) ++ suf) := by
            have hn' : ((pre ++ c :: suf).map UGroup.id).Nodup := by rw [hall.ids]; exact hn
            intro x s
            rw [aget_aset]
            by_cases hx : x = d.group.id
            · rw [if_pos hx]
              constructor
              · intro h; exact ⟨d.group, by simp, hsh.1, hx.symm, by simpa using h⟩
              · rintro ⟨e, he, h1, h2, h3⟩
                have : e = d.group := by
                  simp only [List.append_assoc, List.mem_append, List.mem_cons, List.not_mem_nil, or_false] at he
                  simp only [List.map_append, List.map_cons, List.nodup_append, List.nodup_cons, List.mem_map,
                    List.mem_cons, not_exists, not_and] at hn'
                  have hid : e.id = c.id := by rw [h2, hx, hsh.2]
                  rcases he with he | he | he
                  · exact absurd hid (hn'.2.2 e.id ⟨e, he, rfl⟩ c.id (.inl rfl))
                  · exact he
                  · exact absurd hid (hn'.2.1.1 e he)
                subst this; rw [h3]
            · rw [if_neg hx, hidx x s]
              constructor
              · rintro ⟨e, he, h1, h2, h3⟩
                refine ⟨e, ?_, h1, h2, h3⟩
                simp only [List.mem_append, List.mem_cons] at he
                rcases he with he | rfl | he
                · simp [he]
                · rw [hp] at h1; cases h1
                · simp [he]
              · rintro ⟨e, he, h1, h2, h3⟩
                refine ⟨e, ?_, h1, h2, h3⟩
                simp only [List.append_assoc, List.mem_append, List.mem_cons, List.not_mem_nil, or_false] at he
                rcases he with he | rfl | he
                · simp [he]
                · exact absurd h2.symm hx
                · simp [he]
          have hreld : Rel gs deps (fatal ++ d.fatal) c d.group :=
            .inr ⟨hsh.1, d.fatal, hres, fun e he => by simp [he]⟩
          have := ih gsuf (pre ++ [d.group]) (gpre ++ [c]) (fatal ++ d.fatal) _ (by simp [hgs])
            ((hpre.imp (fun _ _ h => h.mono hmono)).append (.cons hreld .nil))
            (hrest.imp (fun _ _ h => h.mono hmono)) hidx'
          simp only
          refine ⟨.cons ?_ ?_, ?_⟩
          · exact hreld.mono (fun e he => by
              simp only [List.mem_append] at he ⊢; rcases he with he | he <;> simp [he])
          · have h1 := this.1
            rwa [List.append_assoc] at h1
          · intro e he
            rcases List.mem_append.1 he with he | he
            · exact ⟨c, d.group, d.fatal, hres, he⟩
            · exact this.2 e he
      · simp only [hp, Bool.false_eq_true, if_false]
        have := ih gsuf (pre ++ [c]) (gpre ++ [g]) fatal idx (by simp [hgs])
          (hpre.append (.cons hrel .nil)) hrest (by simpa using hidx)
        exact ⟨.cons (hrel.mono (fun e he => by simp [he])) this.1, this.2⟩

/-- Facts about a pass that end the loop. -/
theorem pass_no_errors (deps : List DepLookup) (idx : List (String × Summary)) (cs : List UGroup)
    (h : (pass deps idx cs).errors = []) : ∀ c ∈ (pass deps idx cs).groups, isPending c = false := by
  induction cs generalizing idx with
  | nil => simp [pass]
  | cons c cs ih =>
    unfold pass at h ⊢
    by_cases hp : isPending c = true
    · simp only [hp, if_true] at h ⊢
      cases ha : attempt deps (fun x => aget x idx) c with
      | error es =>
        rw [ha] at h
        simp only [List.append_eq_nil_iff] at h
        exact absurd h.1 (attempt_error_ne ha)
      | ok d =>
        rw [ha] at h
        simp only [List.append_eq_nil_iff] at h
        simp only [List.mem_cons, forall_eq_or_imp]
        exact ⟨(attempt_ok_shape ha).1, ih _ h.2⟩
    · simp only [hp, Bool.false_eq_true, if_false] at h ⊢
      simp only [List.mem_cons, forall_eq_or_imp]
      exact ⟨by simpa using hp, ih _ h⟩

theorem pass_stuck (deps : List DepLookup) (idx : List (String × Summary)) (cs : List UGroup)
    (h : (pass deps idx cs).count = 0) :
    (pass deps idx cs).groups = cs ∧ (pass deps idx cs).fatal = [] ∧
    (∀ c ∈ cs, isPending c = true → ∃ es, attempt deps (fun x => aget x idx) c = .error es ∧
      ∀ e ∈ es, e ∈ (pass deps idx cs).errors) ∧
    (∀ e ∈ (pass deps idx cs).errors, ∃ c ∈ cs, isPending c = true ∧
      ∃ es, attempt deps (fun x => aget x idx) c = .error es ∧ e ∈ es) := by
  induction cs generalizing idx with
  | nil => simp [pass]
  | cons c cs ih =>
    unfold pass at h ⊢
    by_cases hp : isPending c = true
    · simp only [hp, if_true] at h ⊢
      cases ha : attempt deps (fun x => aget x idx) c with
      | ok d => rw [ha] at h; simp at h
      | error es =>
        rw [ha] at h
        obtain ⟨h1, h2, h3, h4⟩ := ih idx h
        refine ⟨by rw [h1], h2, ?_, ?_⟩
        · intro c' hc' hp'
          rcases List.mem_cons.1 hc' with rfl | hc'
          · exact ⟨es, ha, fun e he => by simp [he]⟩
          · obtain ⟨es', h5, h6⟩ := h3 c' hc' hp'
            exact ⟨es', h5, fun e he => by simp [h6 e he]⟩
        · intro e he
          simp only [List.mem_append] at he
          rcases he with he | he
          · exact ⟨c, by simp, hp, es, ha, he⟩
          · obtain ⟨c', hc', h5⟩ := h4 e he
            exact ⟨c', by simp [hc'], h5⟩
    · simp only [hp, Bool.false_eq_true, if_false] at h ⊢
      obtain ⟨h1, h2, h3, h4⟩ := ih idx h
      refine ⟨by rw [h1], h2, ?_, ?_⟩
      · intro c' hc' hp'
        rcases List.mem_cons.1 hc' with rfl | hc'
        · exact absurd hp' hp
        · exact h3 c' hc' hp'
      · intro e he
        obtain ⟨c', hc', h5⟩ := h4 e he
        exact ⟨c', by simp [hc'], h5⟩

/-- How the loop ends. -/
structure EndState (gs : List UGroup) (deps : List DepLookup) (cs : List UGroup) (fatal : List ExtErr) : Prop where
  rel : All2 (Rel gs deps fatal) gs cs
  src : ∀ e ∈ fatal, ∃ g c fs, Resolves gs deps g c fs ∧ e ∈ fs

theorem loop_inv (hn : (gs.map UGroup.id).Nodup) (hs : NoShadow gs deps) (n : Nat) (cs : List UGroup) (fatal : List ExtErr)
    (h : EndState gs deps cs fatal) :
    (∀ cs' fatal', extLoop deps n cs fatal = .done cs' fatal' →
      EndState gs deps cs' fatal' ∧ ∀ c ∈ cs', isPending c = false) ∧
    (∀ cs' fatal' errs, extLoop deps n cs fatal = .stuck cs' fatal' errs →
      EndState gs deps cs' fatal' ∧ errs ≠ [] ∧
      (∀ c ∈ cs', isPending c = true → ∃ es, attempt deps (fun x => aget x (buildIndex cs')) c = .error es ∧
        ∀ e ∈ es, e ∈ errs) ∧
      (∀ e ∈ errs, ∃ c ∈ cs', isPending c = true ∧
        ∃ es, attempt deps (fun x => aget x (buildIndex cs')) c = .error es ∧ e ∈ es)) := by
  induction n generalizing cs fatal with
  | zero => simp [extLoop]
  | succ n ih =>
    have hnc : (cs.map UGroup.id).Nodup := by rw [h.rel.ids]; exact hn
    have hp := pass_inv hn hs cs gs [] [] fatal (buildIndex cs) (by simp) .nil h.rel
      (by simpa using buildIndex_ok cs hnc)
    have hnext : EndState gs deps (pass deps (buildIndex cs) cs).groups (fatal ++ (pass deps (buildIndex cs) cs).fatal) :=
      ⟨hp.1, fun e he => by
        rcases List.mem_append.1 he with he | he
        · exact h.src e he
        · exact hp.2 e he⟩
    simp only [extLoop]
    by_cases he : (pass deps (buildIndex cs) cs).errors = []
    · simp only [he, if_true]
      refine ⟨?_, by simp⟩
      rintro cs' fatal' heq
      simp only [LoopOut.done.injEq] at heq
      obtain ⟨rfl, rfl⟩ := heq
      exact ⟨hnext, pass_no_errors _ _ _ he⟩
    · simp only [he, if_false]
      by_cases hc : (pass deps (buildIndex cs) cs).count = 0
      · simp only [hc, if_true]
        refine ⟨by simp, ?_⟩
        rintro cs' fatal' errs heq
        simp only [LoopOut.stuck.injEq] at heq
        obtain ⟨rfl, rfl, rfl⟩ := heq
        obtain ⟨h1, h2, h3, h4⟩ := pass_stuck _ _ _ hc
        refine ⟨hnext, he, ?_, ?_⟩
        · rw [h1]; exact h3
        · rw [h1]; exact h4
      · simp only [hc, if_false]
        exact ih _ _ hnext

theorem end_init (gs : List UGroup) (deps : List DepLookup) : EndState gs deps gs [] := by
  refine ⟨?_, by simp⟩
  have : ∀ l : List UGroup, (∀ g ∈ l, g ∈ gs) → All2 (Rel gs deps []) l l := by
    intro l
    induction l with
    | nil => intro _; exact .nil
    | cons g l ih =>
      intro h
      refine .cons ?_ (ih (fun x hx => h x (by simp [hx])))
      by_cases hp : isPending g = true
      · exact .inl ⟨rfl, hp, h g (by simp)⟩
      · exact .inr ⟨by simpa using hp, [], .root g (h g (by simp)) (by simpa using hp), by simp⟩
  exact this gs (fun g hg => hg)

/-! ### Determinism and completeness -/

/-- What a group resolves to is unique (ids being unique). -/
theorem resolves_unique (hn : (gs.map UGroup.id).Nodup) {g a : UGroup} {fa : List ExtErr} (ha : Resolves gs deps g a fa) :
    ∀ {b : UGroup} {fb : List ExtErr}, Resolves gs deps g b fb → a = b ∧ fa = fb := by
  induction ha with
  | root g hg hp =>
    intro b fb hb
    cases hb with
    | root => exact ⟨rfl, rfl⟩
    | step _ _ _ _ _ hp' => rw [hp] at hp'; cases hp'
  | step g d par pfs hg hp h1 h2 ha ih =>
    intro b fb hb
    cases hb with
    | root _ _ hp' => rw [hp] at hp'; cases hp'
    | step _ d' par' pfs' _ _ h1' h2' ha' =>
      have heq : attempt deps (fun x => if x ∈ gs.map UGroup.id then some (par x).2.summary else none) g =
          attempt deps (fun x => if x ∈ gs.map UGroup.id then some (par' x).2.summary else none) g := by
        refine attempt_congr deps _ _ g ?_
        intro x hx
        by_cases hl : x ∈ gs.map UGroup.id
        · simp only [hl, if_true]
          have e1 : (par x).1 = (par' x).1 := nodup_id_inj hn (h1 x hx hl).1 (h1' x hx hl).1
            (by rw [(h1 x hx hl).2, (h1' x hx hl).2])
          have := h2' x hx hl
          rw [← e1] at this
          rw [(ih x hx hl this).1]
        · simp only [hl, if_false]
      rw [ha, ha'] at heq
      have := Except.ok.inj heq
      exact ⟨by rw [this], by rw [this]⟩

/-- In a state where no attempt succeeds, every group that resolves is resolved. -/
theorem stuck_complete (hn : (gs.map UGroup.id).Nodup) {cs : List UGroup} {fatal : List ExtErr}
    (h : EndState gs deps cs fatal)
    (hst : ∀ c ∈ cs, isPending c = true → ∃ es, attempt deps (fun x => aget x (buildIndex cs)) c = .error es)
    {g g' : UGroup} {fs : List ExtErr} (hr : Resolves gs deps g g' fs) : g' ∈ cs ∧ ∀ e ∈ fs, e ∈ fatal := by
  have hnc : (cs.map UGroup.id).Nodup := by rw [h.rel.ids]; exact hn
  induction hr with
  | root g hg hp =>
    obtain ⟨c, hc, hrel⟩ := h.rel.left hg
    rcases hrel with ⟨_, h2, _⟩ | ⟨_, fs, h2, _⟩
    · rw [hp] at h2; cases h2
    · have := (resolves_unique hn h2 (Resolves.root g hg hp)).1
      subst this; exact ⟨hc, by simp⟩
  | step g d par pfs hg hp h1 h2 ha ih =>
    obtain ⟨c, hc, hrel⟩ := h.rel.left hg
    rcases hrel with ⟨rfl, _, _⟩ | ⟨_, fs, h3, h4⟩
    · exfalso
      obtain ⟨es, hes⟩ := hst c hc hp
      have heq : attempt deps (fun x => aget x (buildIndex cs)) c =
          attempt deps (fun x => if x ∈ gs.map UGroup.id then some (par x).2.summary else none) c := by
        refine attempt_congr deps _ _ c ?_
        intro x hx
        by_cases hl : x ∈ gs.map UGroup.id
        · simp only [hl, if_true]
          refine (buildIndex_ok cs hnc x _).2 ⟨(par x).2, (ih x hx hl).1, ?_, ?_, rfl⟩
          · exact (resolves_shape (h2 x hx hl)).2.1
          · rw [(resolves_shape (h2 x hx hl)).2.2, (h1 x hx hl).2]
        · simp only [hl, if_false]
          cases hi : aget x (buildIndex cs) with
          | none => rfl
          | some s =>
            exfalso
            obtain ⟨c', hc', _, hid, _⟩ := (buildIndex_ok cs hnc x s).1 hi
            exact hl (by rw [← h.rel.ids]; exact List.mem_map.2 ⟨c', hc', hid⟩)
      rw [hes, ha] at heq; cases heq
    · have := resolves_unique hn h3 (Resolves.step g d par pfs hg hp h1 h2 ha)
      obtain ⟨rfl, rfl⟩ := this
      exact ⟨hc, h4⟩

/-! ### C01 -/

/-- C01: resolution succeeds iff every group resolves without an identity error, and the result is then, position by
position, what each group resolves to. -/
theorem extends_success_iff (hn : (gs.map UGroup.id).Nodup) (hs : NoShadow gs deps) (out : List UGroup) :
    resolveExtends deps gs = .ok out ↔ All2 (fun g c => Resolves gs deps g c []) gs out := by
  have hinv := loop_inv hn hs (pendingCount gs + 1) gs [] (end_init gs deps)
  have conv : ∀ {as bs : List UGroup}, All2 (Rel gs deps []) as bs → (∀ c ∈ bs, isPending c = false) →
      All2 (fun g c => Resolves gs deps g c []) as bs := by
    intro as bs h
    induction h with
    | nil => intro _; exact .nil
    | cons h1 _ ih =>
      intro hb
      refine .cons ?_ (ih (fun c hc => hb c (by simp [hc])))
      rcases h1 with ⟨rfl, h2, _⟩ | ⟨_, fs, h2, h3⟩
      · have := hb _ (List.mem_cons_self ..); rw [h2] at this; cases this
      · have : fs = [] := by
          cases fs with
          | nil => rfl
          | cons e es => exact absurd (h3 e (by simp)) (by simp)
        subst this; exact h2
  have uniq : ∀ {as bs cs : List UGroup}, All2 (fun g c => Resolves gs deps g c []) as bs →
      All2 (fun g c => Resolves gs deps g c []) as cs → bs = cs := by
    intro as bs cs h
    induction h generalizing cs with
    | nil => intro h'; cases h'; rfl
    | cons h1 _ ih =>
      intro h'; cases h' with
      | cons h1' h2' => rw [(resolves_unique hn h1 h1').1, ih h2']
  unfold resolveExtends
  have hfuel := (extends_terminates deps gs).1
  unfold runExtends at hfuel ⊢
  cases hl : extLoop deps (pendingCount gs + 1) gs [] with
  | outOfFuel => exact absurd hl hfuel
  | done cs fatal =>
    obtain ⟨hend, hpend⟩ := hinv.1 cs fatal hl
    cases fatal with
    | nil =>
      simp only
      constructor
      · intro h; have := Except.ok.inj h; subst this; exact conv hend.rel hpend
      · intro h; rw [uniq (conv hend.rel hpend) h]
    | cons e es =>
      simp only
      constructor
      · intro h; cases h
      · intro h
        exfalso
        obtain ⟨g, c, fs, hr, he⟩ := hend.src e (by simp)
        obtain ⟨c', _, hr'⟩ := h.left (resolves_shape hr).1
        rw [(resolves_unique hn hr hr').2] at he; simp at he
  | stuck cs fatal errs =>
    obtain ⟨hend, hne, h3, h4⟩ := hinv.2 cs fatal errs hl
    simp only
    constructor
    · intro h; cases h
    · intro h
      exfalso
      obtain ⟨e, he⟩ := List.exists_mem_of_ne_nil _ hne
      obtain ⟨c, hc, hp, _⟩ := h4 e he
      obtain ⟨g, hg, hrel⟩ := hend.rel.right hc
      rcases hrel with ⟨rfl, _, _⟩ | ⟨h1, _⟩
      · obtain ⟨c', _, hr⟩ := h.left hg
        have := (stuck_complete hn hend (fun c hc hp => let ⟨es, h, _⟩ := h3 c hc hp; ⟨es, h⟩) hr).1
        have heq : c' = c := nodup_id_inj (by rw [hend.rel.ids]; exact hn) this hc (resolves_shape hr).2.2
        subst heq
        have hp' := (resolves_shape hr).2.1
        rw [hp] at hp'; cases hp'
      · rw [hp] at h1; cases h1

/-- The ids of the groups an error is about. -/
def ExtErr.about : ExtErr → UGroup → Prop
  | .unresolvedExtends g p, u => u.id = g ∧ u.ext = some p
  | .unresolvedInclude g i, u => u.id = g ∧ i ∈ u.includes
  | .duplicateAttr is _, u => u.includes = is
  | .excluded x g, u => u.id = g ∧ x ∈ u.refs
  | .invalidRefinement g p, u => u.id = g ∧ u.ext = some p
  | .changedIdentity g p _ _, u => u.id = g ∧ u.ext = some p

theorem dupErrs_about (u : UGroup) (seen : List String) (as : List UAttr) (e : ExtErr)
    (h : e ∈ (dupErrs u.includes seen as).1) : e.about u := by
  induction as generalizing seen with
  | nil => simp [dupErrs] at h
  | cons a as ih =>
    unfold dupErrs at h
    by_cases hs : a.spec.key ∈ seen
    · simp only [hs, if_true, List.mem_cons] at h
      rcases h with rfl | h
      · rfl
      · exact ih _ h
    · simp only [hs, if_false] at h; exact ih _ h

theorem collect_about (u : UGroup) (idx : String → Option Summary) (seen is : List String) (his : ∀ i ∈ is, i ∈ u.includes)
    (e : ExtErr) (h : e ∈ (collectIncluded u idx seen is).1) : e.about u := by
  induction is generalizing seen with
  | nil => simp [collectIncluded] at h
  | cons i is ih =>
    have his' : ∀ i ∈ is, i ∈ u.includes := fun j hj => his j (by simp [hj])
    unfold collectIncluded at h
    cases hi : idx i with
    | none =>
      simp only [hi, List.mem_cons] at h
      rcases h with rfl | h
      · exact ⟨rfl, his i (by simp)⟩
      · exact ih _ his' h
    | some s =>
      simp only [hi] at h
      by_cases he : excludedParent u s = true
      · simp only [he, if_true, List.mem_cons] at h
        rcases h with rfl | h
        · exact ⟨rfl, by simp [UGroup.refs, his i (by simp)]⟩
        · exact ih _ his' h
      · simp only [he, Bool.false_eq_true, if_false, List.mem_append] at h
        rcases h with h | h
        · exact dupErrs_about u _ _ e h
        · exact ih _ his' h

theorem attempt_error_about {idx : String → Option Summary} {u : UGroup} {es : List ExtErr}
    (h : attempt deps idx u = .error es) : ∀ e ∈ es, e.about u := by
  unfold attempt at h
  by_cases hc : (collectIncluded u idx [] u.includes).1 = []
  · simp only [hc, ne_eq, not_true_eq_false, if_false] at h
    cases he : u.ext with
    | none => rw [he] at h; simp at h
    | some x =>
      rw [he] at h
      simp only at h
      cases hl : lookupGroup deps idx x with
      | missing => rw [hl] at h; have := Except.error.inj h; subst this; simp [ExtErr.about, he]
      | onlyExcluded =>
        rw [hl] at h; have := Except.error.inj h; subst this; simp [ExtErr.about, UGroup.refs, he]
      | found p =>
        rw [hl] at h
        simp only at h
        by_cases hx : excludedParent u p = true
        · rw [if_pos hx] at h; have := Except.error.inj h; subst this; simp [ExtErr.about, UGroup.refs, he]
        · rw [if_neg hx] at h; simp at h
  · simp only [ne_eq, hc, not_false_eq_true, if_true] at h
    have := Except.error.inj h; subst this
    exact fun e he => collect_about u idx [] u.includes (fun i hi => hi) e he

/-- C01: when resolution gets stuck, the reported errors are about exactly the groups that do not resolve: every error
is about such a group, and every such group has an error about it. -/
theorem extends_stuck_exact (hn : (gs.map UGroup.id).Nodup) (hs : NoShadow gs deps) (cs : List UGroup)
    (fatal errs : List ExtErr) (h : runExtends deps gs = .stuck cs fatal errs) :
    (∀ e ∈ errs, ∃ g ∈ gs, e.about g ∧ ∀ g' fs, ¬ Resolves gs deps g g' fs) ∧
    (∀ g ∈ gs, (∀ g' fs, ¬ Resolves gs deps g g' fs) → ∃ e ∈ errs, e.about g) := by
  obtain ⟨hend, hne, h3, h4⟩ := (loop_inv hn hs (pendingCount gs + 1) gs [] (end_init gs deps)).2 cs fatal errs h
  have hnot : ∀ c ∈ cs, isPending c = true → c ∈ gs ∧ ∀ g' fs, ¬ Resolves gs deps c g' fs := by
    intro c hc hp
    obtain ⟨g, hg, hrel⟩ := hend.rel.right hc
    rcases hrel with ⟨rfl, _, _⟩ | ⟨h1, _⟩
    · refine ⟨hg, fun g' fs hr => ?_⟩
      have hm := (stuck_complete hn hend (fun c hc hp => let ⟨es, h, _⟩ := h3 c hc hp; ⟨es, h⟩) hr).1
      have heq : g' = c := nodup_id_inj (by rw [hend.rel.ids]; exact hn) hm hc (resolves_shape hr).2.2
      subst heq
      have hp' := (resolves_shape hr).2.1
      rw [hp] at hp'; cases hp'
    · rw [hp] at h1; cases h1
  constructor
  · intro e he
    obtain ⟨c, hc, hp, es, ha, hes⟩ := h4 e he
    exact ⟨c, (hnot c hc hp).1, attempt_error_about ha e hes, (hnot c hc hp).2⟩
  · intro g hg hno
    obtain ⟨c, hc, hrel⟩ := hend.rel.left hg
    rcases hrel with ⟨rfl, hp, _⟩ | ⟨_, fs, hr, _⟩
    · obtain ⟨es, ha, hes⟩ := h3 c hc hp
      obtain ⟨e, he⟩ := List.exists_mem_of_ne_nil _ (attempt_error_ne ha)
      exact ⟨e, hes e he, attempt_error_about ha e he⟩
    · exact absurd hr (hno c fs)

/-- A group with a missing parent does not resolve. -/
theorem missing_parent_unresolvable {g : UGroup} {x : String} (hx : g.ext = some x) (hl : x ∉ gs.map UGroup.id)
    (hd : ∀ d ∈ deps, d x = none) (g' : UGroup) (fs : List ExtErr) : ¬ Resolves gs deps g g' fs := by
  intro h
  cases h with
  | root _ _ hp => simp [isPending, hx] at hp
  | step _ d par pfs _ _ _ _ ha =>
    rcases ((attempt_ok_iff deps _ g d).1 ha).2 with ⟨h0, _⟩ | ⟨y, p, hy, hlk, _⟩
    · rw [hx] at h0; cases h0
    · rw [hx] at hy; cases hy
      simp only [lookupGroup, hl, if_false] at hlk
      have : ∀ (ds : List DepLookup) (ex : Bool), (∀ d ∈ ds, d x = none) → lookupDeps ds x ex ≠ .found p := by
        intro ds
        induction ds with
        | nil => intro ex _; unfold lookupDeps; cases ex <;> simp
        | cons e ds ih =>
          intro ex hd
          unfold lookupDeps
          rw [hd e (by simp)]
          exact ih ex (fun d' hd' => hd d' (by simp [hd']))
      exact this deps false hd hlk

/-- C01: a local parent or included group of a resolving group resolves itself (so a chain of parents ends). -/
theorem resolves_parents {g g' : UGroup} {fs : List ExtErr} (hp : isPending g = true) (h : Resolves gs deps g g' fs) :
    ∀ x ∈ g.refs, x ∈ gs.map UGroup.id → ∃ p ∈ gs, p.id = x ∧ ∃ p' pfs, Resolves gs deps p p' pfs := by
  intro x hx hl
  cases h with
  | root _ _ hp' => rw [hp] at hp'; cases hp'
  | step _ d par pfs _ _ h1 h2 _ => exact ⟨_, (h1 x hx hl).1, (h1 x hx hl).2, _, _, h2 x hx hl⟩

/-- C01: groups on a cycle of local `extends`/`include_groups` references never resolve. `S` is any non-empty set of
groups each of which refers to a member of `S`: a cycle, a self reference, or several entangled cycles. -/
theorem cycle_unresolvable (hn : (gs.map UGroup.id).Nodup) (S : UGroup → Prop) (hS : ∀ g, S g → g ∈ gs)
    (hcyc : ∀ g, S g → ∃ h, S h ∧ h.id ∈ g.refs) {g : UGroup} (hg : S g) (g' : UGroup) (fs : List ExtErr) :
    ¬ Resolves gs deps g g' fs := by
  intro h
  induction h with
  | root g _ hp =>
    obtain ⟨h, _, hr⟩ := hcyc g hg
    unfold isPending at hp
    simp only [Bool.or_eq_false_iff, Bool.not_eq_false'] at hp
    unfold UGroup.refs at hr
    cases he : g.ext with
    | some x => rw [he] at hp; simp at hp
    | none =>
      rw [he] at hr
      have : g.includes = [] := by simpa using hp.2
      rw [this] at hr; simp at hr
  | step g d par pfs hgm hp h1 h2 ha ih =>
    obtain ⟨h, hSh, hr⟩ := hcyc g hg
    have hl : h.id ∈ gs.map UGroup.id := List.mem_map.2 ⟨h, hS h hSh, rfl⟩
    have : (par h.id).1 = h := nodup_id_inj hn (h1 _ hr hl).1 (hS h hSh) (h1 _ hr hl).2
    exact ih _ hr hl (by rw [this]; exact hSh)

/-- C01 + C02: on success, a group that extends a local group `p` and includes local groups `is` ends up with the
attributes inherited (C02) from the final attributes of `p` and of `is`, in that order of priority. -/
theorem extends_attributes (hn : (gs.map UGroup.id).Nodup) (hs : NoShadow gs deps) (out : List UGroup)
    (h : resolveExtends deps gs = .ok out) (g c : UGroup) (hg : g ∈ gs) (hc : c ∈ out) (hid : c.id = g.id)
    (hp : isPending g = true) (hloc : ∀ x ∈ g.refs, x ∈ gs.map UGroup.id) (fin : String → UGroup)
    (hfin : ∀ x ∈ g.refs, fin x ∈ out ∧ (fin x).id = x) :
    c.attrs = inheritAttrs g.id g.attrs
      (g.ext.toList.map (fun x => (x, (fin x).attrs)) ++ g.includes.map (fun x => (x, (fin x).attrs))) := by
  have hall := (extends_success_iff hn hs out).1 h
  have hidout : out.map UGroup.id = gs.map UGroup.id := by
    have : ∀ {as bs : List UGroup}, All2 (fun g c => Resolves gs deps g c []) as bs →
        bs.map UGroup.id = as.map UGroup.id := by
      intro as bs h
      induction h with
      | nil => rfl
      | cons h1 _ ih => simp only [List.map_cons, (resolves_shape h1).2.2]; rw [ih]
    exact this hall
  have hno : (out.map UGroup.id).Nodup := by rw [hidout]; exact hn
  obtain ⟨c', hc', hr⟩ := hall.left hg
  have : c' = c := nodup_id_inj hno hc' hc (by rw [(resolves_shape hr).2.2, hid])
  subst this
  obtain ⟨fs, hr⟩ : ∃ fs, Resolves gs deps g c' fs := ⟨_, hr⟩
  cases hr with
  | root _ _ hp' => rw [hp] at hp'; cases hp'
  | step _ d par pfs _ _ h1 h2 ha =>
    have hpar : ∀ x ∈ g.refs, (par x).2 = fin x := by
      intro x hx
      have hl := hloc x hx
      obtain ⟨o, ho, hro⟩ := hall.left (h1 x hx hl).1
      have e1 := (resolves_unique hn (h2 x hx hl) hro).1
      rw [e1]
      refine nodup_id_inj hno ho (hfin x hx).1 ?_
      rw [(resolves_shape hro).2.2, (h1 x hx hl).2, (hfin x hx).2]
    have hinc : includedAttrs (fun x => if x ∈ gs.map UGroup.id then some (par x).2.summary else none) g.includes =
        g.includes.map (fun x => (x, (fin x).attrs)) := by
      unfold includedAttrs
      have : ∀ is : List String, (∀ i ∈ is, i ∈ g.refs) →
          is.filterMap (fun i => (if i ∈ gs.map UGroup.id then some (par i).2.summary else none).map
            (fun s : Summary => (i, s.attrs))) = is.map (fun x => (x, (fin x).attrs)) := by
        intro is
        induction is with
        | nil => intro _; rfl
        | cons i is ih =>
          intro hi
          have h0 := hi i (by simp)
          rw [List.filterMap_cons]
          rw [if_pos (hloc i h0), hpar i h0]
          simp only [Option.map_some, List.map_cons]
          rw [ih (fun j hj => hi j (by simp [hj]))]
          rfl
      exact this g.includes (fun i hi => by simp [UGroup.refs, hi])
    rcases ((attempt_ok_iff deps _ g d).1 ha).2 with ⟨h0, rfl⟩ | ⟨x, p, hx, hlk, _, rfl⟩
    · rw [hinc, h0]; simp [finalize]
    · rw [hinc, hx]
      have hxr : x ∈ g.refs := by simp [UGroup.refs, hx]
      simp only [lookupGroup, if_pos (hloc x hxr), hpar x hxr] at hlk
      have : p = (fin x).summary := (Found.found.inj hlk).symm
      subst this
      simp [finalize, applyParent_id, applyParent_attrs, UGroup.summary]

/-- On success, what a group resolves to is one attempt with the final groups at hand. -/
theorem final_attempt (hn : (gs.map UGroup.id).Nodup) (hs : NoShadow gs deps) (out : List UGroup)
    (h : resolveExtends deps gs = .ok out) (g c : UGroup) (hg : g ∈ gs) (hc : c ∈ out) (hid : c.id = g.id)
    (hp : isPending g = true) (fin : String → UGroup)
    (hfin : ∀ x ∈ g.refs, x ∈ gs.map UGroup.id → fin x ∈ out ∧ (fin x).id = x) :
    ∃ d, attempt deps (fun x => if x ∈ gs.map UGroup.id then some (fin x).summary else none) g = .ok d ∧ c = d.group ∧
      d.fatal = [] := by
  have hall := (extends_success_iff hn hs out).1 h
  have hidout : ∀ {as bs : List UGroup}, All2 (fun g c => Resolves gs deps g c []) as bs →
      bs.map UGroup.id = as.map UGroup.id := by
    intro as bs h
    induction h with
    | nil => rfl
    | cons h1 _ ih => simp only [List.map_cons, (resolves_shape h1).2.2]; rw [ih]
  have hno : (out.map UGroup.id).Nodup := by rw [hidout hall]; exact hn
  obtain ⟨c', hc', hr⟩ := hall.left hg
  have : c' = c := nodup_id_inj hno hc' hc (by rw [(resolves_shape hr).2.2, hid])
  subst this
  obtain ⟨fs, hfs, hr⟩ : ∃ fs, fs = [] ∧ Resolves gs deps g c' fs := ⟨_, rfl, hr⟩
  cases hr with
  | root _ _ hp' => rw [hp] at hp'; cases hp'
  | step _ d par pfs _ _ h1 h2 ha =>
    refine ⟨d, ?_, rfl, hfs⟩
    rw [← ha]
    refine attempt_congr deps _ _ g ?_
    intro x hx
    by_cases hl : x ∈ gs.map UGroup.id
    · simp only [hl, if_true]
      obtain ⟨o, ho, hro⟩ := hall.left (h1 x hx hl).1
      have e1 := (resolves_unique hn (h2 x hx hl) hro).1
      have e2 : o = fin x := nodup_id_inj hno ho (hfin x hx hl).1
        (by rw [(resolves_shape hro).2.2, (h1 x hx hl).2, (hfin x hx hl).2])
      rw [e1, e2]
    · simp only [hl, if_false]

/-! ### C52: what a refinement takes from the signal it refines -/

/-- C52: after a successful resolution a V2 refinement of a local signal `p` has the metric name, instrument, unit, span
kind and requirement level of the final `p`, whatever it says itself; brief, note, stability, deprecation and span name
are its own when given and otherwise those of `p`; its annotations are those of `p` overridden by its own (C10). -/
theorem refinement_fields (hn : (gs.map UGroup.id).Nodup) (hs : NoShadow gs deps) (out : List UGroup)
    (h : resolveExtends deps gs = .ok out) (g c p : UGroup) (hg : g ∈ gs) (hc : c ∈ out) (hid : c.id = g.id)
    (hv2 : g.isV2 = true) (hext : g.ext = some p.id) (hp : p ∈ out) :
    (c.metricName = p.metricName ∧ c.instrument = p.instrument ∧ c.unit = p.unit ∧ c.spanKind = p.spanKind ∧
      c.reqLevel = p.reqLevel ∧ c.type = g.type) ∧
    (c.brief = (if g.brief = "" then p.brief else g.brief) ∧ c.note = (if g.note = "" then p.note else g.note)) ∧
    (c.stability = (match g.stability with | some s => some s | none => p.stability) ∧
      c.deprecated = (match g.deprecated with | some s => some s | none => p.deprecated) ∧
      c.spanName = (match g.spanName with | some s => some s | none => p.spanName)) ∧
    c.annotations.getD [] = mergeAnnots (p.annotations.getD []) (g.annotations.getD []) := by
  have hall := (extends_success_iff hn hs out).1 h
  have hidout : ∀ {as bs : List UGroup}, All2 (fun g c => Resolves gs deps g c []) as bs →
      bs.map UGroup.id = as.map UGroup.id := by
    intro as bs h
    induction h with
    | nil => rfl
    | cons h1 _ ih => simp only [List.map_cons, (resolves_shape h1).2.2]; rw [ih]
  have hex : ∀ x, x ∈ gs.map UGroup.id → ∃ o ∈ out, o.id = x := by
    intro x hx; rw [← hidout hall] at hx; exact List.mem_map.1 hx
  have hploc : p.id ∈ gs.map UGroup.id := by rw [← hidout hall]; exact List.mem_map.2 ⟨p, hp, rfl⟩
  let fin : String → UGroup := fun x =>
    open Classical in if x = p.id then p else if hx : x ∈ gs.map UGroup.id then (hex x hx).choose else g
  have hfin : ∀ x ∈ g.refs, x ∈ gs.map UGroup.id → fin x ∈ out ∧ (fin x).id = x := by
    intro x _ hx
    simp only [fin]
    by_cases hxp : x = p.id
    · rw [if_pos hxp]; exact ⟨hp, hxp.symm⟩
    · rw [if_neg hxp, dif_pos hx]; exact (hex x hx).choose_spec
  have hpend : isPending g = true := by simp [isPending, hext]
  obtain ⟨d, ha, rfl, _⟩ := final_attempt hn hs out h g c hg hc hid hpend fin hfin
  rcases ((attempt_ok_iff deps _ g d).1 ha).2 with ⟨h0, _⟩ | ⟨x, q, hx, hlk, _, rfl⟩
  · rw [hext] at h0; cases h0
  · rw [hext] at hx; cases hx
    have hq : q = p.summary := by
      simp only [lookupGroup, if_pos hploc, fin, if_true] at hlk
      exact (Found.found.inj hlk).symm
    subst hq
    simp only [finalize, applyParent, hv2, if_true, inheritV2, UGroup.summary, true_and]
    refine ⟨⟨?_, ?_, ?_⟩, ?_⟩
    · cases g.stability <;> rfl
    · cases g.deprecated <;> rfl
    · cases g.spanName <;> rfl
    · have hm : ∀ m : Annots, (if List.isEmpty m = true then none else some m : Option Annots).getD [] = m := by
        intro m; cases m <;> rfl
      refine (hm _).trans ?_
      cases g.annotations <;> rfl

/-- C52: after a successful resolution no V2 refinement of an entity has changed the identity: a role it gives to an
attribute of the refined entity is the role that attribute has there (if it has one), and it adds no identifying
attribute. -/
theorem refinement_identity_kept (hn : (gs.map UGroup.id).Nodup) (hs : NoShadow gs deps) (out : List UGroup)
    (h : resolveExtends deps gs = .ok out) (g p : UGroup) (hg : g ∈ gs) (hv2 : g.isV2 = true) (hext : g.ext = some p.id)
    (hp : p ∈ out) (hge : g.type = .entity) (hpe : p.type = .entity) (a : UAttr) (ha : a ∈ g.attrs) (r : String)
    (f : RefFields) (role : Role) (hspec : a.spec = .ref r f) (hrole : f.role = some role) :
    (∀ b ∈ p.attrs, b.spec.key = r → (p.attrs.map (fun b => b.spec.key)).Nodup → specRole b.spec = none ∨
      specRole b.spec = some role) ∧
    ((∀ b ∈ p.attrs, b.spec.key ≠ r) → role ≠ .identifying) := by
  have hall := (extends_success_iff hn hs out).1 h
  have hidout : ∀ {as bs : List UGroup}, All2 (fun g c => Resolves gs deps g c []) as bs →
      bs.map UGroup.id = as.map UGroup.id := by
    intro as bs h
    induction h with
    | nil => rfl
    | cons h1 _ ih => simp only [List.map_cons, (resolves_shape h1).2.2]; rw [ih]
  have hex : ∀ x, x ∈ gs.map UGroup.id → ∃ o ∈ out, o.id = x := by
    intro x hx; rw [← hidout hall] at hx; exact List.mem_map.1 hx
  have hploc : p.id ∈ gs.map UGroup.id := by rw [← hidout hall]; exact List.mem_map.2 ⟨p, hp, rfl⟩
  let fin : String → UGroup := fun x =>
    open Classical in if x = p.id then p else if hx : x ∈ gs.map UGroup.id then (hex x hx).choose else g
  have hfin : ∀ x ∈ g.refs, x ∈ gs.map UGroup.id → fin x ∈ out ∧ (fin x).id = x := by
    intro x _ hx
    simp only [fin]
    by_cases hxp : x = p.id
    · rw [if_pos hxp]; exact ⟨hp, hxp.symm⟩
    · rw [if_neg hxp, dif_pos hx]; exact (hex x hx).choose_spec
  have hpend : isPending g = true := by simp [isPending, hext]
  obtain ⟨c, hc, hr⟩ := hall.left hg
  obtain ⟨d, hat, _, hfat⟩ := final_attempt hn hs out h g c hg hc (resolves_shape hr).2.2 hpend fin hfin
  rcases ((attempt_ok_iff deps _ g d).1 hat).2 with ⟨h0, _⟩ | ⟨x, q, hx, hlk, _, rfl⟩
  · rw [hext] at h0; cases h0
  · rw [hext] at hx; cases hx
    have hq : q = p.summary := by
      simp only [lookupGroup, if_pos hploc, fin, if_true] at hlk
      exact (Found.found.inj hlk).symm
    subst hq
    have hid : identityErr g.id p.id p.attrs a = none := by
      simp only [identityErrs, hv2, hge, UGroup.summary, hpe] at hfat
      exact List.filterMap_eq_nil_iff.1 hfat a ha
    simp only [identityErr, hspec, hrole] at hid
    have hch : changesIdentity (p.attrs.find? (fun b => b.spec.key = r)) role = false := by
      cases hc : changesIdentity (p.attrs.find? (fun b => b.spec.key = r)) role with
      | false => rfl
      | true => rw [hc] at hid; simp at hid
    constructor
    · intro b hb hbr hnd
      have hfind : p.attrs.find? (fun b => b.spec.key = r) = some b := by
        clear hch hid hat hfat hpe hlk hfin hploc hp hext hr
        revert hb hnd
        generalize p.attrs = l
        induction l with
        | nil => intro hb; simp at hb
        | cons y ys ih =>
          intro hb hnd
          simp only [List.map_cons, List.nodup_cons] at hnd
          rcases List.mem_cons.1 hb with rfl | hb
          · simp [hbr]
          · have : y.spec.key ≠ r := fun he => hnd.1 (by rw [he, ← hbr]; exact List.mem_map.2 ⟨b, hb, rfl⟩)
            rw [List.find?_cons_of_neg (by simpa using this)]
            exact ih hb hnd.2
      rw [hfind] at hch
      cases hsr : specRole b.spec with
      | none => exact .inl rfl
      | some br =>
        simp only [changesIdentity, hsr, bne_eq_false_iff_eq] at hch
        exact .inr (by rw [hch])
    · intro hno
      have hfind : p.attrs.find? (fun b => b.spec.key = r) = none := by
        rw [List.find?_eq_none]
        intro b hb; simpa using hno b hb
      rw [hfind] at hch
      intro he; subst he; simp [changesIdentity] at hch

/-! ### C06, the part about `extends` -/

/-- C06: a group that is not excluded from dependency resolution never gets anything from an excluded parent or
included group: on success its local parents and included groups are not excluded, and a parent that is not local comes
from a dependency in which it is not excluded. -/
theorem extends_never_from_excluded (hn : (gs.map UGroup.id).Nodup) (hs : NoShadow gs deps) (out : List UGroup)
    (h : resolveExtends deps gs = .ok out) (g : UGroup) (hg : g ∈ gs)
    (hex : isGroupExcluded g.annotations g.visibility g.type = false) :
    (∀ x ∈ g.refs, ∀ p ∈ out, p.id = x → isExcludedOpt p.annotations = false) ∧
    (∀ x, g.ext = some x → x ∉ gs.map UGroup.id → ∃ d ∈ deps, ∃ s, d x = some s ∧ isExcludedOpt s.annotations = false) := by
  have hall := (extends_success_iff hn hs out).1 h
  have hidout : ∀ {as bs : List UGroup}, All2 (fun g c => Resolves gs deps g c []) as bs →
      bs.map UGroup.id = as.map UGroup.id := by
    intro as bs h
    induction h with
    | nil => rfl
    | cons h1 _ ih => simp only [List.map_cons, (resolves_shape h1).2.2]; rw [ih]
  have hno : (out.map UGroup.id).Nodup := by rw [hidout hall]; exact hn
  obtain ⟨c, _, hr⟩ := hall.left hg
  obtain ⟨fs, hr⟩ : ∃ fs, Resolves gs deps g c fs := ⟨_, hr⟩
  cases hr with
  | root _ _ hp =>
    have hext : g.ext = none ∧ g.includes = [] := by
      unfold isPending at hp
      simp only [Bool.or_eq_false_iff, Bool.not_eq_false'] at hp
      exact ⟨by cases he : g.ext with | none => rfl | some x => rw [he] at hp; simp at hp, by simpa using hp.2⟩
    refine ⟨?_, ?_⟩
    · intro x hx; simp [UGroup.refs, hext.1, hext.2] at hx
    · intro x hx; rw [hext.1] at hx; cases hx
  | step _ d par pfs _ _ h1 h2 ha =>
    have hok := (attempt_ok_iff deps _ g d).1 ha
    constructor
    · intro x hx p hp hpid
      have hl : x ∈ gs.map UGroup.id := by rw [← hidout hall]; exact List.mem_map.2 ⟨p, hp, hpid⟩
      have hpar : (par x).2 = p := by
        obtain ⟨o, ho, hro⟩ := hall.left (h1 x hx hl).1
        rw [(resolves_unique hn (h2 x hx hl) hro).1]
        exact nodup_id_inj hno ho hp (by rw [(resolves_shape hro).2.2, (h1 x hx hl).2, hpid])
      have hsum : excludedParent g p.summary = false := by
        rcases List.mem_append.1 hx with hx' | hx'
        · have hext : g.ext = some x := by cases he : g.ext <;> rw [he] at hx' <;> simp at hx'; rw [hx']
          rcases hok.2 with ⟨h0, _⟩ | ⟨y, q, hy, hlk, hq, _⟩
          · rw [h0] at hext; cases hext
          · rw [hext] at hy; cases hy
            simp only [lookupGroup, if_pos hl, hpar] at hlk
            rw [Found.found.inj hlk]; exact hq
        · obtain ⟨s, hs1, hs2⟩ := hok.1.1 x hx'
          simp only [if_pos hl, hpar, Option.some.injEq] at hs1
          rw [hs1]; exact hs2
      simpa [excludedParent, UGroup.summary, hex] using hsum
    · intro x hx hl
      rcases hok.2 with ⟨h0, _⟩ | ⟨y, q, hy, hlk, _, _⟩
      · rw [hx] at h0; cases h0
      · rw [hx] at hy; cases hy
        simp only [lookupGroup, if_neg hl] at hlk
        have : ∀ (ds : List DepLookup) (ex : Bool), lookupDeps ds x ex = .found q →
            ∃ d ∈ ds, ∃ s, d x = some s ∧ isExcludedOpt s.annotations = false := by
          intro ds
          induction ds with
          | nil => intro ex hf; unfold lookupDeps at hf; cases ex <;> simp at hf
          | cons e ds ih =>
            intro ex hf
            unfold lookupDeps at hf
            cases he : e x with
            | none =>
              rw [he] at hf
              obtain ⟨d, hd, hh⟩ := ih ex hf
              exact ⟨d, by simp [hd], hh⟩
            | some s =>
              rw [he] at hf
              simp only at hf
              by_cases hxs : isExcludedOpt s.annotations = true
              · rw [if_pos hxs] at hf
                obtain ⟨d, hd, hh⟩ := ih true hf
                exact ⟨d, by simp [hd], hh⟩
              · exact ⟨e, by simp, s, he, by simpa using hxs⟩
        exact this deps false hlk

/-! ### C04, the part about `extends` -/

theorem resolves_mono_mem {gs gs' : List UGroup} (hm : ∀ g, g ∈ gs ↔ g ∈ gs') {g c : UGroup} {fs : List ExtErr}
    (h : Resolves gs deps g c fs) : Resolves gs' deps g c fs := by
  have hids : ∀ x, x ∈ gs.map UGroup.id ↔ x ∈ gs'.map UGroup.id := by
    intro x
    simp only [List.mem_map, hm]
  induction h with
  | root g hg hp => exact .root g ((hm g).1 hg) hp
  | step g d par pfs hg hp h1 h2 ha ih =>
    refine .step g d par pfs ((hm g).1 hg) hp ?_ ?_ ?_
    · intro x hx hl
      have := h1 x hx ((hids x).2 hl)
      exact ⟨(hm _).1 this.1, this.2⟩
    · intro x hx hl; exact ih x hx ((hids x).2 hl)
    · rw [← ha]
      refine attempt_congr deps _ _ g ?_
      intro x _
      by_cases hl : x ∈ gs.map UGroup.id
      · rw [if_pos hl, if_pos ((hids x).1 hl)]
      · rw [if_neg hl, if_neg (fun h => hl ((hids x).2 h))]

/-- C04 (partial: the `extends` phase, unique group ids, no dependency shadowing a pending local group). Reordering the
groups neither changes whether this phase succeeds nor what each group resolves to. -/
theorem extends_order_partial (gs gs' : List UGroup) (deps : List DepLookup) (hperm : gs.Perm gs')
    (hn : (gs.map UGroup.id).Nodup) (hs : NoShadow gs deps) :
    (∀ out, resolveExtends deps gs = .ok out → ∃ out', resolveExtends deps gs' = .ok out' ∧ out.Perm out') ∧
    (∀ g c fs, Resolves gs deps g c fs ↔ Resolves gs' deps g c fs) := by
  have hm : ∀ g, g ∈ gs ↔ g ∈ gs' := fun g => hperm.mem_iff
  have hn' : (gs'.map UGroup.id).Nodup := (hperm.map UGroup.id).nodup_iff.1 hn
  have hs' : NoShadow gs' deps := fun g hg h hh => hs g ((hm g).2 hg) h ((hm h).2 hh)
  refine ⟨?_, fun g c fs => ⟨resolves_mono_mem hm, resolves_mono_mem (fun g => (hm g).symm)⟩⟩
  intro out hout
  have hall := (extends_success_iff hn hs out).1 hout
  have transfer : ∀ {as bs : List UGroup}, All2 (fun g c => Resolves gs deps g c []) as bs → ∀ {as'}, as.Perm as' →
      ∃ bs', All2 (fun g c => Resolves gs deps g c []) as' bs' ∧ bs.Perm bs' := by
    intro as bs h as' hp
    induction hp generalizing bs with
    | nil => exact ⟨bs, h, .refl _⟩
    | cons x _ ih =>
      cases h with
      | cons h1 h2 =>
        obtain ⟨bs', h3, h4⟩ := ih h2
        exact ⟨_, .cons h1 h3, .cons _ h4⟩
    | swap x y l =>
      cases h with
      | cons h1 h2 => cases h2 with
        | cons h3 h4 => exact ⟨_, .cons h3 (.cons h1 h4), .swap ..⟩
    | trans _ _ ih1 ih2 =>
      obtain ⟨bs1, h1, h2⟩ := ih1 h
      obtain ⟨bs2, h3, h4⟩ := ih2 h1
      exact ⟨bs2, h3, h2.trans h4⟩
  obtain ⟨out', h1, h2⟩ := transfer hall hperm
  refine ⟨out', (extends_success_iff hn' hs' out').2 (h1.imp (fun _ _ h => resolves_mono_mem hm h)), h2⟩

/-! ### Non-vacuity and findings -/

private def gBase : UGroup := { id := "base", attrs := [{ spec := .id "a" { type := "int" } }] }
private def gMid : UGroup := { id := "mid", ext := some "base", attrs := [{ spec := .ref "a" { brief := some "m" } }] }
private def gLeaf : UGroup := { id := "leaf", type := .span, ext := some "mid", includes := ["extra"] }
private def gExtra : UGroup := { id := "extra", attrs := [{ spec := .id "b" { type := "string" } }] }
private def gSelf : UGroup := { id := "self", ext := some "self" }

example : (([gLeaf, gMid, gExtra, gBase] : List UGroup).map UGroup.id).Nodup ∧ NoShadow [gLeaf, gMid, gExtra, gBase] [] := by
  refine ⟨by decide, ?_⟩
  intro g _ h _ _ _ d hd; simp at hd

example : (match resolveExtends [] [gLeaf, gMid, gExtra, gBase] with
    | .ok out => out.map (fun g => (g.id, g.attrs.map (fun a => a.spec.key)))
    | .error _ => []) = [("leaf", ["a", "b"]), ("mid", ["a"]), ("extra", ["b"]), ("base", ["a"])] := by decide

example : (match resolveExtends [] [
      { id := "http.server", type := .span, isV2 := true, ext := some "http", spanKind := some "client", brief := "mine" },
      { id := "http", type := .span, isV2 := true, spanKind := some "server", brief := "b", note := "n" }] with
    | .ok out => out.map (fun g => (g.spanKind, g.brief, g.note))
    | .error _ => []) = [(some "server", "mine", "n"), (some "server", "b", "n")] := by decide

example : resolveExtends [] [
      { id := "e", type := .entity, isV2 := true, attrs := [{ spec := .id "k" { type := "string", role := some .identifying } }] },
      { id := "e.r", type := .entity, isV2 := true, ext := some "e",
        attrs := [{ spec := .ref "k" { role := some .descriptive } }] }] =
    .error [.changedIdentity "e.r" "e" "k" .descriptive] := by rfl

example : resolveExtends [] [gSelf, gBase] = .error [.unresolvedExtends "self" "self"] := by rfl

private def depMid : DepLookup := fun x =>
  if x = "mid" then some { ({ id := "mid", attrs := [{ spec := .id "z" { type := "int" } }] } : UGroup).summary with
                           isLocal := false } else none

/-- C04 refuted when a dependency has a group with the id of a local group that itself has a parent: the meaning of
`extends` depends on the order in which the files were read. -/
theorem extends_order_refuted : ∃ (gs gs' : List UGroup) (deps : List DepLookup) (out out' : List UGroup), gs.Perm gs' ∧
    (gs.map UGroup.id).Nodup ∧ resolveExtends deps gs = .ok out ∧ resolveExtends deps gs' = .ok out' ∧ ¬ out.Perm out' := by
  refine ⟨[gBase, gMid, { gLeaf with includes := [] }], [gBase, { gLeaf with includes := [] }, gMid], [depMid], _, _,
    ?_, by decide, rfl, rfl, ?_⟩
  · exact .cons _ (.swap ..)
  · intro h
    have h1 := (h.mem_iff (a := ({ id := "leaf", type := .span, attrs := [{ spec := .id "z" { type := "int" } }] } : UGroup))).2
      (by decide)
    revert h1
    decide

/-- A V2 refinement whose type differs from its parent's raises `InvalidRefinement` in the code, but that error is
dropped: in a stuck loop no reported error is of that kind, and in a finished loop it is not reported either. -/
theorem invalid_refinement_never_reported (deps : List DepLookup) (gs : List UGroup) (es : List ExtErr)
    (h : resolveExtends deps gs = .error es) (r p : String) : ExtErr.invalidRefinement r p ∉ es := by
  have hfat : ∀ (idx : String → Option Summary) (g : UGroup) (d : Done), attempt deps idx g = .ok d →
      ExtErr.invalidRefinement r p ∉ d.fatal := by
    intro idx g d ha
    rcases ((attempt_ok_iff deps idx g d).1 ha).2 with ⟨_, rfl⟩ | ⟨x, q, _, _, _, rfl⟩
    · simp
    · simp only [identityErrs]
      split
      · intro hm
        obtain ⟨a, _, ha⟩ := List.mem_filterMap.1 hm
        unfold identityErr at ha
        split at ha
        · cases ha
        · split at ha
          · cases ha
          · split at ha <;> simp at ha
      · simp
  have hpf : ∀ (cs : List UGroup) (idx : List (String × Summary)), ExtErr.invalidRefinement r p ∉ (pass deps idx cs).fatal := by
    intro cs
    induction cs with
    | nil => intro idx; simp [pass]
    | cons c cs ih =>
      intro idx
      unfold pass
      by_cases hp : isPending c = true
      · simp only [hp, if_true]
        cases ha : attempt deps (fun x => aget x idx) c with
        | error es => exact ih idx
        | ok d =>
          simp only [List.mem_append, not_or]
          exact ⟨hfat _ _ _ ha, ih _⟩
      · simp only [hp, Bool.false_eq_true, if_false]; exact ih idx
  have herr : ∀ (idx : String → Option Summary) (g : UGroup) (es : List ExtErr), attempt deps idx g = .error es →
      ExtErr.invalidRefinement r p ∉ es := by
    intro idx g es ha
    unfold attempt at ha
    have hcol : ∀ (is seen : List String), ExtErr.invalidRefinement r p ∉ (collectIncluded g idx seen is).1 := by
      have hdup : ∀ (as : List UAttr) (seen : List String), ExtErr.invalidRefinement r p ∉ (dupErrs g.includes seen as).1 := by
        intro as
        induction as with
        | nil => intro seen; simp [dupErrs]
        | cons a as ih => intro seen; unfold dupErrs; by_cases h : a.spec.key ∈ seen <;> simp [h, ih]
      intro is
      induction is with
      | nil => intro seen; simp [collectIncluded]
      | cons i is ih =>
        intro seen
        unfold collectIncluded
        cases idx i with
        | none => simp [ih]
        | some s => by_cases he : excludedParent g s = true <;> simp [he, ih, hdup]
    by_cases hc : (collectIncluded g idx [] g.includes).1 = []
    · simp only [hc, ne_eq, not_true_eq_false, if_false] at ha
      cases he : g.ext with
      | none => rw [he] at ha; simp at ha
      | some x =>
        rw [he] at ha
        simp only at ha
        cases hl : lookupGroup deps idx x with
        | missing => rw [hl] at ha; have := Except.error.inj ha; subst this; simp
        | onlyExcluded => rw [hl] at ha; have := Except.error.inj ha; subst this; simp
        | found q =>
          rw [hl] at ha
          simp only at ha
          by_cases hx : excludedParent g q = true
          · rw [if_pos hx] at ha; have := Except.error.inj ha; subst this; simp
          · rw [if_neg hx] at ha; simp at ha
    · simp only [ne_eq, hc, not_false_eq_true, if_true] at ha
      have := Except.error.inj ha; subst this; exact hcol _ _
  have hloop : ∀ (n : Nat) (cs : List UGroup) (fatal : List ExtErr), ExtErr.invalidRefinement r p ∉ fatal →
      (∀ cs' f, extLoop deps n cs fatal = .done cs' f → ExtErr.invalidRefinement r p ∉ f) ∧
      (∀ cs' f e, extLoop deps n cs fatal = .stuck cs' f e → ExtErr.invalidRefinement r p ∉ f ++ e) := by
    intro n
    induction n with
    | zero => intro cs fatal _; simp [extLoop]
    | succ n ih =>
      intro cs fatal hf
      have hf' : ExtErr.invalidRefinement r p ∉ fatal ++ (pass deps (buildIndex cs) cs).fatal := by
        simp only [List.mem_append, not_or]; exact ⟨hf, hpf _ _⟩
      simp only [extLoop]
      by_cases he : (pass deps (buildIndex cs) cs).errors = []
      · simp only [he, if_true]
        refine ⟨?_, by simp⟩
        rintro cs' f heq
        simp only [LoopOut.done.injEq] at heq
        rw [← heq.2]; exact hf'
      · simp only [he, if_false]
        by_cases hc : (pass deps (buildIndex cs) cs).count = 0
        · simp only [hc, if_true]
          refine ⟨by simp, ?_⟩
          rintro cs' f e heq
          simp only [LoopOut.stuck.injEq] at heq
          obtain ⟨_, rfl, rfl⟩ := heq
          simp only [List.mem_append, not_or]
          refine ⟨by simpa using hf', ?_⟩
          intro hm
          obtain ⟨c, _, _, es, ha, hes⟩ := (pass_stuck _ _ _ hc).2.2.2 _ hm
          exact herr _ _ _ ha hes
        · simp only [hc, if_false]
          exact ih _ _ hf'
  have hl := hloop (pendingCount gs + 1) gs [] (by simp)
  unfold resolveExtends runExtends at h
  cases hr : extLoop deps (pendingCount gs + 1) gs [] with
  | outOfFuel => exact absurd hr (extends_terminates deps gs).1
  | done cs f =>
    rw [hr] at h
    cases f with
    | nil => simp at h
    | cons e f => simp only at h; have := Except.error.inj h; subst this; exact hl.1 _ _ hr
  | stuck cs f e =>
    rw [hr] at h
    simp only at h
    have := Except.error.inj h; subst this; exact hl.2 _ _ _ hr

/-- C135, refuted. The consequence: a V2 metric refinement of an event is accepted. -/
theorem invalid_refinement_accepted_refuted : ∃ gs out, resolveExtends [] gs = .ok out ∧
    ∃ g ∈ gs, ∃ p ∈ gs, g.isV2 = true ∧ g.ext = some p.id ∧ g.type ≠ p.type :=
  ⟨[{ id := "ev", type := .event, isV2 := true }, { id := "m", type := .metric, isV2 := true, ext := some "ev" }], _, rfl,
    { id := "m", type := .metric, isV2 := true, ext := some "ev" }, by decide,
    { id := "ev", type := .event, isV2 := true }, by decide, rfl, rfl, by decide⟩

end Verif.Resolver
