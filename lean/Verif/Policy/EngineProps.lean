import Verif.Policy.DataProps
import Verif.Policy.FindingProps

/-!
# Loading policies, and what they report
-/

namespace Verif.Policy
open Verif.Util Verif.Fs

/-! ### Specification -/

/-- The entry `rel` below the directory, which leads to `place`, is taken for a policy: its name ends with `.rego`, and
neither it nor a directory on the way is hidden. -/
def PolicyEntry (w : World) (dir : Path) (place rel : List String) : Prop :=
  ∃ node, canonicalize w.fs w.cwd dir = .ok place ∧ w.fs.at place = some node ∧ (∃ e, node.at rel = some e) ∧
    (∀ n ∈ rel, Shown n) ∧ ∃ s : String, (place ++ rel).getLast?.getD "" = s ++ ".rego"

/-- A text that is a policy of the package. -/
def IsPolicy (r : Rego) (w : World) (c p : String) : Prop := w.utf8 c = true ∧ r.package c = some p

/-- The policies in a directory, each once, with their texts. -/
structure Listing (w : World) (dir : Path) (l : List (List String × String)) : Prop where
  once : (l.map Prod.fst).Nodup
  mem : ∀ rel c, (rel, c) ∈ l ↔ ∃ place, PolicyEntry w dir place rel ∧ FileAt w (place ++ rel) c

/-- The engine has these texts more than before, and the packages they are in. -/
structure Gains (r : Rego) (e e' : Engine) (texts : List String) : Prop where
  modules : e'.modules = e.modules ++ texts
  packages : ∀ p, p ∈ e'.packages ↔ p ∈ e.packages ∨ ∃ c ∈ texts, r.package c = some p
  data : e'.data = e.data

/-! ### Lemmas -/

theorem gains_refl (r : Rego) (e : Engine) : Gains r e e [] := ⟨by simp, by simp, rfl⟩

theorem gains_trans {r : Rego} {a b c : Engine} {l m : List String} (h : Gains r a b l) (h' : Gains r b c m) : Gains r a c (l ++ m) := by
  refine ⟨by rw [h'.modules, h.modules, List.append_assoc], fun p => ?_, by rw [h'.data, h.data]⟩
  rw [h'.packages, h.packages]
  simp only [List.mem_append]
  grind

theorem addPolicy_iff (r : Rego) (e : Engine) (c : String) :
    (∃ e', e.addPolicy r c = .ok e') ↔ ∃ p, r.package c = some p := by
  unfold Engine.addPolicy
  cases r.package c <;> simp

theorem addPolicy_gains {r : Rego} {e e' : Engine} {c : String} (h : e.addPolicy r c = .ok e') : Gains r e e' [c] := by
  unfold Engine.addPolicy at h
  cases hp : r.package c with
  | none => rw [hp] at h; cases h
  | some p =>
    rw [hp] at h
    cases h
    refine ⟨rfl, fun q => ?_, rfl⟩
    dsimp only
    by_cases hm : p ∈ e.packages
    · rw [if_pos hm]; simp [hp]; rintro rfl; exact hm
    · rw [if_neg hm]; simp [hp]; grind

theorem addPolicyFile_iff (r : Rego) (w : World) (e : Engine) (o : Option String) :
    (∃ e', e.addPolicyFile r w.utf8 o = .ok e') ↔ ∃ c p, o = some c ∧ IsPolicy r w c p := by
  unfold IsPolicy
  cases o with
  | none => simp [Engine.addPolicyFile]
  | some c =>
    unfold Engine.addPolicyFile
    cases hu : w.utf8 c with
    | false => simp [hu]
    | true => simp [hu, addPolicy_iff]

theorem addPolicyFile_gains {r : Rego} {w : World} {e e' : Engine} {o : Option String} (h : e.addPolicyFile r w.utf8 o = .ok e') :
    ∃ c, o = some c ∧ Gains r e e' [c] := by
  cases o with
  | none => cases h
  | some c =>
    change (if w.utf8 c = false then Except.error Err.invalidPolicy else e.addPolicy r c) = .ok e' at h
    cases hu : w.utf8 c with
    | false => rw [hu] at h; cases h
    | true => rw [hu] at h; exact ⟨c, rfl, addPolicy_gains h⟩

theorem isRego_iff (n : String) : isRego n = true ↔ ∃ s : String, n = s ++ ".rego" := by
  unfold isRego
  rw [Option.isSome_iff_exists]
  constructor
  · rintro ⟨x, hx⟩
    exact ⟨String.ofList x, String.toList_inj.1 (by rw [dropSuffix?_iff.1 hx]; simp)⟩
  · rintro ⟨s, rfl⟩
    exact ⟨s.toList, dropSuffix?_iff.2 (by simp)⟩

/-- The texts of the entries that are policies, or none if one cannot be read. -/
def taken (w : World) (place : List String) (l : List (List String)) : List (List String × Option String) :=
  (l.filter fun rel => isRego (lastName (place ++ rel))).map fun rel => (rel, contentAt w (place ++ rel))

theorem policyFold (r : Rego) (w : World) (place : List String) (l : List (List String)) (st : Engine × List Err × Nat) :
    ∃ bad, ((l.foldl (policyEntry r w place) st).2.1 = st.2.1 ++ bad ∧
      (bad = [] ↔ ∀ x ∈ taken w place l, ∃ c p, x.2 = some c ∧ IsPolicy r w c p)) ∧
      (bad = [] → ∃ texts, (taken w place l).map Prod.snd = texts.map some ∧ Gains r st.1 (l.foldl (policyEntry r w place) st).1 texts ∧
        (l.foldl (policyEntry r w place) st).2.2 = st.2.2 + texts.length) := by
  induction l generalizing st with
  | nil => exact ⟨[], ⟨by simp, by simp [taken]⟩, fun _ => ⟨[], rfl, gains_refl r _, rfl⟩⟩
  | cons rel l ih =>
    rw [List.foldl_cons]
    obtain ⟨bad, ⟨h1, h2⟩, h3⟩ := ih (policyEntry r w place st rel)
    rcases Classical.em (isRego (lastName (place ++ rel)) = true) |>.symm with hr | hr
    · have he : policyEntry r w place st rel = st := by unfold policyEntry; rw [if_neg hr]
      have ht : taken w place (rel :: l) = taken w place l := by simp [taken, hr]
      rw [he] at h1 h3 ⊢
      rw [ht]
      exact ⟨bad, ⟨h1, h2⟩, h3⟩
    · have ht : taken w place (rel :: l) = (rel, contentAt w (place ++ rel)) :: taken w place l := by
        simp [taken, hr]
      rw [ht]
      cases ha : st.1.addPolicyFile r w.utf8 (contentAt w (place ++ rel)) with
      | error x =>
        have he : policyEntry r w place st rel = (st.1, st.2.1 ++ [x], st.2.2) := by
          unfold policyEntry; rw [if_pos hr, ha]
        rw [he] at h1 ⊢
        refine ⟨x :: bad, ⟨by rw [h1]; simp, ⟨fun h => (nomatch h), fun h => ?_⟩⟩, fun h => (nomatch h)⟩
        obtain ⟨e', he'⟩ := (addPolicyFile_iff r w st.1 _).2 (h _ (List.mem_cons_self ..))
        rw [ha] at he'; cases he'
      | ok e' =>
        have he : policyEntry r w place st rel = (e', st.2.1, st.2.2 + 1) := by
          unfold policyEntry; rw [if_pos hr, ha]
        rw [he] at h1 h3 ⊢
        refine ⟨bad, ⟨h1, ?_⟩, fun hb => ?_⟩
        · rw [h2, List.forall_mem_cons]
          exact ⟨fun h => ⟨(addPolicyFile_iff r w st.1 _).1 ⟨e', ha⟩, h⟩, fun h => h.2⟩
        · obtain ⟨texts, h4, h5, h6⟩ := h3 hb
          obtain ⟨c, hc, hg⟩ := addPolicyFile_gains ha
          refine ⟨c :: texts, by rw [List.map_cons, List.map_cons, h4, hc], gains_trans hg h5, ?_⟩
          rw [h6]; simp; omega

theorem visible_length {d : Node} (ht : Tidy d) (p q : List String) (h : q ∈ visible p d) : p <+: q := by
  obtain ⟨rel, rfl, -⟩ := (visible_mem ht p q).1 h
  exact List.prefix_append p rel

/-- The walk visits nothing twice. -/
theorem visible_nodup {d : Node} (ht : Tidy d) (p : List String) : (visible p d).Nodup := by
  induction ht generalizing p with
  | file c => simp [visible]
  | link t => simp [visible]
  | dir es hn hp hd ih =>
    have key : ∀ l : List (String × Node), (∀ e ∈ l, e ∈ es) → (l.map Prod.fst).Nodup → (visibleL p l).Nodup ∧
        ∀ q ∈ visibleL p l, ∃ n ∈ l.map Prod.fst, (p ++ [n]) <+: q := by
      intro l
      induction l with
      | nil => intro _ _; exact ⟨List.nodup_nil, fun q h => (nomatch h)⟩
      | cons e l ihl =>
        obtain ⟨n, d⟩ := e
        intro hm hnd
        obtain ⟨h1, h2⟩ := ihl (fun e he => hm e (List.mem_cons_of_mem _ he)) (List.nodup_cons.1 hnd).2
        have hd' := hd _ (hm _ (List.mem_cons_self ..))
        have hE : visibleL p ((n, d) :: l) = (if isHidden n then [] else visible (p ++ [n]) d) ++ visibleL p l := rfl
        rw [hE]
        have hfirst : ∀ q ∈ (if isHidden n then [] else visible (p ++ [n]) d), (p ++ [n]) <+: q := by
          intro q hq
          split at hq
          · cases hq
          · exact visible_length hd' _ _ hq
        constructor
        · rw [List.nodup_append]
          refine ⟨?_, h1, fun a ha b hb hab => ?_⟩
          · split
            · exact List.nodup_nil
            · exact ih _ (hm _ (List.mem_cons_self ..)) _
          · subst hab
            obtain ⟨n', hn', hpre⟩ := h2 _ hb
            have := List.prefix_of_prefix_length_le (hfirst _ ha) hpre (by simp)
            have : n = n' := by
              obtain ⟨t, ht⟩ := this
              simp only [List.append_assoc, List.append_cancel_left_eq] at ht
              simp at ht
              exact ht.1
            subst this
            exact (List.nodup_cons.1 hnd).1 hn'
        · intro q hq
          rcases List.mem_append.1 hq with hq | hq
          · exact ⟨n, List.mem_cons_self .., hfirst q hq⟩
          · obtain ⟨n', hn', h⟩ := h2 q hq
            exact ⟨n', List.mem_cons_of_mem _ hn', h⟩
    obtain ⟨h1, h2⟩ := key es (fun _ h => h) hn
    show (p :: visibleL p es).Nodup
    rw [List.nodup_cons]
    refine ⟨fun h => ?_, h1⟩
    obtain ⟨n, -, hpre⟩ := h2 _ h
    have := hpre.length_le
    simp only [List.length_append, List.length_singleton] at this
    omega

theorem policyEntry_iff {w : World} (ht : Tidy w.fs) {dir : Path} {place : List String} {node : Node}
    (hc : canonicalize w.fs w.cwd dir = .ok place) (hn : w.fs.at place = some node) (rel : List String) :
    (rel, contentAt w (place ++ rel)) ∈ taken w place (visible [] node) ↔ PolicyEntry w dir place rel := by
  unfold taken PolicyEntry
  rw [List.mem_map]
  constructor
  · rintro ⟨rel', h, he⟩
    cases he
    rw [List.mem_filter, visible_mem (tidy_at ht hn).1, isRego_iff] at h
    obtain ⟨⟨rel', h1, h2, h3⟩, h4⟩ := h
    simp only [List.nil_append] at h1
    subst h1
    exact ⟨node, hc, hn, h2, h3, h4⟩
  · rintro ⟨node', hc', hn', h2, h3, h4⟩
    rw [hn] at hn'; cases hn'
    refine ⟨rel, ?_, rfl⟩
    rw [List.mem_filter, visible_mem (tidy_at ht hn).1, isRego_iff]
    exact ⟨⟨rel, rfl, h2, h3⟩, h4⟩

/-! ### Loading a directory -/

/-- Loading the policies of a directory succeeds exactly if each entry that is taken for a policy can be read and is a
policy. -/
theorem policies_accepted {r : Rego} {w : World} (ht : Tidy w.fs) {e : Engine} {dir : Path} :
    (∃ x, e.addPolicies r w dir = .ok x) ↔
      ∀ place rel, PolicyEntry w dir place rel → ∃ c p, FileAt w (place ++ rel) c ∧ IsPolicy r w c p := by
  unfold Engine.addPolicies
  cases hc : canonicalize w.fs w.cwd dir with
  | error x =>
    refine ⟨fun _ place rel ⟨_, h, _⟩ => ?_, fun _ => ⟨_, rfl⟩⟩
    rw [hc] at h; cases h
  | ok place =>
    dsimp only
    cases hn : w.fs.at place with
    | none =>
      refine ⟨fun _ place rel ⟨_, h, h', _⟩ => ?_, fun _ => ⟨_, rfl⟩⟩
      rw [hc] at h; cases h
      rw [hn] at h'; cases h'
    | some node =>
      dsimp only
      obtain ⟨bad, ⟨h1, h2⟩, -⟩ := policyFold r w place (visible [] node) (e, [], 0)
      have hb : (∃ x, (if (List.foldl (policyEntry r w place) (e, [], 0) (visible [] node)).2.1 = [] then
            Except.ok ((List.foldl (policyEntry r w place) (e, [], 0) (visible [] node)).1,
              (List.foldl (policyEntry r w place) (e, [], 0) (visible [] node)).2.2)
          else Except.error (List.foldl (policyEntry r w place) (e, [], 0) (visible [] node)).2.1) = Except.ok x) ↔ bad = [] := by
        rw [h1]
        by_cases hb : bad = [] <;> simp [hb]
      rw [hb, h2]
      constructor
      · rintro h place' rel hp
        have hpl : place' = place := by obtain ⟨_, h', _⟩ := hp; rw [hc] at h'; cases h'; rfl
        subst hpl
        obtain ⟨c, p, h3, h4⟩ := h _ ((policyEntry_iff ht hc hn rel).2 hp)
        exact ⟨c, p, (fileAt_iff ..).2 h3, h4⟩
      · rintro h ⟨rel, o⟩ hx
        have ho : o = contentAt w (place ++ rel) := by
          unfold taken at hx
          obtain ⟨_, -, he⟩ := List.mem_map.1 hx
          cases he; rfl
        subst ho
        obtain ⟨c, p, h3, h4⟩ := h place rel ((policyEntry_iff ht hc hn rel).1 hx)
        exact ⟨c, p, (fileAt_iff ..).1 h3, h4⟩

/-- After loading a directory the engine has exactly the policies in it, each once, more than before. -/
theorem policies_loaded {r : Rego} {w : World} (ht : Tidy w.fs) {e e' : Engine} {n : Nat} {dir : Path}
    (h : e.addPolicies r w dir = .ok (e', n)) :
    ∃ l, Listing w dir l ∧ Gains r e e' (l.map Prod.snd) ∧ n = l.length := by
  unfold Engine.addPolicies at h
  cases hc : canonicalize w.fs w.cwd dir with
  | error x =>
    rw [hc] at h; cases h
    refine ⟨[], ⟨List.nodup_nil, fun rel c => ⟨fun h => (nomatch h), ?_⟩⟩, gains_refl r _, rfl⟩
    rintro ⟨place, ⟨_, h, _⟩, _⟩
    rw [hc] at h; cases h
  | ok place =>
    rw [hc] at h
    dsimp only at h
    cases hn : w.fs.at place with
    | none =>
      rw [hn] at h; cases h
      refine ⟨[], ⟨List.nodup_nil, fun rel c => ⟨fun h => (nomatch h), ?_⟩⟩, gains_refl r _, rfl⟩
      rintro ⟨place, ⟨_, h, h', _⟩, _⟩
      rw [hc] at h; cases h
      rw [hn] at h'; cases h'
    | some node =>
      rw [hn] at h
      dsimp only at h
      obtain ⟨bad, ⟨h1, h2⟩, h3⟩ := policyFold r w place (visible [] node) (e, [], 0)
      rw [h1] at h
      rcases Classical.em (bad = []) |>.symm with hb | hb
      · simp [hb] at h
      · subst hb
        obtain ⟨texts, h4, h5, h6⟩ := h3 rfl
        simp only [List.append_nil, if_true, Except.ok.injEq, Prod.mk.injEq] at h
        obtain ⟨rfl, rfl⟩ := h
        have hsome : ∀ x ∈ taken w place (visible [] node), x.2 = some (x.2.getD "") := by
          intro x hx
          have : x.2 ∈ texts.map some := h4 ▸ List.mem_map.2 ⟨x, hx, rfl⟩
          obtain ⟨c, -, hc⟩ := List.mem_map.1 this
          rw [← hc]; rfl
        have htexts : texts = ((taken w place (visible [] node)).map fun x => (x.1, x.2.getD "")).map Prod.snd := by
          have : (texts.map some).map (fun o => o.getD "") = texts := by
            rw [List.map_map]; exact List.map_id'' (fun _ => rfl) _
          rw [← this, ← h4, List.map_map, List.map_map]
          rfl
        refine ⟨(taken w place (visible [] node)).map fun x => (x.1, x.2.getD ""), ⟨?_, fun rel c => ?_⟩, htexts ▸ h5, ?_⟩
        · have : ((taken w place (visible [] node)).map fun x => (x.1, x.2.getD "")).map Prod.fst =
              (visible [] node).filter fun rel => isRego (lastName (place ++ rel)) := by
            unfold taken
            rw [List.map_map, List.map_map]
            exact List.map_id'' (fun _ => rfl) _
          rw [this]
          exact (visible_nodup (tidy_at ht hn).1 []).filter _
        · rw [List.mem_map]
          constructor
          · rintro ⟨⟨rel', o⟩, hx, he⟩
            have ho : o = contentAt w (place ++ rel') := by
              unfold taken at hx
              obtain ⟨_, -, he⟩ := List.mem_map.1 hx
              cases he; rfl
            subst ho
            have hs := hsome _ hx
            cases he
            exact ⟨place, (policyEntry_iff ht hc hn rel').1 hx, (fileAt_iff ..).2 hs⟩
          · rintro ⟨place', hp, hf⟩
            have hpl : place' = place := by obtain ⟨_, h', _⟩ := hp; rw [hc] at h'; cases h'; rfl
            subst hpl
            refine ⟨(rel, contentAt w (place' ++ rel)), (policyEntry_iff ht hc hn rel).2 hp, ?_⟩
            rw [(fileAt_iff ..).1 hf]; rfl
        · rw [h6]
          simp only [Nat.zero_add]
          rw [htexts]; simp

/-! ### Loading what the command line names -/

/-- What a path stands for: a file, or the policies in a directory. -/
inductive Named (w : World) (path : Path) : List String → Prop where
  | file {place : List String} {c : String} : canonicalize w.fs w.cwd path = .ok place → w.fs.at place = some (.file c) → Named w path [c]
  | dir {place : List String} {es : List (String × Node)} {l : List (List String × String)} :
      canonicalize w.fs w.cwd path = .ok place → w.fs.at place = some (.dir es) → Listing w path l → Named w path (l.map Prod.snd)

/-- A path of the command line that is loaded stands for something, and exactly this is added. -/
theorem policy_named {r : Rego} {w : World} (ht : Tidy w.fs) {e e' : Engine} {path : Path} (h : e.addPolicyFrom r w path = .ok e') :
    ∃ texts, Named w path texts ∧ Gains r e e' texts := by
  unfold Engine.addPolicyFrom at h
  cases hc : canonicalize w.fs w.cwd path with
  | error x => rw [hc] at h; cases h
  | ok place =>
    rw [hc] at h
    dsimp only at h
    cases hn : w.fs.at place with
    | none => rw [hn] at h; cases h
    | some node =>
      rw [hn] at h
      dsimp only at h
      cases node with
      | link t => cases h
      | file c =>
        unfold Engine.addPolicyAt at h
        dsimp only at h
        cases ha : e.addPolicyFile r w.utf8 (some c) with
        | error x => rw [ha] at h; cases h
        | ok e1 =>
          rw [ha] at h; cases h
          obtain ⟨c', hc', hg⟩ := addPolicyFile_gains ha
          cases hc'
          exact ⟨[c], .file hc hn, hg⟩
      | dir es =>
        unfold Engine.addPolicyAt at h
        dsimp only at h
        cases ha : e.addPolicies r w path with
        | error x => rw [ha] at h; cases h
        | ok x =>
          rw [ha] at h; cases h
          obtain ⟨e1, n⟩ := x
          obtain ⟨l, hl, hg, -⟩ := policies_loaded ht ha
          exact ⟨_, .dir hc hn hl, hg⟩

/-- A path that leads nowhere is an error. -/
theorem policy_missing (r : Rego) (w : World) (e : Engine) (path : Path) (h : ∀ place, canonicalize w.fs w.cwd path ≠ .ok place) :
    e.addPolicyFrom r w path = .error [.accessDenied] := by
  unfold Engine.addPolicyFrom
  cases hc : canonicalize w.fs w.cwd path with
  | error x => rfl
  | ok place => exact absurd hc (h place)

theorem addAll_named {r : Rego} {w : World} (ht : Tidy w.fs) {ps : List Path} {e e' : Engine} (h : Engine.addAll r w ps e = .ok e') :
    ∃ ls, Forall2 (Named w) ps ls ∧ Gains r e e' ls.flatten := by
  induction ps generalizing e with
  | nil => cases h; exact ⟨[], .nil, gains_refl r _⟩
  | cons p ps ih =>
    unfold Engine.addAll at h
    cases ha : e.addPolicyFrom r w p with
    | error x => rw [ha] at h; cases h
    | ok e1 =>
      rw [ha] at h
      obtain ⟨texts, h1, h2⟩ := policy_named ht ha
      obtain ⟨ls, h3, h4⟩ := ih h
      exact ⟨texts :: ls, .cons h1 h3, gains_trans h2 h4⟩

/-- The engine of a command has exactly the built-in policies, those of the registry and those that the command line names. -/
theorem engine_loaded {r : Rego} {w : World} (ht : Tidy w.fs) {builtin : String} {registry : Path} {policies : List Path} {e : Engine}
    (h : initEngine r w builtin registry policies = .ok e) :
    ∃ l ls, Listing w registry l ∧ Forall2 (Named w) policies ls ∧ e.modules = builtin :: (l.map Prod.snd ++ ls.flatten) ∧
      (∀ p, p ∈ e.packages ↔ ∃ c ∈ e.modules, r.package c = some p) ∧ e.data = .obj [] := by
  unfold initEngine at h
  cases ha : ({} : Engine).addPolicy r builtin with
  | error x => rw [ha] at h; cases h
  | ok e1 =>
    rw [ha] at h
    dsimp only at h
    cases hb : e1.addPolicies r w registry with
    | error x => rw [hb] at h; cases h
    | ok x =>
      rw [hb] at h
      obtain ⟨e2, n⟩ := x
      obtain ⟨l, hl, hg, -⟩ := policies_loaded ht hb
      obtain ⟨ls, h3, h4⟩ := addAll_named ht h
      have g := gains_trans (gains_trans (addPolicy_gains ha) hg) h4
      have hm : e.modules = builtin :: (l.map Prod.snd ++ ls.flatten) := by rw [g.modules]; simp
      refine ⟨l, ls, hl, h3, hm, fun p => ?_, g.data⟩
      rw [g.packages, hm]
      simp

/-! ### What is reported -/

/-- A stage for which there is no policy reports nothing. -/
theorem check_absent {r : Rego} {w : World} (ht : Tidy w.fs) {builtin : String} {registry : Path} {policies : List Path} {e : Engine}
    (h : initEngine r w builtin registry policies = .ok e) {s : Stage} (hs : ∀ c ∈ e.modules, r.package c ≠ some ("data." ++ s.name))
    (input : Val) : e.check r input s = .ok [] := by
  obtain ⟨l, ls, -, -, -, hp, -⟩ := engine_loaded ht h
  unfold Engine.check
  rw [if_neg]
  unfold Engine.hasStage
  rw [decide_eq_true_iff, hp]
  rintro ⟨c, hc, he⟩
  exact hs c hc he

theorem mapM_forall2_option {α β : Type} (f : α → Option β) (l : List α) (m : List β) :
    l.mapM f = some m ↔ Forall2 (fun a b => f a = some b) l m := by
  induction l generalizing m with
  | nil =>
    constructor
    · intro h; cases h; exact .nil
    · intro h; cases h; rfl
  | cons a l ih =>
    rw [List.mapM_cons]
    constructor
    · intro h
      cases ha : f a with
      | none => rw [ha] at h; cases h
      | some b =>
        cases hl : l.mapM f with
        | none => rw [ha, hl] at h; cases h
        | some m' => rw [ha, hl] at h; cases h; exact .cons ha ((ih m').1 hl)
    · intro h
      cases h with
      | cons h1 h2 => rw [h1, (ih _).2 h2]; rfl

/-- The findings of a stage that has policies are those the rule gives, all of them and in this order; if one of them cannot be
read then there is an error. -/
theorem check_findings {r : Rego} {e : Engine} {input : Val} {s : Stage} (hs : ("data." ++ s.name) ∈ e.packages) (fs : List Finding) :
    e.check r input s = .ok fs ↔
      ∃ l, r.eval e.modules e.data input ("data." ++ s.name ++ ".deny") = some (.arr l) ∧
        Forall2 (fun v f => Finding.decode v = some f) l fs := by
  unfold Engine.check
  rw [if_pos (by unfold Engine.hasStage; simpa using hs)]
  cases r.eval e.modules e.data input ("data." ++ s.name ++ ".deny") with
  | none => simp
  | some v =>
    dsimp only
    cases v with
    | arr l =>
      show (match l.mapM Finding.decode with | none => _ | some fs => _) = _ ↔ _
      simp only [Option.some.injEq, J.arr.injEq, exists_eq_left', ← mapM_forall2_option]
      cases l.mapM Finding.decode <;> simp
    | _ => simp [decodeAll]

/-- Every schedule that finishes each file gives the reports of the files in their order. -/
theorem runSchedule_all (f : String × Option Val → List Diag) (files : List (String × Option Val)) (slots : List (Option (List Diag)))
    (hl : slots.length = files.length) (sched : List Nat)
    (hs : ∀ i, i < files.length → i ∈ sched ∨ slots[i]? = some (files[i]?.map f)) :
    runSchedule f files slots sched = files.map (some ∘ f) := by
  induction sched generalizing slots with
  | nil =>
    show slots = _
    apply List.ext_getElem?
    intro i
    rw [List.getElem?_map]
    by_cases hi : i < files.length
    · rcases hs i hi with h | h
      · cases h
      · rw [h, List.getElem?_eq_getElem hi]; rfl
    · rw [List.getElem?_eq_none (by omega), List.getElem?_eq_none (by omega)]; rfl
  | cons j sched ih =>
    unfold runSchedule
    cases hj : files[j]? with
    | none =>
      dsimp only
      refine ih slots hl fun i hi => ?_
      rcases hs i hi with h | h
      · rcases List.mem_cons.1 h with rfl | h
        · rw [List.getElem?_eq_getElem hi] at hj; cases hj
        · exact .inl h
      · exact .inr h
    | some x =>
      dsimp only
      refine ih _ (by simpa using hl) fun i hi => ?_
      by_cases hij : i = j
      · subst hij
        right
        rw [List.getElem?_set_self (by omega), hj]; rfl
      · rcases hs i hi with h | h
        · rcases List.mem_cons.1 h with rfl | h
          · exact absurd rfl hij
          · exact .inl h
        · right; rw [List.getElem?_set_ne (fun h => hij h.symm)]; exact h

/-- The report of a check before resolution does not depend on the order in which the files are finished: it has the
reports of the files one after the other. -/
theorem checkPolicy_schedule {r : Rego} {deep : Bool} {e : Engine} {files : List (String × Option Val)} {sched : List Nat}
    (hs : ∀ i, i < files.length → i ∈ sched) :
    checkPolicy r deep e files sched = files.flatMap fun x => checkStage r deep e .before x.1 x.2 [] := by
  unfold checkPolicy
  rw [runSchedule_all _ _ _ (by simp) _ (fun i hi => .inl (hs i hi)), List.flatMap_map]
  rfl

/-- Where a report comes from. -/
def Diag.file : Diag → String
  | .invalidPolicyFile f => f
  | .violation f _ => f

theorem addDocuments_file (deep : Bool) (file : String) (data : List Val) (st : Engine × List Diag) (h : ∀ d ∈ st.2, d.file = file) :
    ∀ d ∈ (addDocuments deep file data st).2, d.file = file := by
  induction data generalizing st with
  | nil => exact h
  | cons v vs ih =>
    obtain ⟨e, errs⟩ := st
    unfold addDocuments
    cases addData deep e.data v with
    | some x => exact ih _ h
    | none =>
      refine ih _ fun d hd => ?_
      rcases List.mem_append.1 hd with hd | hd
      · exact h d hd
      · rcases List.mem_singleton.1 hd with rfl; rfl

/-- Every report names the file that was checked. -/
theorem checkStage_file (r : Rego) (deep : Bool) (e : Engine) (s : Stage) (file : String) (input : Option Val) (data : List Val) :
    ∀ d ∈ checkStage r deep e s file input data, d.file = file := by
  intro d hd
  unfold checkStage at hd
  rcases List.mem_append.1 hd with hd | hd
  · exact addDocuments_file deep file data (e, []) (fun _ h => (nomatch h)) d hd
  · cases input with
    | none => rcases List.mem_singleton.1 hd with rfl; rfl
    | some i =>
      dsimp only at hd
      split at hd
      · obtain ⟨f, -, rfl⟩ := List.mem_map.1 hd; rfl
      · rcases List.mem_singleton.1 hd with rfl; rfl

/-- Without data documents the report of a stage is: nothing if there is no policy for it; all findings; or one error. -/
theorem checkStage_report (r : Rego) (deep : Bool) (e : Engine) (s : Stage) (file : String) (input : Val) :
    (∃ fs, e.check r input s = .ok fs ∧ checkStage r deep e s file (some input) [] = fs.map (.violation file)) ∨
    ((∀ fs, e.check r input s ≠ .ok fs) ∧ checkStage r deep e s file (some input) [] = [.invalidPolicyFile file]) := by
  unfold checkStage addDocuments
  dsimp only [List.nil_append]
  cases h : e.check r input s with
  | ok fs => exact .inl ⟨fs, rfl, rfl⟩
  | error x => exact .inr ⟨fun fs h => (nomatch h), rfl⟩

/-- C145. A finding of a policy for a file is reported with the file, whatever the schedule. -/
theorem finding_reported {r : Rego} {deep : Bool} {e : Engine} {files : List (String × Option Val)} {sched : List Nat}
    (hs : ∀ i, i < files.length → i ∈ sched) (file : String) (f : Finding) :
    Diag.violation file f ∈ checkPolicy r deep e files sched ↔
      ∃ input fs, (file, some input) ∈ files ∧ e.check r input .before = .ok fs ∧ f ∈ fs := by
  rw [checkPolicy_schedule hs, List.mem_flatMap]
  constructor
  · rintro ⟨⟨x, o⟩, hx, hm⟩
    have hf := checkStage_file r deep e .before x o [] _ hm
    cases o with
    | none =>
      rcases List.mem_singleton.1 (show Diag.violation file f ∈ [Diag.invalidPolicyFile x] from hm) with h
      cases h
    | some i =>
      rcases checkStage_report r deep e .before x i with ⟨fs, h1, h2⟩ | ⟨-, h2⟩
      · dsimp only at hm
        rw [h2] at hm
        obtain ⟨g, hg, he⟩ := List.mem_map.1 hm
        cases he
        exact ⟨i, fs, hx, h1, hg⟩
      · dsimp only at hm
        rw [h2] at hm
        cases List.mem_singleton.1 hm
  · rintro ⟨i, fs, hx, h1, hf⟩
    refine ⟨_, hx, ?_⟩
    rcases checkStage_report r deep e .before file i with ⟨fs', h1', h2⟩ | ⟨h1', -⟩
    · rw [h1] at h1'; cases h1'
      dsimp only
      rw [h2]; exact List.mem_map.2 ⟨f, hf, rfl⟩
    · exact absurd h1 (h1' fs)

/-! ### Policies in a directory -/

/-- `r` has two policies below it and a hidden one; `s` has a directory that is named like a policy. -/
def regoWorld : World where
  fs := .dir [("r", .dir [("a.rego", .file "after_resolution"), ("sub", .dir [("b.rego", .file "before_resolution"), (".c.rego", .file "x")]),
      ("n.txt", .file "x")]),
    ("s", .dir [("d.rego", .dir [("a.rego", .file "after_resolution")])]), ("t", .dir [("bad.rego", .file "x")])]
  cwd := []
  glob := fun _ => none
  utf8 := fun _ => true
  json := fun _ => none
  yaml := fun _ => none
  deep := true

theorem regoWorld_tidy : Tidy regoWorld.fs := by
  repeat' first
    | exact .file _
    | refine .dir _ (by decide) (by unfold Plain; decide) ?_
    | simp only [List.mem_cons, List.not_mem_nil, or_false, forall_eq_or_imp, forall_eq]
    | constructor

/-- A library for which every text but `x` is a policy of the package with this name. One rule gives a finding that can be
read and one that cannot. -/
def regoLib : Rego where
  package t := if t = "x" then none else some ("data." ++ t)
  eval _ _ input _ := if input = .atom "mixed" then
      some (.arr [.obj [("id", .str "i"), ("level", .str "violation"), ("message", .str "m")], .obj [("id", .str "i")]])
    else some (.arr [.obj [("id", .str "i"), ("level", .str "violation"), ("message", .str "m")]])

example : ({} : Engine).addPolicies regoLib regoWorld (Path.ofChars "r".toList) =
    .ok (⟨["after_resolution", "before_resolution"], ["data.before_resolution", "data.after_resolution"], .obj []⟩, 2) := by decide +kernel
example : ({} : Engine).addPolicies regoLib regoWorld (Path.ofChars "t".toList) = .error [.invalidPolicy] := by decide +kernel
example : initEngine regoLib regoWorld "comparison_after_resolution" (Path.ofChars "nowhere".toList)
      [Path.ofChars "r/sub/b.rego".toList, Path.ofChars "r".toList] =
    .ok ⟨["comparison_after_resolution", "before_resolution", "after_resolution", "before_resolution"],
      ["data.after_resolution", "data.before_resolution", "data.comparison_after_resolution"], .obj []⟩ := by decide +kernel
example : initEngine regoLib regoWorld "comparison_after_resolution" (Path.ofChars "r".toList) [Path.ofChars "nowhere".toList] =
    .error [.accessDenied] := by decide +kernel

example : ∃ l, Listing regoWorld (Path.ofChars "r".toList) l ∧ l.length = 2 := by
  obtain ⟨l, h1, -, h3⟩ := policies_loaded (r := regoLib) (e := {}) (n := 2) (dir := Path.ofChars "r".toList) regoWorld_tidy
    (e' := ⟨["after_resolution", "before_resolution"], ["data.before_resolution", "data.after_resolution"], .obj []⟩) (by decide +kernel)
  exact ⟨l, h1, h3.symm⟩

def regoFinding : Finding := ⟨"i", none, "m", .violation, none, none⟩

example : (⟨["after_resolution"], ["data.after_resolution"], .obj []⟩ : Engine).check regoLib (.atom "y") .after = .ok [regoFinding] := by rfl

/-! ### What does not hold -/

/-- C151. The full claim: a directory of policies that does not exist is an error. -/
def MissingRejected : Prop := ∀ (r : Rego) (w : World) (e : Engine) (dir : Path), Tidy w.fs →
  (∀ place, canonicalize w.fs w.cwd dir ≠ .ok place) → ∃ es, e.addPolicies r w dir = .error es

/-- It is false: no policy is loaded, and there is no error. -/
theorem missing_rejected_refuted : ¬MissingRejected := by
  intro h
  obtain ⟨es, hes⟩ := h regoLib regoWorld {} (Path.ofChars "nowhere".toList) regoWorld_tidy (by
    intro place hp
    have : (canonicalize regoWorld.fs regoWorld.cwd (Path.ofChars "nowhere".toList)).toOption = none := by decide +kernel
    rw [hp] at this; cases this)
  have hx : ({} : Engine).addPolicies regoLib regoWorld (Path.ofChars "nowhere".toList) = .ok ({}, 0) := by decide +kernel
  rw [hx] at hes; cases hes

/-- What is left: a path that the option `--policy` names must exist. Missing: the directory of the option
`--advice-policies`. -/
theorem missing_rejected_partial (r : Rego) (w : World) (e : Engine) (path : Path) (h : ∀ place, canonicalize w.fs w.cwd path ≠ .ok place) :
    e.addPolicyFrom r w path = .error [.accessDenied] := policy_missing r w e path h

/-- C152. The full claim: only files are taken for policies. -/
def DirectoriesSkipped : Prop := ∀ (r : Rego) (w : World) (e : Engine) (dir : Path), Tidy w.fs →
  (∀ place rel c, PolicyEntry w dir place rel → FileAt w (place ++ rel) c → ∃ p, IsPolicy r w c p) → ∃ x, e.addPolicies r w dir = .ok x

/-- It is false: a directory with such a name makes loading fail. -/
theorem directories_skipped_refuted : ¬DirectoriesSkipped := by
  intro h
  obtain ⟨x, hx⟩ := h { regoLib with package := fun _ => some "data.x" } regoWorld {} (Path.ofChars "s".toList) regoWorld_tidy
    (fun place rel c _ _ => ⟨"data.x", rfl, rfl⟩)
  have : ({} : Engine).addPolicies { regoLib with package := fun _ => some "data.x" } regoWorld (Path.ofChars "s".toList) =
    .error [.invalidPolicy] := by decide +kernel
  rw [this] at hx; cases hx

/-- What is left: the claim for a directory in which what is named like a policy is a file. -/
theorem directories_skipped_partial {r : Rego} {w : World} (ht : Tidy w.fs) {e : Engine} {dir : Path}
    (hfile : ∀ place rel, PolicyEntry w dir place rel → ∃ c, FileAt w (place ++ rel) c)
    (hp : ∀ place rel c, PolicyEntry w dir place rel → FileAt w (place ++ rel) c → ∃ p, IsPolicy r w c p) :
    ∃ x, e.addPolicies r w dir = .ok x :=
  (policies_accepted ht).2 fun place rel h => by
    obtain ⟨c, hc⟩ := hfile place rel h
    obtain ⟨p, hp⟩ := hp place rel c h hc
    exact ⟨c, p, hc, hp⟩

/-- C153. The full claim: a finding that can be read is reported. -/
def FindingsKept : Prop := ∀ (r : Rego) (deep : Bool) (e : Engine) (s : Stage) (file : String) (input : Val) (l : List J) (v : J) (f : Finding),
  ("data." ++ s.name) ∈ e.packages → r.eval e.modules e.data input ("data." ++ s.name ++ ".deny") = some (.arr l) → v ∈ l →
  Finding.decode v = some f → .violation file f ∈ checkStage r deep e s file (some input) []

/-- It is false: one finding that cannot be read hides the others; only an error is reported. -/
theorem findings_kept_refuted : ¬FindingsKept := by
  intro h
  have := h regoLib true ⟨["after_resolution"], ["data.after_resolution"], .obj []⟩ .after "f" (.atom "mixed") _
    (.obj [("id", .str "i"), ("level", .str "violation"), ("message", .str "m")]) regoFinding (by decide +kernel) rfl
    (List.mem_cons_self ..) rfl
  have hx : checkStage regoLib true ⟨["after_resolution"], ["data.after_resolution"], .obj []⟩ .after "f" (some (.atom "mixed")) [] =
    [.invalidPolicyFile "f"] := rfl
  rw [hx] at this
  cases List.mem_singleton.1 this

/-- What is left: if all can be read then all are reported; otherwise there is an error. -/
theorem findings_kept_partial {r : Rego} {deep : Bool} {e : Engine} {s : Stage} {file : String} {input : Val} {l : List J}
    (hs : ("data." ++ s.name) ∈ e.packages) (hl : r.eval e.modules e.data input ("data." ++ s.name ++ ".deny") = some (.arr l)) :
    ((∀ v ∈ l, ∃ f, Finding.decode v = some f) → ∀ v ∈ l, ∀ f, Finding.decode v = some f →
      .violation file f ∈ checkStage r deep e s file (some input) []) ∧
    ((∃ v ∈ l, Finding.decode v = none) → checkStage r deep e s file (some input) [] = [.invalidPolicyFile file]) := by
  rcases checkStage_report r deep e s file input with ⟨fs, h1, h2⟩ | ⟨h1, h2⟩
  · obtain ⟨l', hl', hall⟩ := (check_findings hs fs).1 h1
    rw [hl] at hl'; cases hl'
    have key : ∀ v ∈ l, ∃ f ∈ fs, Finding.decode v = some f := by
      clear h1 h2 hl
      induction hall with
      | nil => intro v hv; cases hv
      | cons h _ ih =>
        intro v hv
        rcases List.mem_cons.1 hv with rfl | hv
        · exact ⟨_, List.mem_cons_self .., h⟩
        · obtain ⟨f, hf, hd⟩ := ih v hv
          exact ⟨f, List.mem_cons_of_mem _ hf, hd⟩
    refine ⟨fun _ v hv f hf => ?_, fun ⟨v, hv, hn⟩ => ?_⟩
    · obtain ⟨f', hf', hd⟩ := key v hv
      rw [hd] at hf; cases hf
      rw [h2]; exact List.mem_map.2 ⟨f, hf', rfl⟩
    · obtain ⟨f', -, hd⟩ := key v hv
      rw [hn] at hd; cases hd
  · refine ⟨fun hall => ?_, fun _ => h2⟩
    have : ∃ fs, Forall2 (fun v f => Finding.decode v = some f) l fs := by
      clear h1 h2 hl
      induction l with
      | nil => exact ⟨[], .nil⟩
      | cons v l ih =>
        obtain ⟨fs, hfs⟩ := ih (fun v hv => hall v (List.mem_cons_of_mem _ hv))
        obtain ⟨f, hf⟩ := hall v (List.mem_cons_self ..)
        exact ⟨f :: fs, .cons hf hfs⟩
    obtain ⟨fs, hfs⟩ := this
    exact absurd ((check_findings hs fs).2 ⟨l, hl, hfs⟩) (h1 fs)

end Verif.Policy
