import Verif.Policy.Data

/-!
# Merging documents

What is in the merged documents, when merging fails, and that the order does not matter.
-/

namespace Verif.Policy
open Verif.Util

/-! ### Specification -/

/-- What `data.k1.k2...` refers to. -/
def look : Val → List String → Option Val
  | d, [] => some d
  | .obj m, k :: p => (aget k m).bind fun v => look v p
  | .atom _, _ :: _ => none

/-- What kind of thing a value is: an object, or this atom. -/
def Val.kind : Val → Option String
  | .atom s => some s
  | .obj _ => none

/-- At the path there is a thing of this kind: an object (`none`) or the atom `some s`. -/
def Has (d : Val) (p : List String) (k : Option String) : Prop := ∃ v, look d p = some v ∧ v.kind = k

/-- A legal value: the fields of every object inside are in order of their keys, each once (`BTreeMap`). -/
def Legal (d : Val) : Prop := ∀ p m, look d p = some (.obj m) → KeySorted m

/-- Two documents do not contradict each other. If objects are merged deeply, then this is about each path; otherwise about
the keys of the documents. -/
def Agree (deep : Bool) (a b : Val) : Prop :=
  (∀ p k l, Has a p k → Has b p l → k = l) ∧ (deep = false → ∀ k v w, look a [k] = some v → look b [k] = some w → v = w)

/-! ### Lemmas -/

theorem look_nil (d : Val) : look d [] = some d := by cases d <;> rfl

theorem look_append (d : Val) (p q : List String) : look d (p ++ q) = (look d p).bind fun e => look e q := by
  induction p generalizing d with
  | nil => simp [look_nil]
  | cons k p ih =>
    cases d with
    | atom s => rfl
    | obj m =>
      show ((aget k m).bind fun v => look v (p ++ q)) = ((aget k m).bind fun v => look v p).bind _
      cases aget k m with
      | none => rfl
      | some v => exact ih v

theorem look_key (m : List (String × Val)) (k : String) (p : List String) :
    look (.obj m) (k :: p) = (aget k m).bind fun v => look v p := rfl

theorem look_one (m : List (String × Val)) (k : String) : look (.obj m) [k] = aget k m := by
  rw [look_key]
  cases aget k m with
  | none => rfl
  | some v => exact look_nil v

theorem has_nil (d : Val) (k : Option String) : Has d [] k ↔ d.kind = k := by
  unfold Has; rw [look_nil]; simp

theorem has_atom (s : String) (x : String) (p : List String) (k : Option String) : ¬ Has (.atom s) (x :: p) k := by
  rintro ⟨v, h, _⟩; cases h

theorem has_key (m : List (String × Val)) (x : String) (p : List String) (k : Option String) :
    Has (.obj m) (x :: p) k ↔ ∃ v, aget x m = some v ∧ Has v p k := by
  unfold Has; rw [look_key]
  cases aget x m with
  | none => simp
  | some v => simp

theorem legal_sub {m : List (String × Val)} (h : Legal (.obj m)) {k : String} {v : Val} (hv : aget k m = some v) : Legal v := by
  intro p n hp
  exact h (k :: p) n (by rw [look_key, hv]; exact hp)

theorem legal_obj {m : List (String × Val)} : Legal (.obj m) ↔ KeySorted m ∧ ∀ k v, aget k m = some v → Legal v := by
  constructor
  · exact fun h => ⟨h [] m rfl, fun k v => legal_sub h⟩
  · rintro ⟨h1, h2⟩ p n hp
    cases p with
    | nil => cases hp; exact h1
    | cons k p =>
      rw [look_key] at hp
      cases hv : aget k m with
      | none => rw [hv] at hp; cases hp
      | some v => rw [hv] at hp; exact h2 k v hv p n hp

theorem legal_atom (s : String) : Legal (.atom s) := by
  intro p m h
  cases p with
  | nil => cases h
  | cons _ _ => cases h

theorem has_unique {d : Val} {p : List String} {k l : Option String} (h1 : Has d p k) (h2 : Has d p l) : k = l := by
  obtain ⟨v, hv, rfl⟩ := h1
  obtain ⟨w, hw, rfl⟩ := h2
  rw [hv] at hw; cases hw; rfl

theorem agree_refl (deep : Bool) (a : Val) : Agree deep a a :=
  ⟨fun _ _ _ h1 h2 => has_unique h1 h2, fun _ k v w h1 h2 => by rw [h1] at h2; cases h2; rfl⟩

theorem agree_symm {deep : Bool} {a b : Val} (h : Agree deep a b) : Agree deep b a :=
  ⟨fun p k l h1 h2 => (h.1 p l k h2 h1).symm, fun hd k v w h1 h2 => (h.2 hd k w v h2 h1).symm⟩

/-- One step of the loop. -/
theorem mergeField_get {deep : Bool} {m r : List (String × Val)} {k : String} {v : Val}
    (h : mergeField deep m (k, v) = some r) :
    ∃ w, r = bins k w m ∧ (match aget k m with
      | none => w = v
      | some old => (old = v ∧ w = v) ∨ (deep = true ∧ merge deep old v = some w)) := by
  unfold mergeField at h
  cases hk : aget k m with
  | none => rw [hk] at h; cases h; exact ⟨v, rfl, rfl⟩
  | some old =>
    rw [hk] at h
    dsimp only at h ⊢
    by_cases he : old = v
    · rw [if_pos he] at h; cases h; exact ⟨v, rfl, .inl ⟨he, rfl⟩⟩
    · rw [if_neg he] at h
      cases hd : deep with
      | false => rw [hd] at h; cases h
      | true =>
        subst hd
        rw [if_pos rfl] at h
        cases hm : merge true old v with
        | none => rw [hm] at h; cases h
        | some w => rw [hm] at h; cases h; exact ⟨w, rfl, .inr ⟨rfl, rfl⟩⟩

/-- What the loop leaves under each key. -/
theorem mergeFields_get {deep : Bool} {n : List (String × Val)} {m r : List (String × Val)} (hn : (n.map Prod.fst).Nodup)
    (h : mergeFields deep m n = some r) (k : String) :
    (match aget k m, aget k n with
      | o, none => aget k r = o
      | none, some v => aget k r = some v
      | some old, some v => ∃ w, aget k r = some w ∧ ((old = v ∧ w = v) ∨ (deep = true ∧ merge deep old v = some w))) := by
  induction n generalizing m with
  | nil => cases h; simp [aget]
  | cons f n ih =>
    obtain ⟨x, v⟩ := f
    rw [List.map_cons, List.nodup_cons] at hn
    unfold mergeFields at h
    cases hf : mergeField deep m (x, v) with
    | none => rw [hf] at h; cases h
    | some m' =>
      rw [hf] at h
      have hi := ih hn.2 h
      obtain ⟨w, rfl, hw⟩ := mergeField_get hf
      rw [aget_bins] at hi
      by_cases hk : k = x
      · subst hk
        have hno : aget k n = none := aget_eq_none_iff.2 hn.1
        rw [if_pos rfl, hno] at hi
        simp only [aget, ↓reduceIte]
        cases hm : aget k m with
        | none => rw [hm] at hw; cases hw; exact hi
        | some old => rw [hm] at hw; exact ⟨w, hi, hw⟩
      · rw [if_neg hk] at hi
        have : aget k ((x, v) :: n) = aget k n := by
          show (if x = k then some v else aget k n) = _
          rw [if_neg (fun e => hk e.symm)]
        rw [this]
        exact hi

theorem mergeFields_sorted {deep : Bool} {n m r : List (String × Val)} (hm : KeySorted m)
    (h : mergeFields deep m n = some r) : KeySorted r := by
  induction n generalizing m with
  | nil => cases h; exact hm
  | cons f n ih =>
    obtain ⟨x, v⟩ := f
    unfold mergeFields at h
    cases hf : mergeField deep m (x, v) with
    | none => rw [hf] at h; cases h
    | some m' =>
      rw [hf] at h
      obtain ⟨w, rfl, -⟩ := mergeField_get hf
      exact ih (keySorted_bins hm) h

theorem merge_obj {deep : Bool} {a r : Val} {n : List (String × Val)} (h : merge deep a (.obj n) = some r) :
    ∃ m r', a = .obj m ∧ r = .obj r' ∧ mergeFields deep m n = some r' := by
  unfold merge at h
  cases a with
  | atom s => cases h
  | obj m =>
    dsimp only at h
    cases hf : mergeFields deep m n with
    | none => rw [hf] at h; cases h
    | some r' => rw [hf] at h; cases h; exact ⟨m, r', rfl, rfl, hf⟩

theorem merge_atom {deep : Bool} {a r : Val} {s : String} (h : merge deep a (.atom s) = some r) : a = .atom s ∧ r = .atom s := by
  unfold merge at h
  by_cases e : a = .atom s
  · rw [if_pos e] at h; cases h; exact ⟨e, e⟩
  · rw [if_neg e] at h; cases h

/-- The merged document has exactly what the two have. -/
theorem merge_has {deep : Bool} {a b r : Val} (hb : Legal b) (h : merge deep a b = some r) (p : List String)
    (k : Option String) : Has r p k ↔ Has a p k ∨ Has b p k := by
  induction p generalizing a b r with
  | nil =>
    rw [has_nil, has_nil, has_nil]
    cases b with
    | atom s => obtain ⟨rfl, rfl⟩ := merge_atom h; simp
    | obj n => obtain ⟨m, r', rfl, rfl, _⟩ := merge_obj h; simp [Val.kind]
  | cons x p ih =>
    cases b with
    | atom s => obtain ⟨rfl, rfl⟩ := merge_atom h; simp
    | obj n =>
      obtain ⟨m, r', rfl, rfl, hf⟩ := merge_obj h
      rw [has_key, has_key, has_key]
      have hg := mergeFields_get (keySorted_nodup (legal_obj.1 hb).1) hf x
      cases hn : aget x n with
      | none =>
        rw [hn] at hg
        cases hm : aget x m with
        | none => rw [hm] at hg; simp [show aget x r' = none from hg]
        | some v => rw [hm] at hg; simp [show aget x r' = some v from hg]
      | some v =>
        rw [hn] at hg
        cases hm : aget x m with
        | none => rw [hm] at hg; simp [show aget x r' = some v from hg]
        | some old =>
          rw [hm] at hg
          obtain ⟨w, hw, hc⟩ := hg
          rw [hw]
          simp only [Option.some.injEq, exists_eq_left']
          rcases hc with ⟨rfl, rfl⟩ | ⟨-, hc⟩
          · simp
          · exact ih (legal_sub hb hn) hc

theorem merge_legal {deep : Bool} {a b r : Val} (ha : Legal a) (hb : Legal b) (h : merge deep a b = some r) : Legal r := by
  intro p
  induction p generalizing a b r with
  | nil =>
    intro m' e
    cases b with
    | atom s => obtain ⟨rfl, rfl⟩ := merge_atom h; cases e
    | obj n =>
      obtain ⟨m, r', rfl, rfl, hf⟩ := merge_obj h
      cases e
      exact mergeFields_sorted (legal_obj.1 ha).1 hf
  | cons x p ih =>
    intro m' e
    cases b with
    | atom s => obtain ⟨rfl, rfl⟩ := merge_atom h; cases e
    | obj n =>
      obtain ⟨m, r', rfl, rfl, hf⟩ := merge_obj h
      have hg := mergeFields_get (keySorted_nodup (legal_obj.1 hb).1) hf x
      rw [look_key] at e
      cases hn : aget x n with
      | none =>
        rw [hn] at hg
        cases hm : aget x m with
        | none => rw [hm] at hg; rw [show aget x r' = none from hg] at e; cases e
        | some v => rw [hm] at hg; rw [show aget x r' = some v from hg] at e; exact legal_sub ha hm p m' e
      | some v =>
        rw [hn] at hg
        cases hm : aget x m with
        | none => rw [hm] at hg; rw [show aget x r' = some v from hg] at e; exact legal_sub hb hn p m' e
        | some old =>
          rw [hm] at hg
          obtain ⟨w, hw, hc⟩ := hg
          rw [hw] at e
          rcases hc with ⟨rfl, rfl⟩ | ⟨-, hc⟩
          · exact legal_sub ha hm p m' e
          · exact ih (legal_sub ha hm) (legal_sub hb hn) hc m' e

theorem shallow_keys {a b r : Val} (hb : Legal b) (h : merge false a b = some r) {k : String} {v : Val} :
    look r [k] = some v ↔ look a [k] = some v ∨ look b [k] = some v := by
  cases b with
  | atom s => obtain ⟨rfl, rfl⟩ := merge_atom h; simp
  | obj n =>
    obtain ⟨m, r', rfl, rfl, hf⟩ := merge_obj h
    rw [look_one, look_one, look_one]
    have hg := mergeFields_get (keySorted_nodup (legal_obj.1 hb).1) hf k
    cases hn : aget k n with
    | none => rw [hn] at hg; cases hm : aget k m <;> · rw [hm] at hg; simp [hg]
    | some v' =>
      rw [hn] at hg
      cases hm : aget k m with
      | none => rw [hm] at hg; simp [show aget k r' = some v' from hg]
      | some old =>
        rw [hm] at hg
        obtain ⟨w, hw, ⟨rfl, rfl⟩ | ⟨hd, -⟩⟩ := hg
        · simp [hw]
        · cases hd

/-- If merging succeeds then the two agree. -/
theorem merge_agree {deep : Bool} {a b r : Val} (hb : Legal b) (h : merge deep a b = some r) : Agree deep a b := by
  constructor
  · intro p k l h1 h2
    exact has_unique ((merge_has hb h p k).2 (.inl h1)) ((merge_has hb h p l).2 (.inr h2))
  · rintro rfl k v w h1 h2
    have e1 := (shallow_keys hb h).2 (.inl h1)
    have e2 := (shallow_keys hb h).2 (.inr h2)
    rw [e1] at e2; cases e2; rfl

/-- Agreement with the merged document is agreement with both. -/
theorem agree_merged {deep : Bool} {a b r c : Val} (hb : Legal b) (h : merge deep a b = some r) :
    Agree deep r c ↔ Agree deep a c ∧ Agree deep b c := by
  constructor
  · intro hr
    refine ⟨⟨fun p k l h1 => hr.1 p k l ((merge_has hb h p k).2 (.inl h1)), ?_⟩,
      ⟨fun p k l h1 => hr.1 p k l ((merge_has hb h p k).2 (.inr h1)), ?_⟩⟩
    · rintro rfl k v w h1 h2; exact hr.2 rfl k v w ((shallow_keys hb h).2 (.inl h1)) h2
    · rintro rfl k v w h1 h2; exact hr.2 rfl k v w ((shallow_keys hb h).2 (.inr h1)) h2
  · rintro ⟨h1, h2⟩
    refine ⟨fun p k l e1 e2 => ?_, ?_⟩
    · rcases (merge_has hb h p k).1 e1 with e | e
      · exact h1.1 p k l e e2
      · exact h2.1 p k l e e2
    · rintro rfl k v w e1 e2
      rcases (shallow_keys hb h).1 e1 with e | e
      · exact h1.2 rfl k v w e e2
      · exact h2.2 rfl k v w e e2

theorem agree_sub {m n : List (String × Val)} (h : Agree true (.obj m) (.obj n)) {k : String} {v w : Val}
    (hv : aget k m = some v) (hw : aget k n = some w) : Agree true v w :=
  ⟨fun p x y h1 h2 => h.1 (k :: p) x y ((has_key m k p x).2 ⟨v, hv, h1⟩) ((has_key n k p y).2 ⟨w, hw, h2⟩),
    fun hd => nomatch hd⟩

mutual
/-- Documents that agree are merged. -/
theorem merge_some (deep : Bool) : ∀ (b a : Val), Legal b → Agree deep a b → ∃ r, merge deep a b = some r
  | .atom s, a => fun _ h => by
    have h0 := h.1 [] a.kind (some s) ((has_nil _ _).2 rfl) ((has_nil _ _).2 rfl)
    cases a with
    | atom t => cases h0; exact ⟨.atom s, by unfold merge; rw [if_pos rfl]⟩
    | obj m => cases h0
  | .obj n, a => fun hb h => by
    have h0 := h.1 [] a.kind none ((has_nil _ _).2 rfl) ((has_nil _ _).2 rfl)
    cases a with
    | atom t => cases h0
    | obj m =>
      obtain ⟨r, hr⟩ := mergeFields_some deep n m (keySorted_nodup (legal_obj.1 hb).1)
        (fun k v hv => (legal_obj.1 hb).2 k v (aget_of_mem_nodup (keySorted_nodup (legal_obj.1 hb).1) hv)) (by
          intro k v old hv ho
          have hv' := aget_of_mem_nodup (keySorted_nodup (legal_obj.1 hb).1) hv
          cases hd : deep with
          | false => subst hd; exact .inl (h.2 rfl k old v (by rw [look_one]; exact ho) (by rw [look_one]; exact hv'))
          | true => subst hd; exact .inr ⟨rfl, agree_sub h ho hv'⟩)
      exact ⟨.obj r, by unfold merge; dsimp only; rw [hr]; rfl⟩
termination_by structural b => b
theorem mergeFields_some (deep : Bool) : ∀ (n m : List (String × Val)), (n.map Prod.fst).Nodup → (∀ k v, (k, v) ∈ n → Legal v) →
    (∀ k v old, (k, v) ∈ n → aget k m = some old → old = v ∨ (deep = true ∧ Agree deep old v)) →
    ∃ r, mergeFields deep m n = some r
  | [], m => fun _ _ _ => ⟨m, rfl⟩
  | f :: n, m => fun hn hl h => by
    obtain ⟨m', hm'⟩ := mergeField_some deep f m (hl f.1 f.2 (List.mem_cons_self ..)) (fun old => h f.1 f.2 old (List.mem_cons_self ..))
    rw [List.map_cons, List.nodup_cons] at hn
    obtain ⟨r, hr⟩ := mergeFields_some deep n m' hn.2 (fun k v hv => hl k v (List.mem_cons_of_mem _ hv)) (by
      intro k v old hv ho
      obtain ⟨x, y⟩ := f
      obtain ⟨w, rfl, -⟩ := mergeField_get hm'
      rw [aget_bins] at ho
      have hx : ¬ k = x := fun e => hn.1 (by subst e; exact List.mem_map.2 ⟨(k, v), hv, rfl⟩)
      rw [if_neg hx] at ho
      exact h k v old (List.mem_cons_of_mem _ hv) ho)
    exact ⟨r, by unfold mergeFields; rw [hm']; exact hr⟩
termination_by structural n => n
theorem mergeField_some (deep : Bool) : ∀ (f : String × Val) (m : List (String × Val)), Legal f.2 →
    (∀ old, aget f.1 m = some old → old = f.2 ∨ (deep = true ∧ Agree deep old f.2)) → ∃ r, mergeField deep m f = some r
  | (k, v), m => fun hl h => by
    unfold mergeField
    cases hk : aget k m with
    | none => exact ⟨_, rfl⟩
    | some old =>
      dsimp only
      rcases h old hk with e | ⟨hd, ha⟩
      · rw [if_pos e]; exact ⟨_, rfl⟩
      · obtain ⟨r, hr⟩ := merge_some deep v old hl ha
        by_cases e : old = v
        · rw [if_pos e]; exact ⟨_, rfl⟩
        · rw [if_neg e, if_pos hd, hr]; exact ⟨_, rfl⟩
termination_by structural f => f
end

mutual
/-- A legal document is determined by what it has at each path. -/
theorem legal_ext : ∀ (a b : Val), Legal a → Legal b → (∀ p k, Has a p k ↔ Has b p k) → a = b
  | .atom s, b => fun _ _ h => by
    have := ((h [] (some s)).1 ((has_nil _ _).2 rfl))
    rw [has_nil] at this
    cases b with
    | atom t => cases this; rfl
    | obj n => cases this
  | .obj m, b => fun ha hb h => by
    have h0 := ((h [] none).1 ((has_nil _ _).2 rfl))
    rw [has_nil] at h0
    cases b with
    | atom t => cases h0
    | obj n =>
      congr 1
      have hs := (legal_obj.1 ha).1
      refine keySorted_ext hs (legal_obj.1 hb).1 (fun k => ?_)
      cases hm : aget k m with
      | none =>
        cases hn : aget k n with
        | none => rfl
        | some w =>
          have := (h [k] w.kind).2 ((has_key _ _ _ _).2 ⟨w, hn, (has_nil _ _).2 rfl⟩)
          rw [has_key, hm] at this
          obtain ⟨_, hc, _⟩ := this; cases hc
      | some v =>
        have := (h [k] v.kind).1 ((has_key _ _ _ _).2 ⟨v, hm, (has_nil _ _).2 rfl⟩)
        rw [has_key] at this
        obtain ⟨w, hn, -⟩ := this
        rw [hn]
        congr 1
        exact fields_ext m k v (aget_some_mem hm) w (legal_sub ha hm) (legal_sub hb hn) (fun p x => by
          have := h (k :: p) x
          rw [has_key, has_key, hm, hn] at this
          simpa using this)
termination_by structural a => a
theorem fields_ext : ∀ (m : List (String × Val)) (k : String) (v : Val), (k, v) ∈ m → ∀ w, Legal v → Legal w →
    (∀ p x, Has v p x ↔ Has w p x) → v = w
  | [], _, _, h => nomatch h
  | f :: m, k, v, h => fun w hv hw he => by
    rcases List.mem_cons.1 h with e | h'
    · exact field_ext f k v e w hv hw he
    · exact fields_ext m k v h' w hv hw he
termination_by structural m => m
theorem field_ext : ∀ (f : String × Val) (k : String) (v : Val), (k, v) = f → ∀ w, Legal v → Legal w →
    (∀ p x, Has v p x ↔ Has w p x) → v = w
  | (_, u), k, v, e => fun w hv hw he => by
    cases e
    exact legal_ext u w hv hw he
termination_by structural f => f
end

/-! ### Several documents -/

/-- The documents are merged one after the other. -/
def mergeAll (deep : Bool) (d : Val) : List Val → Option Val
  | [] => some d
  | x :: xs => (merge deep d x).bind fun d' => mergeAll deep d' xs

theorem mergeAll_has {deep : Bool} {xs : List Val} {d r : Val} (hl : ∀ x ∈ xs, Legal x) (h : mergeAll deep d xs = some r)
    (p : List String) (k : Option String) : Has r p k ↔ Has d p k ∨ ∃ x ∈ xs, Has x p k := by
  induction xs generalizing d with
  | nil => cases h; simp
  | cons x xs ih =>
    unfold mergeAll at h
    cases hm : merge deep d x with
    | none => rw [hm] at h; cases h
    | some d' =>
      rw [hm] at h
      rw [ih (fun y hy => hl y (List.mem_cons_of_mem _ hy)) h, merge_has (hl x (List.mem_cons_self ..)) hm]
      simp [or_assoc]

theorem mergeAll_legal {deep : Bool} {xs : List Val} {d r : Val} (hd : Legal d) (hl : ∀ x ∈ xs, Legal x)
    (h : mergeAll deep d xs = some r) : Legal r := by
  induction xs generalizing d with
  | nil => cases h; exact hd
  | cons x xs ih =>
    unfold mergeAll at h
    cases hm : merge deep d x with
    | none => rw [hm] at h; cases h
    | some d' =>
      rw [hm] at h
      exact ih (merge_legal hd (hl x (List.mem_cons_self ..)) hm) (fun y hy => hl y (List.mem_cons_of_mem _ hy)) h

/-- Merging succeeds exactly if no two documents contradict each other. -/
theorem mergeAll_some {deep : Bool} {xs : List Val} {d : Val} (hl : ∀ x ∈ xs, Legal x) :
    (∃ r, mergeAll deep d xs = some r) ↔ (d :: xs).Pairwise (Agree deep) := by
  induction xs generalizing d with
  | nil => simp [mergeAll]
  | cons x xs ih =>
    have hx := hl x (List.mem_cons_self ..)
    unfold mergeAll
    cases hm : merge deep d x with
    | none =>
      have hno : ¬ Agree deep d x := fun h => by
        obtain ⟨r, hr⟩ := merge_some deep x d hx h
        rw [hm] at hr; cases hr
      simp [List.pairwise_cons, hno]
    | some d' =>
      have ha := merge_agree hx hm
      show (∃ r, mergeAll deep d' xs = some r) ↔ _
      rw [ih (fun y hy => hl y (List.mem_cons_of_mem _ hy))]
      simp only [List.pairwise_cons, agree_merged hx hm, List.mem_cons, forall_eq_or_imp, ha, true_and]
      constructor
      · rintro ⟨h1, h2⟩; exact ⟨fun y hy => (h1 y hy).1, fun y hy => (h1 y hy).2, h2⟩
      · rintro ⟨h1, h2, h3⟩; exact ⟨fun y hy => ⟨h1 y hy, h2 y hy⟩, h3⟩

theorem pairwise_agree_perm {deep : Bool} {xs ys : List Val} (h : xs.Perm ys) (hp : xs.Pairwise (Agree deep)) :
    ys.Pairwise (Agree deep) := (h.pairwise_iff (fun h => agree_symm h)).1 hp

/-- The order of the documents does not matter, neither for the result nor for success. -/
theorem mergeAll_perm {deep : Bool} {xs ys : List Val} {d : Val} (hd : Legal d) (hl : ∀ x ∈ xs, Legal x) (h : xs.Perm ys) :
    mergeAll deep d xs = mergeAll deep d ys := by
  have hl' : ∀ x ∈ ys, Legal x := fun x hx => hl x (h.mem_iff.2 hx)
  cases h1 : mergeAll deep d xs with
  | some r =>
    obtain ⟨r', h2⟩ := (mergeAll_some (deep := deep) (d := d) hl').2
      (pairwise_agree_perm (h.cons d) ((mergeAll_some (d := d) hl).1 ⟨r, h1⟩))
    rw [h2]
    congr 1
    refine legal_ext _ _ (mergeAll_legal hd hl h1) (mergeAll_legal hd hl' h2) (fun p k => ?_)
    rw [mergeAll_has hl h1, mergeAll_has hl' h2]
    simp [h.mem_iff]
  | none =>
    cases h2 : mergeAll deep d ys with
    | none => rfl
    | some r =>
      obtain ⟨r', h3⟩ := (mergeAll_some (deep := deep) (d := d) hl).2
        (pairwise_agree_perm (h.symm.cons d) ((mergeAll_some (d := d) hl').1 ⟨r, h2⟩))
      rw [h1] at h3; cases h3

/-! ### A value below keys -/

theorem wrap_has (keys : List String) (v : Val) (p : List String) (k : Option String) :
    Has (wrap keys v) p k ↔ (∃ q, p = keys ++ q ∧ Has v q k) ∨ (k = none ∧ p <+: keys ∧ p ≠ keys) := by
  induction keys generalizing p with
  | nil => simp [wrap]
  | cons x keys ih =>
    show Has (.obj [(x, wrap keys v)]) p k ↔ _
    cases p with
    | nil => rw [has_nil]; simp [Val.kind, eq_comm]
    | cons y p =>
      rw [has_key]
      by_cases e : x = y
      · subst e
        simp [aget, ih]
      · have e' : ¬ y = x := fun h => e h.symm
        simp [aget, e, e', List.cons_prefix_cons]

theorem wrap_legal {v : Val} (h : Legal v) (keys : List String) : Legal (wrap keys v) := by
  induction keys with
  | nil => exact h
  | cons x keys ih =>
    show Legal (.obj [(x, wrap keys v)])
    rw [legal_obj]
    refine ⟨List.pairwise_singleton _ _, fun k w hw => ?_⟩
    simp only [aget] at hw
    split at hw
    · cases hw; exact ih
    · cases hw

end Verif.Policy
