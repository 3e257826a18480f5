import Verif.Util.Str
/-
The task that edits the release workflow: crates/xtask/src/fix_release_permissions.rs. The text is a list of characters. Not
modelled: reading and writing the file.
-/
namespace Verif.Tools
open Verif.Util

/-- Rust's `str::contains` for a pattern that is not empty. -/
def containsText (p : Chars) : Chars → Bool
  | [] => p.isPrefixOf []
  | c :: s => p.isPrefixOf (c :: s) || containsText p s

/-- Rust's `str::replace` for a pattern that is not empty, from left to right. The first number are characters of a match that
is being skipped. -/
def replaceText (p t : Chars) : Nat → Chars → Chars
  | _, [] => []
  | n + 1, _ :: s => replaceText p t n s
  | 0, c :: s => if p.isPrefixOf (c :: s) then t ++ replaceText p t (p.length - 1) s else c :: replaceText p t 0 s

/-- fix_release_permissions.rs:26-77 the pairs of `apply_patches`. -/
def releasePatches : List (String × String) :=
  [("name: Release\npermissions:\n  \"contents\": \"write\"", "name: Release\npermissions:\n  \"contents\": \"read\""),
   ("  plan:\n    runs-on:", "  plan:\n    permissions:\n      \"contents\": \"write\"\n    runs-on:"),
   ("  host:\n    needs:", "  host:\n    permissions:\n      \"contents\": \"write\"\n    needs:"),
   ("      - name: Install dist\n        # we specify bash to get pipefail; it guards against the `curl` command\n        # failing. otherwise `sh` won't catch that `curl` returned non-0\n        shell: bash\n        run: \"curl --proto '=https' --tlsv1.2 -LsSf https://github.com/axodotdev/cargo-dist/releases/download/v0.32.0/cargo-dist-installer.sh | sh\"",
    "      - name: Install dist\n        shell: bash\n        run: |\n          curl --proto '=https' --tlsv1.2 -LsSf https://github.com/axodotdev/cargo-dist/releases/download/v0.32.0/cargo-dist-installer.sh -o /tmp/cargo-dist-installer.sh\n          echo \"b657cf8c04a8b7bc28f39d220f7e6dd11bbd2bdb072c552262bd9ccf597261b5  /tmp/cargo-dist-installer.sh\" | sha256sum -c\n          sh /tmp/cargo-dist-installer.sh"),
   ("            curl --proto '=https' --tlsv1.2 -sSf https://sh.rustup.rs | sh -s -- -y",
    "            curl --proto '=https' --tlsv1.2 -sSf https://sh.rustup.rs -o /tmp/rustup-init.sh\n            echo \"6c30b75a75b28a96fd913a037c8581b580080b6ee9b8169a3c0feb1af7fe8caf  /tmp/rustup-init.sh\" | sha256sum -c\n            sh /tmp/rustup-init.sh -y"),
   ("uses: actions/attest@v4", "uses: actions/attest@59d89421af93a897026c735860bf21b6eb4f7b26")]

/-- fix_release_permissions.rs:79-87: the patches one after the other; `none` is the error that the file has drifted. -/
def applyPatches : List (Chars × Chars) → Chars → Option Chars
  | [], s => some s
  | (p, t) :: ps, s =>
    if containsText p s then applyPatches ps (replaceText p t 0 s)
    else if containsText t s then applyPatches ps s
    else none

/-- fix_release_permissions.rs:23-87 `apply_patches`. -/
def releasePatch (s : Chars) : Option Chars := applyPatches (releasePatches.map fun e => (e.1.toList, e.2.toList)) s

/-! ## Specification -/

/-- The text occurs. -/
def Occurs (p s : Chars) : Prop := ∃ a b, s = a ++ p ++ b

/-- One of the two begins with the other. -/
def Meets (a b : Chars) : Prop := a <+: b ∨ b <+: a

/-- No occurrence of `p` can share a character with an occurrence of `t`. -/
def Apart (p t : Chars) : Prop :=
  (∀ u, u ≠ [] → u <:+ t → ¬ Meets p u) ∧ (∀ g, g ≠ [] → g <:+ p → ¬ Meets g t)

/-! ## Lemmas -/

theorem isPrefixOf_iff {p s : Chars} : p.isPrefixOf s = true ↔ p <+: s := List.isPrefixOf_iff_prefix

theorem occurs_cons {p s : Chars} {c : Char} : Occurs p (c :: s) ↔ p <+: c :: s ∨ Occurs p s := by
  constructor
  · rintro ⟨a, b, h⟩
    cases a with
    | nil => exact .inl ⟨b, by simpa using h.symm⟩
    | cons x a =>
      simp only [List.cons_append, List.cons.injEq] at h
      exact .inr ⟨a, b, h.2⟩
  · rintro (⟨b, h⟩ | ⟨a, b, h⟩)
    · exact ⟨[], b, by simpa using h.symm⟩
    · exact ⟨c :: a, b, by simp [h]⟩

theorem containsText_iff (p s : Chars) : containsText p s = true ↔ Occurs p s := by
  induction s with
  | nil =>
    simp only [containsText, isPrefixOf_iff, List.prefix_nil, Occurs]
    constructor
    · rintro rfl; exact ⟨[], [], rfl⟩
    · rintro ⟨a, b, h⟩
      have := congrArg List.length h
      simp only [List.length_nil, List.length_append] at this
      exact List.length_eq_zero_iff.mp (by omega)
  | cons c s ih =>
    simp only [containsText, Bool.or_eq_true, isPrefixOf_iff]
    rw [occurs_cons]
    exact or_congr Iff.rfl ih

theorem replaceText_drop (p t : Chars) (n : Nat) (s : Chars) : replaceText p t n s = replaceText p t 0 (s.drop n) := by
  induction n generalizing s with
  | zero => simp
  | succ n ih =>
    cases s with
    | nil => simp [replaceText]
    | cons c s => simp only [replaceText, List.drop_succ_cons]; exact ih s

theorem replaceText_hit {p t r : Chars} (hp : p ≠ []) : replaceText p t 0 (p ++ r) = t ++ replaceText p t 0 r := by
  cases p with
  | nil => exact absurd rfl hp
  | cons c p =>
    have : (c :: p).isPrefixOf (c :: (p ++ r)) = true := isPrefixOf_iff.mpr ⟨r, by simp⟩
    simp only [List.cons_append, replaceText]
    rw [if_pos this, replaceText_drop]
    simp

theorem replaceText_miss {p t s : Chars} {c : Char} (h : ¬ p <+: c :: s) :
    replaceText p t 0 (c :: s) = c :: replaceText p t 0 s := by
  simp only [replaceText]
  rw [if_neg (by rw [isPrefixOf_iff]; exact h)]

/-- Induction over the matches of a pattern. -/
theorem replace_induction {p : Chars} (hp : p ≠ []) {P : Chars → Prop} (nil : P []) (hit : ∀ r, P r → P (p ++ r))
    (miss : ∀ c s, ¬ p <+: c :: s → P s → P (c :: s)) (s : Chars) : P s := by
  generalize hn : s.length = n
  induction n using Nat.strongRecOn generalizing s with
  | ind n ih =>
    cases s with
    | nil => exact nil
    | cons c s =>
      by_cases h : p <+: c :: s
      · obtain ⟨r, hr⟩ := h
        rw [← hr]
        refine hit r (ih r.length ?_ r rfl)
        have := congrArg List.length hr
        have h0 : 0 < p.length := List.length_pos_iff.mpr hp
        simp only [List.length_append] at this
        omega
      · exact miss c s h (ih s.length (by simp only [List.length_cons] at hn; omega) s rfl)

theorem meets_of_prefix_append {a b x : Chars} (h : a <+: b ++ x) : Meets a b := by
  rcases Nat.le_total a.length b.length with hl | hl
  · exact .inl (List.prefix_of_prefix_length_le h (List.prefix_append b x) hl)
  · exact .inr (List.prefix_of_prefix_length_le (List.prefix_append b x) h hl)

/-- What begins with a rest of `f` after the replacement did so before. -/
theorem prefix_replace {f p t : Chars} (hp : p ≠ []) (hft : Apart f t) (s : Chars) :
    ∀ g, g <:+ f → g <+: replaceText p t 0 s → g <+: s := by
  refine replace_induction (P := fun s => ∀ g, g <:+ f → g <+: replaceText p t 0 s → g <+: s) hp ?_ ?_ ?_ s
  · intro g _ h; simpa [replaceText] using h
  · intro r _ g hg h
    rw [replaceText_hit hp] at h
    by_cases g0 : g = []
    · rw [g0]; exact List.nil_prefix
    · exact absurd (meets_of_prefix_append h) (hft.2 g g0 hg)
  · intro c s hm ih g hg h
    rw [replaceText_miss hm] at h
    cases g with
    | nil => exact List.nil_prefix
    | cons d g =>
      rw [List.cons_prefix_cons] at h ⊢
      exact ⟨h.1, ih g ((List.suffix_cons d g).trans hg) h.2⟩

theorem occurs_append {f t x : Chars} (h : Occurs f (t ++ x)) :
    (∃ u, u ≠ [] ∧ u <:+ t ∧ f <+: u ++ x) ∨ Occurs f x := by
  induction t with
  | nil => exact .inr (by simpa using h)
  | cons c t ih =>
    rw [List.cons_append, occurs_cons] at h
    rcases h with h | h
    · exact .inl ⟨c :: t, List.cons_ne_nil _ _, List.suffix_refl _, by simpa using h⟩
    · rcases ih h with ⟨u, h0, hu, hf⟩ | h
      · exact .inl ⟨u, h0, hu.trans (List.suffix_cons c t), hf⟩
      · exact .inr h

/-- A replacement brings in no `f` from which its text is apart. -/
theorem not_occurs_replace {f p t : Chars} (hp : p ≠ []) (hf : f ≠ []) (hft : Apart f t) (s : Chars) (hs : f = p ∨ ¬ Occurs f s) :
    ¬ Occurs f (replaceText p t 0 s) := by
  revert hs
  refine replace_induction (P := fun s => f = p ∨ ¬ Occurs f s → ¬ Occurs f (replaceText p t 0 s)) hp ?_ ?_ ?_ s
  · intro _ ⟨a, b, h⟩
    have := congrArg List.length h
    have h0 : 0 < f.length := List.length_pos_iff.mpr hf
    simp only [replaceText, List.length_nil, List.length_append] at this
    omega
  · intro r ih hs h
    rw [replaceText_hit hp] at h
    rcases occurs_append h with ⟨u, h0, hu, hp'⟩ | h
    · exact hft.1 u h0 hu (meets_of_prefix_append hp')
    · refine ih (hs.imp id fun h1 h2 => h1 ?_) h
      obtain ⟨a, b, e⟩ := h2
      exact ⟨p ++ a, b, by simp [e]⟩
  · intro c s hm ih hs h
    rw [replaceText_miss hm, occurs_cons] at h
    rcases h with h | h
    · have hpre : f <+: c :: s := by
        cases f with
        | nil => exact absurd rfl hf
        | cons d g =>
          rw [List.cons_prefix_cons] at h ⊢
          exact ⟨h.1, prefix_replace hp hft s g (List.suffix_cons d g) h.2⟩
      rcases hs with rfl | hs
      · exact hm hpre
      · exact hs (occurs_cons.mpr (.inl hpre))
    · exact ih (hs.imp id fun h1 h2 => h1 (occurs_cons.mpr (.inr h2))) h

theorem replace_keeps_head {p t q : Chars} (h : ∀ u, u ≠ [] → u <:+ q → ¬ Meets p u) (y : Chars) :
    replaceText p t 0 (q ++ y) = q ++ replaceText p t 0 y := by
  induction q with
  | nil => rfl
  | cons c q ih =>
    have hm : ¬ p <+: c :: (q ++ y) := fun hp =>
      h (c :: q) (List.cons_ne_nil _ _) (List.suffix_refl _) (meets_of_prefix_append (x := y) (by simpa using hp))
    rw [List.cons_append, replaceText_miss hm, ih fun u h0 hu => h u h0 (hu.trans (List.suffix_cons c q))]
    rfl

/-- A replacement keeps the texts from which its pattern is apart. -/
theorem occurs_replace {p t q : Chars} (hp : p ≠ []) (hpq : Apart p q) {s : Chars} (h : Occurs q s) :
    Occurs q (replaceText p t 0 s) := by
  obtain ⟨x, y, rfl⟩ := h
  generalize hn : x.length = n
  induction n using Nat.strongRecOn generalizing x with
  | ind n ih =>
    cases x with
    | nil => exact ⟨[], replaceText p t 0 y, by simpa using replace_keeps_head hpq.1 y⟩
    | cons c x =>
      by_cases hm : p <+: c :: (x ++ q ++ y)
      · rcases Nat.le_total p.length (c :: x).length with hl | hl
        · have hx : p <+: c :: x := List.prefix_of_prefix_length_le hm ⟨q ++ y, by simp⟩ hl
          obtain ⟨x', hx'⟩ := hx
          have h0 : 0 < p.length := List.length_pos_iff.mpr hp
          have hlen := congrArg List.length hx'
          simp only [List.length_append, hn] at hlen
          obtain ⟨a, b, e⟩ := ih x'.length (by omega) x' rfl
          refine ⟨t ++ a, b, ?_⟩
          rw [← hx', List.append_assoc, List.append_assoc, replaceText_hit hp, ← List.append_assoc x', e]
          simp
        · have hx : c :: x <+: p := List.prefix_of_prefix_length_le ⟨q ++ y, by simp⟩ hm hl
          obtain ⟨g, rfl⟩ := hx
          have hg : g <+: q ++ y := by
            have : (c :: x) ++ g <+: (c :: x) ++ (q ++ y) := by simpa using hm
            exact (List.prefix_append_right_inj (c :: x)).mp this
          by_cases g0 : g = []
          · subst g0
            refine ⟨t, replaceText (c :: x ++ []) t 0 y, ?_⟩
            have e : c :: x ++ q ++ y = (c :: x ++ []) ++ (q ++ y) := by simp
            rw [e, replaceText_hit hp, replace_keeps_head hpq.1 y, List.append_assoc]
          · exact absurd (meets_of_prefix_append hg) (hpq.2 g g0 (List.suffix_append _ _))
      · obtain ⟨a, b, e⟩ := ih x.length (by simp only [List.length_cons] at hn; omega) x rfl
        refine ⟨c :: a, b, ?_⟩
        rw [List.cons_append, List.cons_append, replaceText_miss hm, e]
        rfl

/-- A replacement of something that occurs puts its text there. -/
theorem occurs_replaced {p t : Chars} (hp : p ≠ []) (s : Chars) (h : Occurs p s) : Occurs t (replaceText p t 0 s) := by
  revert h
  refine replace_induction (P := fun s => Occurs p s → Occurs t (replaceText p t 0 s)) hp ?_ ?_ ?_ s
  · rintro ⟨a, b, h⟩
    have := congrArg List.length h
    have h0 : 0 < p.length := List.length_pos_iff.mpr hp
    simp only [List.length_nil, List.length_append] at this
    omega
  · intro r _ _
    exact ⟨[], replaceText p t 0 r, by rw [replaceText_hit hp]; simp⟩
  · intro c s hm ih h
    rw [occurs_cons] at h
    obtain ⟨a, b, e⟩ := ih (h.resolve_left hm)
    exact ⟨c :: a, b, by rw [replaceText_miss hm, e]; rfl⟩

/-! ## Properties -/

/-- The patches do not disturb each other. -/
def Independent (ps : List (Chars × Chars)) : Prop := ∀ a ∈ ps, a.1 ≠ [] ∧ ∀ b ∈ ps, Apart a.1 b.2

theorem applyPatches_keeps {ps : List (Chars × Chars)} {s r : Chars} (h : applyPatches ps s = some r) {f q : Chars}
    (hf : f ≠ []) (hps : ∀ e ∈ ps, e.1 ≠ [] ∧ Apart f e.2 ∧ Apart e.1 q) (h1 : ¬ Occurs f s) (h2 : Occurs q s) :
    ¬ Occurs f r ∧ Occurs q r := by
  induction ps generalizing s with
  | nil => simp only [applyPatches, Option.some.injEq] at h; subst h; exact ⟨h1, h2⟩
  | cons e ps ih =>
    obtain ⟨p, t⟩ := e
    have ⟨hp, hft, hpq⟩ := hps (p, t) (List.mem_cons_self ..)
    have hr := fun e he => hps e (List.mem_cons_of_mem _ he)
    simp only [applyPatches] at h
    split at h
    · exact ih h hr (not_occurs_replace hp hf hft s (.inr h1)) (occurs_replace hp hpq h2)
    · split at h
      · exact ih h hr h1 h2
      · simp at h

/-- After the patches, each is applied: its new text is there, and its old text is not. -/
theorem applyPatches_applied {ps : List (Chars × Chars)} (hps : Independent ps) {s r : Chars} (h : applyPatches ps s = some r) :
    ∀ e ∈ ps, ¬ Occurs e.1 r ∧ Occurs e.2 r := by
  induction ps generalizing s with
  | nil => simp
  | cons e ps ih =>
    obtain ⟨p, t⟩ := e
    have ⟨hp, hall⟩ := hps (p, t) (List.mem_cons_self ..)
    have hI : Independent ps := fun a ha =>
      ⟨(hps a (List.mem_cons_of_mem _ ha)).1, fun b hb => (hps a (List.mem_cons_of_mem _ ha)).2 b (List.mem_cons_of_mem _ hb)⟩
    have hk : ∀ e ∈ ps, e.1 ≠ [] ∧ Apart p e.2 ∧ Apart e.1 t := fun e he =>
      ⟨(hI e he).1, hall e (List.mem_cons_of_mem _ he), (hps e (List.mem_cons_of_mem _ he)).2 (p, t) (List.mem_cons_self ..)⟩
    have hpt := hall (p, t) (List.mem_cons_self ..)
    intro e he
    simp only [applyPatches] at h
    split at h
    · rename_i hc
      rw [containsText_iff] at hc
      rcases List.mem_cons.mp he with rfl | he
      · exact applyPatches_keeps h hp hk (not_occurs_replace hp hp hpt s (.inl rfl)) (occurs_replaced hp s hc)
      · exact ih hI h e he
    · rename_i hc
      rw [containsText_iff] at hc
      split at h
      · rename_i ht
        rw [containsText_iff] at ht
        rcases List.mem_cons.mp he with rfl | he
        · exact applyPatches_keeps h hp hk hc ht
        · exact ih hI h e he
      · simp at h

/-- A text to which all the patches are applied is left as it is. -/
theorem applyPatches_done {ps : List (Chars × Chars)} {s : Chars} (h : ∀ e ∈ ps, ¬ Occurs e.1 s ∧ Occurs e.2 s) :
    applyPatches ps s = some s := by
  induction ps with
  | nil => rfl
  | cons e ps ih =>
    obtain ⟨p, t⟩ := e
    have ⟨h1, h2⟩ := h (p, t) (List.mem_cons_self ..)
    simp only [applyPatches]
    rw [if_neg (by rw [containsText_iff]; exact h1), if_pos (by rw [containsText_iff]; exact h2)]
    exact ih fun e he => h e (List.mem_cons_of_mem _ he)

/-- The nonempty ends of a text. -/
def ends : Chars → List Chars
  | [] => []
  | c :: s => (c :: s) :: ends s

theorem mem_ends {u t : Chars} (h0 : u ≠ []) (h : u <:+ t) : u ∈ ends t := by
  induction t with
  | nil => exact absurd (List.suffix_nil.mp h) h0
  | cons c t ih =>
    rcases List.suffix_cons_iff.mp h with rfl | h
    · exact List.mem_cons_self ..
    · exact List.mem_cons_of_mem _ (ih h)

/-- `Meets` as a test. -/
def meetsTest : Chars → Chars → Bool
  | [], _ => true
  | _, [] => true
  | a :: p, b :: t => Nat.beq a.toNat b.toNat && meetsTest p t

theorem meetsTest_of {p t : Chars} (h : Meets p t) : meetsTest p t = true := by
  induction p generalizing t with
  | nil => simp [meetsTest]
  | cons a p ih =>
    cases t with
    | nil => simp [meetsTest]
    | cons b t =>
      have : a = b ∧ Meets p t := by
        rcases h with h | h
        · rw [List.cons_prefix_cons] at h; exact ⟨h.1, .inl h.2⟩
        · rw [List.cons_prefix_cons] at h; exact ⟨h.1.symm, .inr h.2⟩
      simp [meetsTest, this.1, ih this.2]

/-- `Apart` as a test. -/
def apartTest (p t : Chars) : Bool := (ends t).all (fun u => !meetsTest p u) && (ends p).all fun g => !meetsTest g t

theorem apart_of_test {p t : Chars} (h : apartTest p t = true) : Apart p t := by
  simp only [apartTest, Bool.and_eq_true, List.all_eq_true, Bool.not_eq_true'] at h
  refine ⟨fun u h0 hu hm => ?_, fun g h0 hg hm => ?_⟩
  · exact absurd (meetsTest_of hm) (by rw [h.1 u (mem_ends h0 hu)]; exact Bool.false_ne_true)
  · exact absurd (meetsTest_of hm) (by rw [h.2 g (mem_ends h0 hg)]; exact Bool.false_ne_true)

/-- The patches as lists of characters. -/
def releaseChars : List (Chars × Chars) := releasePatches.map fun e => (e.1.toList, e.2.toList)

/-- All the texts of the patches that differ are apart: the old ones from each other and from all new ones, and the new ones
from each other. -/
def allApart : List (Chars × Chars) → Bool
  | [] => true
  | a :: l => !a.1.isEmpty && apartTest a.1 a.2 && l.all (fun b => apartTest a.1 b.2 && apartTest b.1 a.2 && apartTest a.1 b.1 &&
      apartTest a.2 b.2 && apartTest b.2 a.2) && allApart l

theorem releaseChars_eq {ls : List (Chars × Chars)} (h : releasePatches = ls.map fun e => (String.ofList e.1, String.ofList e.2)) :
    releaseChars = ls := by
  unfold releaseChars
  rw [h, List.map_map]
  simp [Function.comp_def, String.toList_ofList]

set_option maxRecDepth 100000 in
theorem releaseChars_apart : allApart releaseChars = true := by
  refine (congrArg allApart (releaseChars_eq (ls := [(_, _), (_, _), (_, _), (_, _), (_, _), (_, _)]) rfl)).trans ?_
  decide +kernel

theorem independent_of {ps : List (Chars × Chars)} (h : allApart ps = true) : Independent ps := by
  induction ps with
  | nil => intro a ha; simp at ha
  | cons e ps ih =>
    simp only [allApart, Bool.and_eq_true, List.all_eq_true, Bool.not_eq_true', List.isEmpty_eq_false_iff] at h
    obtain ⟨⟨⟨h0, h1⟩, h2⟩, h3⟩ := h
    intro a ha'
    rcases List.mem_cons.mp ha' with rfl | ha
    · refine ⟨h0, fun b hb => ?_⟩
      rcases List.mem_cons.mp hb with rfl | hb
      · exact apart_of_test h1
      · exact apart_of_test (h2 b hb).1.1.1.1
    · refine ⟨(ih h3 a ha).1, fun b hb => ?_⟩
      rcases List.mem_cons.mp hb with hb' | hb
      · subst hb'; exact apart_of_test (h2 a ha).1.1.1.2
      · exact (ih h3 a ha).2 b hb

theorem texts_apart_of {ps : List (Chars × Chars)} (h : allApart ps = true) :
    ∀ e ∈ ps, ∀ b ∈ ps, Apart e.2 b.2 ∨ b = e := by
  induction ps with
  | nil => intro a ha; simp at ha
  | cons x ps ih =>
    simp only [allApart, Bool.and_eq_true, List.all_eq_true] at h
    obtain ⟨⟨_, h2⟩, h3⟩ := h
    intro e he' b hb'
    rcases List.mem_cons.mp he' with he | he <;> rcases List.mem_cons.mp hb' with hb | hb
    · exact .inr (hb.trans he.symm)
    · subst he; exact .inl (apart_of_test (h2 b hb).1.2)
    · subst hb; exact .inl (apart_of_test (h2 e he).2)
    · exact ih h3 e he b hb

theorem patterns_apart_of {ps : List (Chars × Chars)} (h : allApart ps = true) : ps.Pairwise fun b e => Apart b.1 e.1 := by
  induction ps with
  | nil => exact List.Pairwise.nil
  | cons x ps ih =>
    simp only [allApart, Bool.and_eq_true, List.all_eq_true] at h
    exact List.pairwise_cons.mpr ⟨fun e he => apart_of_test (h.1.2 e he).1.1.2, ih h.2⟩

/-- The patches of the release workflow do not disturb each other. -/
theorem releasePatches_independent : Independent (releasePatches.map fun e => (e.1.toList, e.2.toList)) :=
  independent_of releaseChars_apart

/-- **Every patched workflow has each new text and no old text.** -/
theorem releasePatch_applied {s r : Chars} (h : releasePatch s = some r) :
    ∀ e ∈ releasePatches, ¬ Occurs e.1.toList r ∧ Occurs e.2.toList r := fun _ he =>
  applyPatches_applied releasePatches_independent h _ (List.mem_map_of_mem he)

/-- **Patching again changes nothing.** -/
theorem releasePatch_idem {s r : Chars} (h : releasePatch s = some r) : releasePatch r = some r :=
  applyPatches_done (applyPatches_applied releasePatches_independent h)

/-- A workflow is left as it is exactly when it is patched already. -/
theorem releasePatch_fixed (s : Chars) : releasePatch s = some s ↔
    ∀ e ∈ releasePatches, ¬ Occurs e.1.toList s ∧ Occurs e.2.toList s :=
  ⟨releasePatch_applied, fun h => applyPatches_done fun _ he => by
    obtain ⟨x, hx, rfl⟩ := List.mem_map.mp he
    exact h x hx⟩

/-- If a text has neither text of some patch, the patches are refused. -/
theorem applyPatches_drift {ps : List (Chars × Chars)} (hps : Independent ps) {e : Chars × Chars} (he : e ∈ ps) (s : Chars)
    (h3 : ∀ b ∈ ps, Apart e.2 b.2 ∨ b = e) (h1 : ¬ Occurs e.1 s) (h2 : ¬ Occurs e.2 s) : applyPatches ps s = none := by
  have he0 := (hps e he).1
  have hea := (hps e he).2
  have hne : e.2 ≠ [] := fun h0 => h2 ⟨[], s, by simp [h0]⟩
  have hp0 := fun b hb => (hps b hb).1
  clear hps
  induction ps generalizing s with
  | nil => simp at he
  | cons b ps ih =>
    have hb := List.mem_cons_self (a := b) (l := ps)
    simp only [applyPatches]
    by_cases hbe : b = e
    · subst hbe
      rw [if_neg (by rw [containsText_iff]; exact h1), if_neg (by rw [containsText_iff]; exact h2)]
    · have hm : e ∈ ps := (List.mem_cons.mp he).resolve_left (fun h => hbe h.symm)
      have go := fun s' => ih hm s' (fun x hx => h3 x (List.mem_cons_of_mem _ hx))
      have ha := fun x hx => hea x (List.mem_cons_of_mem b hx)
      have hp := fun x hx => hp0 x (List.mem_cons_of_mem b hx)
      split
      · exact go _ (not_occurs_replace (hp0 b hb) he0 (hea b hb) s (.inr h1))
          (not_occurs_replace (hp0 b hb) hne ((h3 b hb).resolve_right hbe) s (.inr h2)) ha hp
      · split
        · exact go s h1 h2 ha hp
        · rfl

theorem applyPatches_some {ps : List (Chars × Chars)} (hps : Independent ps) (hpw : ps.Pairwise fun b e => Apart b.1 e.1)
    (s : Chars) (h : ∀ e ∈ ps, Occurs e.1 s ∨ Occurs e.2 s) : applyPatches ps s ≠ none := by
  induction ps generalizing s with
  | nil => simp [applyPatches]
  | cons e ps ih =>
    obtain ⟨p, t⟩ := e
    have ⟨hp, hall⟩ := hps (p, t) (List.mem_cons_self ..)
    have hI : Independent ps := fun a ha =>
      ⟨(hps a (List.mem_cons_of_mem _ ha)).1, fun b hb => (hps a (List.mem_cons_of_mem _ ha)).2 b (List.mem_cons_of_mem _ hb)⟩
    have ⟨hap, hpw'⟩ := List.pairwise_cons.mp hpw
    simp only [applyPatches]
    split
    · refine ih hI hpw' _ fun e he => ?_
      exact (h e (List.mem_cons_of_mem _ he)).imp (occurs_replace hp (hap e he))
        (occurs_replace hp (hall e (List.mem_cons_of_mem _ he)))
    · rename_i hc
      rw [containsText_iff] at hc
      rw [if_pos (by rw [containsText_iff]; exact (h (p, t) (List.mem_cons_self ..)).resolve_left hc)]
      exact ih hI hpw' s fun e he => h e (List.mem_cons_of_mem _ he)

/-- **A workflow is refused exactly when some patch finds neither its old nor its new text** in the workflow that is read. -/
theorem releasePatch_none (s : Chars) : releasePatch s = none ↔
    ∃ e ∈ releasePatches, ¬ Occurs e.1.toList s ∧ ¬ Occurs e.2.toList s := by
  constructor
  · intro h
    apply Classical.byContradiction
    intro hn
    refine applyPatches_some releasePatches_independent (patterns_apart_of releaseChars_apart) s (fun e he => ?_) h
    obtain ⟨x, hx, rfl⟩ := List.mem_map.mp he
    apply Classical.byContradiction
    intro ho
    exact hn ⟨x, hx, fun h => ho (.inl h), fun h => ho (.inr h)⟩
  · rintro ⟨e, he, h1, h2⟩
    have hm := List.mem_map_of_mem (f := fun e : String × String => (e.1.toList, e.2.toList)) he
    exact applyPatches_drift releasePatches_independent hm s (texts_apart_of releaseChars_apart _ hm) h1 h2

/-- A workflow that the task accepts: the old texts one after the other. -/
def exWorkflow : Chars := (releasePatches.map fun e => e.1.toList).flatten

theorem occurs_flatten {l : List Chars} {p : Chars} (h : p ∈ l) : Occurs p l.flatten := by
  obtain ⟨a, b, rfl⟩ := List.append_of_mem h
  exact ⟨a.flatten, b.flatten, by simp⟩

example : ∃ r, releasePatch exWorkflow = some r ∧ releasePatch r = some r := by
  cases h : releasePatch exWorkflow with
  | none =>
    obtain ⟨e, he, h1, _⟩ := (releasePatch_none _).mp h
    exact absurd (occurs_flatten (List.mem_map_of_mem (f := fun e : String × String => e.1.toList) he)) h1
  | some r => exact ⟨r, rfl, releasePatch_idem h⟩

example : releasePatch [] = none := by decide +kernel

example : applyPatches [("a".toList, "b".toList), ("c".toList, "d".toList)] "xaayd".toList = some "xbbyd".toList ∧
    applyPatches [("a".toList, "b".toList), ("c".toList, "d".toList)] "xaay".toList = none := by decide +kernel

/-- Texts that are not apart: patching twice would patch twice. -/
example : replaceText "a".toList "aa".toList 0 "a".toList = "aa".toList ∧ apartTest "a".toList "aa".toList = false := by
  decide +kernel

end Verif.Tools
