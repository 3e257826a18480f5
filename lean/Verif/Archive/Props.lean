import Verif.Archive.Model
import Verif.Fs.Props

/-!
# Archives and clones: properties
-/

namespace Verif.Archive
open Verif.Util Verif.Fs Verif.Common

/-! ### Specification

An archive of a directory holds the files below one top directory. A file has a path of plain names below it. -/

/-- A file with its content, or a directory, at a path below the top directory. -/
structure Item where
  rel : List String
  content : Option String
  deriving DecidableEq

/-- The entry of an item in an archive with the top directory `top`; the name of a directory ends with a slash. -/
def Item.entry (top : String) (i : Item) : Entry :=
  match i.content with
  | some c => ⟨Fs.text (top :: i.rel), false, c⟩
  | none => ⟨Fs.text (top :: i.rel) ++ ['/'], true, ""⟩

/-- The files among the items. -/
def filesOf (is : List Item) : List (List String × String) := is.filterMap fun i => i.content.map fun c => (i.rel, c)

/-- Items that can be the content of a directory: plain names, each file once, and nothing below a file. -/
structure Directory (is : List Item) : Prop where
  plain : ∀ i ∈ is, ∀ n ∈ i.rel, Plain n
  named : ∀ f ∈ filesOf is, f.1 ≠ []
  once : ((filesOf is).map Prod.fst).Nodup
  through : ∀ i ∈ is, ∀ f ∈ filesOf is, f.1 <+: i.rel → i = ⟨f.1, some f.2⟩

/-- Everything an unpacking writes is below the temporary directory. -/
def Inside (target : List String) (d : Disk) : Prop := (∀ f ∈ d.files, target <+: f.1) ∧ ∀ p ∈ d.dirs, target <+: p

/-! ### Confinement -/

theorem settle_eq (pos : List String) (cs : List Comp) : settle pos cs = lexical pos cs := by
  induction cs generalizing pos with
  | nil => rfl
  | cons c cs ih => cases c <;> exact ih _

theorem settle_names (pos ns : List String) : settle pos (ns.map Comp.name) = pos ++ ns := by
  induction ns generalizing pos with
  | nil => simp [settle]
  | cons n ns ih => simp [settle, ih]

theorem mkdir_inside {target p : List String} {d d' : Disk} (h : d.mkdir p = some d') (hi : Inside target d) (hp : target <+: p) :
    Inside target d' := by
  unfold Disk.mkdir at h
  split at h
  · cases h
  · cases h
    exact ⟨hi.1, fun q hq => (List.mem_cons.1 hq).elim (fun e => e ▸ hp) (hi.2 q)⟩

theorem write_inside {target p : List String} {c : String} {d d' : Disk} (h : d.write p c = some d') (hi : Inside target d)
    (hp : target <+: p) : Inside target d' := by
  unfold Disk.write at h
  split at h
  · cases h
  · cases h
    refine ⟨fun f hf => ?_, hi.2⟩
    rcases List.mem_append.1 hf with h | h
    · exact hi.1 f (List.mem_filter.1 h).1
    · rw [List.mem_singleton] at h; subst h; exact hp

theorem place_inside {target : List String} {d d' : Disk} {e : Entry} {ps : List Part} (h : place target d e ps = some d')
    (hi : Inside target d) (hu : Part.comp .up ∉ ps) : Inside target d' := by
  have hp : target <+: settle target (comps ps) := by
    rw [settle_eq]
    apply lexical_down
    intro hm
    obtain ⟨x, hx, he⟩ := List.mem_filterMap.1 hm
    cases x with
    | root => cases he
    | comp c => cases he; exact hu hx
  unfold place at h
  dsimp only at h
  split at h
  · exact mkdir_inside h hi hp
  · exact write_inside h hi hp

theorem pathToUnpack_sub {ps qs : List Part} {sub : Option Chars} (h : pathToUnpack ps sub = some qs) : ∀ x ∈ qs, x ∈ ps.drop 1 := by
  unfold pathToUnpack at h
  dsimp only at h
  split at h
  · cases h; exact fun _ h => h
  · split at h
    · cases h; exact fun _ h => h
    · split at h
      · cases h; simp
      · split at h
        · cases h
        · rename_i c r h0 _; cases h; intro x hx; rw [h0]; exact List.mem_cons_of_mem _ hx

/-- No name in the archive goes up after its first part. -/
def Downwards (es : List Entry) : Prop := ∀ e ∈ es, Part.comp .up ∉ (parts e.name).drop 1

theorem unpackTar_inside {target : List String} {sub : Option Chars} {es : List Entry} {d d' : Disk} (hd : Downwards es)
    (h : unpackTar target sub es d = some d') (hi : Inside target d) : Inside target d' := by
  induction es generalizing d with
  | nil => cases h; exact hi
  | cons e es ih =>
    have hd' : Downwards es := fun e he => hd e (List.mem_cons_of_mem _ he)
    unfold unpackTar at h
    split at h
    · exact ih hd' h hi
    · rename_i ps hps
      split at h
      · cases h
      · rename_i d1 h1
        refine ih hd' h (place_inside h1 hi fun hu => hd e (List.mem_cons_self ..) (pathToUnpack_sub hps _ hu))

theorem unpackZip_inside {target : List String} {sub : Option Chars} {es : List Entry} {d d' : Disk}
    (h : unpackZip target sub es d = some d') (hi : Inside target d) : Inside target d' := by
  induction es generalizing d with
  | nil => cases h; exact hi
  | cons e es ih =>
    unfold unpackZip at h
    split at h
    · exact ih h hi
    · split at h
      · exact ih h hi
      · rename_i names _ _ ps hps
        split at h
        · cases h
        · rename_i d1 h1
          refine ih h (place_inside h1 hi fun hu => ?_)
          have := List.mem_of_mem_drop (pathToUnpack_sub hps _ hu)
          obtain ⟨n, -, hn⟩ := List.mem_map.1 this
          cases hn

/-- Unpacking a zip archive writes only below the temporary directory, whatever the names in the archive are. -/
theorem zip_confined {target : List String} {sub : Option Chars} {es : List Entry} {d : Disk}
    (h : unpack .zip target sub es = some d) : Inside target d :=
  unpackZip_inside h ⟨nofun, fun p hp => by rw [List.mem_singleton] at hp; subst hp; exact List.prefix_refl _⟩

example : unpack .zip ["tmp"] none [⟨"pkg/../../evil.yaml".toList, false, "x"⟩, ⟨"pkg/a/b.yaml".toList, false, "y"⟩] =
    some ⟨[(["tmp", "a", "b.yaml"], "y")], [["tmp"]]⟩ := by decide +kernel

/-- Unpacking a tar archive in which no name goes up writes only below the temporary directory. -/
theorem archive_confined_partial {k : Kind} {target : List String} {sub : Option Chars} {es : List Entry} {d : Disk}
    (hd : k = .zip ∨ Downwards es) (h : unpack k target sub es = some d) : Inside target d := by
  cases k with
  | zip => exact zip_confined h
  | tarGz =>
    rcases hd with hd | hd
    · cases hd
    · exact unpackTar_inside hd h
        ⟨nofun, fun p hp => by rw [List.mem_singleton] at hp; subst hp; exact List.prefix_refl _⟩

example : Downwards [⟨"pkg/a/b.yaml".toList, false, "y"⟩] ∧ unpack .tarGz ["tmp"] none [⟨"pkg/a/b.yaml".toList, false, "y"⟩] =
    some ⟨[(["tmp", "a", "b.yaml"], "y")], [["tmp"]]⟩ :=
  ⟨by intro e he; rw [List.mem_singleton] at he; subst he; decide +kernel, by decide +kernel⟩

/-- A tar archive can write outside of the temporary directory, where it replaces the files of the user. -/
theorem archive_confined_refuted : ∃ target es d, unpack .tarGz target none es = some d ∧ ¬ Inside target d ∧
    (["home", "me", "evil.sh"], "x") ∈ d.files :=
  ⟨["home", "me", "tmp"], [⟨"pkg/../evil.sh".toList, false, "x"⟩], ⟨[(["home", "me", "evil.sh"], "x")], [["home", "me", "tmp"]]⟩,
    by decide +kernel, fun h => absurd (h.1 (["home", "me", "evil.sh"], "x") (by simp)) (by decide +kernel), by simp⟩

/-! ### What is unpacked -/

theorem parts_text {ns : List String} (h : ns ≠ []) (hp : ∀ n ∈ ns, Plain n) :
    parts (Fs.text ns) = ns.map fun n => .comp (.name n) := by
  have ho := ofChars_text h hp
  have hs := split_text h (fun n hn => (hp n hn).2.2.2)
  have habs : (Fs.text ns).head? ≠ some '/' := by
    have := congrArg Path.abs ho
    simpa [Path.ofChars] using this
  unfold parts
  rw [if_neg habs, hs, if_neg, ho]
  · unfold Path.normal
    rw [filter_names, List.map_map, List.nil_append]; rfl
  · cases ns with
    | nil => exact absurd rfl h
    | cons n ns =>
      simp only [List.map_cons, List.head?_cons, Option.some.injEq]
      intro hh
      exact (hp n (by simp)).2.1 (String.toList_injective hh)

theorem parts_dir {ns : List String} (h : ns ≠ []) (hp : ∀ n ∈ ns, Plain n) :
    parts (Fs.text ns ++ ['/']) = ns.map fun n => .comp (.name n) := by
  have ho := ofChars_text h hp
  have hs := split_text h (fun n hn => (hp n hn).2.2.2)
  have hs' : splitWhen (· == '/') (Fs.text ns ++ '/' :: []) = ns.map String.toList ++ [[]] := by
    rw [splitWhen_append _ _ (by simp), hs]; rfl
  have hne : Fs.text ns ≠ [] := by
    intro h0
    rw [h0] at hs
    cases ns with
    | nil => exact h rfl
    | cons n ns =>
      simp only [splitWhen, List.map_cons, List.cons.injEq] at hs
      exact (hp n (by simp)).1 (String.toList_injective hs.1.symm)
  have hh : (Fs.text ns ++ ['/']).head? = (Fs.text ns).head? := by
    cases hc : Fs.text ns with
    | nil => exact absurd hc hne
    | cons c r => rfl
  have habs : (Fs.text ns).head? ≠ some '/' := by
    have := congrArg Path.abs ho
    simpa [Path.ofChars] using this
  unfold parts
  rw [hh, if_neg habs, hs', if_neg]
  · unfold Path.normal Path.ofChars
    rw [hs']
    simp only [List.map_append, List.map_map, List.filter_append, List.nil_append]
    have e : ns.map (Comp.ofChars ∘ String.toList) = ns.map Comp.name :=
      List.map_congr_left fun n hn => ofChars_plain (hp n hn)
    rw [e, filter_names]
    have : List.filter (fun x => decide (x ≠ Comp.cur)) (List.map Comp.ofChars [[]]) = [] := by decide +kernel
    rw [this]; simp
  · cases ns with
    | nil => exact absurd rfl h
    | cons n ns =>
      simp only [List.map_cons, List.cons_append, List.head?_cons, Option.some.injEq]
      intro hh
      exact (hp n (by simp)).2.1 (String.toList_injective hh)

/-- The part of an item's path that is joined to the target. -/
theorem entry_parts {top : String} (ht : Plain top) {i : Item} (hp : ∀ n ∈ i.rel, Plain n) :
    parts (i.entry top).name = (top :: i.rel).map fun n => .comp (.name n) := by
  have hp' : ∀ n ∈ top :: i.rel, Plain n := fun n hn => (List.mem_cons.1 hn).elim (fun e => e ▸ ht) (hp n)
  unfold Item.entry
  cases i.content with
  | none => exact parts_dir (by simp) hp'
  | some c => exact parts_text (by simp) hp'

theorem enclosed_names (acc ns : List String) : enclosed acc (ns.map fun n => Part.comp (.name n)) = some (acc ++ ns) := by
  induction ns generalizing acc with
  | nil => simp [enclosed]
  | cons n ns ih => simp [enclosed, ih]

theorem zip_eq_tar {top : String} (ht : Plain top) {target : List String} {sub : Option Chars} {is : List Item}
    (hp : ∀ i ∈ is, ∀ n ∈ i.rel, Plain n) (d : Disk) :
    unpackZip target sub (is.map (Item.entry top)) d = unpackTar target sub (is.map (Item.entry top)) d := by
  induction is generalizing d with
  | nil => rfl
  | cons i is ih =>
    have h1 := entry_parts ht (hp i (by simp))
    rw [List.map_cons, unpackZip, unpackTar, h1, enclosed_names]
    dsimp only
    rw [List.nil_append]
    cases pathToUnpack ((top :: i.rel).map fun n => .comp (.name n)) sub with
    | none => exact ih (fun i hi => hp i (by simp [hi])) d
    | some ps =>
      dsimp only
      cases place target d (i.entry top) ps with
      | none => rfl
      | some d' => exact ih (fun i hi => hp i (by simp [hi])) d'

/-- Putting items at their places, one after another. -/
def run (target : List String) : List Item → Disk → Option Disk
  | [], d => some d
  | i :: is, d =>
    match (match i.content with
      | none => d.mkdir (target ++ i.rel)
      | some c => d.write (target ++ i.rel) c) with
    | none => none
    | some d' => run target is d'

theorem comps_names (ns : List String) : comps (ns.map fun n => .comp (.name n)) = ns.map Comp.name := by
  induction ns with
  | nil => rfl
  | cons n ns ih => simp only [List.map_cons, comps, List.filterMap_cons]; rw [← ih]; rfl

theorem place_names (top : String) (target : List String) (d : Disk) (i : Item) (ns : List String) :
    place target d (i.entry top) (ns.map fun n => .comp (.name n)) =
      match i.content with
      | none => d.mkdir (target ++ ns)
      | some c => d.write (target ++ ns) c := by
  unfold place
  dsimp only
  rw [comps_names, settle_names]
  unfold Item.entry
  cases i.content <;> rfl

theorem tar_run {top : String} (ht : Plain top) {target : List String} {is : List Item}
    (hp : ∀ i ∈ is, ∀ n ∈ i.rel, Plain n) (d : Disk) :
    unpackTar target none (is.map (Item.entry top)) d = run target is d := by
  induction is generalizing d with
  | nil => rfl
  | cons i is ih =>
    rw [List.map_cons, unpackTar, entry_parts ht (hp i (by simp)), run]
    simp only [pathToUnpack, List.map_cons, List.drop_succ_cons, List.drop_zero]
    rw [place_names]
    cases (match i.content with | none => d.mkdir (target ++ i.rel) | some c => d.write (target ++ i.rel) c) with
    | none => rfl
    | some d' => exact ih (fun i hi => hp i (by simp [hi])) d'

/-- What is left of an item when only the directory `s` is unpacked. -/
def under (s : String) (i : Item) : Option Item :=
  match i.rel with
  | [] => some i
  | n :: r => if n = s then some ⟨r, i.content⟩ else none

theorem tar_run_sub {top : String} (ht : Plain top) {target : List String} {s : String} (hs : blank s.toList = false)
    {is : List Item} (hp : ∀ i ∈ is, ∀ n ∈ i.rel, Plain n) (d : Disk) :
    unpackTar target (some s.toList) (is.map (Item.entry top)) d = run target (is.filterMap (under s)) d := by
  induction is generalizing d with
  | nil => rfl
  | cons i is ih =>
    have ih := ih (fun i hi => hp i (by simp [hi]))
    rw [List.map_cons, unpackTar, entry_parts ht (hp i (by simp)), List.filterMap_cons]
    obtain ⟨rel, content⟩ := i
    cases rel with
    | nil =>
      have e : pathToUnpack ([top].map fun n => .comp (.name n)) (some s.toList) = some (([] : List String).map fun n => .comp (.name n)) := by
        unfold pathToUnpack; simp [hs]
      rw [e]
      dsimp only [under]
      rw [place_names, run]
      cases (match content with | none => d.mkdir (target ++ []) | some c => d.write (target ++ []) c) with
      | none => rfl
      | some d' => exact ih d'
    | cons n r =>
      by_cases hn : n = s
      · subst hn
        have e : pathToUnpack ((top :: n :: r).map fun n => .comp (.name n)) (some n.toList) = some (r.map fun n => .comp (.name n)) := by
          unfold pathToUnpack; simp [hs, Part.text]
        rw [e]
        simp only [under, if_true]
        rw [place_names, run]
        cases (match content with | none => d.mkdir (target ++ r) | some c => d.write (target ++ r) c) with
        | none => rfl
        | some d' => exact ih d'
      · have e : pathToUnpack ((top :: n :: r).map fun n => .comp (.name n)) (some s.toList) = none := by
          unfold pathToUnpack
          have : n.toList ≠ s.toList := fun h => hn (String.toList_injective h)
          simp [hs, Part.text, this]
        rw [e]
        simp only [under, if_neg hn]
        exact ih d

theorem filesOf_cons (i : Item) (is : List Item) :
    filesOf (i :: is) = (match i.content with | none => [] | some c => [(i.rel, c)]) ++ filesOf is := by
  unfold filesOf
  rw [List.filterMap_cons]
  cases i.content <;> rfl

theorem filesOf_append (a b : List Item) : filesOf (a ++ b) = filesOf a ++ filesOf b := List.filterMap_append ..

/-- A directory can be put at its place, and its files are then there. -/
theorem run_ok {target : List String} {done is : List Item} (hd : Directory (done ++ is)) {d : Disk}
    (hf : d.files = (filesOf done).map fun f => (target ++ f.1, f.2))
    (hdirs : ∀ p ∈ d.dirs, p = target ∨ ∃ i ∈ done, i.content = none ∧ p = target ++ i.rel) :
    ∃ d', run target is d = some d' ∧ d'.files = (filesOf (done ++ is)).map fun f => (target ++ f.1, f.2) := by
  induction is generalizing done d with
  | nil => exact ⟨d, rfl, by simpa using hf⟩
  | cons i is ih =>
    have hmem : i ∈ done ++ i :: is := by simp
    have hund : d.underFile (target ++ i.rel) = false := by
      unfold Disk.underFile
      rw [List.any_eq_false]
      intro f hm hb
      rw [hf] at hm
      obtain ⟨g, hg, rfl⟩ := List.mem_map.1 hm
      simp only [Bool.and_eq_true, List.isPrefixOf_iff_prefix, bne_iff_ne, ne_eq, List.prefix_append_right_inj,
        List.append_cancel_left_eq] at hb
      have := hd.through i hmem g (by rw [filesOf_append]; exact List.mem_append_left _ hg) hb.1
      exact hb.2 (by rw [this])
    rw [run]
    cases hc : i.content with
    | none =>
      dsimp only
      have hno : (d.files.any fun x => x.1 == target ++ i.rel) = false := by
        rw [List.any_eq_false]
        intro f hm hb
        rw [hf] at hm
        obtain ⟨g, hg, rfl⟩ := List.mem_map.1 hm
        simp only [beq_iff_eq, List.append_cancel_left_eq] at hb
        have := hd.through i hmem g (by rw [filesOf_append]; exact List.mem_append_left _ hg) (hb ▸ List.prefix_refl _)
        rw [this] at hc; cases hc
      have hm : d.mkdir (target ++ i.rel) = some { d with dirs := (target ++ i.rel) :: d.dirs } := by
        unfold Disk.mkdir; rw [hund, hno]; rfl
      rw [hm]
      dsimp only
      have := ih (done := done ++ [i]) (by simpa using hd) (d := { d with dirs := (target ++ i.rel) :: d.dirs })
        (by rw [filesOf_append, filesOf_cons, hc]; simpa [filesOf] using hf)
        (by
          intro p hp
          rcases List.mem_cons.1 hp with rfl | hp
          · exact .inr ⟨i, by simp, hc, rfl⟩
          · rcases hdirs p hp with h | ⟨j, hj, h⟩
            · exact .inl h
            · exact .inr ⟨j, by simp [hj], h⟩)
      simpa using this
    | some c =>
      dsimp only
      have hfile : (i.rel, c) ∈ filesOf (done ++ i :: is) := by rw [filesOf_append, filesOf_cons, hc]; simp
      have hnew : ∀ f ∈ filesOf done, f.1 ≠ i.rel := by
        intro f hm he
        have h1 := hd.once
        rw [filesOf_append, filesOf_cons, hc, List.map_append, List.nodup_append] at h1
        exact h1.2.2 f.1 (List.mem_map_of_mem hm) i.rel (by simp) he
      have hnd : d.isDir (target ++ i.rel) = false := by
        unfold Disk.isDir
        rw [Bool.or_eq_false_iff]
        constructor
        · rw [List.any_eq_false]
          intro p hp hb
          rw [List.isPrefixOf_iff_prefix] at hb
          rcases hdirs p hp with rfl | ⟨j, hj, hjc, rfl⟩
          · have := hb.length_le
            have hne := hd.named _ hfile
            cases hr : i.rel with
            | nil => exact hne hr
            | cons a b => rw [hr] at this; simp only [List.length_append, List.length_cons] at this; omega
          · rw [List.prefix_append_right_inj] at hb
            have := hd.through j (by simp [hj]) _ hfile hb
            rw [this] at hjc; cases hjc
        · rw [List.any_eq_false]
          intro f hm hb
          rw [hf] at hm
          obtain ⟨g, hg, rfl⟩ := List.mem_map.1 hm
          simp only [Bool.and_eq_true, List.isPrefixOf_iff_prefix, bne_iff_ne, ne_eq, List.prefix_append_right_inj] at hb
          obtain ⟨j, hj, hjg⟩ := List.mem_filterMap.1 hg
          cases hjc : j.content with
          | none => rw [hjc] at hjg; cases hjg
          | some c' =>
            rw [hjc] at hjg
            cases hjg
            have := hd.through j (by simp [hj]) _ hfile hb.1
            exact hb.2 (by rw [this])
      have hkeep : d.files.filter (fun x => decide (x.1 ≠ target ++ i.rel)) = d.files := by
        rw [List.filter_eq_self]
        intro f hm
        rw [hf] at hm
        obtain ⟨g, hg, rfl⟩ := List.mem_map.1 hm
        simpa using hnew g hg
      have hw : d.write (target ++ i.rel) c = some { d with files := d.files ++ [(target ++ i.rel, c)] } := by
        unfold Disk.write; rw [hund, hnd, hkeep]; rfl
      rw [hw]
      dsimp only
      have := ih (done := done ++ [i]) (by simpa using hd) (d := { d with files := d.files ++ [(target ++ i.rel, c)] })
        (by rw [filesOf_append, filesOf_cons, hc]; simp [filesOf, hf])
        (by
          intro p hp
          rcases hdirs p hp with h | ⟨j, hj, h⟩
          · exact .inl h
          · exact .inr ⟨j, by simp [hj], h⟩)
      simpa using this

/-- An archive of a directory is unpacked completely: the files below the temporary directory are the files of the
directory, with their contents. -/
theorem unpack_whole {k : Kind} {top : String} (ht : Plain top) {target : List String} {is : List Item} (hd : Directory is) :
    ∃ d, unpack k target none (is.map (Item.entry top)) = some d ∧
      d.files = (filesOf is).map fun f => (target ++ f.1, f.2) := by
  have := run_ok (target := target) (done := []) (is := is) hd (d := { dirs := [target] }) rfl
    (fun p hp => .inl (List.mem_singleton.1 hp))
  rw [← tar_run ht hd.plain] at this
  cases k with
  | tarGz => exact this
  | zip => rw [← zip_eq_tar ht hd.plain] at this; exact this

theorem under_some {s : String} {i j : Item} (h : under s i = some j) :
    (i.rel = [] ∧ j = i) ∨ (i.rel = s :: j.rel ∧ j.content = i.content) := by
  unfold under at h
  split at h
  · rename_i h0; cases h; exact .inl ⟨h0, rfl⟩
  · rename_i n r h0
    split at h
    · rename_i hn; cases h; subst hn; exact .inr ⟨h0, rfl⟩
    · cases h

/-- The files in the directory `s`, relative to it. -/
def inFolder (s : String) (fs : List (List String × String)) : List (List String × String) :=
  fs.filterMap fun f => match f.1 with
    | [] => none
    | n :: r => if n = s then some (r, f.2) else none

theorem filesOf_under {s : String} {is : List Item} (hn : ∀ f ∈ filesOf is, f.1 ≠ []) :
    filesOf (is.filterMap (under s)) = inFolder s (filesOf is) := by
  induction is with
  | nil => rfl
  | cons i is ih =>
    have ih := ih (fun f hf => hn f (by rw [filesOf_cons]; exact List.mem_append_right _ hf))
    rw [List.filterMap_cons, filesOf_cons, inFolder, List.filterMap_append]
    obtain ⟨rel, content⟩ := i
    cases rel with
    | nil =>
      cases content with
      | none => rw [show under s ⟨[], none⟩ = some ⟨[], none⟩ from rfl]; dsimp only; rw [filesOf_cons, ih]; rfl
      | some c => exact absurd rfl (hn ([], c) (by rw [filesOf_cons]; simp))
    | cons n r =>
      by_cases h : n = s
      · subst h
        rw [show under n ⟨n :: r, content⟩ = some ⟨r, content⟩ by simp [under]]
        dsimp only
        rw [filesOf_cons, ih]
        cases content with
        | none => rfl
        | some c => simp [inFolder]
      · rw [show under s ⟨n :: r, content⟩ = none by simp [under, h]]
        dsimp only
        rw [ih]
        cases content with
        | none => rfl
        | some c => simp [inFolder, h]

theorem directory_under {s : String} {is : List Item} (hd : Directory is) (hs : ∀ c, ([s], c) ∉ filesOf is) :
    Directory (is.filterMap (under s)) := by
  have hfo := filesOf_under (s := s) hd.named
  have hback : ∀ f ∈ inFolder s (filesOf is), (s :: f.1, f.2) ∈ filesOf is := by
    intro f hf
    obtain ⟨g, hg, he⟩ := List.mem_filterMap.1 hf
    obtain ⟨rel, c⟩ := g
    cases rel with
    | nil => cases he
    | cons n r =>
      dsimp only at he
      split at he
      · rename_i hn; cases he; subst hn; exact hg
      · cases he
  refine ⟨?_, ?_, ?_, ?_⟩
  · intro j hj n hn
    obtain ⟨i, hi, he⟩ := List.mem_filterMap.1 hj
    rcases under_some he with ⟨-, rfl⟩ | ⟨h1, -⟩
    · exact hd.plain _ hi n hn
    · exact hd.plain _ hi n (by rw [h1]; simp [hn])
  · rw [hfo]
    intro f hf h0
    have := hback f hf
    rw [h0] at this
    exact hs _ this
  · rw [hfo]
    have : (inFolder s (filesOf is)).map (fun f => s :: f.1) = ((filesOf is).map Prod.fst).filter (fun r => r.head? = some s) := by
      unfold inFolder
      generalize filesOf is = fs
      induction fs with
      | nil => rfl
      | cons f fs ih =>
        obtain ⟨rel, c⟩ := f
        cases rel with
        | nil => simpa using ih
        | cons n r =>
          by_cases h : n = s
          · subst h; simpa using ih
          · simpa [h] using ih
    have hnd : ((inFolder s (filesOf is)).map (fun f => s :: f.1)).Nodup := by
      rw [this]; exact hd.once.sublist List.filter_sublist
    have e : (inFolder s (filesOf is)).map (fun f => s :: f.1) = ((inFolder s (filesOf is)).map Prod.fst).map (fun r => s :: r) := by
      rw [List.map_map]; rfl
    rw [e] at hnd
    exact (List.pairwise_map.1 hnd).imp fun h e => h (by rw [e])
  · rw [hfo]
    intro j hj f hf hpre
    obtain ⟨i, hi, he⟩ := List.mem_filterMap.1 hj
    have hb := hback f hf
    rcases under_some he with ⟨h0, rfl⟩ | ⟨h1, h2⟩
    · rw [h0, List.prefix_nil] at hpre
      rw [hpre] at hb
      exact absurd hb (hs _)
    · have := hd.through i hi _ hb (by rw [h1]; exact List.prefix_cons_inj s |>.2 hpre)
      rw [this] at h1 h2
      simp only [List.cons.injEq, true_and] at h1
      obtain ⟨jr, jc⟩ := j
      simp only at h1 h2
      rw [← h1, h2]

theorem blank_false {s : Chars} : blank s = false ↔ ∃ c ∈ s, c.isWhitespace = false := by
  unfold blank
  rw [List.all_eq_false]
  simp

/-- With a sub folder that is one name, the files below the temporary directory are the files in this folder. -/
theorem unpack_sub_partial {k : Kind} {top : String} (ht : Plain top) {target : List String} {is : List Item}
    (hd : Directory is) {s : String} (hb : ∃ c ∈ s.toList, c.isWhitespace = false) (hs : ∀ c, ([s], c) ∉ filesOf is) :
    ∃ d, unpack k target (some s.toList) (is.map (Item.entry top)) = some d ∧
      d.files = (inFolder s (filesOf is)).map fun f => (target ++ f.1, f.2) := by
  have := run_ok (target := target) (done := []) (is := is.filterMap (under s)) (directory_under hd hs)
    (d := { dirs := [target] }) rfl (fun p hp => .inl (List.mem_singleton.1 hp))
  rw [← tar_run_sub ht (blank_false.2 hb) hd.plain, List.nil_append, filesOf_under hd.named] at this
  cases k with
  | tarGz => exact this
  | zip => rw [← zip_eq_tar ht hd.plain] at this; exact this

/-- Some directory with files in it. -/
def exItems : List Item :=
  [⟨[], none⟩, ⟨["model"], none⟩, ⟨["model", "a.yaml"], some "A"⟩, ⟨["model", "sub", "b.yaml"], some "B"⟩, ⟨["README.md"], some "R"⟩]

instance (n : String) : Decidable (Plain n) := by unfold Plain; infer_instance

theorem exItems_directory : Directory exItems :=
  ⟨by decide +kernel, by decide +kernel, by decide +kernel, by decide +kernel⟩

example : (unpack .tarGz ["tmp"] none (exItems.map (Item.entry "pkg"))).map Disk.files =
    some [(["tmp", "model", "a.yaml"], "A"), (["tmp", "model", "sub", "b.yaml"], "B"), (["tmp", "README.md"], "R")] := by
  decide +kernel

example : (∃ c ∈ "model".toList, c.isWhitespace = false) ∧ (∀ c, (["model"], c) ∉ filesOf exItems) ∧
    (unpack .zip ["tmp"] (some "model".toList) (exItems.map (Item.entry "pkg"))).map Disk.files =
      some [(["tmp", "a.yaml"], "A"), (["tmp", "sub", "b.yaml"], "B")] :=
  ⟨by decide +kernel, by intro c; simp [exItems, filesOf], by decide +kernel⟩

/-- The files in the folder with the path `ss`, relative to it. -/
def inPath (ss : List String) (fs : List (List String × String)) : List (List String × String) :=
  fs.filterMap fun f => if ss <+: f.1 then some (f.1.drop ss.length, f.2) else none

example : inPath ["model", "sub"] (filesOf exItems) = [(["b.yaml"], "B")] := by decide +kernel

theorem inPath_one (s : String) (fs : List (List String × String)) : inPath [s] fs = inFolder s fs := by
  unfold inPath inFolder
  congr 1
  funext f
  cases hf : f.1 with
  | nil => simp
  | cons n r =>
    by_cases h : n = s
    · subst h; simp
    · simp [h, Ne.symm h]

/-- With a sub folder that has a slash in it, no file is unpacked and there is no error, whatever the archive holds. -/
theorem sub_nested {k : Kind} {top : String} (ht : Plain top) {target : List String} {is : List Item} (hd : Directory is)
    {s : Chars} (hs : '/' ∈ s) :
    ∃ d, unpack k target (some s) (is.map (Item.entry top)) = some d ∧ d.files = [] := by
  have hb : blank s = false := blank_false.2 ⟨'/', hs, by decide⟩
  have key : ∀ is : List Item, (∀ i ∈ is, ∀ n ∈ i.rel, Plain n) → (∀ f ∈ filesOf is, f.1 ≠ []) → ∀ d : Disk, d.files = [] →
      ∃ d', unpackTar target (some s) (is.map (Item.entry top)) d = some d' ∧ d'.files = [] := by
    intro is
    induction is with
    | nil => exact fun _ _ d h => ⟨d, rfl, h⟩
    | cons i is ih =>
      intro hp hn d hf
      have ih := ih (fun i hi => hp i (by simp [hi])) (fun f hf => hn f (by rw [filesOf_cons]; exact List.mem_append_right _ hf))
      rw [List.map_cons, unpackTar, entry_parts ht (hp i (by simp))]
      obtain ⟨rel, content⟩ := i
      cases rel with
      | nil =>
        cases content with
        | some c => exact absurd rfl (hn ([], c) (by rw [filesOf_cons]; simp))
        | none =>
          have e : pathToUnpack ([top].map fun n => .comp (.name n)) (some s) = some (([] : List String).map fun n => .comp (.name n)) := by
            unfold pathToUnpack; simp [hb]
          rw [e]
          dsimp only
          rw [place_names]
          have hm : d.mkdir (target ++ []) = some { d with dirs := (target ++ []) :: d.dirs } := by
            unfold Disk.mkdir Disk.underFile; rw [hf]; rfl
          dsimp only
          rw [hm]
          exact ih _ hf
      | cons n r =>
        have e : pathToUnpack ((top :: n :: r).map fun n => .comp (.name n)) (some s) = none := by
          unfold pathToUnpack
          have : n.toList ≠ s := by
            rintro rfl
            exact (hp _ (List.mem_cons_self ..) n (List.mem_cons_self ..)).2.2.2 hs
          simp [hb, Part.text, this]
        rw [e]
        exact ih d hf
  have := key is hd.plain hd.named { dirs := [target] } rfl
  cases k with
  | tarGz => exact this
  | zip => rw [← zip_eq_tar ht hd.plain] at this; exact this

theorem pathToUnpack_blank {s : Chars} (hs : ∀ c ∈ s, c.isWhitespace = true) (ps : List Part) :
    pathToUnpack ps (some s) = pathToUnpack ps none := by
  have : blank s = true := List.all_eq_true.2 hs
  unfold pathToUnpack; simp [this]

/-- A blank sub folder selects everything. -/
theorem sub_blank {k : Kind} {target : List String} {s : Chars} (hs : ∀ c ∈ s, c.isWhitespace = true) (es : List Entry) :
    unpack k target (some s) es = unpack k target none es := by
  have h1 : ∀ d, unpackTar target (some s) es d = unpackTar target none es d := by
    induction es with
    | nil => intro d; rfl
    | cons e es ih => intro d; simp only [unpackTar, pathToUnpack_blank hs, ih]
  have h2 : ∀ d, unpackZip target (some s) es d = unpackZip target none es d := by
    clear h1
    induction es with
    | nil => intro d; rfl
    | cons e es ih => intro d; simp only [unpackZip, pathToUnpack_blank hs, ih]
  cases k with
  | tarGz => exact h1 _
  | zip => exact h2 _

example : unpack .zip ["tmp"] (some "  ".toList) (exItems.map (Item.entry "pkg")) =
    unpack .zip ["tmp"] none (exItems.map (Item.entry "pkg")) := sub_blank (by decide) _

/-! ### Names that are not below one top directory -/

/-- A path that leads out of the directory it starts in: somewhere it has gone up more often than down. -/
def Escapes (cs : List Comp) : Prop :=
  ∃ pre, pre <+: cs ∧ (pre.filter fun c => c.name?.isSome).length < (pre.filter (· = .up)).length

theorem enclosed_none (cs : List Comp) : ∀ acc : List String, enclosed acc (cs.map .comp) = none ↔
    ∃ pre, pre <+: cs ∧ acc.length + (pre.filter fun c => c.name?.isSome).length < (pre.filter (· = .up)).length := by
  induction cs with
  | nil =>
    intro acc
    simp only [List.map_nil, enclosed, reduceCtorEq, false_iff, List.prefix_nil, not_exists]
    rintro pre ⟨rfl, h⟩
    simp at h
  | cons c cs ih =>
    intro acc
    have split : (∃ pre, pre <+: c :: cs ∧ acc.length + (pre.filter fun c => c.name?.isSome).length < (pre.filter (· = .up)).length) ↔
        ∃ pre, pre <+: cs ∧ acc.length + ((c :: pre).filter fun c => c.name?.isSome).length < ((c :: pre).filter (· = .up)).length := by
      constructor
      · rintro ⟨pre, hp, h⟩
        cases pre with
        | nil => simp at h
        | cons a pre =>
          obtain ⟨rfl, hp'⟩ := List.cons_prefix_cons.1 hp
          exact ⟨pre, hp', h⟩
      · rintro ⟨pre, hp, h⟩
        exact ⟨c :: pre, List.cons_prefix_cons.2 ⟨rfl, hp⟩, h⟩
    rw [split, List.map_cons]
    cases c with
    | cur => rw [enclosed, ih]; simp [Comp.name?]
    | name n =>
      rw [enclosed, ih]
      simp only [List.length_append, List.length_cons, List.length_nil, Comp.name?, List.filter_cons, Option.isSome_some, if_true,
        reduceCtorEq, decide_false, Bool.false_eq_true, if_false]
      constructor
      · rintro ⟨pre, hp, h⟩; exact ⟨pre, hp, by omega⟩
      · rintro ⟨pre, hp, h⟩; exact ⟨pre, hp, by omega⟩
    | up =>
      rw [enclosed]
      by_cases ha : acc = []
      · subst ha
        simp only [if_true, true_iff]
        exact ⟨[], List.nil_prefix, by simp [Comp.name?]⟩
      · rw [if_neg ha, ih]
        have : 0 < acc.length := List.length_pos_iff.2 ha
        simp only [List.length_dropLast, Comp.name?, List.filter_cons, Option.isSome_none, Bool.false_eq_true, if_false,
          decide_true, if_true, List.length_cons]
        constructor
        · rintro ⟨pre, hp, h⟩; exact ⟨pre, hp, by omega⟩
        · rintro ⟨pre, hp, h⟩; exact ⟨pre, hp, by omega⟩

theorem escapes_normal (cs : List Comp) : Escapes (cs.filter (· ≠ .cur)) ↔ Escapes cs := by
  have e1 : ∀ l : List Comp, ((l.filter (· ≠ .cur)).filter fun c => c.name?.isSome) = l.filter fun c => c.name?.isSome := by
    intro l; rw [List.filter_filter]; congr 1; funext c; cases c <;> simp [Comp.name?]
  have e2 : ∀ l : List Comp, ((l.filter (· ≠ .cur)).filter (· = .up)) = l.filter (· = .up) := by
    intro l; rw [List.filter_filter]; congr 1; funext c; cases c <;> simp
  constructor
  · rintro ⟨pre, hp, h⟩
    have key : ∀ (cs : List Comp) (pre : List Comp), pre <+: cs.filter (· ≠ .cur) → ∃ q, q <+: cs ∧ q.filter (· ≠ .cur) = pre := by
      intro cs
      induction cs with
      | nil => intro pre hp; exact ⟨[], List.nil_prefix, by simpa using (List.prefix_nil.1 hp).symm⟩
      | cons c cs ih =>
        intro pre hp
        by_cases hc : c = .cur
        · subst hc
          obtain ⟨q, hq, e⟩ := ih pre (by simpa using hp)
          exact ⟨.cur :: q, List.cons_prefix_cons.2 ⟨rfl, hq⟩, by simpa using e⟩
        · rw [List.filter_cons_of_pos (by simpa using hc)] at hp
          cases pre with
          | nil => exact ⟨[], List.nil_prefix, rfl⟩
          | cons a pre =>
            obtain ⟨rfl, hp'⟩ := List.cons_prefix_cons.1 hp
            obtain ⟨q, hq, e⟩ := ih pre hp'
            exact ⟨a :: q, List.cons_prefix_cons.2 ⟨rfl, hq⟩, by rw [List.filter_cons_of_pos (by simpa using hc), e]⟩
    obtain ⟨q, hq, e⟩ := key cs pre hp
    refine ⟨q, hq, ?_⟩
    rw [← e, e1, e2] at h
    exact h
  · rintro ⟨pre, hp, h⟩
    exact ⟨_, hp.filter _, by rw [e1, e2]; exact h⟩

/-- A zip entry has no place exactly if its name is absolute or leads out of the archive. -/
theorem enclosed_parts (s : Chars) :
    enclosed [] (parts s) = none ↔ s.head? = some '/' ∨ Escapes (Path.ofChars s).comps := by
  unfold parts
  by_cases h : s.head? = some '/'
  · simp [h, enclosed]
  · rw [if_neg h, ← escapes_normal]
    have e : ∀ cs : List Comp, enclosed [] (cs.map .comp) = none ↔ Escapes cs := by
      intro cs; rw [enclosed_none]; simp [Escapes]
    simp only [h, false_or]
    split
    · rw [List.singleton_append, enclosed, e]; rfl
    · rw [List.nil_append, e]; rfl

theorem unpackZip_append (target : List String) (sub : Option Chars) (es fs : List Entry) (d : Disk) :
    unpackZip target sub (es ++ fs) d = (unpackZip target sub es d).bind (unpackZip target sub fs) := by
  induction es generalizing d with
  | nil => rfl
  | cons e es ih =>
    rw [List.cons_append, unpackZip, unpackZip]
    cases enclosed [] (parts e.name) with
    | none => exact ih d
    | some names =>
      dsimp only
      cases pathToUnpack (names.map fun n => .comp (.name n)) sub with
      | none => exact ih d
      | some ps =>
        dsimp only
        cases place target d e ps with
        | none => rfl
        | some d' => exact ih d'

/-- A zip entry whose name is absolute or leads out of the archive is skipped: the others are unpacked as if it were not
there. -/
theorem zip_escape_skipped {target : List String} {sub : Option Chars} {es fs : List Entry} {e : Entry}
    (h : e.name.head? = some '/' ∨ Escapes (Path.ofChars e.name).comps) :
    unpack .zip target sub (es ++ e :: fs) = unpack .zip target sub (es ++ fs) := by
  have h' := (enclosed_parts e.name).2 h
  simp only [unpack, unpackZip_append]
  congr 1
  funext d
  rw [unpackZip, h']

example : Escapes (Path.ofChars "pkg/../../evil.yaml".toList).comps :=
  ⟨(Path.ofChars "pkg/../..".toList).comps, by decide +kernel, by decide +kernel⟩

/-- The entry of an item with names that start with `lead`, which is `./` or `/`. -/
def Item.entryFrom (lead : Chars) (i : Item) : Entry :=
  match i.content with
  | some c => ⟨lead ++ Fs.text i.rel, false, c⟩
  | none => ⟨lead ++ Fs.text i.rel ++ ['/'], true, ""⟩

theorem normal_text {ns : List String} (hp : ∀ n ∈ ns, Plain n) (t : Chars) (ht : t = [] ∨ t = ['/']) :
    (Path.ofChars (Fs.text ns ++ t)).normal = ns.map Comp.name := by
  by_cases h : ns = []
  · subst h
    rcases ht with rfl | rfl <;> decide +kernel
  · have hparts : ∀ t, t = Fs.text ns ∨ t = Fs.text ns ++ ['/'] → (Path.ofChars t).normal = ns.map Comp.name := by
      intro t ht
      have : parts t = ns.map fun n => .comp (.name n) := by
        rcases ht with rfl | rfl
        · exact parts_text h hp
        · exact parts_dir h hp
      unfold parts at this
      have h2 : ∀ l : List Comp, l.map Part.comp = ns.map (fun n => Part.comp (.name n)) → l = ns.map Comp.name := by
        intro l hl
        have e : ns.map (fun n => Part.comp (.name n)) = (ns.map Comp.name).map Part.comp := by rw [List.map_map]; rfl
        rw [e] at hl
        exact (List.map_inj_right (fun a b h => by injection h)).1 hl
      cases ns with
      | nil => exact absurd rfl h
      | cons n ns =>
        split at this
        · simp at this
        · split at this
          · simp only [List.cons_append, List.map_cons, List.cons.injEq, Part.comp.injEq] at this
            cases this.1
          · rw [List.nil_append] at this
            exact h2 _ this
    rcases ht with rfl | rfl
    · rw [List.append_nil]; exact hparts _ (.inl rfl)
    · exact hparts _ (.inr rfl)

theorem parts_from {lead : Chars} {p : Part} (hl : lead = "./".toList ∧ p = .comp .cur ∨ lead = "/".toList ∧ p = .root)
    {i : Item} (hp : ∀ n ∈ i.rel, Plain n) : parts (i.entryFrom lead).name = p :: i.rel.map fun n => .comp (.name n) := by
  have key : ∀ t, t = [] ∨ t = ['/'] → parts (lead ++ (Fs.text i.rel ++ t)) = p :: i.rel.map fun n => .comp (.name n) := by
    intro t ht
    have hn := normal_text hp t ht
    unfold Path.normal Path.ofChars at hn
    simp only at hn
    have e : i.rel.map (fun n => Part.comp (.name n)) = (i.rel.map Comp.name).map Part.comp := by rw [List.map_map]; rfl
    rw [e, ← hn]
    rcases hl with ⟨rfl, rfl⟩ | ⟨rfl, rfl⟩
    · have hs := splitWhen_append (f := (· == '/')) ['.'] (Fs.text i.rel ++ t) (c := '/') rfl
      have : "./".toList ++ (Fs.text i.rel ++ t) = ['.'] ++ '/' :: (Fs.text i.rel ++ t) := rfl
      rw [this]
      unfold parts Path.normal Path.ofChars
      simp only [hs]
      rfl
    · have hs := splitWhen_append (f := (· == '/')) [] (Fs.text i.rel ++ t) (c := '/') rfl
      have : "/".toList ++ (Fs.text i.rel ++ t) = [] ++ '/' :: (Fs.text i.rel ++ t) := rfl
      rw [this]
      unfold parts Path.normal Path.ofChars
      simp only [hs]
      rfl
  unfold Item.entryFrom
  cases i.content with
  | none => simpa using key ['/'] (.inr rfl)
  | some c => simpa using key [] (.inl rfl)

/-- C175, for tar archives: an archive of a directory with names that start with `./` or `/` is unpacked completely. -/
theorem unpack_dot_partial {lead : Chars} (hl : lead = "./".toList ∨ lead = "/".toList) {target : List String} {is : List Item}
    (hd : Directory is) : ∃ d, unpack .tarGz target none (is.map (Item.entryFrom lead)) = some d ∧
      d.files = (filesOf is).map fun f => (target ++ f.1, f.2) := by
  have hl' : ∃ p, lead = "./".toList ∧ p = Part.comp .cur ∨ lead = "/".toList ∧ p = Part.root := by
    rcases hl with rfl | rfl
    · exact ⟨_, .inl ⟨rfl, rfl⟩⟩
    · exact ⟨_, .inr ⟨rfl, rfl⟩⟩
  obtain ⟨p, hp⟩ := hl'
  have := run_ok (target := target) (done := []) (is := is) hd (d := { dirs := [target] }) rfl
    (fun p hp => .inl (List.mem_singleton.1 hp))
  have key : ∀ (is : List Item) (d : Disk), (∀ i ∈ is, ∀ n ∈ i.rel, Plain n) →
      unpackTar target none (is.map (Item.entryFrom lead)) d = run target is d := by
    intro is
    induction is with
    | nil => intro d _; rfl
    | cons i is ih =>
      intro d hpl
      rw [List.map_cons, unpackTar, parts_from hp (hpl i (by simp)), run]
      simp only [pathToUnpack, List.drop_succ_cons, List.drop_zero]
      have : place target d (i.entryFrom lead) (i.rel.map fun n => .comp (.name n)) =
          match i.content with
          | none => d.mkdir (target ++ i.rel)
          | some c => d.write (target ++ i.rel) c := by
        unfold place
        dsimp only
        rw [comps_names, settle_names]
        unfold Item.entryFrom
        cases i.content <;> rfl
      rw [this]
      cases (match i.content with | none => d.mkdir (target ++ i.rel) | some c => d.write (target ++ i.rel) c) with
      | none => rfl
      | some d' => exact ih d' (fun i hi => hpl i (by simp [hi]))
  rw [← key is _ hd.plain] at this
  exact this

example : (unpack .tarGz ["tmp"] none (exItems.map (Item.entryFrom "./".toList))).map Disk.files =
    some [(["tmp", "model", "a.yaml"], "A"), (["tmp", "model", "sub", "b.yaml"], "B"), (["tmp", "README.md"], "R")] := by
  decide +kernel

/-- C175, refuted for zip archives: the first directory of each path is lost. -/
theorem unpack_dot_refuted : ∃ is, Directory is ∧ filesOf is = [(["model", "a.yaml"], "A")] ∧
    (unpack .zip ["tmp"] none (is.map (Item.entryFrom "./".toList))).map Disk.files = some [(["tmp", "a.yaml"], "A")] :=
  ⟨[⟨["model"], none⟩, ⟨["model", "a.yaml"], some "A"⟩],
    ⟨by decide +kernel, by decide +kernel, by decide +kernel, by decide +kernel⟩, by decide +kernel, by decide +kernel⟩

/-- A sub folder that is not directly in the top directory is not unpacked. -/
theorem unpack_sub_refuted : ∃ (is : List Item) (ss : List String) (d : Disk), Directory is ∧ inPath ss (filesOf is) ≠ [] ∧
    unpack .tarGz ["tmp"] (some (Fs.text ss)) (is.map (Item.entry "pkg")) = some d ∧ d.files = [] :=
  ⟨exItems, ["model", "sub"], _, exItems_directory, by decide +kernel, rfl, by decide +kernel⟩

/-- An archive without a top directory loses the first directory of each path: files with different paths are written to
one place. -/
theorem unpack_top_refuted : ∃ es d, (es.map Entry.name).Nodup ∧ unpack .zip ["tmp"] none es = some d ∧ d.files.length < es.length :=
  ⟨[⟨"model/a.yaml".toList, false, "A"⟩, ⟨"policies/a.yaml".toList, false, "P"⟩], _, by decide +kernel, rfl, by decide +kernel⟩

/-! ### Clones -/

theorem ofChars_join {a b : Chars} (ha : a ≠ []) (hl : a.getLast? ≠ some '/') (hb : b.head? ≠ some '/') :
    Path.ofChars (joinText a b) = ⟨(Path.ofChars a).abs, (Path.ofChars a).comps ++ (Path.ofChars b).comps⟩ := by
  unfold joinText
  rw [if_neg hb, if_neg (by simp [ha, hl])]
  unfold Path.ofChars
  dsimp only
  rw [splitWhen_append _ _ (by simp), List.map_append]
  cases a with
  | nil => exact absurd rfl ha
  | cons c r => rfl

/-- The directory of a clone is the clone, or is inside it if the sub folder is a relative path without `..`. -/
theorem clone_confined_partial {cwd : List String} {tmp url : Chars} {ref sub : Option Chars} (ht : tmp ≠ [])
    (hl : tmp.getLast? ≠ some '/') (hs : ∀ s, sub = some s → s.head? ≠ some '/' ∧ .up ∉ (Path.ofChars s).comps) :
    Fs.place cwd (Path.ofChars tmp) <+: Fs.place cwd (Path.ofChars (located tmp (.gitRepo url ref sub))) := by
  cases sub with
  | none => exact List.prefix_refl _
  | some s =>
    obtain ⟨h1, h2⟩ := hs s rfl
    show _ <+: Fs.place cwd (Path.ofChars (joinText tmp s))
    rw [ofChars_join ht hl h1]
    unfold Fs.place
    rw [lexical_append]
    exact lexical_down _ _ h2

example : Fs.place [] (Path.ofChars (located "/tmp/x".toList (.gitRepo "https://h/r.git".toList none (some "model/a".toList)))) =
    ["tmp", "x", "model", "a"] := by decide +kernel

/-- A sub folder can lead out of the clone, to the files of the user. -/
theorem clone_confined_refuted : ∃ tmp v, VPath.parse "https://h/r.git[/etc]".toList = some v ∧
    located tmp v = "/etc".toList ∧ ¬ Fs.place [] (Path.ofChars tmp) <+: Fs.place [] (Path.ofChars (located tmp v)) :=
  ⟨"/tmp/x".toList, _, rfl, by decide +kernel, by decide +kernel⟩

end Verif.Archive
