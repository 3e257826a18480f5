import Verif.Fs.Model
import Verif.Forge.TextProps

namespace Verif.Fs
open Verif.Util

/-- Not a link. -/
def Node.Real : Node → Prop
  | .link _ => False
  | _ => True

/-- A name of a directory entry, as the operating system allows. -/
def Plain (n : String) : Prop := n ≠ "" ∧ n ≠ "." ∧ n ≠ ".." ∧ '/' ∉ n.toList

/-- Directories have distinct names. -/
inductive Tidy : Node → Prop where
  | file (c) : Tidy (.file c)
  | link (t) : Tidy (.link t)
  | dir (es : List (String × Node)) : (es.map Prod.fst).Nodup → (∀ e ∈ es, Plain e.1) → (∀ e ∈ es, Tidy e.2) → Tidy (.dir es)

theorem at_nil (d : Node) : d.at [] = some d := by cases d <;> rfl

theorem at_append (d : Node) (p q : List String) : d.at (p ++ q) = (d.at p).bind fun e => e.at q := by
  induction p generalizing d with
  | nil => rw [at_nil]; rfl
  | cons n p ih =>
    cases d with
    | file c => rfl
    | link t => rfl
    | dir es =>
      show ((aget n es).bind fun d => d.at (p ++ q)) = ((aget n es).bind fun d => d.at p).bind fun e => e.at q
      cases aget n es with
      | none => rfl
      | some d => exact ih d

theorem at_snoc (d : Node) (p : List String) (n : String) {es : List (String × Node)} (h : d.at p = some (.dir es)) :
    d.at (p ++ [n]) = aget n es := by
  rw [at_append, h]
  show ((aget n es).bind fun d => d.at []) = _
  cases aget n es with
  | none => rfl
  | some e => exact at_nil e

/-- A prefix of a path that leads somewhere leads to a directory. -/
theorem at_dropLast {d e : Node} {p : List String} (h : d.at p = some e) (hp : p ≠ []) :
    ∃ es, d.at p.dropLast = some (.dir es) := by
  obtain ⟨q, n, rfl⟩ : ∃ q n, p = q ++ [n] := ⟨p.dropLast, p.getLast hp, (List.dropLast_concat_getLast hp).symm⟩
  rw [List.dropLast_concat]
  rw [at_append] at h
  cases hq : d.at q with
  | none => rw [hq] at h; cases h
  | some f =>
    rw [hq] at h
    cases f with
    | file c => cases h
    | link t => cases h
    | dir es => exact ⟨es, rfl⟩

theorem step_real {fs : Node} {follow} (hf : ∀ pos cs p, (∃ d, fs.at pos = some d ∧ d.Real) → follow pos cs = .ok p →
      ∃ d, fs.at p = some d ∧ d.Real) {pos : List String} {cs : List Comp} {p : List String} (hroot : fs.Real)
    (hp : ∃ d, fs.at pos = some d ∧ d.Real) (h : step fs follow pos cs = .ok p) : ∃ d, fs.at p = some d ∧ d.Real := by
  induction cs generalizing pos with
  | nil => cases h; exact hp
  | cons c cs ih =>
    obtain ⟨d, hd, hr⟩ := hp
    unfold step at h
    rw [hd] at h
    cases d with
    | file _ => cases h
    | link _ => exact hr.elim
    | dir es =>
      dsimp only at h
      cases c with
      | cur => exact ih ⟨_, hd, trivial⟩ h
      | up =>
        refine ih ?_ h
        by_cases hn : pos = []
        · subst hn; exact ⟨_, at_nil fs, hroot⟩
        · obtain ⟨es', he⟩ := at_dropLast hd hn; exact ⟨_, he, trivial⟩
      | name n =>
        dsimp only at h
        have hs := at_snoc fs pos n hd
        cases hg : aget n es with
        | none => rw [hg] at h; cases h
        | some e =>
          rw [hg] at h hs
          cases e with
          | link t =>
            refine hf _ _ _ ?_ h
            split
            · exact ⟨_, at_nil fs, hroot⟩
            · exact ⟨_, hd, trivial⟩
          | file c => exact ih ⟨_, hs, trivial⟩ h
          | dir es' => exact ih ⟨_, hs, trivial⟩ h

theorem walk_real {fs : Node} (hroot : fs.Real) (n : Nat) {pos : List String} {cs : List Comp} {p : List String}
    (hp : ∃ d, fs.at pos = some d ∧ d.Real) (h : walk fs n pos cs = .ok p) : ∃ d, fs.at p = some d ∧ d.Real := by
  induction n generalizing pos cs p with
  | zero => exact step_real (fun _ _ _ _ h => by cases h) hroot hp h
  | succ n ih => exact step_real (fun _ _ _ hp h => ih hp h) hroot hp h

/-- A canonical path leads to a file or a directory, through no link. -/
theorem canonicalize_real {fs : Node} {cwd : List String} (hroot : fs.Real) (hcwd : ∃ d, fs.at cwd = some d ∧ d.Real)
    {p : Path} {q : List String} (h : canonicalize fs cwd p = .ok q) : ∃ d, fs.at q = some d ∧ d.Real := by
  unfold canonicalize at h
  split at h
  · cases h
  · refine walk_real hroot _ ?_ h
    split
    · exact ⟨_, at_nil fs, hroot⟩
    · exact hcwd

/-- Plain names lead where they lead in the tree. -/
theorem step_names {fs : Node} {follow} {pos rel : List String} {d : Node} (h : fs.at (pos ++ rel) = some d) (hr : d.Real) :
    step fs follow pos (rel.map Comp.name) = .ok (pos ++ rel) := by
  induction rel generalizing pos with
  | nil => simp [step]
  | cons n rel ih =>
    have h' := h
    rw [at_append] at h'
    cases hq : fs.at pos with
    | none => rw [hq] at h'; cases h'
    | some e =>
      rw [hq] at h'
      cases e with
      | file c => cases h'
      | link t => cases h'
      | dir es =>
        unfold step
        rw [List.map_cons]
        dsimp only
        rw [hq]
        dsimp only
        have hs := at_snoc fs pos n hq
        have hap : pos ++ n :: rel = (pos ++ [n]) ++ rel := by simp
        cases hg : aget n es with
        | none =>
          change ((aget n es).bind fun d => d.at rel) = some d at h'
          rw [hg] at h'; cases h'
        | some e =>
          change ((aget n es).bind fun d => d.at rel) = some d at h'
          rw [hg] at h'
          change e.at rel = some d at h'
          cases e with
          | link t =>
            cases rel with
            | nil => rw [at_nil] at h'; cases h'; exact hr.elim
            | cons _ _ => cases h'
          | file c => dsimp only; rw [hap]; exact ih (hap ▸ h)
          | dir es' => dsimp only; rw [hap]; exact ih (hap ▸ h)

theorem walk_names {fs : Node} {k : Nat} {pos rel : List String} {d : Node} (h : fs.at (pos ++ rel) = some d) (hr : d.Real) :
    walk fs k pos (rel.map Comp.name) = .ok (pos ++ rel) := by
  cases k <;> exact step_names h hr

theorem walk_cur {fs : Node} {k : Nat} {pos : List String} {cs : List Comp} {es : List (String × Node)}
    (h : fs.at pos = some (.dir es)) : walk fs k pos (.cur :: cs) = walk fs k pos cs := by
  cases k <;> · show step _ _ _ _ = step _ _ _ _; rw [step.eq_def]; simp only [h]

/-- An absolute path made of plain names is canonical. -/
theorem canonicalize_absolute {fs : Node} {cwd p : List String} {d : Node} {es : List (String × Node)} (hroot : fs = .dir es)
    (h : fs.at p = some d) (hr : d.Real) : canonicalize fs cwd (absolute p) = .ok p := by
  show (if (Comp.cur :: p.map Comp.name) = [] then _ else walk fs 40 (if true then [] else cwd) (.cur :: p.map Comp.name)) = _
  rw [if_neg (by simp), if_pos (by simp), walk_cur (es := es) (by rw [at_nil, hroot]), walk_names (by simpa using h) hr]
  simp

/-! ### Joining -/

/-- A joined path is accepted exactly if the directory and the path exist and the path is below the directory, as
canonical paths. -/
theorem safeJoin_iff (fs : Node) (cwd : List String) (root : Path) (t : Chars) (p : List String) :
    safeJoin fs cwd root t = .ok p ↔
    ∃ r, canonicalize fs cwd root = .ok r ∧ canonicalize fs cwd (root.push (Path.ofChars t)) = .ok p ∧ r <+: p := by
  unfold safeJoin
  cases h : canonicalize fs cwd root with
  | error e => simp
  | ok r =>
    dsimp only
    cases h' : canonicalize fs cwd (root.push (Path.ofChars t)) with
    | error e => simp
    | ok q =>
      dsimp only
      constructor
      · intro h2
        split at h2
        · rename_i hp; cases h2; exact ⟨r, rfl, rfl, List.isPrefixOf_iff_prefix.1 hp⟩
        · cases h2
      · rintro ⟨r', hr, hq, hp⟩
        cases hr; cases hq
        rw [if_pos (List.isPrefixOf_iff_prefix.2 hp)]

/-- A working file system: its root and the working directory are directories. -/
structure Sane (fs : Node) (cwd : List String) : Prop where
  root : ∃ es, fs = .dir es
  cwd : ∃ es, fs.at cwd = some (.dir es)

theorem Sane.real {fs : Node} {cwd : List String} (h : Sane fs cwd) : fs.Real := by
  obtain ⟨es, rfl⟩ := h.root; trivial

theorem Sane.cwdReal {fs : Node} {cwd : List String} (h : Sane fs cwd) : ∃ d, fs.at cwd = some d ∧ d.Real := by
  obtain ⟨es, he⟩ := h.cwd; exact ⟨_, he, trivial⟩

/-- The directory of a loader is a place in the file system reached without links, and is below the templates directory. -/
theorem tryNew_dir {fs : Node} {cwd : List String} (hs : Sane fs cwd) {root : Path} {target : Chars} {dir : List String}
    (h : tryNew fs cwd root target = .ok dir) :
    (∃ d, fs.at dir = some d ∧ d.Real) ∧ ∃ r, canonicalize fs cwd root = .ok r ∧ r <+: dir := by
  obtain ⟨r, hr, hq, hp⟩ := (safeJoin_iff ..).1 h
  exact ⟨canonicalize_real hs.real hs.cwdReal hq, r, hr, hp⟩

/-- What is loaded is the content of a file in the tree below the directory of the loader, whatever the name. -/
theorem load_confined {fs : Node} {cwd dir : List String} (hs : Sane fs cwd) {d : Node} (hd : fs.at dir = some d)
    (hr : d.Real) {name : Chars} {c : String} (h : loadFile fs fs cwd dir name = .ok (some c)) :
    ∃ rel, d.at rel = some (.file c) := by
  obtain ⟨es, he⟩ := hs.root
  unfold loadFile at h
  cases hj : safeJoin fs cwd (absolute dir) name with
  | error e => rw [hj] at h; cases h
  | ok p =>
    rw [hj] at h
    dsimp only at h
    obtain ⟨r, hr', hq, rel, rfl⟩ := (safeJoin_iff ..).1 hj
    rw [canonicalize_absolute he hd hr] at hr'
    cases hr'
    obtain ⟨e, hfe, hre⟩ := canonicalize_real hs.real hs.cwdReal hq
    refine ⟨rel, ?_⟩
    unfold readFile at h
    rw [canonicalize_absolute he hfe hre] at h
    dsimp only at h
    rw [hfe] at h
    have hat := hfe
    rw [at_append, hd] at hat
    change d.at rel = some e at hat
    rw [hat]
    cases e with
    | file c' => cases h; rfl
    | link t => cases h
    | dir es' => cases h

/-! ### Names of files -/

theorem split_text {rel : List String} (h : rel ≠ []) (hp : ∀ n ∈ rel, '/' ∉ n.toList) :
    splitWhen (· == '/') (text rel) = rel.map String.toList := by
  have key : ∀ ws : List Chars, ws ≠ [] → (∀ w ∈ ws, '/' ∉ w) → splitWhen (· == '/') (['/'].intercalate ws) = ws := by
    intro ws
    induction ws with
    | nil => intro h; exact absurd rfl h
    | cons w ws ih =>
      intro _ hw
      have hc : ∀ c ∈ w, (c == '/') = false := by
        intro c hc; simp only [beq_eq_false_iff_ne, ne_eq]; rintro rfl; exact hw w (by simp) hc
      cases ws with
      | nil => simpa [List.intercalate] using splitWhen_clean hc
      | cons v ws =>
        have e : ['/'].intercalate (w :: v :: ws) = w ++ '/' :: ['/'].intercalate (v :: ws) := by
          simp [List.intercalate, List.intersperse]
        rw [e, splitWhen_append _ _ (by simp), splitWhen_clean hc, ih (by simp) (fun w hm => hw w (by simp [hm]))]
        rfl
  unfold text
  apply key
  · simpa using h
  · intro w hw
    obtain ⟨n, hn, rfl⟩ := List.mem_map.1 hw
    exact hp n hn

theorem ofChars_plain {n : String} (h : Plain n) : Comp.ofChars n.toList = .name n := by
  unfold Comp.ofChars
  have e : ∀ s : String, n.toList = s.toList → n = s := fun s h => String.toList_injective h
  rw [if_neg, if_neg, String.ofList_toList]
  · intro hh; exact h.2.2.1 (e ".." hh)
  · rintro (hh | hh)
    · exact h.1 (e "" hh)
    · exact h.2.1 (e "." hh)

/-- The text of a relative path is read back as the path. -/
theorem ofChars_text {rel : List String} (h : rel ≠ []) (hp : ∀ n ∈ rel, Plain n) :
    Path.ofChars (text rel) = ⟨false, rel.map Comp.name⟩ := by
  have hs := split_text h (fun n hn => (hp n hn).2.2.2)
  unfold Path.ofChars
  rw [hs]
  congr 1
  · cases rel with
    | nil => exact absurd rfl h
    | cons n rel =>
      have hn := hp n (by simp)
      cases hl : n.toList with
      | nil => exact absurd (String.toList_injective (s₂ := "") hl) hn.1
      | cons c t =>
        have hc : c ≠ '/' := by rintro rfl; exact hn.2.2.2 (by rw [hl]; simp)
        have : (text (n :: rel)).head? = some c := by
          unfold text
          cases rel with
          | nil => simp [List.intercalate, hl]
          | cons v ws => simp [List.intercalate, List.intersperse, hl]
        rw [this]; simp [hc]
  · rw [List.map_map]
    exact List.map_congr_left fun n hn => ofChars_plain (hp n hn)

/-- Every file in the tree is loaded by the names on the way to it. -/
theorem load_plain {fs : Node} {cwd dir : List String} (hs : Sane fs cwd) {d : Node} (hd : fs.at dir = some d)
    {rel : List String} {c : String} (h : d.at rel = some (.file c)) (hne : rel ≠ []) (hp : ∀ n ∈ rel, Plain n) :
    loadFile fs fs cwd dir (text rel) = .ok (some c) := by
  obtain ⟨es, he⟩ := hs.root
  have hfull : fs.at (dir ++ rel) = some (.file c) := by rw [at_append, hd]; exact h
  have hdr : d.Real := by
    cases d with
    | link t => cases rel with
      | nil => exact absurd rfl hne
      | cons _ _ => cases h
    | file _ => trivial
    | dir _ => trivial
  have hpush : (absolute dir).push (Path.ofChars (text rel)) = absolute (dir ++ rel) := by
    rw [ofChars_text hne hp]; simp [Path.push, absolute]
  have hj : safeJoin fs cwd (absolute dir) (text rel) = .ok (dir ++ rel) := by
    rw [safeJoin_iff]
    exact ⟨dir, canonicalize_absolute he hd hdr, by rw [hpush]; exact canonicalize_absolute he hfull trivial, rel, rfl⟩
  unfold loadFile
  rw [hj]
  dsimp only
  unfold readFile
  rw [canonicalize_absolute he hfull trivial]
  dsimp only
  rw [hfull]

/-- A name is refused, as if there were no such file, exactly if it leads nowhere or outside of the directory. It fails
exactly if it leads to a directory below. -/
theorem load_cases {fs : Node} {cwd dir : List String} (hs : Sane fs cwd) {d : Node} (hd : fs.at dir = some d)
    (hr : d.Real) (name : Chars) :
    (loadFile fs fs cwd dir name = .ok none ↔ ∀ rel, canonicalize fs cwd ((absolute dir).push (Path.ofChars name)) ≠ .ok (dir ++ rel)) ∧
    ((∃ e, loadFile fs fs cwd dir name = .error e) ↔ ∃ rel es,
      canonicalize fs cwd ((absolute dir).push (Path.ofChars name)) = .ok (dir ++ rel) ∧ d.at rel = some (.dir es)) := by
  obtain ⟨es, he⟩ := hs.root
  have hroot := canonicalize_absolute (cwd := cwd) he hd hr
  by_cases hc : ∃ rel, canonicalize fs cwd ((absolute dir).push (Path.ofChars name)) = .ok (dir ++ rel)
  · obtain ⟨rel, hc⟩ := hc
    have hj : safeJoin fs cwd (absolute dir) name = .ok (dir ++ rel) := (safeJoin_iff ..).2 ⟨dir, hroot, hc, rel, rfl⟩
    obtain ⟨e, hfe, hre⟩ := canonicalize_real hs.real hs.cwdReal hc
    have hat : d.at rel = some e := by rw [at_append, hd] at hfe; exact hfe
    have hl : loadFile fs fs cwd dir name = match (generalizing := false) e with | .file c => .ok (some c) | _ => .error .isADirectory := by
      unfold loadFile
      rw [hj]
      dsimp only
      unfold readFile
      rw [canonicalize_absolute he hfe hre]
      dsimp only
      rw [hfe]
      cases e with
      | file c => rfl
      | link t => exact hre.elim
      | dir es' => rfl
    rw [hl]
    cases e with
    | file c =>
      refine ⟨⟨fun h => (nomatch h), fun h => absurd hc (h rel)⟩, ⟨fun ⟨_, h⟩ => (nomatch h), ?_⟩⟩
      rintro ⟨rel', es', hc', hd'⟩
      rw [hc] at hc'
      have := List.append_cancel_left (Except.ok.inj hc')
      subst this
      rw [hat] at hd'; cases hd'
    | link t => exact hre.elim
    | dir es' => exact ⟨⟨fun h => (nomatch h), fun h => absurd hc (h rel)⟩, ⟨fun _ => ⟨rel, es', hc, hat⟩, fun _ => ⟨_, rfl⟩⟩⟩
  · have hl : loadFile fs fs cwd dir name = .ok none := by
      unfold loadFile
      cases hj : safeJoin fs cwd (absolute dir) name with
      | error e => rfl
      | ok p =>
        obtain ⟨r, hr', hq, rel, rfl⟩ := (safeJoin_iff ..).1 hj
        rw [hroot] at hr'; cases hr'
        exact absurd ⟨rel, hq⟩ hc
    rw [hl]
    exact ⟨⟨fun _ rel h => hc ⟨rel, h⟩, fun _ => rfl⟩, ⟨fun ⟨_, h⟩ => (nomatch h), fun ⟨rel, _, h, _⟩ => absurd ⟨rel, h⟩ hc⟩⟩

/-! ### An example -/

instance {ε α : Type} [DecidableEq ε] [DecidableEq α] : DecidableEq (Except ε α) := fun a b =>
  match a, b with
  | .ok x, .ok y => if h : x = y then .isTrue (h ▸ rfl) else .isFalse fun e => h (Except.ok.inj e)
  | .error x, .error y => if h : x = y then .isTrue (h ▸ rfl) else .isFalse fun e => h (Except.error.inj e)
  | .ok _, .error _ => .isFalse fun e => nomatch e
  | .error _, .ok _ => .isFalse fun e => nomatch e

/-- `/t/weaver.yaml`, `/t/sub/a.j2`, `/t/out -> /secret`, `/t/in -> sub/a.j2`, `/secret`. -/
def exFs : Node := .dir [
  ("t", .dir [
    ("weaver.yaml", .file "W"),
    ("sub", .dir [("a.j2", .file "A")]),
    ("out", .link ⟨true, [.cur, .name "secret"]⟩),
    ("in", .link ⟨false, [.name "sub", .name "a.j2"]⟩)]),
  ("secret", .file "S")]

theorem exFs_sane : Sane exFs [] := ⟨⟨_, rfl⟩, ⟨_, rfl⟩⟩

example : tryNew exFs [] ⟨false, [.cur]⟩ "t".toList = .ok ["t"] := by decide +kernel
example : loadFile exFs exFs [] ["t"] "sub/../in".toList = .ok (some "A") := by decide +kernel
example : loadFile exFs exFs [] ["t"] "/t/weaver.yaml".toList = .ok (some "W") := by decide +kernel
example : loadFile exFs exFs [] ["t"] "../secret".toList = .ok none := by decide +kernel
example : loadFile exFs exFs [] ["t"] "out".toList = .ok none := by decide +kernel
example : loadFile exFs exFs [] ["t"] "/secret".toList = .ok none := by decide +kernel
example : loadFile exFs exFs [] ["t"] "sub/".toList = .error .isADirectory := by decide +kernel
example : ∃ rel, (Node.dir [("a.j2", .file "A")]).at rel = some (.file "A") :=
  load_confined exFs_sane (dir := ["t", "sub"]) (d := .dir [("a.j2", .file "A")]) rfl trivial (name := "a.j2".toList) (by decide +kernel)

/-! ### A changing file system -/

/-- If the file system does not change between the check and the reading then only files below the directory are read. -/
theorem load_race_partial {fs fs' : Node} {cwd dir : List String} (hs : Sane fs cwd) {d : Node} (hd : fs.at dir = some d)
    (hr : d.Real) {name : Chars} {c : String} (he : fs' = fs) (h : loadFile fs fs' cwd dir name = .ok (some c)) :
    ∃ rel, d.at rel = some (.file c) := by
  subst he; exact load_confined hs hd hr h

/-- If a file is replaced by a link between the check and the reading then a file outside is read. -/
theorem load_race_refuted : ∃ fs fs' : Node, ∃ dir d d', Sane fs [] ∧ Sane fs' [] ∧ fs.at dir = some d ∧ fs'.at dir = some d' ∧
    ∃ name c, loadFile fs fs' [] dir name = .ok (some c) ∧ (∀ rel, d.at rel ≠ some (.file c)) ∧ ∀ rel, d'.at rel ≠ some (.file c) := by
  refine ⟨.dir [("t", .dir [("a", .file "A")]), ("secret", .file "S")],
    .dir [("t", .dir [("a", .link ⟨true, [.cur, .name "secret"]⟩)]), ("secret", .file "S")], ["t"], _, _,
    ⟨⟨_, rfl⟩, ⟨_, rfl⟩⟩, ⟨⟨_, rfl⟩, ⟨_, rfl⟩⟩, rfl, rfl, "a".toList, "S", by decide +kernel, ?_, ?_⟩
  all_goals
    intro rel h
    match rel, h with
    | [n], h =>
      have h2 : ((aget n _).bind fun d => Node.at d []) = some (Node.file "S") := h
      unfold aget at h2
      split at h2
      · simp [at_nil] at h2
      · cases h2
    | n :: m :: rel, h =>
      have h2 : ((aget n _).bind fun d => Node.at d (m :: rel)) = some (Node.file "S") := h
      unfold aget at h2
      split at h2
      · cases h2
      · cases h2

/-! ### Listing -/

theorem tidy_mem {es : List (String × Node)} (hn : (es.map Prod.fst).Nodup) {n : String} {d : Node} :
    (n, d) ∈ es ↔ aget n es = some d := by
  induction es with
  | nil => simp [aget]
  | cons e es ih =>
    obtain ⟨m, f⟩ := e
    rw [List.map_cons, List.nodup_cons] at hn
    unfold aget
    by_cases h : m = n
    · subst h
      rw [if_pos rfl]
      constructor
      · intro hm
        rcases List.mem_cons.1 hm with h | h
        · cases h; rfl
        · exact absurd (List.mem_map_of_mem h) hn.1
      · intro h; cases h; simp
    · rw [if_neg h, ← ih hn.2]
      simp [Ne.symm h]

theorem entriesL_eq (p : List String) (es : List (String × Node)) :
    entriesL p es = es.flatMap fun e => entries (p ++ [e.1]) e.2 := by
  induction es with
  | nil => rfl
  | cons e es ih => rw [List.flatMap_cons, ← ih]; obtain ⟨n, d⟩ := e; rfl

/-- The walk visits every place in the tree, and nothing else. -/
theorem entries_mem {d : Node} (ht : Tidy d) (p q : List String) :
    q ∈ entries p d ↔ ∃ rel, q = p ++ rel ∧ ∃ e, d.at rel = some e := by
  induction ht generalizing p q with
  | file c =>
    simp only [entries, List.mem_singleton]
    constructor
    · rintro rfl; exact ⟨[], by simp, _, rfl⟩
    · rintro ⟨rel, rfl, e, h⟩
      cases rel with
      | nil => simp
      | cons _ _ => cases h
  | link t =>
    simp only [entries, List.mem_singleton]
    constructor
    · rintro rfl; exact ⟨[], by simp, _, rfl⟩
    · rintro ⟨rel, rfl, e, h⟩
      cases rel with
      | nil => simp
      | cons _ _ => cases h
  | dir es hn _ _ ih =>
    simp only [entries, List.mem_cons, entriesL_eq, List.mem_flatMap]
    constructor
    · rintro (rfl | ⟨⟨n, f⟩, hm, hq⟩)
      · exact ⟨[], by simp, _, rfl⟩
      · obtain ⟨rel, rfl, e, he⟩ := (ih _ hm (p ++ [n]) q).1 hq
        refine ⟨n :: rel, by simp, e, ?_⟩
        show ((aget n es).bind fun d => d.at rel) = _
        rw [(tidy_mem hn).1 hm]; exact he
    · rintro ⟨rel, rfl, e, he⟩
      cases rel with
      | nil => left; simp
      | cons n rel =>
        right
        change ((aget n es).bind fun d => d.at rel) = some e at he
        cases hg : aget n es with
        | none => rw [hg] at he; cases he
        | some f =>
          rw [hg] at he
          have hm := (tidy_mem hn).2 hg
          exact ⟨(n, f), hm, (ih _ hm (p ++ [n]) _).2 ⟨rel, by simp, e, he⟩⟩

theorem tidy_at {d e : Node} (ht : Tidy d) {p : List String} (h : d.at p = some e) : Tidy e ∧ ∀ n ∈ p, Plain n := by
  induction p generalizing d with
  | nil => rw [at_nil] at h; cases h; exact ⟨ht, by simp⟩
  | cons n p ih =>
    cases d with
    | file c => cases h
    | link t => cases h
    | dir es =>
      cases ht with
      | dir _ hn hp hes =>
        change ((aget n es).bind fun d => d.at p) = some e at h
        cases hg : aget n es with
        | none => rw [hg] at h; cases h
        | some f =>
          rw [hg] at h
          have hm := (tidy_mem hn).2 hg
          obtain ⟨h1, h2⟩ := ih (hes _ hm) h
          refine ⟨h1, fun m hm' => ?_⟩
          rcases List.mem_cons.1 hm' with rfl | hm'
          · exact hp _ hm
          · exact h2 m hm'

/-- The listed files are the files in the tree and the links in it that lead to a file, wherever it is. -/
theorem allFiles_mem {fs : Node} {cwd dir : List String} (hs : Sane fs cwd) (ht : Tidy fs) {d : Node} (hd : fs.at dir = some d)
    (rel : List String) : rel ∈ allFiles fs cwd dir ↔
      (∃ c, d.at rel = some (.file c)) ∨
      ∃ t q c, d.at rel = some (.link t) ∧ canonicalize fs cwd (absolute (dir ++ rel)) = .ok q ∧ fs.at q = some (.file c) := by
  obtain ⟨es, he⟩ := hs.root
  unfold allFiles
  rw [hd]
  dsimp only
  rw [List.mem_filter, entries_mem (tidy_at ht hd).1]
  simp only [List.nil_append, exists_eq_left']
  have hfull : ∀ e, d.at rel = some e → fs.at (dir ++ rel) = some e := by
    intro e h; rw [at_append, hd]; exact h
  have hfile : ∀ p : Path, isFile fs cwd p = true ↔ ∃ q c, canonicalize fs cwd p = .ok q ∧ fs.at q = some (.file c) := by
    intro p
    unfold isFile
    cases canonicalize fs cwd p with
    | error e => simp
    | ok q =>
      dsimp only
      cases hq : fs.at q with
      | none => simp [hq]
      | some e => cases e <;> simp [hq]
  rw [hfile]
  constructor
  · rintro ⟨⟨e, h⟩, q, c, hc, hq⟩
    cases e with
    | file c' => exact .inl ⟨c', h⟩
    | link t => exact .inr ⟨t, q, c, h, hc, hq⟩
    | dir es' =>
      rw [canonicalize_absolute he (hfull _ h) trivial] at hc
      cases hc
      rw [hfull _ h] at hq; cases hq
  · rintro (⟨c, h⟩ | ⟨t, q, c, h, hc, hq⟩)
    · exact ⟨⟨_, h⟩, _, c, canonicalize_absolute he (hfull _ h) trivial, hfull _ h⟩
    · exact ⟨⟨_, h⟩, q, c, hc, hq⟩

example : allFiles exFs [] ["t"] = [["weaver.yaml"], ["sub", "a.j2"], ["out"], ["in"]] := by decide +kernel

/-- Every listed file of a directory without links is loaded under its listed name. -/
theorem listed_loaded_partial {fs : Node} {cwd dir : List String} (hs : Sane fs cwd) (ht : Tidy fs) {es : List (String × Node)}
    (hd : fs.at dir = some (.dir es)) (hl : ∀ rel t, (Node.dir es).at rel ≠ some (.link t)) {rel : List String}
    (h : rel ∈ allFiles fs cwd dir) : ∃ c, (Node.dir es).at rel = some (.file c) ∧ loadFile fs fs cwd dir (text rel) = .ok (some c) := by
  rcases (allFiles_mem hs ht hd rel).1 h with ⟨c, h⟩ | ⟨t, _, _, h, _⟩
  · refine ⟨c, h, load_plain hs hd h ?_ (tidy_at (tidy_at ht hd).1 h).2⟩
    rintro rfl
    cases h
  · exact absurd h (hl rel t)

/-- A link to a file outside of the directory is listed, and cannot be loaded. -/
theorem listed_loaded_refuted : ∃ fs dir rel, Sane fs [] ∧ rel ∈ allFiles fs [] dir ∧ loadFile fs fs [] dir (text rel) = .ok none :=
  ⟨exFs, ["t"], ["out"], exFs_sane, by decide +kernel, by decide +kernel⟩

/-! ### Embedded templates -/

theorem filter_names (l : List String) : (l.map Comp.name).filter (· ≠ .cur) = l.map Comp.name := by
  induction l with
  | nil => rfl
  | cons a l ih => simp

/-- Built-in templates are loaded by the names on the way to them. -/
theorem embedded_loaded {d : Node} {rel : List String} {c : String} (hne : rel ≠ []) (hp : ∀ n ∈ rel, Plain n) :
    embeddedLoad d (text rel) = some c ↔ d.at rel = some (.file c) := by
  unfold embeddedLoad Path.normal
  rw [ofChars_text hne hp]
  dsimp only
  rw [filter_names, List.map_map]
  have e : rel.map (Comp.name? ∘ Comp.name) = rel.map some := rfl
  rw [e, if_pos (by simp), List.filterMap_map]
  simp only [Function.comp_def, id, List.filterMap_some]
  cases d.at rel with
  | none => simp
  | some f => cases f <;> simp

/-- A name loads a built-in template exactly if it is the way to it, up to empty components and single dots. -/
theorem embedded_exact {d : Node} {name : Chars} {c : String} : embeddedLoad d name = some c ↔
    ∃ rel : List String, (Path.ofChars name).comps.filter (· ≠ .cur) = rel.map Comp.name ∧ d.at rel = some (.file c) := by
  unfold embeddedLoad Path.normal
  dsimp only
  generalize (Path.ofChars name).comps.filter (· ≠ .cur) = cs
  by_cases h : ∃ rel : List String, cs = rel.map Comp.name
  · obtain ⟨rel, rfl⟩ := h
    have e : (rel.map Comp.name).map Comp.name? = rel.map some := by rw [List.map_map]; rfl
    have hinj : ∀ r : List String, rel.map Comp.name = r.map Comp.name → rel = r := by
      intro r hr
      have := congrArg (List.map Comp.name?) hr
      rw [e, List.map_map] at this
      have h2 := congrArg (List.filterMap id) this
      simpa [List.filterMap_map, Function.comp_def, Comp.name?] using h2
    rw [e, if_pos (by simp), List.filterMap_map]
    simp only [Function.comp_def, id, List.filterMap_some]
    constructor
    · intro hc
      refine ⟨rel, rfl, ?_⟩
      split at hc
      · rename_i heq; cases hc; exact heq
      · cases hc
    · rintro ⟨r, hr, hc⟩
      rw [hinj r hr, hc]
  · have hn : ¬ (cs.map Comp.name?).all Option.isSome = true := by
      intro ha
      apply h
      clear h
      induction cs with
      | nil => exact ⟨[], rfl⟩
      | cons a cs ih =>
        rw [List.map_cons, List.all_cons, Bool.and_eq_true] at ha
        obtain ⟨rel, rfl⟩ := ih ha.2
        cases a with
        | cur => cases ha.1
        | up => cases ha.1
        | name n => exact ⟨n :: rel, rfl⟩
    rw [if_neg hn]
    constructor
    · intro hc; cases hc
    · rintro ⟨rel, hr, _⟩; exact absurd ⟨rel, hr⟩ h

example : embeddedLoad (.dir [("a", .file "A")]) "./a".toList = some "A" ∧ embeddedLoad (.dir [("a", .file "A")]) "x/../a".toList = none := by
  decide +kernel

/-- Whatever the name, only built-in templates of the target are loaded. -/
theorem embedded_confined {d : Node} {name : Chars} {c : String} (h : embeddedLoad d name = some c) :
    ∃ rel, d.at rel = some (.file c) := by
  unfold embeddedLoad at h
  dsimp only at h
  split at h
  · split at h
    · rename_i heq; cases h; exact ⟨_, heq⟩
    · cases h
  · cases h

theorem embeddedFilesL_eq (es : List (String × Node)) : embeddedFilesL es = es.flatMap fun e =>
    match e.2 with | .file _ => [[e.1]] | d => embeddedFiles d := by
  induction es with
  | nil => rfl
  | cons e es ih =>
    rw [List.flatMap_cons, ← ih]
    obtain ⟨n, d⟩ := e
    cases d <;> rfl

/-- The built-in templates are listed by their last name. -/
theorem embeddedFiles_mem {d : Node} (ht : Tidy d) (q : List String) : q ∈ embeddedFiles d ↔
    ∃ rel n c, q = [n] ∧ d.at (rel ++ [n]) = some (.file c) := by
  induction ht generalizing q with
  | file c =>
    simp only [embeddedFiles, List.not_mem_nil, false_iff]
    rintro ⟨rel, n, c, _, h⟩
    cases rel <;> cases h
  | link t =>
    simp only [embeddedFiles, List.not_mem_nil, false_iff]
    rintro ⟨rel, n, c, _, h⟩
    cases rel <;> cases h
  | dir es hn _ _ ih =>
    simp only [embeddedFiles, embeddedFilesL_eq, List.mem_flatMap]
    constructor
    · rintro ⟨⟨n, f⟩, hm, hq⟩
      have hg := (tidy_mem hn).1 hm
      cases f with
      | file c =>
        refine ⟨[], n, c, by simpa using hq, ?_⟩
        show ((aget n es).bind fun d => d.at []) = _
        rw [hg]; rfl
      | link t => exact absurd hq (by simp [embeddedFiles])
      | dir es' =>
        obtain ⟨rel, m, c, rfl, h⟩ := (ih _ hm q).1 hq
        refine ⟨n :: rel, m, c, rfl, ?_⟩
        show ((aget n es).bind fun d => d.at (rel ++ [m])) = _
        rw [hg]; exact h
    · rintro ⟨rel, n, c, rfl, h⟩
      cases rel with
      | nil =>
        change ((aget n es).bind fun d => d.at []) = _ at h
        cases hg : aget n es with
        | none => rw [hg] at h; cases h
        | some f =>
          rw [hg] at h
          change f.at [] = _ at h
          rw [at_nil] at h; cases h
          exact ⟨(n, .file c), (tidy_mem hn).2 hg, by simp⟩
      | cons m rel =>
        change ((aget m es).bind fun d => d.at (rel ++ [n])) = _ at h
        cases hg : aget m es with
        | none => rw [hg] at h; cases h
        | some f =>
          rw [hg] at h
          have hm := (tidy_mem hn).2 hg
          refine ⟨(m, f), hm, ?_⟩
          cases f with
          | file c' => cases rel <;> cases h
          | link t => cases rel <;> cases h
          | dir es' => exact (ih _ hm [n]).2 ⟨rel, n, c, rfl, h⟩

/-- If the target has no folders then every listed built-in template is loaded under its listed name. -/
theorem embedded_listed_partial {es : List (String × Node)} (ht : Tidy (.dir es)) (hf : ∀ n es', (n, Node.dir es') ∉ es)
    {q : List String} (h : q ∈ embeddedFiles (.dir es)) : ∃ c, (Node.dir es).at q = some (.file c) ∧ embeddedLoad (.dir es) (text q) = some c := by
  obtain ⟨rel, n, c, rfl, h⟩ := (embeddedFiles_mem ht q).1 h
  cases rel with
  | nil =>
    have h' : (Node.dir es).at [n] = some (.file c) := h
    exact ⟨c, h', (embedded_loaded (by simp) (tidy_at ht h').2).2 h'⟩
  | cons m rel =>
    change ((aget m es).bind fun d => d.at (rel ++ [n])) = _ at h
    cases ht with
    | dir _ hn _ _ =>
      cases hg : aget m es with
      | none => rw [hg] at h; cases h
      | some f =>
        rw [hg] at h
        cases f with
        | file c' => cases rel <;> cases h
        | link t => cases rel <;> cases h
        | dir es' => exact absurd ((tidy_mem hn).2 hg) (hf m es')

/-- A built-in template in a folder is listed without the folder, and cannot be loaded under that name; as a local file it
is listed with the folder and is loaded. -/
theorem embedded_listed_refuted : ∃ d : Node, Tidy d ∧ embeddedFiles d = [["a.j2"]] ∧ embeddedLoad d (text ["a.j2"]) = none ∧
    embeddedLoad d (text ["sub", "a.j2"]) = some "A" ∧
    allFiles (.dir [("t", d)]) [] ["t"] = [["sub", "a.j2"]] := by
  refine ⟨.dir [("sub", .dir [("a.j2", .file "A")])], ?_, by decide +kernel, by decide +kernel, by decide +kernel, by decide +kernel⟩
  refine .dir _ (by simp) (by simp [Plain]) ?_
  simp only [List.mem_singleton, forall_eq]
  exact .dir _ (by simp) (by simp [Plain]) (by simpa using .file _)

/-- Local templates are used exactly if there are any, and are those of the target directory. -/
theorem embedded_choice {fs : Node} {cwd : List String} {emb : Node} {localDir : Path} {target : Chars} :
    (∀ dir, Embedded.tryNew fs cwd emb localDir target = .ok (.local_ dir) ↔ safeJoin fs cwd localDir target = .ok dir) ∧
    (∀ d, Embedded.tryNew fs cwd emb localDir target = .ok (.builtin d) ↔
      (∀ q, canonicalize fs cwd (localDir.push (Path.ofChars target)) ≠ .ok q) ∧ emb.at [String.ofList target] = some d ∧ ∃ es, d = .dir es) := by
  unfold Embedded.tryNew
  cases hc : canonicalize fs cwd (localDir.push (Path.ofChars target)) with
  | ok q =>
    dsimp only
    cases hj : safeJoin fs cwd localDir target with
    | ok dir => simp
    | error e => simp
  | error e =>
    dsimp only
    have hj : ∀ dir, safeJoin fs cwd localDir target ≠ .ok dir := by
      intro dir h
      obtain ⟨_, _, h2, _⟩ := (safeJoin_iff ..).1 h
      rw [hc] at h2; cases h2
    cases ha : emb.at [String.ofList target] with
    | none => simp [hj]
    | some f =>
      cases f with
      | file c => simp [hj]
      | link t => simp [hj]
      | dir es => simp [hj, eq_comm]

/-- Without a templates directory the built-in templates are used, if nothing in the working directory has the name of the
target. -/
theorem builtin_default_partial {fs : Node} {cwd : List String} {emb : Node} {target : String} {es : List (String × Node)}
    (hp : Plain target) (he : emb.at [target] = some (.dir es))
    (hn : ∀ q, canonicalize fs cwd ⟨false, [.name target]⟩ ≠ .ok q) :
    Embedded.tryNew fs cwd emb ⟨false, []⟩ target.toList = .ok (.builtin (.dir es)) := by
  refine (embedded_choice.2 _).2 ⟨?_, by rw [String.ofList_toList]; exact he, _, rfl⟩
  have ht : Path.ofChars target.toList = ⟨false, [.name target]⟩ := by
    have := ofChars_text (rel := [target]) (by simp) (by simpa using hp)
    simpa [text, List.intercalate] using this
  rw [ht]
  exact hn

/-- Without a templates directory, a file or directory with the name of the target in the working directory makes the
built-in templates unavailable. -/
theorem builtin_default_refuted : ∃ fs emb : Node, Sane fs [] ∧ emb.at ["ansi"] = some (.dir []) ∧
    Embedded.tryNew fs [] emb ⟨false, []⟩ "ansi".toList = .error .notFound :=
  ⟨.dir [("ansi", .dir [])], .dir [("ansi", .dir [])], ⟨⟨_, rfl⟩, ⟨_, rfl⟩⟩, rfl, by
    unfold Embedded.tryNew
    have h : canonicalize (.dir [("ansi", .dir [])]) [] ((⟨false, []⟩ : Path).push (Path.ofChars "ansi".toList)) = .ok ["ansi"] := by decide +kernel
    rw [h]
    rfl⟩

/-! ### Output files -/

/-- The place a path leads to if there are no links: each `..` removes the last name. -/
def lexical : List String → List Comp → List String
  | pos, [] => pos
  | pos, .cur :: cs => lexical pos cs
  | pos, .up :: cs => lexical pos.dropLast cs
  | pos, .name n :: cs => lexical (pos ++ [n]) cs

theorem lexical_append (pos : List String) (a b : List Comp) : lexical pos (a ++ b) = lexical (lexical pos a) b := by
  induction a generalizing pos with
  | nil => rfl
  | cons c a ih => cases c <;> exact ih _

theorem lexical_down (pos : List String) (cs : List Comp) (h : .up ∉ cs) : pos <+: lexical pos cs := by
  induction cs generalizing pos with
  | nil => exact List.prefix_refl _
  | cons c cs ih =>
    rw [List.mem_cons, not_or] at h
    cases c with
    | cur => exact ih _ h.2
    | up => exact absurd rfl h.1
    | name n => exact (List.prefix_append pos [n]).trans (ih _ h.2)

/-- Where a path leads without links, from a working directory. -/
def place (cwd : List String) (p : Path) : List String := lexical (if p.abs then [] else cwd) p.comps

/-- A generated file with a relative name without `..` is written below the output directory. -/
theorem output_confined_partial (cwd : List String) (out : Path) (name : Chars) (h1 : (Path.ofChars name).abs = false)
    (h2 : .up ∉ (Path.ofChars name).comps) : place cwd out <+: place cwd (outputPath out name) := by
  unfold outputPath Path.push place
  simp only [h1, Bool.false_eq_true, if_false]
  rw [lexical_append]
  exact lexical_down _ _ h2

/-- Names with `..`, and absolute names, lead outside of the output directory. -/
theorem output_confined_refuted : ∃ out, ¬ place ["home"] out <+: place ["home"] (outputPath out "../x".toList) ∧
    ¬ place ["home"] out <+: place ["home"] (outputPath out "/etc/x".toList) :=
  ⟨⟨false, [.name "out"]⟩, by decide +kernel, by decide +kernel⟩

example : place ["home"] (outputPath ⟨false, [.name "out"]⟩ "a/b.md".toList) = ["home", "out", "a", "b.md"] := by decide +kernel

end Verif.Fs
