import Verif.Cli.Config
import Verif.Common.VDirProps
import Verif.Gen.ConfigProps
import Verif.Util.Forall2

/-! Properties of the configuration of commands. -/

namespace Verif.Cli
open Verif.Util Verif.Common

/-! ### Finding the file -/

/-- The file of the nearest directory that has one, going up from the working directory. -/
theorem discover_nearest (isFile : List String → Bool) (cwd d : List String) :
    discover isFile cwd = some (configFile :: d) ↔
      isFile d = true ∧ ∃ below, cwd = below ++ d ∧ ∀ b b', below = b ++ b' → b' ≠ [] → isFile (b' ++ d) = false := by
  induction cwd with
  | nil =>
    unfold discover
    constructor
    · intro h
      by_cases hf : isFile [] = true
      · rw [if_pos hf] at h
        cases h
        refine ⟨hf, [], rfl, fun b b' he hne => ?_⟩
        simp at he
        exact absurd he.2 hne
      · rw [if_neg hf] at h; cases h
    · rintro ⟨hf, below, he, -⟩
      have : d = [] := by
        cases below with
        | nil => exact he.symm
        | cons => cases he
      subst this
      rw [if_pos hf]
  | cons c up ih =>
    unfold discover
    by_cases hf : isFile (c :: up) = true
    · rw [if_pos hf]
      constructor
      · intro h
        cases h
        refine ⟨hf, [], rfl, fun b b' he hne => ?_⟩
        simp at he
        exact absurd he.2 hne
      · rintro ⟨-, below, he, hno⟩
        cases below with
        | nil => rw [he]; rfl
        | cons x below =>
          have := hno [] (x :: below) rfl (by simp)
          rw [← he, hf] at this
          cases this
    · rw [if_neg hf, ih]
      constructor
      · rintro ⟨h1, below, rfl, h2⟩
        refine ⟨h1, c :: below, rfl, fun b b' he hne => ?_⟩
        cases b with
        | nil =>
          rw [List.nil_append] at he
          subst he
          simpa using hf
        | cons x b =>
          simp only [List.cons_append, List.cons.injEq] at he
          exact h2 b b' he.2 hne
      · rintro ⟨h1, below, he, h2⟩
        cases below with
        | nil => rw [List.nil_append] at he; rw [he] at hf; exact absurd h1 hf
        | cons x below =>
          simp only [List.cons_append, List.cons.injEq] at he
          refine ⟨h1, below, he.2, fun b b' hb hne => h2 (x :: b) b' (by rw [hb]; rfl) hne⟩

theorem discover_none (isFile : List String → Bool) (cwd : List String) :
    discover isFile cwd = none ↔ ∀ below d, cwd = below ++ d → isFile d = false := by
  induction cwd with
  | nil =>
    unfold discover
    cases hf : isFile []
    · simp [hf]
    · simp [hf]
  | cons c up ih =>
    unfold discover
    by_cases hf : isFile (c :: up) = true
    · rw [if_pos hf]
      simp only [reduceCtorEq, false_iff]
      intro h
      rw [h [] _ rfl] at hf
      cases hf
    · rw [if_neg hf, ih]
      constructor
      · intro h below d he
        cases below with
        | nil => rw [List.nil_append] at he; rw [← he]; simpa using hf
        | cons x below => simp only [List.cons_append, List.cons.injEq] at he; exact h below d he.2
      · intro h below d he
        exact h (c :: below) d (by rw [he]; rfl)

/-- Whether a file is found does not depend on whether it can be read: a file that cannot be is an error, and no other file is
tried. The file named on the command line is read, whatever other files there are. -/
theorem resolveConfig_iff {ε C : Type} (isFile : List String → Bool) (load : List String → Except ε C)
    (explicit : Option (List String)) (cwd : List String) (r : Except ε (Option C)) :
    resolveConfig isFile load explicit cwd = r ↔
      (∃ p, (explicit = some p ∨ explicit = none ∧ discover isFile cwd = some p) ∧
        ((∃ c, load p = .ok c ∧ r = .ok (some c)) ∨ ∃ e, load p = .error e ∧ r = .error e)) ∨
      (explicit = none ∧ discover isFile cwd = none ∧ r = .ok none) := by
  have key : ∀ p, (load p).map some = r ↔
      ((∃ c, load p = .ok c ∧ r = .ok (some c)) ∨ ∃ e, load p = .error e ∧ r = .error e) := by
    intro p
    cases load p with
    | ok c => simp [Except.map, eq_comm]
    | error e => simp [Except.map, eq_comm]
  unfold resolveConfig
  cases explicit with
  | some p => dsimp only; rw [key]; simp
  | none =>
    dsimp only
    cases discover isFile cwd with
    | some p => dsimp only; rw [key]; simp
    | none => simp [eq_comm]

/-! ### Each setting is the one of the command line, else of the file, else the default -/

/-- The first of three values that is there. -/
def firstOf {α : Type} (cli file : Option α) (dflt : α) : α := (cli.or file).getD dflt

theorem default_registry :
    EffRegistry.default.registry =
      .gitRepo "https://github.com/open-telemetry/semantic-conventions.git".toList none (some "model".toList) := by
  decide +kernel

/-- The registry settings. The path of the file is used if it can be parsed. -/
theorem registry_settings (url : String → Option String) (cmd : Command) (hc : cmd.usesRegistry = true) (args : Args) (file : Option File) :
    let e := (loadConfig url cmd args file).registry
    let f : RegistryFile := (file.map (·.registry)).getD {}
    e.registry = firstOf args.registry.registry (f.path.bind VPath.parse) EffRegistry.default.registry ∧
    e.followSymlinks = firstOf args.registry.followSymlinks f.followSymlinks false ∧
    e.includeUnreferenced = firstOf args.registry.includeUnreferenced f.includeUnreferenced false ∧
    e.v2 = firstOf args.registry.v2 f.v2 false := by
  obtain ⟨⟨ar, af, ai, av⟩, ap, as⟩ := args
  cases file with
  | none => simp only [loadConfig, hc, RegistryArgs.applyTo, firstOf]; cases ar <;> cases af <;> cases ai <;> cases av <;> exact ⟨rfl, rfl, rfl, rfl⟩
  | some wc =>
    obtain ⟨⟨p, f, i, v⟩, -, -, -, -⟩ := wc
    simp only [loadConfig, hc, if_true, RegistryArgs.applyTo, EffRegistry.layer, firstOf, Option.map_some, Option.getD_some]
    have hp : (∃ w, p.bind VPath.parse = some w ∧ ∃ q, p = some q ∧ VPath.parse q = some w) ∨
        (p.bind VPath.parse = none ∧ ∀ q, p = some q → VPath.parse q = none) := by
      cases p with
      | none => simp
      | some q => cases h : VPath.parse q <;> simp [h]
    rcases hp with ⟨w, h1, q, rfl, h2⟩ | ⟨h1, h2⟩
    · rw [h1]
      simp only [h2]
      cases ar <;> cases af <;> cases ai <;> cases av <;> cases f <;> cases i <;> cases v <;> exact ⟨rfl, rfl, rfl, rfl⟩
    · rw [h1]
      cases p with
      | none => cases ar <;> cases af <;> cases ai <;> cases av <;> cases f <;> cases i <;> cases v <;> exact ⟨rfl, rfl, rfl, rfl⟩
      | some q =>
        simp only [h2 q rfl]
        cases ar <;> cases af <;> cases ai <;> cases av <;> cases f <;> cases i <;> cases v <;> exact ⟨rfl, rfl, rfl, rfl⟩

/-- The policy settings of a command that checks policies. -/
theorem policy_settings (url : String → Option String) (cmd : Command) (hc : cmd.usesPolicy = true) (hp : cmd.hasPolicyArgs = true)
    (args : Args) (file : Option File) :
    let e := (loadConfig url cmd args file).policy
    let f : PolicyFile := (file.map (·.policy)).getD {}
    e.policies = firstOf args.policy.policies (f.paths.map (·.filterMap VPath.parse)) [] ∧
    e.skip = firstOf args.policy.skip f.skip false ∧
    e.coverage = firstOf args.policy.coverage f.coverage false := by
  obtain ⟨ar, ⟨ap, as, ac⟩, ax⟩ := args
  cases file with
  | none => simp only [loadConfig, hc, hp, PolicyArgs.applyTo, firstOf]; cases ap <;> cases as <;> cases ac <;> exact ⟨rfl, rfl, rfl⟩
  | some wc =>
    obtain ⟨-, ⟨p, s, c⟩, -, -, -⟩ := wc
    simp only [loadConfig, hc, hp, if_true, PolicyArgs.applyTo, EffPolicy.layer, firstOf, Option.map_some, Option.getD_some]
    cases ap <;> cases as <;> cases ac <;> cases p <;> cases s <;> cases c <;> exact ⟨rfl, rfl, rfl⟩

/-- A command that does not check policies never does, whatever the file says. -/
theorem policy_unused (url : String → Option String) (cmd : Command) (hc : cmd.usesPolicy = false) (args : Args) (file : Option File) :
    (loadConfig url cmd args file).policy = { policies := [], skip := true, coverage := false } := by
  simp only [loadConfig, hc]; rfl

/-- The diagnostic settings. -/
theorem diagnostic_settings (args : Diag) (file : Option Diag) :
    let e := toEffective args file
    let f := file.getD {}
    e.format = firstOf args.format f.format "ansi" ∧ e.template = firstOf args.template f.template "diagnostic_templates" ∧
      e.stdout = firstOf args.stdout f.stdout false := by
  obtain ⟨a, b, c⟩ := args
  cases file with
  | none => simp only [toEffective, EffDiag.layer, firstOf]; cases a <;> cases b <;> cases c <;> exact ⟨rfl, rfl, rfl⟩
  | some f =>
    obtain ⟨x, y, z⟩ := f
    simp only [toEffective, EffDiag.layer, firstOf, Option.getD_some]
    cases a <;> cases b <;> cases c <;> cases x <;> cases y <;> cases z <;> exact ⟨rfl, rfl, rfl⟩

/-! ### The settings of a command -/

/-- What the section says about a setting: nothing, or its value. -/
inductive Says : TVal → List String → Option TVal → Prop
  | here (v : TVal) : Says v [] (some v)
  | absent (m : List (String × TVal)) (k : String) (ks : List String) : aget k m = none → Says (.table m) (k :: ks) none
  | there (m : List (String × TVal)) (k : String) (ks : List String) (v : TVal) (o : Option TVal) :
      aget k m = some v → Says v ks o → Says (.table m) (k :: ks) o

theorem look_iff (p : List String) (t : TVal) (o : Option TVal) : look p t = .ok o ↔ Says t p o := by
  induction p generalizing t with
  | nil =>
    unfold look
    constructor
    · intro h; cases h; exact .here t
    · intro h; cases h; rfl
  | cons k ks ih =>
    cases t with
    | table m =>
      unfold look
      cases ha : aget k m with
      | none =>
        dsimp only
        constructor
        · intro h; cases h; exact .absent m k ks ha
        · intro h
          cases h with
          | absent _ _ _ _ => rfl
          | there _ _ _ v _ h1 _ => rw [ha] at h1; cases h1
      | some v =>
        dsimp only
        rw [ih]
        constructor
        · intro h; exact .there m k ks v o ha h
        · intro h
          cases h with
          | absent _ _ _ h1 => rw [ha] at h1; cases h1
          | there _ _ _ v' _ h1 h2 => rw [ha] at h1; cases h1; exact h2
    | str s => constructor <;> intro h <;> cases h
    | int s => constructor <;> intro h <;> cases h
    | bool s => constructor <;> intro h <;> cases h
    | list s => constructor <;> intro h <;> cases h

/-- The values of a type: texts, booleans, the numbers from 0 to the largest one, the names of the enumeration. -/
inductive HasType : Ty → TVal → Prop
  | str (s : String) : HasType .str (.str s)
  | bool (b : Bool) : HasType .bool (.bool b)
  | uint (max : Nat) (n : Nat) : n ≤ max → HasType (.uint max) (.int n)
  | enum (names : List String) (s : String) : s ∈ names → HasType (.enum names) (.str s)

theorem accepts_iff (t : Ty) (v : TVal) : t.accepts v = true ↔ HasType t v := by
  constructor
  · intro h
    cases t <;> cases v <;> first | cases h; done | skip
    · exact .str _
    · exact .bool _
    · rename_i max i
      have := of_decide_eq_true h
      obtain ⟨n, rfl⟩ := Int.eq_ofNat_of_zero_le this.1
      exact .uint _ n (by omega)
    · exact .enum _ _ (by simpa [Ty.accepts] using h)
  · intro h
    cases h with
    | str => rfl
    | bool => rfl
    | uint max n h => exact decide_eq_true ⟨by omega, by omega⟩
    | enum names s h => simpa [Ty.accepts] using h

/-- A section is well-formed if it is a table and says of each setting nothing or a value of its type. -/
def WellFormed (fields : List Field) (s : TVal) : Prop :=
  (∃ m, s = .table m) ∧ ∀ f ∈ fields, ∃ o, Says s f.path o ∧ ∀ v, o = some v → HasType f.ty v

theorem readField_ok (s : TVal) (f : Field) (x : String × Option TVal) :
    readField s f = .ok x ↔ x.1 = f.name ∧ ∃ o, Says s f.path o ∧ (∀ v, o = some v → HasType f.ty v) ∧ x.2 = o.or f.dflt := by
  unfold readField
  cases hl : look f.path s with
  | error e =>
    simp only [reduceCtorEq, false_iff]
    rintro ⟨-, o, h, -⟩
    rw [← look_iff, hl] at h
    cases h
  | ok o =>
    have huniq : ∀ o', Says s f.path o' → o' = o := by
      intro o' h
      rw [← look_iff, hl] at h
      cases h; rfl
    have ho := (look_iff _ _ _).1 hl
    cases o with
    | none =>
      dsimp only
      constructor
      · intro h; cases h
        exact ⟨rfl, none, ho, by simp, rfl⟩
      · rintro ⟨h1, o', h2, -, h3⟩
        have := huniq o' h2
        subst this
        cases x
        simp only at h1 h3
        rw [h1, h3]; rfl
    | some v =>
      dsimp only
      by_cases ha : HasType f.ty v
      · rw [if_pos ((accepts_iff _ _).2 ha)]
        constructor
        · intro h; cases h
          exact ⟨rfl, some v, ho, by rintro _ ⟨⟩; exact ha, rfl⟩
        · rintro ⟨h1, o', h2, -, h3⟩
          have := huniq o' h2
          subst this
          cases x
          simp only at h1 h3
          rw [h1, h3]; rfl
      · rw [if_neg fun h => ha ((accepts_iff _ _).1 h)]
        simp only [reduceCtorEq, false_iff]
        rintro ⟨-, o', h2, h3, -⟩
        have := huniq o' h2
        subst this
        exact ha (h3 v rfl)

theorem mapM_except {α β ε : Type} (f : α → Except ε β) (l : List α) (r : List β) :
    l.mapM f = .ok r ↔ Forall2 (fun a b => f a = .ok b) l r := by
  induction l generalizing r with
  | nil =>
    rw [List.mapM_nil]
    constructor
    · intro h; cases h; exact .nil
    · intro h; cases h; rfl
  | cons a l ih =>
    rw [List.mapM_cons]
    cases hf : f a with
    | error e =>
      constructor
      · intro h; cases h
      · intro h; cases h with | cons h _ => rw [hf] at h; cases h
    | ok b =>
      cases hm : l.mapM f with
      | error e =>
        constructor
        · intro h; cases h
        · intro h
          cases h with
          | cons h1 h2 => rw [(ih _).2 h2] at hm; cases hm
      | ok t =>
        constructor
        · intro h; cases h; exact .cons hf ((ih t).1 hm)
        · intro h
          cases h with
          | cons h1 h2 =>
            rw [hf] at h1; cases h1
            rw [(ih _).2 h2] at hm; cases hm
            rfl

/-- The value a section gives for a setting, or the default. -/
theorem aget_readSection {fields : List Field} {s : TVal} {c : Conf} (h : readSection fields s = .ok c)
    (hn : (fields.map Field.name).Nodup) :
    WellFormed fields s ∧ ∀ f ∈ fields, ∀ o, Says s f.path o → aget f.name c = some (o.or f.dflt) := by
  unfold readSection at h
  cases s with
  | table m =>
    dsimp only at h
    rw [mapM_except] at h
    have hw : ∀ fs : List Field, ∀ c, Forall2 (fun a b => readField (.table m) a = .ok b) fs c → (fs.map Field.name).Nodup →
        (∀ f ∈ fs, ∃ o, Says (.table m) f.path o ∧ ∀ v, o = some v → HasType f.ty v) ∧
        (∀ k, k ∈ c.map Prod.fst → k ∈ fs.map Field.name) ∧
        ∀ f ∈ fs, ∀ o, Says (.table m) f.path o → aget f.name c = some (o.or f.dflt) := by
      intro fs c h
      induction h with
      | nil => intro _; exact ⟨by simp, by simp, by simp⟩
      | @cons g x fs c h1 h2 ih =>
        intro hn
        rw [List.map_cons, List.nodup_cons] at hn
        obtain ⟨i1, i2, i3⟩ := ih hn.2
        obtain ⟨k1, o, k2, k3, k4⟩ := (readField_ok _ _ _).1 h1
        obtain ⟨n, y⟩ := x
        simp only at k1 k4
        subst k1
        refine ⟨?_, ?_, ?_⟩
        · intro f hf
          rcases List.mem_cons.1 hf with rfl | hf
          · exact ⟨o, k2, k3⟩
          · exact i1 f hf
        · intro k hk
          rcases List.mem_cons.1 hk with rfl | hk
          · simp
          · exact List.mem_cons_of_mem _ (i2 k hk)
        · intro f hf o' ho'
          rcases List.mem_cons.1 hf with rfl | hf
          · rw [Verif.Gen.aget_cons, if_pos rfl, k4]
            have : o' = o := by
              have a := (look_iff _ _ _).2 ho'
              have b := (look_iff _ _ _).2 k2
              rw [a] at b; cases b; rfl
            rw [this]
          · rw [Verif.Gen.aget_cons, if_neg, i3 f hf o' ho']
            intro he
            exact hn.1 (by rw [he]; exact List.mem_map_of_mem hf)
    obtain ⟨h1, -, h3⟩ := hw fields c h hn
    exact ⟨⟨⟨m, rfl⟩, h1⟩, h3⟩
  | str s => cases h
  | int s => cases h
  | bool s => cases h
  | list s => cases h

theorem readSection_of_wf {fields : List Field} {s : TVal} (h : WellFormed fields s) : ∃ c, readSection fields s = .ok c := by
  obtain ⟨⟨m, rfl⟩, h⟩ := h
  unfold readSection
  dsimp only
  suffices ∃ c, Forall2 (fun a b => readField (.table m) a = .ok b) fields c by
    obtain ⟨c, hc⟩ := this
    exact ⟨c, (mapM_except _ _ _).2 hc⟩
  induction fields with
  | nil => exact ⟨[], .nil⟩
  | cons f fs ih =>
    obtain ⟨c, hc⟩ := ih fun g hg => h g (List.mem_cons_of_mem _ hg)
    obtain ⟨o, h1, h2⟩ := h f List.mem_cons_self
    exact ⟨(f.name, o.or f.dflt) :: c, .cons ((readField_ok _ _ _).2 ⟨rfl, o, h1, h2, rfl⟩) hc⟩

theorem aget_defaults {fields : List Field} (hn : (fields.map Field.name).Nodup) {f : Field} (hf : f ∈ fields) :
    aget f.name (defaults fields) = some f.dflt := by
  unfold defaults
  induction fields with
  | nil => cases hf
  | cons g fs ih =>
    rw [List.map_cons, List.nodup_cons] at hn
    rw [List.map_cons, Verif.Gen.aget_cons]
    rcases List.mem_cons.1 hf with rfl | hf
    · rw [if_pos rfl]
    · rw [if_neg, ih hn.2 hf]
      intro he
      exact hn.1 (by rw [he]; exact List.mem_map_of_mem hf)

/-- What the file says about a setting of a command: nothing if there is no section or it is not well-formed. -/
inductive FileSays (cmd : Command) : Option File → Field → Option TVal → Prop
  | noFile (f : Field) : FileSays cmd none f none
  | noSection (wc : File) (f : Field) : aget cmd.name wc.commands = none → FileSays cmd (some wc) f none
  | malformed (wc : File) (f : Field) (s : TVal) : aget cmd.name wc.commands = some s → ¬ WellFormed cmd.fields s →
      FileSays cmd (some wc) f none
  | given (wc : File) (f : Field) (s : TVal) (o : Option TVal) : aget cmd.name wc.commands = some s → WellFormed cmd.fields s →
      Says s f.path o → FileSays cmd (some wc) f o

theorem aget_applyOverrides (fields : List Field) (args : List (String × TVal)) (c : Conf) (hn : (fields.map Field.name).Nodup)
    (k : String) :
    aget k (applyOverrides fields args c) =
      match (fields.find? fun f => f.name = k && f.cli).bind fun f => aget f.name args with
      | some v => some (some v)
      | none => aget k c := by
  unfold applyOverrides
  induction fields generalizing c with
  | nil => rfl
  | cons g fs ih =>
    rw [List.map_cons, List.nodup_cons] at hn
    rw [List.foldl_cons, ih _ hn.2, List.find?_cons]
    by_cases hk : g.name = k
    · subst hk
      have hfind : (fs.find? fun f => decide (f.name = g.name) && f.cli) = none := by
        rw [List.find?_eq_none]
        intro f hf
        have : f.name ≠ g.name := fun he => hn.1 (by rw [← he]; exact List.mem_map_of_mem hf)
        simp [this]
      rw [hfind]
      cases hc : g.cli with
      | false => simp [hfind]
      | true =>
        cases ha : aget g.name args with
        | none => simp [ha]
        | some v => simp [ha, aget_aset]
    · have h1 : (decide (g.name = k) && g.cli) = false := by simp [hk]
      rw [h1]
      generalize (if g.cli = true then aget g.name args else none) = x
      cases x with
      | none => rfl
      | some v => dsimp only; rw [aget_aset, if_neg (Ne.symm hk)]

/-- Every setting of a command has the value of the command line, else of the section of the file, else its default. -/
theorem command_settings (url : String → Option String) (cmd : Command) (hn : (cmd.fields.map Field.name).Nodup) (args : Args)
    (file : Option File) (f : Field) (hf : f ∈ cmd.fields) (hcli : f.cli = true) (o : Option TVal) (ho : FileSays cmd file f o) :
    aget f.name (loadConfig url cmd args file).config = some (((aget f.name args.settings).or o).or f.dflt) := by
  unfold loadConfig
  dsimp only
  rw [aget_applyOverrides _ _ _ hn]
  have hfind : (cmd.fields.find? fun g => decide (g.name = f.name) && g.cli) = some f := by
    generalize cmd.fields = fs at hn hf
    induction fs with
    | nil => cases hf
    | cons g fs ih =>
      rw [List.map_cons, List.nodup_cons] at hn
      rw [List.find?_cons]
      rcases List.mem_cons.1 hf with rfl | hf
      · simp [hcli]
      · have : g.name ≠ f.name := fun he => hn.1 (by rw [he]; exact List.mem_map_of_mem hf)
        simp only [this, decide_false, Bool.false_and]
        exact ih hn.2 hf
  rw [hfind]
  dsimp only [Option.bind_some]
  cases aget f.name args.settings with
  | some v => rfl
  | none =>
    dsimp only
    rw [Option.none_or]
    cases ho with
    | noFile => exact aget_defaults hn hf
    | noSection wc _ h => dsimp only [commandConfig]; rw [h]; exact aget_defaults hn hf
    | malformed wc _ s h hw =>
      dsimp only [commandConfig]; rw [h]
      dsimp only
      cases hr : readSection cmd.fields s with
      | error e => exact aget_defaults hn hf
      | ok c => exact absurd (aget_readSection hr hn).1 hw
    | given wc _ s _ h hw hs =>
      dsimp only [commandConfig]; rw [h]
      dsimp only
      obtain ⟨c, hc⟩ := readSection_of_wf hw
      rw [hc]
      exact (aget_readSection hc hn).2 f hf o hs

/-! ### What the file says is used or reported -/

/-- The path of the registry in the file is used whenever it can be read. -/
theorem file_path_used_partial (url : String → Option String) (cmd : Command) (hc : cmd.usesRegistry = true) (args : Args)
    (h : args.registry.registry = none) (wc : File) (p : Chars) (v : VPath) (hp : wc.registry.path = some p)
    (hv : VPath.parse p = some v) : (loadConfig url cmd args (some wc)).registry.registry = v := by
  rw [(registry_settings url cmd hc args (some wc)).1, h]
  dsimp only [Option.map_some, Option.getD_some]
  rw [hp, Option.bind_some, hv]
  rfl

/-- A path that cannot be read is replaced by the default registry, and a policy that cannot be is left out: there is no error. -/
theorem file_used_refuted (url : String → Option String) (args : Args) (h : args.registry.registry = none)
    (h' : args.policy.policies = none) :
    let wc : File := { registry := { path := some [] }, policy := { paths := some [[]] } }
    (loadConfig url liveCheck args (some wc)).registry.registry = EffRegistry.default.registry ∧
    (loadConfig url liveCheck args (some wc)).policy.policies = [] := by
  dsimp only
  rw [(registry_settings url liveCheck rfl args _).1, (policy_settings url liveCheck rfl rfl args _).1, h, h']
  exact ⟨rfl, rfl⟩

/-- One setting of the wrong type makes all other settings of the section have no effect: here a port that is a text makes the
command fail on violations although the file says it should never fail. -/
theorem section_used_refuted (url : String → Option String) :
    ∃ wc : File, aget "live-check" wc.commands = some (.table [("fail_on", .str "none"), ("otlp", .table [("grpc_port", .str "4317")])]) ∧
      aget "fail_on" (loadConfig url liveCheck {} (some wc)).config = some (some (.str "violation")) :=
  ⟨{ commands := [("live-check", .table [("fail_on", .str "none"), ("otlp", .table [("grpc_port", .str "4317")])])] }, rfl, rfl⟩

/-! ### Overrides of schema URLs -/

/-- The overrides in effect: for each schema URL the last entry that can be read and has it. -/
theorem overrides_iff (url : String → Option String) (entries : List (String × Chars)) (u : String) :
    aget u (layerOverrides url entries []) =
      Verif.Gen.lastGiven (entries.map fun e => if url e.1 = some u then VPath.parse e.2 else none) := by
  have key : ∀ m, aget u (layerOverrides url entries m) =
      (Verif.Gen.lastGiven (entries.map fun e => if url e.1 = some u then VPath.parse e.2 else none)).or (aget u m) := by
    induction entries with
    | nil => intro m; rfl
    | cons e r ih =>
      intro m
      obtain ⟨x, p⟩ := e
      have hl : ∀ (o : Option VPath) (l : List (Option VPath)), Verif.Gen.lastGiven (o :: l) = (Verif.Gen.lastGiven l).or o := by
        intro o l
        unfold Verif.Gen.lastGiven
        rw [List.reverse_cons, List.findSome?_append]
        cases o <;> simp [List.findSome?]
      rw [List.map_cons, hl]
      unfold layerOverrides
      cases hu : url x with
      | none => dsimp only; rw [ih]; simp
      | some su =>
        dsimp only
        cases hv : VPath.parse p with
        | none => dsimp only; rw [ih]; simp
        | some v =>
          dsimp only
          rw [ih, aget_bins]
          by_cases hs : su = u
          · subst hs; simp [Option.or_assoc]
          · rw [if_neg (Ne.symm hs), if_neg (by simpa using hs)]; simp
  rw [key]
  simp [aget]

/-! ### The hypotheses are met -/

example : (liveCheck.fields.map Field.name).Nodup ∧ liveCheck.fields.all Field.cli = true := by decide +kernel
example : (infer.fields.map Field.name).Nodup := by decide +kernel
example : discover (fun d => d = ["repo", "home"]) ["sub", "repo", "home"] = some [".weaver.toml", "repo", "home"] := by decide
example (url : String → Option String) :
    aget "otlp_grpc_port" (loadConfig url liveCheck { settings := [("fail_on", .str "none")] }
      (some { commands := [("live-check", .table [("otlp", .table [("grpc_port", .int 99)])])] })).config = some (some (.int 99)) := rfl
example (url : String → Option String) :
    (loadConfig url liveCheck { registry := { v2 := some false } } (some { registry := { v2 := some true, path := some "my".toList } })).registry =
      { EffRegistry.default with registry := .localFolder "my".toList } := by
  have : VPath.parse "my".toList = some (.localFolder "my".toList) := by decide +kernel
  simp only [loadConfig, liveCheck, EffRegistry.layer, RegistryArgs.applyTo, this]
  rfl

end Verif.Cli
