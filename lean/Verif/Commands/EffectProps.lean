import Verif.Commands.Props

/-!
# Errors, artifacts and messages of the commands; packages
-/

namespace Verif.Commands
open Verif.Util Verif.Policy

/-! ### C231: errors make a command fail -/

/-- What holds: with an error about the registry these commands do not exit with 0. Missing: `diff`, `mcp` and `serve`, which
are below; and `check`, which is C146. -/
theorem errors_fail_partial {env : Env} (hf : Fair env) (cfg : Config) (main : Option (Repo × List Msg)) (rendered : Bool)
    {repo : Repo} {fetched : List Msg} {v : Bool} {t : Val} {m : Msg} (he : IsError env.future m) :
    (Complete cfg main repo fetched v t → Finds env cfg repo fetched t true m →
      (∀ out, (process env.future rendered (generate env cfg main out).2).1 ≠ 0) ∧
      (∀ out, (process env.future rendered (resolve env cfg main out).2).1 ≠ 0) ∧
      (∀ prepare run, (process env.future rendered (live env cfg main prepare run).2).1 ≠ 0)) ∧
    (Complete cfg main repo fetched v t → Finds env cfg repo fetched t false m →
      ∀ run, (process env.future rendered (emit env cfg main run).2).1 ≠ 0) ∧
    (Complete (noPolicy cfg) main repo fetched v t → Finds env (noPolicy cfg) repo fetched t false m →
      (∀ out, (process env.future rendered (stats env cfg main out).2).1 ≠ 0) ∧
      ∀ pattern terminal ui, (process env.future rendered (search env cfg main pattern terminal ui).2).1 ≠ 0) := by
  refine ⟨fun hc hm => ⟨fun out h => ?_, fun out h => ?_, fun p r h => ?_⟩, fun hc hm r h => ?_, fun hc hm => ⟨fun out h => ?_, fun p r u h => ?_⟩⟩
  · obtain ⟨_, _, _, _, hc', -, -, hx⟩ := (generate_passes hf cfg main out rendered).1 h
    obtain ⟨rfl, rfl, rfl, rfl⟩ := complete_unique hc hc'
    rcases hx with hx | ⟨-, hx⟩
    · exact hx m hm
    · exact hx m hm he
  · obtain ⟨hfut, _, _, _, _, hc', -, -, hx⟩ := (resolve_passes hf cfg main out rendered).1 h
    obtain ⟨rfl, rfl, rfl, rfl⟩ := complete_unique hc hc'
    rcases hx with hx | ⟨-, hx⟩
    · exact hx m hm
    · rcases he with he | he
      · rw [hfut] at he; cases he
      · exact he (hx m hm)
  · obtain ⟨-, _, _, _, _, hc', -, hx⟩ := (live_passes hf cfg main p r rendered).1 h
    obtain ⟨rfl, rfl, rfl, rfl⟩ := complete_unique hc hc'
    exact hx m hm he
  · obtain ⟨_, _, _, _, hc', -, hx⟩ := (emit_passes hf cfg main r rendered).1 h
    obtain ⟨rfl, rfl, rfl, rfl⟩ := complete_unique hc hc'
    exact hx m hm he
  · obtain ⟨_, _, _, _, hc', -, -, hx⟩ := (stats_passes hf cfg main out rendered).1 h
    obtain ⟨rfl, rfl, rfl, rfl⟩ := complete_unique hc hc'
    exact hx m hm he
  · obtain ⟨_, _, _, hc', -, hx⟩ := (search_passes hf cfg main p r u rendered).1 h
    obtain ⟨rfl, rfl, rfl, rfl⟩ := complete_unique hc hc'
    rcases hx with hx | ⟨-, hx⟩
    · exact hx m hm
    · exact hx m hm he

/-- The exit code of `registry diff`. The messages of fetching the registries are of no account. -/
theorem diff_passes {env : Env} (hf : Fair env) (cfg : Config) (main baseline : Option (Repo × List Msg)) (delta : Val → Val → Val)
    (out : Output) (rendered : Bool) :
    (process env.future rendered (diff env cfg main baseline delta out).2).1 = 0 ↔
      ∃ repo fetched old fetched' v t b, Complete (noPolicy cfg) main repo fetched v t ∧ Complete (noPolicy cfg) baseline old fetched' v b ∧
        out.prepare = none ∧ (out.run (delta t b)).2 = none ∧
        ∀ m, Said env (noPolicy cfg) repo m ∨ Said env (noPolicy cfg) old m → ¬IsError env.future m := by
  unfold diff
  cases main with
  | none =>
    dsimp only
    rw [process_fatal]
    refine iff_of_false (by decide) ?_
    rintro ⟨_, _, _, _, _, _, _, ⟨h, -⟩, -⟩
    cases h
  | some x =>
    obtain ⟨repo, fetched⟩ := x
    cases baseline with
    | none =>
      dsimp only
      rw [process_fatal]
      refine iff_of_false (by decide) ?_
      rintro ⟨_, _, _, _, _, _, _, -, ⟨h, -⟩, -⟩
      cases h
    | some y =>
      obtain ⟨old, fetched'⟩ := y
      dsimp only
      generalize hx : repo.loadAndResolve env (noPolicy cfg) [] = x
      obtain ⟨x1, d1⟩ := x
      cases x1 with
      | error e =>
        have h1 : (repo.loadAndResolve env (noPolicy cfg) []).1 = .error e := by rw [hx]
        obtain ⟨z, rfl⟩ := loadAndResolve_error h1
        dsimp only
        rw [process_fatal]
        refine iff_of_false (by decide) ?_
        rintro ⟨_, _, _, _, v, t, _, ⟨h, hr, o, ho⟩, -⟩
        cases h
        have := loadAndResolve_ok (env := env) (diag := []) (r := ⟨v, t, repo.path, o⟩) |>.2 ⟨hr, rfl, ho⟩
        rw [h1] at this
        cases this
      | ok r =>
        have h1 : (repo.loadAndResolve env (noPolicy cfg) []).1 = .ok r := by rw [hx]
        obtain ⟨hr, -, ho⟩ := loadAndResolve_ok.1 h1
        have hs := loadAndResolve_said hf h1
        rw [hx] at hs
        dsimp only at hs ⊢
        generalize hy : old.loadAndResolve env (noPolicy cfg) d1 = y
        obtain ⟨y1, d2⟩ := y
        cases y1 with
        | error e =>
          have h2 : (old.loadAndResolve env (noPolicy cfg) d1).1 = .error e := by rw [hy]
          obtain ⟨z, rfl⟩ := loadAndResolve_error h2
          dsimp only
          rw [process_fatal]
          refine iff_of_false (by decide) ?_
          rintro ⟨_, _, _, _, v, _, t, -, ⟨h, hr, o, ho⟩, -⟩
          cases h
          have := loadAndResolve_ok (env := env) (diag := d1) (r := ⟨v, t, old.path, o⟩) |>.2 ⟨hr, rfl, ho⟩
          rw [h2] at this
          cases this
        | ok b =>
          have h2 : (old.loadAndResolve env (noPolicy cfg) d1).1 = .ok b := by rw [hy]
          obtain ⟨hrb, -, hob⟩ := loadAndResolve_ok.1 h2
          have hs2 := loadAndResolve_said hf h2
          rw [hy] at hs2
          dsimp only at hs2 ⊢
          have hd : ∀ m, m ∈ d2 ↔ Said env (noPolicy cfg) repo m ∨ Said env (noPolicy cfg) old m := by
            intro m
            rw [hs2, hs]
            simp
          by_cases hv : r.isV2 = b.isV2
          · rw [if_pos hv]
            have hback : ∀ {repo' fetched0 old' fetched1 v t u}, Complete (noPolicy cfg) (some (repo, fetched)) repo' fetched0 v t →
                Complete (noPolicy cfg) (some (old, fetched')) old' fetched1 v u →
                repo' = repo ∧ old' = old ∧ t = r.template ∧ u = b.template := by
              intro repo' f0 old' f1 v t u hc1 hc2
              obtain ⟨e1, _, _, e2⟩ := complete_unique hc1 ⟨rfl, hr, _, ho⟩
              obtain ⟨e3, _, _, e4⟩ := complete_unique hc2 ⟨rfl, hrb, _, hob⟩
              exact ⟨e1, e3, e2, e4⟩
            cases hb : bad env.future d2 with
            | true =>
              rw [if_pos rfl]
              dsimp only
              rw [bad_one hb]
              refine iff_of_false (by decide) ?_
              rintro ⟨_, _, _, _, _, _, _, hc1, hc2, -, -, h3⟩
              obtain ⟨rfl, rfl, -, -⟩ := hback hc1 hc2
              obtain ⟨m, hm, he⟩ := (bad_iff _ _).1 hb
              exact h3 m ((hd m).1 hm) he
            | false =>
              rw [if_neg (by decide), printAll_zero]
              constructor
              · rintro ⟨h3, h4⟩
                refine ⟨repo, fetched, old, fetched', _, _, _, ⟨rfl, hr, _, ho⟩, ⟨rfl, ?_, _, hob⟩, h3, h4, fun m hm => not_bad hb ((hd m).2 hm)⟩
                rw [hv]; exact hrb
              · rintro ⟨_, _, _, _, _, _, _, hc1, hc2, h3, h4, -⟩
                obtain ⟨-, -, rfl, rfl⟩ := hback hc1 hc2
                exact ⟨h3, h4⟩
          · rw [if_neg hv]
            dsimp only
            rw [process_fatal]
            refine iff_of_false (by decide) ?_
            rintro ⟨_, _, _, _, v, _, _, hc1, hc2, -⟩
            obtain ⟨-, -, h3, -⟩ := complete_unique hc1 ⟨rfl, hr, _, ho⟩
            obtain ⟨-, -, h4, -⟩ := complete_unique hc2 ⟨rfl, hrb, _, hob⟩
            exact hv (h3.symm.trans h4)

/-- A registry without policies, with a message when it is fetched. -/
def plainRepo (said : List Msg) : Repo where
  path := "registry"
  engine := none
  load := some (.resolved, said)
  resolve := some (.v1, [])
  template1 := some (.atom "t")
  toV2 := some (.atom "t2", [])
  template2 := none

def exOut : Output := ⟨none, fun _ => (["file"], none)⟩

theorem plain_complete (fetched said : List Msg) :
    Complete ⟨false, true⟩ (some (plainRepo said, fetched)) (plainRepo said) fetched false (.atom "t") :=
  ⟨rfl, .v1 rfl rfl rfl rfl, none, .skipped rfl⟩

/-- The hypotheses of `errors_fail_partial` can be met. -/
example : IsError exEnv.future (.other "x" none) ∧
    Finds exEnv ⟨false, true⟩ (plainRepo [.other "x" none]) [] (.atom "t") false (.other "x" none) ∧
    Complete ⟨false, true⟩ (some (plainRepo [.other "x" none], [])) (plainRepo [.other "x" none]) [] false (.atom "t") :=
  ⟨.inr (fun h => by rcases h with h | h <;> cases h), .said (.load rfl (List.mem_singleton.2 rfl)), plain_complete _ _⟩

/-- The full claim for `diff`, `mcp` and `serve`: with an error about the registry they do not exit with 0. -/
def ErrorsFail (exit : Env → Config → Option (Repo × List Msg) → Nat) : Prop :=
  ∀ env, Fair env → ∀ cfg main repo fetched v t m, IsError env.future m → Complete (noPolicy cfg) main repo fetched v t →
    Finds env (noPolicy cfg) repo fetched t false m → exit env cfg main ≠ 0

/-- It is false for `diff`: a deprecated manifest is an error in the future mode, but `diff` does not see it. -/
theorem diff_errors_refuted : ¬ErrorsFail fun env cfg main =>
    (process env.future true (diff env cfg main (some (plainRepo [], [])) (fun a _ => a) exOut).2).1 := by
  intro h
  refine h { exEnv with future := true } exEnv_fair ⟨false, true⟩ (some (plainRepo [], [.other "deprecated manifest" (some .warning)]))
    (plainRepo []) _ false (.atom "t") _ (.inl rfl) (plain_complete _ _) (.fetched (List.mem_singleton.2 rfl)) ?_
  rfl

/-- It is false for `mcp`: an error of loading does not stop it. -/
theorem mcp_errors_refuted : ¬ErrorsFail fun env cfg main =>
    (process env.future true (mcp env cfg main some (fun _ => none)).2).1 := by
  intro h
  refine h exEnv exEnv_fair ⟨false, true⟩ (some (plainRepo [.other "x" none], [])) (plainRepo [.other "x" none]) _ false (.atom "t")
    (.other "x" none) (.inr (fun h => by rcases h with h | h <;> cases h)) (plain_complete _ _)
    (.said (.load rfl (List.mem_singleton.2 rfl))) ?_
  rfl

/-- It is false for `serve`. -/
theorem serve_errors_refuted : ¬ErrorsFail fun env cfg main =>
    (process env.future true (serve env (noPolicy cfg) main some (fun _ => none)).2).1 := by
  intro h
  refine h exEnv exEnv_fair ⟨false, true⟩ (some (plainRepo [.other "x" none], [])) (plainRepo [.other "x" none]) _ false (.atom "t")
    (.other "x" none) (.inr (fun h => by rcases h with h | h <;> cases h)) (plain_complete _ _)
    (.said (.load rfl (List.mem_singleton.2 rfl))) ?_
  rfl

theorem served_exit {env : Env} (hf : Fair env) (cfg : Config) (main : Option (Repo × List Msg)) (again : Val → Option Val)
    (run : Val → Option String) (rendered : Bool) :
    (process env.future rendered (serve env cfg main again run).2).1 = 0 ↔
      ∃ repo fetched v t u, Complete cfg main repo fetched v t ∧ ((v = true ∧ u = t) ∨ (v = false ∧ again t = some u)) ∧ run u = none := by
  unfold serve
  rcases loadMain_cases hf cfg main with ⟨x, h, hn⟩ | ⟨r, diag, repo, fetched, h, hc, -, -⟩
  · rw [h]
    dsimp only
    rw [process_fatal]
    refine iff_of_false (by decide) ?_
    rintro ⟨repo, fetched, v, t, _, h, -⟩
    exact hn ⟨_, _, _, _, h⟩
  · rw [h]
    dsimp only
    have hiff : (∃ repo fetched v t u, Complete cfg main repo fetched v t ∧ ((v = true ∧ u = t) ∨ (v = false ∧ again t = some u)) ∧ run u = none) ↔
        ∃ u, asV2 again r = some u ∧ run u = none := by
      unfold asV2
      constructor
      · rintro ⟨_, _, _, _, u, h1, h2, h3⟩
        obtain ⟨-, -, rfl, rfl⟩ := complete_unique hc h1
        refine ⟨u, ?_, h3⟩
        rcases h2 with ⟨hv, rfl⟩ | ⟨hv, h2⟩ <;> simp [hv]
        exact h2
      · rintro ⟨u, h2, h3⟩
        refine ⟨_, _, _, _, u, hc, ?_, h3⟩
        cases hv : r.isV2 with
        | true => rw [hv] at h2; simp at h2; exact .inl ⟨rfl, h2.symm⟩
        | false => rw [hv] at h2; simp at h2; exact .inr ⟨rfl, h2⟩
    rw [hiff]
    cases ha : asV2 again r with
    | none => simp [process_fatal]
    | some u =>
      dsimp only
      cases hr : run u with
      | some e => simp [process_fatal, hr]
      | none => simp [process, hr]

/-- What holds for `mcp` and `serve`: the exit code is 0 exactly if the registry is there in the form of version 2 and the
server ends without an error. Messages are of no account. -/
theorem servers_pass_partial {env : Env} (hf : Fair env) (cfg : Config) (main : Option (Repo × List Msg)) (again : Val → Option Val)
    (run : Val → Option String) (rendered : Bool) :
    ((process env.future rendered (serve env cfg main again run).2).1 = 0 ↔
      ∃ repo fetched v t u, Complete cfg main repo fetched v t ∧ ((v = true ∧ u = t) ∨ (v = false ∧ again t = some u)) ∧ run u = none) ∧
    ((process env.future rendered (mcp env cfg main again run).2).1 = 0 ↔
      ∃ repo fetched v t u, Complete (noPolicy cfg) main repo fetched v t ∧ ((v = true ∧ u = t) ∨ (v = false ∧ again t = some u)) ∧
        run u = none) :=
  ⟨served_exit hf cfg main again run rendered, served_exit hf (noPolicy cfg) main again run rendered⟩

/-! ### C232: what is written in spite of errors -/

/-- `stats` and `diff` write nothing if there is an error about the registry, as far as they see it. -/
theorem reports_clean_partial {env : Env} (hf : Fair env) (cfg : Config) (main : Option (Repo × List Msg)) (out : Output) :
    ((stats env cfg main out).1 ≠ [] → ∃ repo fetched v t, Complete (noPolicy cfg) main repo fetched v t ∧
      (stats env cfg main out).1 = (out.run t).1 ∧ ∀ m, Finds env (noPolicy cfg) repo fetched t false m → ¬IsError env.future m) ∧
    ∀ old fetched' delta, (diff env cfg main (some (old, fetched')) delta out).1 ≠ [] →
      ∃ repo fetched v t b, Complete (noPolicy cfg) main repo fetched v t ∧ Complete (noPolicy cfg) (some (old, fetched')) old fetched' v b ∧
        ∀ m, Said env (noPolicy cfg) repo m ∨ Said env (noPolicy cfg) old m → ¬IsError env.future m := by
  constructor
  · unfold stats
    rcases loadMain_cases hf (noPolicy cfg) main with ⟨x, h, hn⟩ | ⟨r, diag, repo, fetched, h, hc, hm, -⟩
    · rw [h]; intro h; exact absurd rfl h
    · rw [h]
      dsimp only
      cases hb : bad env.future diag with
      | true => intro h; exact absurd rfl h
      | false =>
        rw [if_neg (by decide)]
        unfold printAll
        cases out.prepare with
        | some e => intro h; exact absurd rfl h
        | none =>
          intro _
          refine ⟨repo, fetched, _, _, hc, ?_, fun m hm' => not_bad hb ((hm m).2 hm')⟩
          dsimp only
          generalize out.run r.template = w
          obtain ⟨acts, e⟩ := w
          cases e <;> rfl
  · intro old fetched' delta
    unfold diff
    cases main with
    | none => intro h; exact absurd rfl h
    | some x =>
      obtain ⟨repo, fetched⟩ := x
      dsimp only
      generalize hx : repo.loadAndResolve env (noPolicy cfg) [] = x
      obtain ⟨x1, d1⟩ := x
      cases x1 with
      | error e => intro h; exact absurd rfl h
      | ok r =>
        have h1 : (repo.loadAndResolve env (noPolicy cfg) []).1 = .ok r := by rw [hx]
        obtain ⟨hr, -, ho⟩ := loadAndResolve_ok.1 h1
        have hs := loadAndResolve_said hf h1
        rw [hx] at hs
        dsimp only at hs ⊢
        generalize hy : old.loadAndResolve env (noPolicy cfg) d1 = y
        obtain ⟨y1, d2⟩ := y
        cases y1 with
        | error e => intro h; exact absurd rfl h
        | ok b =>
          have h2 : (old.loadAndResolve env (noPolicy cfg) d1).1 = .ok b := by rw [hy]
          obtain ⟨hrb, -, hob⟩ := loadAndResolve_ok.1 h2
          have hs2 := loadAndResolve_said hf h2
          rw [hy] at hs2
          dsimp only at hs2 ⊢
          by_cases hv : r.isV2 = b.isV2
          · rw [if_pos hv]
            cases hb : bad env.future d2 with
            | true => intro h; exact absurd rfl h
            | false =>
              intro _
              refine ⟨repo, fetched, _, _, _, ⟨rfl, hr, _, ho⟩, ⟨rfl, hv ▸ hrb, _, hob⟩, fun m hm => not_bad hb ?_⟩
              rw [hs2, hs]
              simpa using hm
          · rw [if_neg hv]; intro h; exact absurd rfl h

/-- The full claim for the others: nothing is written if there is an error about the registry. -/
def WritesClean (acts : Env → Config → Option (Repo × List Msg) → List String) : Prop :=
  ∀ env, Fair env → ∀ cfg main repo fetched v t m, IsError env.future m → Complete cfg main repo fetched v t →
    Finds env cfg repo fetched t false m → acts env cfg main = []

/-- It is false for `generate`: with an error the artifacts are written, and then the command fails. -/
theorem generate_writes_refuted : ¬WritesClean fun env cfg main => (generate env cfg main exOut).1 := by
  intro h
  have := h exEnv exEnv_fair ⟨false, true⟩ (some (plainRepo [.other "x" none], [])) (plainRepo [.other "x" none]) _ false (.atom "t")
    (.other "x" none) (.inr (fun h => by rcases h with h | h <;> cases h)) (plain_complete _ _)
    (.said (.load rfl (List.mem_singleton.2 rfl)))
  cases this

/-- It is false for `emit`: the telemetry is sent before the errors are looked at. -/
theorem emit_writes_refuted : ¬WritesClean fun env cfg main => (emit env cfg main (fun _ => (["span"], none))).1 := by
  intro h
  have := h exEnv exEnv_fair ⟨false, true⟩ (some (plainRepo [.other "x" none], [])) (plainRepo [.other "x" none]) _ false (.atom "t")
    (.other "x" none) (.inr (fun h => by rcases h with h | h <;> cases h)) (plain_complete _ _)
    (.said (.load rfl (List.mem_singleton.2 rfl)))
  cases this

/-- What `generate` writes: the artifacts of the registry if it is complete and the output can be prepared, whatever the
messages are; otherwise nothing. -/
theorem generate_writes {env : Env} (hf : Fair env) (cfg : Config) (main : Option (Repo × List Msg)) (out : Output) :
    ((generate env cfg main out).1 = [] ∧ (out.prepare ≠ none ∨ ¬∃ repo fetched v t, Complete cfg main repo fetched v t)) ∨
    (out.prepare = none ∧ ∃ repo fetched v t, Complete cfg main repo fetched v t ∧ (generate env cfg main out).1 = (out.run t).1) := by
  unfold generate
  rcases loadMain_cases hf cfg main with ⟨x, h, hn⟩ | ⟨r, diag, repo, fetched, h, hc, -, -⟩
  · rw [h]; exact .inl ⟨rfl, .inr hn⟩
  · rw [h]
    dsimp only
    cases hp : out.prepare with
    | some e => exact .inl ⟨rfl, .inl (by simp)⟩
    | none =>
      refine .inr ⟨rfl, repo, fetched, _, _, hc, ?_⟩
      dsimp only
      unfold generateAll
      generalize out.run r.template = w
      obtain ⟨acts, e⟩ := w
      cases e <;> rfl

/-! ### C233: which messages are shown -/

/-- If the registry is complete and the output can be made then `generate`, `emit` and `live-check` show exactly the messages
about the registry. Missing: the output fails, and `stats` and `diff`, which are below. -/
theorem messages_shown_partial {env : Env} (hf : Fair env) {cfg : Config} {main : Option (Repo × List Msg)} {repo : Repo}
    {fetched : List Msg} {v : Bool} {t : Val} (hc : Complete cfg main repo fetched v t) (m : Msg) :
    (∀ out : Output, out.prepare = none → (out.run t).2 = none →
      (m ∈ (process env.future true (generate env cfg main out).2).2 ↔ Finds env cfg repo fetched t true m)) ∧
    (∀ run : Val → List String × Option String,
      (m ∈ (process env.future true (emit env cfg main run).2).2 ↔
        Finds env cfg repo fetched t false m ∨ ∃ e, (run t).2 = some e ∧ m = fatal e)) ∧
    (∀ run c, (run t).2 = .ok c →
      (m ∈ (process env.future true (live env cfg main none run).2).2 ↔ Finds env cfg repo fetched t true m)) := by
  rcases loadMain_cases hf cfg main with ⟨x, h, hn⟩ | ⟨r, diag, repo', fetched', h, hc', hm, hm'⟩
  · exact absurd ⟨_, _, _, _, hc⟩ hn
  · obtain ⟨rfl, rfl, rfl, rfl⟩ := complete_unique hc hc'
    refine ⟨fun out hp hr => ?_, fun run => ?_, fun run c hr => ?_⟩
    · unfold generate generateAll
      rw [h, hp]
      dsimp only
      generalize out.run r.template = w at hr ⊢
      obtain ⟨acts, e⟩ := w
      cases hr
      dsimp only
      rw [← hm']
      generalize diag ++ r.afterPolicy env = ms
      by_cases hne : ms = []
      · subst hne; simp [process]
      · rw [if_pos hne]; simp [process]
    · unfold emit
      rw [h]
      dsimp only
      generalize run r.template = w
      obtain ⟨acts, e⟩ := w
      rw [← hm]
      cases e with
      | some e => simp [process, or_comm]
      | none =>
        dsimp only
        split <;> simp [process]
    · unfold live
      rw [h]
      dsimp only
      generalize run r.template = w at hr ⊢
      obtain ⟨acts, e⟩ := w
      cases hr
      dsimp only
      rw [← hm']
      split <;> simp [process]

example : exOut.prepare = none ∧ (exOut.run (.atom "t")).2 = none := ⟨rfl, rfl⟩

/-- The full claim: if the registry is complete then each message about it is shown, if messages can be shown. -/
def MessagesShown (run : Env → Config → Option (Repo × List Msg) → Ran) : Prop :=
  ∀ env, Fair env → ∀ cfg main repo fetched v t m, Complete (noPolicy cfg) main repo fetched v t →
    Finds env (noPolicy cfg) repo fetched t false m → m ∈ (process env.future true (run env cfg main).2).2

/-- It is false for `stats`: warnings are dropped. -/
theorem stats_messages_refuted : ¬MessagesShown fun env cfg main => stats env cfg main exOut := by
  intro h
  have := h exEnv exEnv_fair ⟨false, true⟩ (some (plainRepo [.other "w" (some .warning)], [])) (plainRepo [.other "w" (some .warning)])
    _ false (.atom "t") _ (plain_complete _ _) (.said (.load rfl (List.mem_singleton.2 rfl)))
  cases this

/-- It is false for `diff`. -/
theorem diff_messages_refuted : ¬MessagesShown fun env cfg main => diff env cfg main (some (plainRepo [], [])) (fun a _ => a) exOut := by
  intro h
  have := h exEnv exEnv_fair ⟨false, true⟩ (some (plainRepo [.other "w" (some .warning)], [])) (plainRepo [.other "w" (some .warning)])
    _ false (.atom "t") _ (plain_complete _ _) (.said (.load rfl (List.mem_singleton.2 rfl)))
  cases this

/-- It is false for `generate` if a template fails: then this is the only message, and errors about the registry, which may be
the reason, are lost. -/
theorem generate_messages_refuted : ¬MessagesShown fun env cfg main =>
    generate env (noPolicy cfg) main ⟨none, fun _ => (["file"], some "template")⟩ := by
  intro h
  have := h exEnv exEnv_fair ⟨false, true⟩ (some (plainRepo [.other "x" none], [])) (plainRepo [.other "x" none])
    _ false (.atom "t") _ (plain_complete _ _) (.said (.load rfl (List.mem_singleton.2 rfl)))
  have h2 : (process exEnv.future true (generate exEnv (noPolicy ⟨false, true⟩) (some (plainRepo [.other "x" none], []))
    ⟨none, fun _ => (["file"], some "template")⟩).2).2 = [fatal "template"] := by rfl
  dsimp only at this
  rw [h2] at this
  have := List.mem_singleton.1 this
  simp [fatal] at this

/-! ### C234: policies for the resolved registry -/

/-- The full claim: a command that takes policies fails if there is a finding for the resolved registry. -/
def PoliciesApplied (exit : Env → Config → Option (Repo × List Msg) → Nat) : Prop :=
  ∀ env, Fair env → ∀ cfg main repo fetched v t m, Complete cfg main repo fetched v t → Judged env cfg repo t none m →
    exit env cfg main ≠ 0

/-- A policy that finds something in each resolved registry. -/
def afterRego : Rego where
  package t := some ("data." ++ t)
  eval _ _ _ rule := if rule = "data.after_resolution.deny" then
      some (.arr [.obj [("id", .str "a"), ("level", .str "violation"), ("message", .str "m")]]) else some (.arr [])

def afterRepo : Repo := { plainRepo [] with engine := some { modules := ["after_resolution"], packages := ["data.after_resolution"] } }

def afterEnv : Env := { exEnv with rego := afterRego }

theorem after_complete : Complete ⟨false, false⟩ (some (afterRepo, [])) afterRepo [] false (.atom "t") :=
  ⟨rfl, .v1 rfl rfl rfl rfl, _, .loaded rfl rfl⟩

theorem after_judged : Judged afterEnv ⟨false, false⟩ afterRepo (.atom "t") none
    (.policy (.violation "registry" ⟨"a", none, "m", .violation, none, none⟩)) :=
  .after (e := { modules := ["after_resolution"], packages := ["data.after_resolution"] }) (.loaded rfl rfl)
    (List.mem_singleton.2 rfl)

/-- It is false for `emit` and `serve`: they take policies but do not apply those for the resolved registry. -/
theorem policies_applied_refuted :
    (¬PoliciesApplied fun env cfg main => (process env.future true (emit env cfg main fun _ => (["span"], none)).2).1) ∧
    ¬PoliciesApplied fun env cfg main => (process env.future true (serve env cfg main some fun _ => none).2).1 := by
  constructor
  · intro h
    refine h afterEnv exEnv_fair ⟨false, false⟩ (some (afterRepo, [])) afterRepo [] false (.atom "t") _ after_complete after_judged ?_
    rfl
  · intro h
    refine h afterEnv exEnv_fair ⟨false, false⟩ (some (afterRepo, [])) afterRepo [] false (.atom "t") _ after_complete after_judged ?_
    rfl

/-- What holds: `generate`, `resolve` and `live-check` apply them. Missing: `emit` and `serve`. -/
theorem policies_applied_partial (rendered : Bool) :
    (∀ out, PoliciesApplied fun env cfg main => (process env.future rendered (generate env cfg main out).2).1) ∧
    (∀ out, PoliciesApplied fun env cfg main => (process env.future rendered (resolve env cfg main out).2).1) ∧
    (∀ prepare run, PoliciesApplied fun env cfg main => (process env.future rendered (live env cfg main prepare run).2).1) := by
  have hp : ∀ {env : Env} {cfg : Config} {repo : Repo} {t : Val} {m : Msg}, Judged env cfg repo t none m → IsError env.future m := by
    intro env cfg repo t m h
    cases h <;> exact .inr fun h => h
  refine ⟨fun out env hf cfg main repo fetched v t m hc hj => ?_, fun out env hf cfg main repo fetched v t m hc hj => ?_,
    fun p r env hf cfg main repo fetched v t m hc hj => ?_⟩
  · exact ((errors_fail_partial hf cfg main rendered (hp hj)).1 hc (.judged rfl hj)).1 out
  · exact ((errors_fail_partial hf cfg main rendered (hp hj)).1 hc (.judged rfl hj)).2.1 out
  · exact ((errors_fail_partial hf cfg main rendered (hp hj)).1 hc (.judged rfl hj)).2.2 p r

end Verif.Commands
