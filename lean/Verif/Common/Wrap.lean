import Verif.Common.Model
import Verif.Util.Str
/-
Model of errors that carry errors of other crates, and of the diagnostic messages they become:
crates/weaver_resolver/src/error.rs:363-417, crates/weaver_semconv_gen/src/lib.rs:205-237, src/weaver.rs:548-576 and
`format_errors` (crates/weaver_common/src/error.rs:43-50).
-/
namespace Verif.Common.Wrap
open Verif.Util

/-- An error of a crate: a single one with its text and severity, a compound one, or one that carries an error of another
crate and has its text (`#[error(transparent)]`). `keeps` tells whether it has its severity too
(`#[diagnostic(transparent)]`). -/
inductive WErr where
  | leaf (text : Chars) (sev : Option Severity)
  | compound (es : List WErr)
  | wrap (keeps : Bool) (e : WErr)

/-- `join("\n\n")`. -/
def joinBlank : List Chars → Chars
  | [] => []
  | [a] => a
  | a :: b :: l => a ++ ['\n', '\n'] ++ joinBlank (b :: l)

mutual
/-- `to_string`: `format_errors` for compound errors. -/
def WErr.display : WErr → Chars
  | .leaf t _ => t
  | .compound es => joinBlank (WErr.displays es)
  | .wrap _ e => e.display
def WErr.displays : List WErr → List Chars
  | [] => []
  | e :: es => e.display :: WErr.displays es
end

/-- `Diagnostic::severity`. -/
def WErr.severity : WErr → Option Severity
  | .leaf _ s => s
  | .compound _ => none
  | .wrap keeps e => if keeps then e.severity else none

/-- `DiagnosticMessage::new` (diagnostic.rs:87-125), not in future mode: the text and the severity. -/
def WErr.message (e : WErr) : Chars × Option Severity := (e.display, e.severity)

mutual
/-- resolver error.rs:391-404 `From<Error>`: compound errors of the crate are expanded, carried ones are not. -/
def resolverMsgs : WErr → List (Chars × Option Severity)
  | .leaf t s => [(WErr.leaf t s).message]
  | .compound es => resolverMsgsList es
  | .wrap k e => [(WErr.wrap k e).message]
def resolverMsgsList : List WErr → List (Chars × Option Severity)
  | [] => []
  | e :: es => resolverMsgs e ++ resolverMsgsList es
end

mutual
/-- semconv_gen lib.rs:220-237 `From<Error>`: an error of another crate is converted as that crate does it, here like
the resolver (the conversions of semconv and forge are the same but carry none). -/
def snippetMsgs : WErr → List (Chars × Option Severity)
  | .leaf t s => [(WErr.leaf t s).message]
  | .compound es => snippetMsgsList es
  | .wrap _ e => resolverMsgs e
def snippetMsgsList : List WErr → List (Chars × Option Severity)
  | [] => []
  | e :: es => snippetMsgs e ++ snippetMsgsList es
end

/-- src/weaver.rs:570-575 `From<Error>`: one message. -/
def engineMsgs (e : WErr) : List (Chars × Option Severity) := [e.message]

/-! ### Specification -/

mutual
/-- The single errors in an error, in order, with text and severity. -/
def WErr.singles : WErr → List (Chars × Option Severity)
  | .leaf t s => [(t, s)]
  | .compound es => WErr.singlesList es
  | .wrap _ e => e.singles
def WErr.singlesList : List WErr → List (Chars × Option Severity)
  | [] => []
  | e :: es => e.singles ++ WErr.singlesList es
end

mutual
/-- The error carries single errors only, and keeps their severity. -/
def WErr.Plain : WErr → Prop
  | .leaf _ _ => True
  | .compound es => WErr.PlainList es
  | .wrap keeps e => keeps = true ∧ ∃ t s, e = .leaf t s
def WErr.PlainList : List WErr → Prop
  | [] => True
  | e :: es => e.Plain ∧ WErr.PlainList es
end

/-- The text is in the other. -/
def Within (t s : Chars) : Prop := ∃ a b, s = a ++ t ++ b

/-! ### Properties -/

mutual
/-- **C305**: an error that carries single errors only becomes one message for each, with its text and severity, in order. -/
theorem resolverMsgs_partial : (e : WErr) → e.Plain → resolverMsgs e = e.singles
  | .leaf _ _, _ => rfl
  | .compound es, h => by rw [resolverMsgs, WErr.singles]; exact resolverMsgsList_partial es h
  | .wrap keeps e, h => by
    obtain ⟨rfl, t, s, rfl⟩ := h
    rfl
theorem resolverMsgsList_partial : (es : List WErr) → WErr.PlainList es → resolverMsgsList es = WErr.singlesList es
  | [], _ => rfl
  | e :: es, h => by
    rw [resolverMsgsList, WErr.singlesList, resolverMsgs_partial e h.1, resolverMsgsList_partial es h.2]
end

theorem within_trans {a b c : Chars} (h : Within a b) (h' : Within b c) : Within a c := by
  obtain ⟨x, y, rfl⟩ := h
  obtain ⟨u, v, rfl⟩ := h'
  exact ⟨u ++ x, y ++ v, by simp⟩

theorem within_join {t : Chars} : ∀ {l : List Chars}, t ∈ l → Within t (joinBlank l)
  | [a], h => ⟨[], [], by simp [joinBlank, List.mem_singleton.1 h]⟩
  | a :: b :: l, h => by
    rcases List.mem_cons.1 h with rfl | h
    · exact ⟨[], ['\n', '\n'] ++ joinBlank (b :: l), by simp [joinBlank]⟩
    · obtain ⟨x, y, e⟩ := within_join h
      exact ⟨a ++ ['\n', '\n'] ++ x, y, by simp [joinBlank, e]⟩

mutual
/-- **C305**: the text of an error has the texts of all single errors in it, however they are nested and carried. -/
theorem display_all : (e : WErr) → ∀ p ∈ e.singles, Within p.1 e.display
  | .leaf t s, p, hp => by
    simp only [WErr.singles, List.mem_singleton] at hp
    subst hp
    exact ⟨[], [], by simp [WErr.display]⟩
  | .compound es, p, hp => by
    rw [WErr.display]
    obtain ⟨d, hd, hw⟩ := displays_all es p (by rwa [WErr.singles] at hp)
    exact within_trans hw (within_join hd)
  | .wrap _ e, p, hp => by
    rw [WErr.display]
    exact display_all e p (by rwa [WErr.singles] at hp)
theorem displays_all : (es : List WErr) → ∀ p ∈ WErr.singlesList es, ∃ d ∈ WErr.displays es, Within p.1 d
  | [], p, hp => absurd hp (by simp [WErr.singlesList])
  | e :: es, p, hp => by
    rw [WErr.singlesList, List.mem_append] at hp
    rcases hp with hp | hp
    · exact ⟨e.display, by simp [WErr.displays], display_all e p hp⟩
    · obtain ⟨d, hd, hw⟩ := displays_all es p hp
      exact ⟨d, by simp [WErr.displays, hd], hw⟩
end

mutual
/-- **C305**: no conversion loses the text of a single error. -/
theorem resolverMsgs_text : (e : WErr) → ∀ p ∈ e.singles, ∃ m ∈ resolverMsgs e, Within p.1 m.1
  | .leaf t s, p, hp => ⟨_, by simp only [resolverMsgs, List.mem_singleton]; rfl, display_all _ p hp⟩
  | .compound es, p, hp => by
    rw [resolverMsgs]
    exact resolverMsgsList_text es p (by rwa [WErr.singles] at hp)
  | .wrap k e, p, hp => ⟨_, by simp only [resolverMsgs, List.mem_singleton]; rfl, display_all _ p hp⟩
theorem resolverMsgsList_text : (es : List WErr) → ∀ p ∈ WErr.singlesList es, ∃ m ∈ resolverMsgsList es, Within p.1 m.1
  | [], p, hp => absurd hp (by simp [WErr.singlesList])
  | e :: es, p, hp => by
    rw [WErr.singlesList, List.mem_append] at hp
    rcases hp with hp | hp
    · obtain ⟨m, hm, hw⟩ := resolverMsgs_text e p hp
      exact ⟨m, by simp [resolverMsgsList, hm], hw⟩
    · obtain ⟨m, hm, hw⟩ := resolverMsgsList_text es p hp
      exact ⟨m, by simp [resolverMsgsList, hm], hw⟩
end

mutual
theorem snippetMsgs_text : (e : WErr) → ∀ p ∈ e.singles, ∃ m ∈ snippetMsgs e, Within p.1 m.1
  | .leaf t s, p, hp => ⟨_, by simp only [snippetMsgs, List.mem_singleton]; rfl, display_all _ p hp⟩
  | .compound es, p, hp => by
    rw [snippetMsgs]
    exact snippetMsgsList_text es p (by rwa [WErr.singles] at hp)
  | .wrap k e, p, hp => by
    rw [snippetMsgs]
    exact resolverMsgs_text e p (by rwa [WErr.singles] at hp)
theorem snippetMsgsList_text : (es : List WErr) → ∀ p ∈ WErr.singlesList es, ∃ m ∈ snippetMsgsList es, Within p.1 m.1
  | [], p, hp => absurd hp (by simp [WErr.singlesList])
  | e :: es, p, hp => by
    rw [WErr.singlesList, List.mem_append] at hp
    rcases hp with hp | hp
    · obtain ⟨m, hm, hw⟩ := snippetMsgs_text e p hp
      exact ⟨m, by simp [snippetMsgsList, hm], hw⟩
    · obtain ⟨m, hm, hw⟩ := snippetMsgsList_text es p hp
      exact ⟨m, by simp [snippetMsgsList, hm], hw⟩
end

theorem engineMsgs_text (e : WErr) : ∀ p ∈ e.singles, ∃ m ∈ engineMsgs e, Within p.1 m.1 :=
  fun p hp => ⟨_, List.mem_singleton.2 rfl, display_all e p hp⟩

/-- Errors of a semantic convention file that a resolver error carries: two that are found together. -/
def twoErrors : WErr := .compound [.leaf ['a'] (some .error), .leaf ['b'] (some .warning)]

/-- **C305**: errors that are carried together are one message: of the resolver, and of the commands, whatever they are. -/
theorem one_message_refuted : resolverMsgs (.wrap true twoErrors) = [("a\n\nb".toList, none)] ∧
    (WErr.wrap true twoErrors).singles.length = 2 ∧ ∀ e, (engineMsgs e).length = 1 :=
  ⟨by decide, by decide, fun _ => rfl⟩

/-- **C305**: a warning that a command's error carries is not a warning any more. -/
theorem severity_lost_refuted (t : Chars) : engineMsgs (.wrap false (.leaf t (some .warning))) = [(t, none)] := rfl

/-- **C305**: snippets expand the errors that they carry. -/
theorem snippet_expands : snippetMsgs (.wrap true twoErrors) = twoErrors.singles := by decide

example : (WErr.compound [.leaf ['a'] none, .wrap true (.leaf ['b'] none)]).Plain :=
  ⟨trivial, ⟨rfl, _, _, rfl⟩, trivial⟩

end Verif.Common.Wrap
