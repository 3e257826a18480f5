import Verif.Markdown.Grammar
/-
Properties C30, C72-C76: what updating a markdown file changes.
-/
namespace Verif.Markdown
open Verif.Util

/-! ### How a document is read -/

/-- A directive. -/
inductive Head
  | semconv (a : Args)
  | weaver (a : WArgs)

/-- The line is the directive `h`. -/
def Header (line : Chars) : Head → Prop
  | .semconv a => SemconvLine line a
  | .weaver a => WeaverLine line a

/-- The line ends a snippet with directive `h`. -/
def Trailer : Head → Chars → Prop
  | .semconv _, line => MarkerLine "endsemconv".toList line
  | .weaver _, line => MarkerLine "endweaver".toList line

/-- A line of text, or a snippet: directive, body, end marker (missing only if the document ends first). -/
inductive Block
  | text (line : Chars)
  | snippet (line : Chars) (head : Head) (body : List Chars) (close : Option Chars)

/-- The lines are these blocks. -/
inductive Reading : List Chars → List Block → Prop
  | nil : Reading [] []
  | text {l ls bs} : (∀ h, ¬ Header l h) → Reading ls bs → Reading (l :: ls) (.text l :: bs)
  | closed {l h body t ls bs} : Header l h → (∀ b ∈ body, ¬ Trailer h b) → Trailer h t → Reading ls bs →
      Reading (l :: (body ++ t :: ls)) (.snippet l h body (some t) :: bs)
  | unclosed {l h body} : Header l h → (∀ b ∈ body, ¬ Trailer h b) →
      Reading (l :: body) [.snippet l h body none]

/-- What the generator gives for a directive. -/
def Gen.make {ε : Type} (g : Gen ε) : Head → Except ε Chars
  | .semconv a => g.semconv a
  | .weaver a => g.weaver a

def closing : Option Chars → Chars
  | some t => t ++ ['\n']
  | none => []

/-- What becomes of a block: text stays, and of a snippet all but the body. -/
inductive Rendered {ε : Type} (g : Gen ε) : Block → Chars → Prop
  | text {l} : Rendered g (.text l) (l ++ ['\n'])
  | snippet {l h body close s} : g.make h = .ok s →
      Rendered g (.snippet l h body close) (l ++ ['\n'] ++ s ++ closing close)

/-! ### Lemmas on the loop -/

def kindOf : Head → SnippetType
  | .semconv _ => .semconv
  | .weaver _ => .weaver

theorem header_det {l : Chars} {h h' : Head} (H : Header l h) (H' : Header l h') : h = h' := by
  cases h with
  | semconv a =>
    cases h' with
    | semconv b =>
      have h1 := semconvHeader_iff.2 H
      have h2 := semconvHeader_iff.2 H'
      rw [h1] at h2
      exact congrArg _ (Option.some.inj h2)
    | weaver b => exact absurd H' (headers_disjoint H)
  | weaver a =>
    cases h' with
    | semconv b => exact absurd H (headers_disjoint H')
    | weaver b =>
      have h1 := weaverHeader_iff.2 H
      have h2 := weaverHeader_iff.2 H'
      rw [h1] at h2
      exact congrArg _ (Option.some.inj h2)

theorem header_dec (l : Chars) : (∃ h, Header l h) ∨ ∀ h, ¬ Header l h := by
  cases e : semconvHeader l with
  | some a => exact Or.inl ⟨.semconv a, semconvHeader_iff.1 e⟩
  | none =>
    cases e' : weaverHeader l with
    | some a => exact Or.inl ⟨.weaver a, weaverHeader_iff.1 e'⟩
    | none =>
      refine Or.inr ?_
      intro h H
      cases h with
      | semconv a => rw [semconvHeader_iff.2 H] at e; exact nomatch e
      | weaver a => rw [weaverHeader_iff.2 H] at e'; exact nomatch e'

theorem trailer_dec (h : Head) (l : Chars) : Trailer h l ∨ ¬ Trailer h l := Classical.em _

theorem step_text {ε : Type} (g : Gen ε) {l : Chars} (h : ∀ h, ¬ Header l h) (r : Chars) :
    step g ⟨r, none⟩ l = .ok ⟨r ++ l ++ ['\n'], none⟩ := by
  unfold step
  have h1 : semconvHeader l = none := by
    cases e : semconvHeader l with
    | none => rfl
    | some a => exact absurd (semconvHeader_iff.1 e) (h (.semconv a))
  have h2 : weaverHeader l = none := by
    cases e : weaverHeader l with
    | none => rfl
    | some a => exact absurd (weaverHeader_iff.1 e) (h (.weaver a))
  simp [h1, h2]

theorem step_header {ε : Type} (g : Gen ε) {l : Chars} {h : Head} (H : Header l h) (r : Chars) :
    step g ⟨r, none⟩ l = match g.make h with
      | .ok s => .ok ⟨r ++ l ++ ['\n'] ++ s, some (kindOf h)⟩
      | .error e => .error e := by
  unfold step
  cases h with
  | semconv a =>
    simp only [semconvHeader_iff.2 H, Gen.make, kindOf]
    cases g.semconv a <;> rfl
  | weaver a =>
    have h1 : semconvHeader l = none := by
      cases e : semconvHeader l with
      | none => rfl
      | some b => exact absurd H (headers_disjoint (semconvHeader_iff.1 e))
    simp only [h1, weaverHeader_iff.2 H, Gen.make, kindOf]
    cases g.weaver a <;> rfl

theorem step_trailer {ε : Type} (g : Gen ε) {l : Chars} {h : Head} (H : Trailer h l) (r : Chars) :
    step g ⟨r, some (kindOf h)⟩ l = .ok ⟨r ++ l ++ ['\n'], none⟩ := by
  unfold step
  cases h with
  | semconv a => simp only [kindOf, semconvTrailer_iff.2 H, if_true]
  | weaver a => simp only [kindOf, weaverTrailer_iff.2 H, if_true]

theorem step_body {ε : Type} (g : Gen ε) {l : Chars} {h : Head} (H : ¬ Trailer h l) (r : Chars) :
    step g ⟨r, some (kindOf h)⟩ l = .ok ⟨r, some (kindOf h)⟩ := by
  unfold step
  cases h with
  | semconv a => simp only [kindOf]; rw [if_neg (fun e => H (semconvTrailer_iff.1 e))]
  | weaver a => simp only [kindOf]; rw [if_neg (fun e => H (weaverTrailer_iff.1 e))]

theorem loop_body {ε : Type} (g : Gen ε) {h : Head} {body : List Chars} (H : ∀ b ∈ body, ¬ Trailer h b) (r : Chars)
    (rest : List Chars) : loop g ⟨r, some (kindOf h)⟩ (body ++ rest) = loop g ⟨r, some (kindOf h)⟩ rest := by
  induction body with
  | nil => rfl
  | cons b body ih =>
    rw [List.cons_append, loop, step_body g (H b (by simp))]
    exact ih (fun b hb => H b (by simp [hb]))

/-- What the loop makes of the blocks. -/
def renderAll {ε : Type} (g : Gen ε) : List Block → Except ε Chars
  | [] => .ok []
  | .text l :: bs =>
    match renderAll g bs with
    | .ok o => .ok (l ++ ['\n'] ++ o)
    | .error e => .error e
  | .snippet l h _ close :: bs =>
    match g.make h with
    | .error e => .error e
    | .ok s =>
      match renderAll g bs with
      | .ok o => .ok (l ++ ['\n'] ++ s ++ closing close ++ o)
      | .error e => .error e

theorem loop_render {ε : Type} (g : Gen ε) {ls : List Chars} {bs : List Block} (h : Reading ls bs) (r : Chars) :
    match renderAll g bs with
    | .ok o => ∃ ctx, loop g ⟨r, none⟩ ls = .ok ⟨r ++ o, ctx⟩
    | .error e => loop g ⟨r, none⟩ ls = .error e := by
  induction h generalizing r with
  | nil => exact ⟨none, by simp [loop]⟩
  | @text l ls bs ht _ ih =>
    have := ih (r ++ l ++ ['\n'])
    rw [loop, step_text g ht]
    simp only [renderAll]
    cases e : renderAll g bs with
    | ok o => rw [e] at this; obtain ⟨ctx, hc⟩ := this; exact ⟨ctx, by rw [hc]; simp⟩
    | error er => rw [e] at this; exact this
  | @closed l h body t ls bs hh hb ht _ ih =>
    rw [loop, step_header g hh]
    simp only [renderAll]
    cases eg : g.make h with
    | error er => rfl
    | ok s =>
      simp only
      rw [loop_body g hb, loop, step_trailer g ht]
      have := ih (r ++ l ++ ['\n'] ++ s ++ t ++ ['\n'])
      cases e : renderAll g bs with
      | ok o => rw [e] at this; obtain ⟨ctx, hc⟩ := this; exact ⟨ctx, by simp only; rw [hc]; simp [closing]⟩
      | error er => rw [e] at this; exact this
  | @unclosed l h body hh hb =>
    rw [loop, step_header g hh]
    simp only [renderAll]
    cases eg : g.make h with
    | error er => rfl
    | ok s =>
      simp only
      have := loop_body g hb (r ++ l ++ ['\n'] ++ s) []
      rw [List.append_nil] at this
      exact ⟨some (kindOf h), by rw [this, loop]; simp [closing]⟩

theorem renderAll_ok {ε : Type} (g : Gen ε) {bs : List Block} {out : Chars} :
    renderAll g bs = .ok out ↔ ∃ outs, Forall2 (Rendered g) bs outs ∧ out = outs.flatten := by
  induction bs generalizing out with
  | nil =>
    constructor
    · intro h; cases h; exact ⟨[], .nil, rfl⟩
    · rintro ⟨outs, h, rfl⟩; cases h; rfl
  | cons b bs ih =>
    cases b with
    | text l =>
      simp only [renderAll]
      constructor
      · intro h
        split at h
        · rename_i o ho
          obtain ⟨outs, h1, h2⟩ := ih.1 ho
          cases h
          exact ⟨_ :: outs, .cons .text h1, by simp [h2]⟩
        · exact nomatch h
      · rintro ⟨outs, h, rfl⟩
        cases h with
        | cons h1 h2 =>
          cases h1
          rw [ih.2 ⟨_, h2, rfl⟩]
          simp
    | snippet l h body close =>
      simp only [renderAll]
      constructor
      · intro hh
        split at hh
        · exact nomatch hh
        · rename_i s hs
          split at hh
          · rename_i o ho
            obtain ⟨outs, h1, h2⟩ := ih.1 ho
            cases hh
            exact ⟨_ :: outs, .cons (.snippet hs) h1, by simp [h2]⟩
          · exact nomatch hh
      · rintro ⟨outs, hh, rfl⟩
        cases hh with
        | cons h1 h2 =>
          cases h1 with
          | snippet hs =>
            rw [hs, ih.2 ⟨_, h2, rfl⟩]
            simp

theorem renderAll_error {ε : Type} (g : Gen ε) {bs : List Block} {e : ε} :
    renderAll g bs = .error e ↔ ∃ pre l h body close post, bs = pre ++ .snippet l h body close :: post ∧
      (∀ b ∈ pre, ∃ o, Rendered g b o) ∧ g.make h = .error e := by
  induction bs with
  | nil =>
    constructor
    · intro h; exact nomatch h
    · rintro ⟨pre, l, h, body, close, post, hh, _⟩; simp at hh
  | cons b bs ih =>
    cases b with
    | text l =>
      simp only [renderAll]
      constructor
      · intro h
        split at h
        · exact nomatch h
        · rename_i er her
          cases h
          obtain ⟨pre, l', h, body, close, post, h1, h2, h3⟩ := ih.1 her
          refine ⟨.text l :: pre, l', h, body, close, post, by simp [h1], ?_, h3⟩
          intro b hb
          rcases List.mem_cons.1 hb with rfl | hb
          · exact ⟨_, .text⟩
          · exact h2 b hb
      · rintro ⟨pre, l', h, body, close, post, h1, h2, h3⟩
        cases pre with
        | nil => simp at h1
        | cons p pre =>
          simp at h1
          rw [ih.2 ⟨pre, l', h, body, close, post, h1.2, fun b hb => h2 b (by simp [hb]), h3⟩]
    | snippet l h body close =>
      simp only [renderAll]
      constructor
      · intro hh
        split at hh
        · rename_i er her
          cases hh
          exact ⟨[], l, h, body, close, bs, rfl, by simp, her⟩
        · rename_i s hs
          split at hh
          · exact nomatch hh
          · rename_i er her
            cases hh
            obtain ⟨pre, l', h', body', close', post, h1, h2, h3⟩ := ih.1 her
            refine ⟨.snippet l h body close :: pre, l', h', body', close', post, by simp [h1], ?_, h3⟩
            intro b hb
            rcases List.mem_cons.1 hb with rfl | hb
            · exact ⟨_, .snippet hs⟩
            · exact h2 b hb
      · rintro ⟨pre, l', h', body', close', post, h1, h2, h3⟩
        cases pre with
        | nil =>
          simp at h1
          obtain ⟨⟨_, rfl, _, _⟩, _⟩ := h1
          rw [h3]
        | cons p pre =>
          simp at h1
          obtain ⟨o, ho⟩ := h2 p (by simp)
          rw [← h1.1] at ho
          cases ho with
          | snippet hs =>
            rw [hs]
            simp only
            rw [ih.2 ⟨pre, l', h', body', close', post, h1.2, fun b hb => h2 b (by simp [hb]), h3⟩]

/-! ### C30: only bodies change -/

/-- Every document can be read in exactly one way. -/
theorem reading_exists (ls : List Chars) : ∃ bs, Reading ls bs := by
  suffices H : ∀ n, ∀ ls : List Chars, ls.length ≤ n → ∃ bs, Reading ls bs from H _ ls (Nat.le_refl _)
  intro n
  induction n with
  | zero =>
    intro ls h
    have : ls = [] := List.length_eq_zero_iff.1 (Nat.le_zero.1 h)
    subst this
    exact ⟨[], .nil⟩
  | succ n ih =>
    intro ls h
    cases ls with
    | nil => exact ⟨[], .nil⟩
    | cons l ls =>
      simp at h
      rcases header_dec l with ⟨hd, H⟩ | H
      · by_cases ht : ∃ t ∈ ls, Trailer hd t
        · have : ∃ body t rest, ls = body ++ t :: rest ∧ (∀ b ∈ body, ¬ Trailer hd b) ∧ Trailer hd t := by
            clear h
            induction ls with
            | nil => simp at ht
            | cons x ls ih2 =>
              rcases trailer_dec hd x with hx | hx
              · exact ⟨[], x, ls, rfl, by simp, hx⟩
              · obtain ⟨t, ht1, ht2⟩ := ht
                have : t ∈ ls := by
                  rcases List.mem_cons.1 ht1 with rfl | h
                  · exact absurd ht2 hx
                  · exact h
                obtain ⟨body, t', rest, h1, h2, h3⟩ := ih2 ⟨t, this, ht2⟩
                refine ⟨x :: body, t', rest, by simp [h1], ?_, h3⟩
                intro b hb
                rcases List.mem_cons.1 hb with rfl | hb
                · exact hx
                · exact h2 b hb
          obtain ⟨body, t, rest, rfl, h2, h3⟩ := this
          obtain ⟨bs, hbs⟩ := ih rest (by simp at h; omega)
          exact ⟨_, .closed H h2 h3 hbs⟩
        · exact ⟨_, .unclosed H (fun b hb hT => ht ⟨b, hb, hT⟩)⟩
      · obtain ⟨bs, hbs⟩ := ih ls h
        exact ⟨_, .text H hbs⟩

theorem split_unique {P : Chars → Prop} {a b : List Chars} {t u : Chars} {x y : List Chars}
    (e : a ++ t :: x = b ++ u :: y) (ha : ∀ c ∈ a, ¬ P c) (hb : ∀ c ∈ b, ¬ P c) (ht : P t) (hu : P u) :
    a = b ∧ t = u ∧ x = y := by
  induction a generalizing b with
  | nil =>
    cases b with
    | nil => simpa using e
    | cons c b => simp at e; exact absurd (e.1 ▸ ht) (hb c (by simp))
  | cons d a ih =>
    cases b with
    | nil => simp at e; exact absurd (e.1 ▸ hu) (ha d (by simp))
    | cons c b =>
      simp at e
      obtain ⟨rfl, e⟩ := e
      have := ih e (fun c hc => ha c (by simp [hc])) (fun c hc => hb c (by simp [hc]))
      exact ⟨by rw [this.1], this.2⟩

theorem reading_unique {ls : List Chars} {bs bs' : List Block} (h : Reading ls bs) (h' : Reading ls bs') : bs = bs' := by
  induction h generalizing bs' with
  | nil => cases h'; rfl
  | @text l ls bs ht _ ih =>
    generalize e : l :: ls = L at h'
    cases h' with
    | nil => exact nomatch e
    | text ht' h' => simp at e; obtain ⟨rfl, rfl⟩ := e; rw [ih h']
    | closed hh => simp at e; obtain ⟨rfl, _⟩ := e; exact absurd hh (ht _)
    | unclosed hh => simp at e; obtain ⟨rfl, _⟩ := e; exact absurd hh (ht _)
  | @closed l h body t ls bs hh hb ht _ ih =>
    generalize e : l :: (body ++ t :: ls) = L at h'
    cases h' with
    | nil => exact nomatch e
    | text ht' h' => simp at e; obtain ⟨rfl, _⟩ := e; exact absurd hh (ht' _)
    | closed hh' hb' ht' h' =>
      simp at e
      obtain ⟨rfl, e⟩ := e
      obtain rfl := header_det hh hh'
      obtain ⟨rfl, rfl, rfl⟩ := split_unique e hb hb' ht ht'
      rw [ih h']
    | unclosed hh' hb' =>
      simp at e
      obtain ⟨rfl, rfl⟩ := e
      obtain rfl := header_det hh hh'
      exact absurd ht (hb' t (by simp))
  | @unclosed l h body hh hb =>
    generalize e : l :: body = L at h'
    cases h' with
    | nil => exact nomatch e
    | text ht' h' => simp at e; obtain ⟨rfl, _⟩ := e; exact absurd hh (ht' _)
    | closed hh' hb' ht' h' =>
      simp at e
      obtain ⟨rfl, rfl⟩ := e
      obtain rfl := header_det hh hh'
      exact absurd ht' (hb _ (by simp))
    | unclosed hh' hb' =>
      simp at e
      obtain ⟨rfl, rfl⟩ := e
      obtain rfl := header_det hh hh'
      rfl

/-- Updating a document keeps all lines outside of snippet bodies in order, and puts the generated texts in place of the
bodies. -/
theorem update_blocks {ε : Type} (g : Gen ε) {c : Chars} {bs : List Block} (h : Reading (lines c) bs) {out : Chars} :
    updateContents g c = .ok out ↔ ∃ outs, Forall2 (Rendered g) bs outs ∧ out = outs.flatten := by
  rw [← renderAll_ok]
  have := loop_render g h []
  unfold updateContents
  cases e : renderAll g bs with
  | ok o =>
    rw [e] at this
    obtain ⟨ctx, hc⟩ := this
    rw [show ({} : St) = ⟨[], none⟩ from rfl, hc]
    constructor
    · intro h; have := Except.ok.inj h; simp at this; rw [this]
    · intro h; have := Except.ok.inj h; simp [this]
  | error er =>
    rw [e] at this
    rw [show ({} : St) = ⟨[], none⟩ from rfl, this]

/-- Updating fails exactly with the error of the first directive whose text cannot be generated. -/
theorem update_fails {ε : Type} (g : Gen ε) {c : Chars} {bs : List Block} (h : Reading (lines c) bs) {e : ε} :
    updateContents g c = .error e ↔ ∃ pre l hd body close post, bs = pre ++ .snippet l hd body close :: post ∧
      (∀ b ∈ pre, ∃ o, Rendered g b o) ∧ g.make hd = .error e := by
  rw [← renderAll_error]
  have := loop_render g h []
  unfold updateContents
  cases e' : renderAll g bs with
  | ok o =>
    rw [e'] at this
    obtain ⟨ctx, hc⟩ := this
    rw [show ({} : St) = ⟨[], none⟩ from rfl, hc]
    constructor <;> intro h <;> exact nomatch h
  | error er =>
    rw [e'] at this
    rw [show ({} : St) = ⟨[], none⟩ from rfl, this]

/-! ### Lines -/

theorem linesFrom_append (xs : List Chars) {ys : List Chars} (h : ys ≠ []) :
    linesFrom (xs ++ ys) = xs.map stripCR ++ linesFrom ys := by
  induction xs with
  | nil => rfl
  | cons x xs ih =>
    cases e : xs ++ ys with
    | nil => simp at e; exact absurd e.2 h
    | cons z zs =>
      rw [List.cons_append, e, linesFrom, ← e, ih]
      simp

theorem lines_append {g rest : Chars} (h : g = [] ∨ g.getLast? = some '\n') :
    lines (g ++ rest) = lines g ++ lines rest := by
  rcases h with rfl | h
  · simp [lines, splitWhen, linesFrom]
  · obtain ⟨g', rfl⟩ := List.getLast?_eq_some_iff.1 h
    unfold lines
    have e1 : splitWhen (fun c => decide (c = '\n')) (g' ++ ['\n'] ++ rest) =
        splitWhen (fun c => decide (c = '\n')) g' ++ splitWhen (fun c => decide (c = '\n')) rest := by
      rw [List.append_assoc]; exact splitWhen_append g' rest (by decide)
    have e2 : splitWhen (fun c => decide (c = '\n')) (g' ++ ['\n']) =
        splitWhen (fun c => decide (c = '\n')) g' ++ [[]] := splitWhen_append g' [] (by decide)
    rw [e1, e2, linesFrom_append _ (splitWhen_ne_nil _ _), linesFrom_append _ (by simp)]
    simp [linesFrom]

theorem stripCR_of_not {l : Chars} (h : l.getLast? ≠ some '\r') : stripCR l = l := by
  unfold stripCR
  cases e : dropSuffix? ['\r'] l with
  | none => rfl
  | some r => rw [dropSuffix?_iff.1 e] at h; simp at h

theorem lines_line {l rest : Chars} (h : '\n' ∉ l) : lines (l ++ '\n' :: rest) = stripCR l :: lines rest := by
  unfold lines
  rw [splitWhen_append l rest (by decide), splitWhen_clean (by
    intro c hc; simp; rintro rfl; exact h hc), linesFrom_append _ (splitWhen_ne_nil _ _)]
  rfl

theorem mem_linesFrom {ws : List Chars} {l : Chars} (h : l ∈ linesFrom ws) : ∃ w ∈ ws, ∀ c ∈ l, c ∈ w := by
  induction ws with
  | nil => simp [linesFrom] at h
  | cons w ws ih =>
    cases ws with
    | nil =>
      unfold linesFrom at h
      split at h
      · simp at h
      · simp at h; subst h; exact ⟨l, by simp, fun _ h => h⟩
    | cons v vs =>
      rw [linesFrom] at h
      rcases List.mem_cons.1 h with rfl | h
      · refine ⟨w, by simp, ?_⟩
        intro c hc
        unfold stripCR at hc
        cases e : dropSuffix? ['\r'] w with
        | none => rw [e] at hc; exact hc
        | some r => rw [e] at hc; rw [dropSuffix?_iff.1 e]; simp at hc; simp [hc]
      · obtain ⟨w', h1, h2⟩ := ih h
        exact ⟨w', by simp [h1], h2⟩

theorem lines_clean {c l : Chars} (h : l ∈ lines c) : '\n' ∉ l := by
  intro hn
  obtain ⟨w, hw, h2⟩ := mem_linesFrom h
  have := splitWhen_pieces _ c w hw '\n' (h2 _ hn)
  simp at this

/-! ### C30: idempotence -/

/-- v1.rs:129-133, v2.rs:77-81, 90-96: the generators render a template and push a line end. -/
def rendering {ε : Type} (g : Gen ε) : Gen ε where
  semconv a := (g.semconv a).map (fun s => s ++ ['\n'])
  weaver a := (g.weaver a).map (fun s => s ++ ['\n'])

theorem rendering_ends {ε : Type} (g : Gen ε) {h : Head} {s : Chars} (hs : (rendering g).make h = .ok s) :
    s.getLast? = some '\n' := by
  cases h with
  | semconv a =>
    simp only [Gen.make, rendering] at hs
    cases e : g.semconv a with
    | ok x => rw [e] at hs; cases hs; simp
    | error x => rw [e] at hs; exact nomatch hs
  | weaver a =>
    simp only [Gen.make, rendering] at hs
    cases e : g.weaver a with
    | ok x => rw [e] at hs; cases hs; simp
    | error x => rw [e] at hs; exact nomatch hs

theorem reread {ε : Type} (g : Gen ε) {ls : List Chars} {bs : List Block} {outs : List Chars} (hr : Reading ls bs)
    (ho : Forall2 (Rendered g) bs outs) (hcl : ∀ l ∈ ls, '\n' ∉ l) (hcr : ∀ l ∈ ls, l.getLast? ≠ some '\r')
    (hend : ∀ h s, g.make h = .ok s → s.getLast? = some '\n')
    (hg : ∀ l ∈ ls, ∀ h s, Header l h → g.make h = .ok s → ∀ x ∈ lines s, ¬ Trailer h x) :
    ∃ bs', Reading (lines outs.flatten) bs' ∧ Forall2 (Rendered g) bs' outs := by
  induction hr generalizing outs with
  | nil => cases ho; exact ⟨[], .nil, .nil⟩
  | @text l ls bs ht _ ih =>
    cases ho with
    | @cons _ o _ outs h1 h2 =>
      cases h1
      obtain ⟨bs', h3, h4⟩ := ih h2 (fun l hl => hcl l (by simp [hl])) (fun l hl => hcr l (by simp [hl]))
        (fun l hl => hg l (by simp [hl]))
      refine ⟨.text l :: bs', ?_, .cons .text h4⟩
      have e : ((l ++ ['\n']) :: outs).flatten = l ++ '\n' :: outs.flatten := by simp
      rw [e, lines_line (hcl l (by simp)), stripCR_of_not (hcr l (by simp))]
      exact .text ht h3
  | @closed l h body t ls bs hh hb ht _ ih =>
    cases ho with
    | @cons _ o _ outs h1 h2 =>
      cases h1 with
      | @snippet _ _ _ _ s hs =>
        obtain ⟨bs', h3, h4⟩ := ih h2 (fun l hl => hcl l (by simp [hl])) (fun l hl => hcr l (by simp [hl]))
          (fun l hl => hg l (by simp [hl]))
        refine ⟨.snippet l h (lines s) (some t) :: bs', ?_, .cons (.snippet hs) h4⟩
        have e : ((l ++ ['\n'] ++ s ++ closing (some t)) :: outs).flatten =
            l ++ '\n' :: (s ++ (t ++ '\n' :: outs.flatten)) := by simp [closing]
        rw [e, lines_line (hcl l (by simp)), stripCR_of_not (hcr l (by simp)), lines_append (Or.inr (hend h s hs)),
          lines_line (hcl t (by simp)), stripCR_of_not (hcr t (by simp))]
        exact .closed hh (hg l (by simp) h s hh hs) ht h3
  | @unclosed l h body hh hb =>
    cases ho with
    | @cons _ o _ outs h1 h2 =>
      cases h2
      cases h1 with
      | @snippet _ _ _ _ s hs =>
        refine ⟨[.snippet l h (lines s) none], ?_, .cons (.snippet hs) .nil⟩
        have e : [l ++ ['\n'] ++ s ++ closing none].flatten = l ++ '\n' :: s := by simp [closing]
        rw [e, lines_line (hcl l (by simp)), stripCR_of_not (hcr l (by simp))]
        exact .unclosed hh (hg l (by simp) h s hh hs)

/-- Updating the result again changes nothing, if no generated text contains the end marker of its own snippet (and
no line ends with a stray carriage return). -/
theorem update_idempotent {ε : Type} (g : Gen ε) {c out : Chars}
    (h : updateContents (rendering g) c = .ok out)
    (hcr : ∀ l ∈ lines c, l.getLast? ≠ some '\r')
    (hg : ∀ l ∈ lines c, ∀ h s, Header l h → (rendering g).make h = .ok s → ∀ x ∈ lines s, ¬ Trailer h x) :
    updateContents (rendering g) out = .ok out := by
  obtain ⟨bs, hr⟩ := reading_exists (lines c)
  obtain ⟨outs, h1, rfl⟩ := (update_blocks _ hr).1 h
  obtain ⟨bs', h2, h3⟩ := reread _ hr h1 (fun l hl => lines_clean hl) hcr (fun h s hs => rendering_ends g hs) hg
  exact (update_blocks _ h2).2 ⟨outs, h3, rfl⟩

/-! ### C72: files and dry runs -/

/-- A dry run changes no file, and neither does an update that fails. -/
theorem file_kept {ε : Type} (g : Gen ε) (dry : Bool) (f : Option Chars)
    (h : dry = true ∨ ∃ e, (updateMarkdown g dry f).2 = .error e) : (updateMarkdown g dry f).1 = f := by
  unfold updateMarkdown at h ⊢
  cases f with
  | none => rfl
  | some f =>
    simp only at h ⊢
    cases e : updateContents g (replaceCRLF f) with
    | error er => rfl
    | ok u =>
      rw [e] at h
      simp only at h ⊢
      by_cases hd : dry = false
      · rw [if_pos hd] at h ⊢
        rcases h with h | ⟨er, h⟩
        · rw [hd] at h; exact nomatch h
        · exact nomatch h
      · rw [if_neg hd]
        split <;> rfl

/-- A successful update leaves in the file the updated text. -/
theorem file_updated {ε : Type} (g : Gen ε) (f : Chars) {out : Chars}
    (h : updateContents g (replaceCRLF f) = .ok out) : updateMarkdown g false (some f) = (some out, .ok ()) := by
  simp [updateMarkdown, h]

theorem replaceCRLF_id {s : Chars} (h : ¬ "\r\n".toList <:+: s) : replaceCRLF s = s := by
  suffices H : ∀ n, ∀ s : Chars, s.length ≤ n → ¬ "\r\n".toList <:+: s → replaceCRLF s = s from
    H _ s (Nat.le_refl _) h
  intro n
  induction n with
  | zero =>
    intro s hs _
    have : s = [] := List.length_eq_zero_iff.1 (Nat.le_zero.1 hs)
    subst this; rfl
  | succ n ih =>
    intro s hs h
    cases s with
    | nil => rfl
    | cons c t =>
      cases t with
      | nil => rfl
      | cons d t =>
        rw [replaceCRLF]
        rw [if_neg (by
          rintro ⟨rfl, rfl⟩
          exact h ⟨[], t, by simp⟩)]
        rw [ih (d :: t) (by simpa using hs) (fun hh => h (List.infix_cons hh))]

theorem stripCR_cons (c d : Char) (l : Chars) : stripCR (c :: d :: l) = c :: stripCR (d :: l) := by
  unfold stripCR
  cases e : dropSuffix? ['\r'] (d :: l) with
  | some r =>
    rw [(dropSuffix?_iff (r := c :: r)).2 (by rw [dropSuffix?_iff.1 e]; rfl)]
    rfl
  | none =>
    cases e' : dropSuffix? ['\r'] (c :: d :: l) with
    | none => rfl
    | some r =>
      have := dropSuffix?_iff.1 e'
      cases r with
      | nil => simp at this
      | cons x r =>
        simp at this
        rw [(dropSuffix?_iff (r := r)).2 this.2] at e
        exact nomatch e

theorem replaceCRLF_line {l : Chars} (h : '\n' ∉ l) (rest : Chars) :
    replaceCRLF (l ++ '\n' :: rest) = stripCR l ++ '\n' :: replaceCRLF rest := by
  have nl : ∀ r : Chars, replaceCRLF ('\n' :: r) = '\n' :: replaceCRLF r := by
    intro r
    cases r with
    | nil => rfl
    | cons d r => rw [replaceCRLF, if_neg (by simp)]
  induction l with
  | nil => exact nl rest
  | cons c l ih =>
    cases l with
    | nil =>
      simp only [List.cons_append, List.nil_append]
      rw [replaceCRLF]
      by_cases hc : c = '\r'
      · subst hc
        rw [if_pos ⟨rfl, rfl⟩]
        rfl
      · rw [if_neg (fun hh => hc hh.1), nl, stripCR_of_not (by simpa using hc)]
        rfl
    | cons d l =>
      have hd : d ≠ '\n' := fun e => h (by simp [e])
      rw [stripCR_cons]
      simp only [List.cons_append]
      rw [replaceCRLF, if_neg (fun hh => hd hh.2)]
      have := ih (fun hh => h (List.mem_cons_of_mem _ hh))
      simp only [List.cons_append] at this
      rw [this]

/-- Reading a file with `\r\n` line ends gives the lines of the file (unless a line ends with two carriage returns). -/
theorem crlf_lines {f : Chars} (h : ¬ "\r\r\n".toList <:+: f) : lines (replaceCRLF f) = lines f := by
  suffices H : ∀ n, ∀ f : Chars, f.length ≤ n → ¬ "\r\r\n".toList <:+: f → lines (replaceCRLF f) = lines f from
    H _ f (Nat.le_refl _) h
  intro n
  induction n with
  | zero =>
    intro f hf _
    have : f = [] := List.length_eq_zero_iff.1 (Nat.le_zero.1 hf)
    subst this; rfl
  | succ n ih =>
    intro f hf h
    by_cases hm : '\n' ∈ f
    · obtain ⟨l, rest, rfl, hl⟩ := List.eq_append_cons_of_mem hm
      have hs : '\n' ∉ stripCR l := by
        unfold stripCR
        cases e : dropSuffix? ['\r'] l with
        | none => exact hl
        | some r => intro hh; exact hl (by rw [dropSuffix?_iff.1 e]; simp at hh; simp [hh])
      rw [replaceCRLF_line hl, lines_line hs, lines_line hl,
        ih rest (by simp at hf; omega) (fun hh => h (by
          obtain ⟨a, b, e⟩ := hh
          exact ⟨l ++ '\n' :: a, b, by rw [← e]; simp⟩))]
      congr 1
      apply stripCR_of_not
      unfold stripCR
      cases e : dropSuffix? ['\r'] l with
      | none =>
        simp only [Option.getD_none]
        intro hh
        obtain ⟨r, rfl⟩ := List.getLast?_eq_some_iff.1 hh
        rw [dropSuffix?_iff.2 rfl] at e
        exact nomatch e
      | some r =>
        simp only [Option.getD_some]
        intro hh
        obtain ⟨q, rfl⟩ := List.getLast?_eq_some_iff.1 hh
        have := dropSuffix?_iff.1 e
        exact h ⟨q, rest, by rw [this]; simp⟩
    · rw [replaceCRLF_id (by
        rintro ⟨a, b, e⟩
        exact hm (by rw [← e]; simp))]

theorem crlf_append {a b : Chars} (ha : ¬ "\r\n".toList <:+: a) (hb : ¬ "\r\n".toList <:+: b)
    (hl : a.getLast? ≠ some '\r') : ¬ "\r\n".toList <:+: a ++ b := by
  induction a with
  | nil => simpa using hb
  | cons c a ih =>
    rw [List.cons_append, List.infix_cons_iff]
    rintro (h | h)
    · obtain ⟨r, hr⟩ := h
      cases a with
      | nil => simp at hr; simp [← hr.1] at hl
      | cons d a =>
        simp at hr
        exact ha ⟨[], a, by simp [← hr.1, ← hr.2.1]⟩
    · refine ih (fun hh => ha (List.infix_cons hh)) ?_ h
      cases a with
      | nil => simp
      | cons d a => simpa using hl

theorem crlf_line {l : Chars} (hn : '\n' ∉ l) (hr : l.getLast? ≠ some '\r') : ¬ "\r\n".toList <:+: l ++ ['\n'] := by
  refine crlf_append ?_ ?_ hr
  · rintro ⟨a, b, e⟩
    exact hn (by rw [← e]; simp)
  · rintro ⟨a, b, e⟩
    have := congrArg List.length e
    simp at this
    omega

theorem crlf_out {ε : Type} (g : Gen ε) {ls : List Chars} {bs : List Block} {outs : List Chars} (hr : Reading ls bs)
    (ho : Forall2 (Rendered g) bs outs) (hcl : ∀ l ∈ ls, '\n' ∉ l) (hcr : ∀ l ∈ ls, l.getLast? ≠ some '\r')
    (hend : ∀ h s, g.make h = .ok s → s.getLast? = some '\n')
    (hg : ∀ l ∈ ls, ∀ h s, Header l h → g.make h = .ok s → ¬ "\r\n".toList <:+: s) :
    ¬ "\r\n".toList <:+: outs.flatten := by
  induction hr generalizing outs with
  | nil => cases ho; decide
  | @text l ls bs ht _ ih =>
    cases ho with
    | @cons _ o _ outs h1 h2 =>
      cases h1
      have := ih h2 (fun l hl => hcl l (by simp [hl])) (fun l hl => hcr l (by simp [hl]))
        (fun l hl => hg l (by simp [hl]))
      rw [List.flatten_cons]
      exact crlf_append (crlf_line (hcl l (by simp)) (hcr l (by simp))) this (by simp)
  | @closed l h body t ls bs hh hb ht _ ih =>
    cases ho with
    | @cons _ o _ outs h1 h2 =>
      cases h1 with
      | @snippet _ _ _ _ s hs =>
        have := ih h2 (fun l hl => hcl l (by simp [hl])) (fun l hl => hcr l (by simp [hl]))
          (fun l hl => hg l (by simp [hl]))
        have he := hend h s hs
        rw [List.flatten_cons]
        refine crlf_append (crlf_append (crlf_append (crlf_line (hcl l (by simp)) (hcr l (by simp)))
          (hg l (by simp) h s hh hs) (by simp)) (crlf_line (hcl t (by simp)) (hcr t (by simp))) ?_) this ?_
        · rw [List.getLast?_append, he]; simp
        · rw [show l ++ ['\n'] ++ s ++ closing (some t) = (l ++ ['\n'] ++ s ++ t) ++ ['\n'] by simp [closing],
            List.getLast?_concat]
          decide
  | @unclosed l h body hh hb =>
    cases ho with
    | @cons _ o _ outs h1 h2 =>
      cases h2
      cases h1 with
      | @snippet _ _ _ _ s hs =>
        simp only [closing, List.flatten_cons, List.flatten_nil, List.append_nil]
        exact crlf_append (crlf_line (hcl l (by simp)) (hcr l (by simp))) (hg l (by simp) h s hh hs) (by simp)

/-- After an update, a dry run succeeds and a further update leaves the file as it is, if no generated text contains
the end marker of its own snippet or a carriage return before a line end. -/
theorem dry_run_after_update {ε : Type} (g : Gen ε) {f : Chars} {f' : Option Chars}
    (h : updateMarkdown (rendering g) false (some f) = (f', .ok ()))
    (hcr : ∀ l ∈ lines (replaceCRLF f), l.getLast? ≠ some '\r')
    (hg : ∀ l ∈ lines (replaceCRLF f), ∀ h s, Header l h → (rendering g).make h = .ok s →
      (¬ "\r\n".toList <:+: s) ∧ ∀ x ∈ lines s, ¬ Trailer h x) :
    updateMarkdown (rendering g) true f' = (f', .ok ()) ∧ updateMarkdown (rendering g) false f' = (f', .ok ()) := by
  cases e : updateContents (rendering g) (replaceCRLF f) with
  | error er => rw [updateMarkdown] at h; simp only [e] at h; exact nomatch h
  | ok out =>
    rw [file_updated _ _ e] at h
    simp at h
    subst h
    obtain ⟨bs, hr⟩ := reading_exists (lines (replaceCRLF f))
    obtain ⟨outs, h1, ho⟩ := (update_blocks _ hr).1 e
    have hid := update_idempotent g e hcr (fun l hl h s hh hs => (hg l hl h s hh hs).2)
    have hcrlf := crlf_out _ hr h1 (fun l hl => lines_clean hl) hcr (fun h s hs => rendering_ends g hs)
      (fun l hl h s hh hs => (hg l hl h s hh hs).1)
    rw [← ho] at hcrlf
    have e2 := replaceCRLF_id hcrlf
    constructor
    · simp [updateMarkdown, e2, hid]
    · simp [updateMarkdown, e2, hid]

/-- The files are treated one by one, and the command succeeds exactly if it succeeds on each. -/
theorem files_independent {ε : Type} (g : Gen ε) (dry : Bool) (fs : List (Option Chars)) :
    (updateAll g dry fs).1 = fs.map (fun f => (updateMarkdown g dry f).1) ∧
      ((updateAll g dry fs).2 = true ↔ ∀ f ∈ fs, (updateMarkdown g dry f).2 = .ok ()) := by
  induction fs with
  | nil => simp [updateAll]
  | cons f fs ih =>
    refine ⟨by simp [updateAll, ih.1], ?_⟩
    simp only [updateAll, Bool.and_eq_true, ih.2, List.mem_cons, forall_eq_or_imp]
    refine and_congr ?_ Iff.rfl
    split
    · rename_i u hu; rw [hu]; simp
    · rename_i er her; rw [her]; constructor <;> intro h <;> exact nomatch h

/-! ### C73: the verdict of a dry run -/

/-- For files without `\r\n`: a dry run succeeds exactly if an update would succeed and leave the file as it is. -/
theorem dry_run_verdict_partial {ε : Type} (g : Gen ε) {f : Chars} (h : ¬ "\r\n".toList <:+: f) :
    (updateMarkdown g true (some f)).2 = .ok () ↔ updateMarkdown g false (some f) = (some f, .ok ()) := by
  unfold updateMarkdown
  simp only [replaceCRLF_id h]
  cases e : updateContents g f with
  | error er => constructor <;> intro h <;> exact nomatch h
  | ok u =>
    simp only
    rw [if_neg (by simp), if_pos trivial]
    by_cases hu : f = u
    · simp [hu]
    · rw [if_pos hu]
      constructor
      · intro h; exact nomatch h
      · intro h; simp at h; exact absurd h.symm hu

/-- In general a dry run may succeed although an update would change the file (line ends), and may fail although an
update would not change it (carriage returns in generated texts). -/
theorem dry_run_verdict_refuted :
    (∃ (g : Gen Unit) (f : Chars), (updateMarkdown g true (some f)).2 = .ok () ∧
      updateMarkdown g false (some f) ≠ (some f, .ok ())) ∧
    (∃ (g : Gen Unit) (f : Chars), (∃ e, (updateMarkdown (rendering g) true (some f)).2 = .error e) ∧
      updateMarkdown (rendering g) false (some f) = (some f, .ok ())) := by
  refine ⟨⟨⟨fun _ => .ok [], fun _ => .ok []⟩, "a\r\n".toList, rfl, ?_⟩,
    ⟨⟨fun _ => .ok "x\r".toList, fun _ => .ok []⟩, "<!--semconv a-->\nx\r\n<!--endsemconv-->\n".toList, ⟨_, rfl⟩, rfl⟩⟩
  intro h
  have := (Prod.mk.inj h).1
  revert this
  decide

/-! ### C74: snippets that are not closed -/

/-- The text after the directive of a snippet that is never closed, or is closed by the marker of the other kind, is
deleted without an error. -/
theorem unclosed_refuted : ∃ (g : Gen Unit) (f : Chars),
    updateMarkdown (rendering g) false (some f) = (some "<!-- semconv a -->\ntable\n".toList, .ok ()) ∧
      f = "<!-- semconv a -->\n<!-- endweaver -->\nRead this.\n<!-- semconv b -->\nbody\n".toList :=
  ⟨⟨fun _ => .ok "table".toList, fun _ => .ok []⟩, _, rfl, rfl⟩

/-- In a document where each snippet is closed and no directive stands inside a body, all directives, end markers and
text lines are in the updated document. -/
theorem unclosed_partial {ε : Type} (g : Gen ε) {c out : Chars} {bs : List Block} (h : Reading (lines c) bs)
    (hc : ∀ l hd body close, Block.snippet l hd body close ∈ bs → close ≠ none) (ho : updateContents g c = .ok out)
    {l : Chars} (hl : l ∈ lines c) :
    (∃ a b, out = a ++ l ++ '\n' :: b) ∨
      ∃ l' hd body t, Block.snippet l' hd body (some t) ∈ bs ∧ l ∈ body := by
  obtain ⟨outs, h1, rfl⟩ := (update_blocks g h).1 ho
  clear ho
  generalize lines c = ls at h hl
  induction h generalizing outs with
  | nil => simp at hl
  | @text l' ls bs ht _ ih =>
    cases h1 with
    | @cons _ o _ outs h1 h2 =>
      cases h1
      rcases List.mem_cons.1 hl with rfl | hl
      · exact Or.inl ⟨[], outs.flatten, by simp⟩
      · rcases ih (fun l hd b c hm => hc l hd b c (by simp [hm])) outs h2 hl with ⟨a, b, e⟩ | ⟨x, y, z, w, hm, hz⟩
        · exact Or.inl ⟨l' ++ ['\n'] ++ a, b, by simp [e]⟩
        · exact Or.inr ⟨x, y, z, w, by simp [hm], hz⟩
  | @closed l' h body t ls bs hh hb ht _ ih =>
    cases h1 with
    | @cons _ o _ outs h1 h2 =>
      cases h1 with
      | @snippet _ _ _ _ s hs =>
        rcases List.mem_cons.1 hl with rfl | hl
        · exact Or.inl ⟨[], s ++ closing (some t) ++ outs.flatten, by simp⟩
        · rcases List.mem_append.1 hl with hl | hl
          · exact Or.inr ⟨l', h, body, t, by simp, hl⟩
          · rcases List.mem_cons.1 hl with rfl | hl
            · exact Or.inl ⟨l' ++ ['\n'] ++ s, outs.flatten, by simp [closing]⟩
            · rcases ih (fun l hd b c hm => hc l hd b c (by simp [hm])) outs h2 hl with ⟨a, b, e⟩ | ⟨x, y, z, w, hm, hz⟩
              · exact Or.inl ⟨l' ++ ['\n'] ++ s ++ closing (some t) ++ a, b, by simp [e]⟩
              · exact Or.inr ⟨x, y, z, w, by simp [hm], hz⟩
  | @unclosed l' h body hh hb => exact absurd rfl (hc l' h body none (by simp))

/-! ### C75: idempotence for all generators -/

/-- A generated text that contains the end marker (say, from a brief) makes each update add to the document. -/
theorem marker_text_refuted : ∃ (g : Gen Unit) (c out : Chars), updateContents (rendering g) c = .ok out ∧
    updateContents (rendering g) out ≠ .ok out := by
  refine ⟨⟨fun _ => .ok "<!--endsemconv-->\nx".toList, fun _ => .ok []⟩,
    "<!--semconv a-->\n<!--endsemconv-->\n".toList, _, rfl, ?_⟩
  intro h
  have := Except.ok.inj h
  revert this
  decide

/-! ### C76: which comments are directives -/

/-- The first word of a comment text. -/
def FirstWord (w text : Chars) : Prop :=
  ∃ w1 rest, Spaces w1 ∧ text = w1 ++ w ++ rest ∧ w ≠ [] ∧ (∀ c ∈ w, isSpace c = false) ∧
    ∀ c t, rest = c :: t → isSpace c = true

theorem firstWord_unique {w v text : Chars} (h : FirstWord w text) (h' : FirstWord v text) : w = v := by
  suffices H : ∀ {w}, FirstWord w text → w = (skipSpace text).takeWhile (fun c => !isSpace c) from (H h).trans (H h').symm
  rintro w ⟨w1, rest, hw1, rfl, hne, hw, hr⟩
  rw [List.append_assoc, skipSpace_exact hw1 (by
    intro c hc
    cases w with
    | nil => exact absurd rfl hne
    | cons d t => simp at hc; subst hc; exact hw d (by simp))]
  refine ((dropWhile_exact (f := fun c => !isSpace c) (by intro c hc; simp [hw c hc]) ?_).2).symm
  intro c hc
  cases rest with
  | nil => simp at hc
  | cons d t => simp at hc; subst hc; simp [hr d t rfl]

/-- The documented forms are recognised: a comment whose first word is `semconv`, followed by an id. -/
theorem semconv_word {line w1 w2 w3 ps : Chars} {a : Args} (h1 : Spaces w1) (h2 : Spaces w2) (h3 : Spaces w3)
    (hne : w2 ≠ []) (hid : IdText a.id) (hps : ParamsText a.args ps)
    (hc : Comment line (w1 ++ "semconv".toList ++ w2 ++ a.id ++ ps ++ w3)) :
    semconvHeader line = some a ∧ FirstWord "semconv".toList (w1 ++ "semconv".toList ++ w2 ++ a.id ++ ps ++ w3) := by
  refine ⟨semconvHeader_iff.2 ⟨w1, w2, w3, ps, h1, h2, h3, hid, hps, hc⟩, w1, w2 ++ a.id ++ ps ++ w3, h1, by simp,
    by decide, by decide, ?_⟩
  intro c t e
  cases w2 with
  | nil => exact absurd rfl hne
  | cons d u =>
    simp at e
    rw [← e.1]
    exact isSpace_iff.2 (h2 d (by simp))

/-- Other comments are taken for directives too: every comment whose text merely starts with the letters `weaver`, and
some that start with `semconv`. -/
theorem other_words_refuted :
    (∃ a, weaverHeader "<!-- weavers are birds -->".toList = some a) ∧
      FirstWord "weavers".toList " weavers are birds ".toList ∧
      (∃ a, semconvHeader "<!-- semconvfoo -->".toList = some a) ∧
      FirstWord "semconvfoo".toList " semconvfoo ".toList := by
  refine ⟨⟨_, rfl⟩, ⟨[' '], " are birds ".toList, ?_, by decide, by decide, by decide, ?_⟩, ⟨_, rfl⟩,
    ⟨[' '], [' '], ?_, by decide, by decide, by decide, ?_⟩⟩
  · intro c hc; simp at hc; simp [hc]
  · intro c t e; simp at e; rw [← e.1]; decide
  · intro c hc; simp at hc; simp [hc]
  · intro c t e; simp at e; rw [← e.1]; decide

/-- A line that is a directive is a comment whose text starts with `semconv` or `weaver`. -/
theorem other_words_partial {line : Chars} {h : Head} (H : Header line h) :
    ∃ w1 rest, Spaces w1 ∧ (Comment line (w1 ++ "semconv".toList ++ rest) ∨ Comment line (w1 ++ "weaver".toList ++ rest)) := by
  cases h with
  | semconv a =>
    obtain ⟨w1, w2, w3, ps, h1, _, _, _, _, hc⟩ := H
    exact ⟨w1, w2 ++ a.id ++ ps ++ w3, h1, Or.inl (by simpa using hc)⟩
  | weaver a =>
    obtain ⟨w1, w2, rest, h1, _, _, hc, _⟩ := H
    exact ⟨w1, w2 ++ rest, h1, Or.inr (by simpa using hc)⟩

/-! ### C77: tag filters -/

/-- Only the first of several tags is a filter. -/
theorem tag_filters_refuted : ∃ line a, semconvHeader line = some a ∧ Param.tag "b".toList ∈ a.args ∧
    "b".toList ∉ tagFilters a :=
  ⟨"<!-- semconv x(tag=a,tag=b) -->".toList, _, rfl, by decide, by decide⟩

/-- With at most one tag, the filters are the tags. -/
theorem tag_filters_partial {a : Args} (h : ∀ v w, Param.tag v ∈ a.args → Param.tag w ∈ a.args → v = w) (v : Chars) :
    v ∈ tagFilters a ↔ Param.tag v ∈ a.args := by
  unfold tagFilters
  constructor
  · intro hv
    split at hv
    · rename_i w hw
      simp at hv; subst hv
      obtain ⟨p, hp, he⟩ := List.exists_of_findSome?_eq_some hw
      cases p <;> simp at he
      subst he; exact hp
    · simp at hv
  · intro hv
    split
    · rename_i w hw
      obtain ⟨p, hp, he⟩ := List.exists_of_findSome?_eq_some hw
      cases p <;> simp at he
      subst he
      simp [h _ _ hv hp]
    · rename_i hn
      have := List.findSome?_eq_none_iff.1 hn _ hv
      simp at this

/-! ### Examples -/

def table : Gen Unit := ⟨fun a => .ok (a.id ++ " table".toList), fun _ => .error ()⟩

example : updateContents (rendering table)
    "# A\n\n<!-- semconv metric.x(full,tag=t-1) -->\nold\nold\n<!-- endsemconv -->\n\nend".toList =
    .ok "# A\n\n<!-- semconv metric.x(full,tag=t-1) -->\nmetric.x table\n<!-- endsemconv -->\n\nend\n".toList := rfl

example : semconvHeader "<!-- semconv metric.x(full,tag=t-1) -->".toList =
    some ⟨"metric.x".toList, [.full, .tag "t-1".toList]⟩ := rfl

example : weaverHeader "<!-- weaver template:a.b .registry | keys -->".toList =
    some ⟨".registry | keys".toList, some "a.b".toList⟩ := rfl

/-- A document meets the hypotheses of `update_idempotent`. -/
example : ∃ out, updateContents (rendering table) "<!--semconv a-->\n<!--endsemconv-->\n".toList = .ok out ∧
    updateContents (rendering table) out = .ok out := by
  have h0 : updateContents (rendering table) "<!--semconv a-->\n<!--endsemconv-->\n".toList =
    .ok "<!--semconv a-->\na table\n<!--endsemconv-->\n".toList := rfl
  refine ⟨_, h0, ?_⟩
  refine update_idempotent table h0 ?_ ?_
  · decide
  · intro l hl h s hh hs x hx
    have hl' : l ∈ ["<!--semconv a-->".toList, "<!--endsemconv-->".toList] := hl
    have hh2 : Header "<!--semconv a-->".toList (.semconv ⟨['a'], []⟩) := semconvHeader_iff.1 rfl
    simp only [List.mem_cons, List.not_mem_nil, or_false] at hl'
    rcases hl' with rfl | rfl
    · obtain rfl := header_det hh hh2
      cases hs
      have hx' : x ∈ ["a table".toList] := hx
      simp only [List.mem_cons, List.not_mem_nil, or_false] at hx'
      subst hx'
      intro ht
      exact nomatch semconvTrailer_iff.2 ht
    · cases h with
      | semconv a => exact nomatch semconvHeader_iff.2 hh
      | weaver a => exact nomatch weaverHeader_iff.2 hh

end Verif.Markdown
