import Verif.Util.Str
/-
Ids, times and statuses of OTLP in samples: src/registry/otlp/conversion.rs.
-/
namespace Verif.Misc
open Verif.Util

/-! ### Model -/

/-- `from_be_bytes`. -/
def beNum (bytes : List Nat) : Nat := bytes.foldl (fun n b => 256 * n + b) 0

/-- `format!("{:0w$x}", n)`: hexadecimal digits, filled with zeros on the left. -/
def hexPad (w n : Nat) : Chars := List.replicate (w - (Nat.toDigits 16 n).length) '0' ++ Nat.toDigits 16 n

/-- conversion.rs:221-231 `span_id_hex`. Bytes are numbers below 256. -/
def spanIdHex (id : List Nat) : Chars := if id.length = 8 then hexPad 16 (beNum id) else []

/-- conversion.rs:233-243 `trace_id_hex`. -/
def traceIdHex (id : List Nat) : Chars := if id.length = 16 then hexPad 32 (beNum id) else []

/-- conversion.rs:212-219 `unix_nanos_to_utc`; `rfc3339` is the printing of chrono, for numbers that an `i64` holds. -/
def unixNanosToUtc (rfc3339 : Nat → Chars) (t : Nat) : Chars := if t < 2^63 then rfc3339 t else []

inductive StatusCode where
  | unset
  | ok
  | error
deriving DecidableEq

/-- `Status::code()` of the generated code: unknown numbers are the default. -/
def statusCode (n : Int) : StatusCode := if n = 1 then .ok else if n = 2 then .error else .unset

/-- conversion.rs:111-127 `status_from_otlp_status`. -/
def statusOf : Option (Int × String) → Option (StatusCode × String)
  | none => none
  | some (n, m) => some (statusCode n, m)

/-! ### C279: ids as text -/

/-- The hexadecimal digits. -/
def hexDigits : Chars := "0123456789abcdef".toList

/-- A byte as two digits: specification. -/
def byteHex (b : Nat) : Chars := [hexDigits.getD (b / 16) '?', hexDigits.getD (b % 16) '?']

/-- The last `w` digits of a number. -/
def lastDigits : Nat → Nat → Chars
  | 0, _ => []
  | w + 1, n => lastDigits w (n / 16) ++ [Nat.digitChar (n % 16)]

theorem lastDigits_zero (w : Nat) : lastDigits w 0 = List.replicate w '0' := by
  induction w with
  | zero => rfl
  | succ w ih =>
    rw [lastDigits, Nat.zero_div, ih, List.replicate_succ']
    rfl

theorem hexPad_eq : ∀ (w n : Nat), 0 < w → n < 16 ^ w → hexPad w n = lastDigits w n
  | w + 1, n, _, h => by
    by_cases hn : n < 16
    · unfold hexPad
      rw [Nat.toDigits_of_lt_base hn, lastDigits, Nat.div_eq_of_lt hn, lastDigits_zero, Nat.mod_eq_of_lt hn]
      rfl
    · have hd : n / 16 < 16 ^ w := by
        rw [Nat.div_lt_iff_lt_mul (by decide)]
        rw [Nat.pow_succ] at h
        exact h
      have hw : 0 < w := by
        cases w with
        | zero => simp at h; omega
        | succ w => omega
      have ih := hexPad_eq w (n / 16) hw hd
      unfold hexPad at ih ⊢
      rw [Nat.toDigits_of_base_le (by decide) (by omega), lastDigits, ← ih]
      simp

theorem digit_hex (n : Nat) (h : n < 16) : Nat.digitChar n = hexDigits.getD n '?' := by
  have : ∀ n : Fin 16, Nat.digitChar n.1 = hexDigits.getD n.1 '?' := by decide
  exact this ⟨n, h⟩

/-- All are bytes. -/
def Bytes (l : List Nat) : Prop := ∀ b ∈ l, b < 256

theorem beNum_append (l : List Nat) (b : Nat) : beNum (l ++ [b]) = 256 * beNum l + b := by
  simp [beNum, List.foldl_append]

theorem list_reverse_induction {P : List Nat → Prop} (h0 : P []) (h1 : ∀ l b, P l → P (l ++ [b])) (l : List Nat) : P l := by
  have : ∀ l : List Nat, P l.reverse := by
    intro l
    induction l with
    | nil => exact h0
    | cons b l ih => rw [List.reverse_cons]; exact h1 _ _ ih
  have h := this l.reverse
  rwa [List.reverse_reverse] at h

theorem beNum_lt (l : List Nat) : Bytes l → beNum l < 16 ^ (2 * l.length) := by
  induction l using list_reverse_induction with
  | h0 => intro _; simp [beNum]
  | h1 l b ih =>
    intro hb
    have h1 := ih fun x hx => hb x (List.mem_append_left _ hx)
    have h2 := hb b (by simp)
    rw [beNum_append, List.length_append, List.length_singleton,
      show 2 * (l.length + 1) = 2 * l.length + 1 + 1 by omega, Nat.pow_succ, Nat.pow_succ]
    omega

theorem lastDigits_bytes (l : List Nat) : Bytes l → lastDigits (2 * l.length) (beNum l) = l.flatMap byteHex := by
  induction l using list_reverse_induction with
  | h0 => intro _; rfl
  | h1 l b ih =>
    intro hb
    have h1 := ih fun x hx => hb x (List.mem_append_left _ hx)
    have h2 := hb b (by simp)
    rw [beNum_append, List.length_append, List.length_singleton, show 2 * (l.length + 1) = 2 * l.length + 1 + 1 by omega,
      lastDigits, lastDigits, Nat.div_div_eq_div_mul, show (256 * beNum l + b) / (16 * 16) = beNum l by omega, h1,
      List.flatMap_append, show (256 * beNum l + b) / 16 % 16 = b / 16 by omega,
      show (256 * beNum l + b) % 16 = b % 16 by omega, digit_hex _ (by omega), digit_hex _ (by omega)]
    simp [byteHex]

theorem hexPad_bytes {l : List Nat} (h : Bytes l) (hne : l ≠ []) : hexPad (2 * l.length) (beNum l) = l.flatMap byteHex := by
  have : 0 < l.length := List.length_pos_iff.2 hne
  rw [hexPad_eq _ _ (by omega) (beNum_lt l h), lastDigits_bytes l h]

theorem byteHex_injective {a b : Nat} (ha : a < 256) (hb : b < 256) (h : byteHex a = byteHex b) : a = b := by
  have key : ∀ x y : Fin 16, hexDigits.getD x.1 '?' = hexDigits.getD y.1 '?' → x = y := by decide
  unfold byteHex at h
  injection h with h1 h
  injection h with h2 _
  have e1 := congrArg Fin.val (key ⟨a / 16, by omega⟩ ⟨b / 16, by omega⟩ h1)
  have e2 := congrArg Fin.val (key ⟨a % 16, by omega⟩ ⟨b % 16, by omega⟩ h2)
  simp only at e1 e2
  omega

theorem bytesHex_injective : ∀ {l m : List Nat}, Bytes l → Bytes m → l.flatMap byteHex = m.flatMap byteHex → l = m
  | [], [], _, _, _ => rfl
  | [], b :: m, _, _, h => by simp [byteHex] at h
  | a :: l, [], _, _, h => by simp [byteHex] at h
  | a :: l, b :: m, hl, hm, h => by
    rw [List.flatMap_cons, List.flatMap_cons] at h
    have hs := List.append_inj h rfl
    rw [byteHex_injective (hl a (by simp)) (hm b (by simp)) hs.1,
      bytesHex_injective (fun x hx => hl x (List.mem_cons_of_mem _ hx)) (fun x hx => hm x (List.mem_cons_of_mem _ hx)) hs.2]

/-- C279, as far as it holds: span ids of eight bytes and trace ids of sixteen are printed byte by byte, as two lowercase
hexadecimal digits each. -/
theorem ids_hex_partial {id : List Nat} (h : Bytes id) :
    (id.length = 8 → spanIdHex id = id.flatMap byteHex) ∧ (id.length = 16 → traceIdHex id = id.flatMap byteHex) := by
  constructor
  · intro hl
    unfold spanIdHex
    rw [if_pos hl, ← hexPad_bytes h (by intro e; rw [e] at hl; simp at hl), hl]
  · intro hl
    unfold traceIdHex
    rw [if_pos hl, ← hexPad_bytes h (by intro e; rw [e] at hl; simp at hl), hl]

/-- Different ids are printed differently. -/
theorem ids_distinct_partial {a b : List Nat} (ha : Bytes a) (hb : Bytes b) :
    (a.length = 8 → b.length = 8 → spanIdHex a = spanIdHex b → a = b) ∧
    (a.length = 16 → b.length = 16 → traceIdHex a = traceIdHex b → a = b) := by
  constructor
  · intro h1 h2 h
    rw [(ids_hex_partial ha).1 h1, (ids_hex_partial hb).1 h2] at h
    exact bytesHex_injective ha hb h
  · intro h1 h2 h
    rw [(ids_hex_partial ha).2 h1, (ids_hex_partial hb).2 h2] at h
    exact bytesHex_injective ha hb h

/-- C279 does not hold for ids of other lengths: they are all printed as nothing. -/
theorem ids_hex_refuted : spanIdHex [1, 2, 3] = [] ∧ spanIdHex [4] = [] ∧ traceIdHex [1, 2, 3, 4, 5, 6, 7, 8] = [] := by
  decide +kernel

/-- Times after 2262 are printed as nothing; all others as chrono does. -/
theorem times_printed (rfc3339 : Nat → Chars) (t : Nat) :
    (t < 2^63 → unixNanosToUtc rfc3339 t = rfc3339 t) ∧ (2^63 ≤ t → unixNanosToUtc rfc3339 t = []) := by
  unfold unixNanosToUtc
  constructor
  · intro h; rw [if_pos h]
  · intro h; rw [if_neg (by omega)]

/-- A status keeps its message; its code is unset if it is not known. -/
theorem status_kept (n : Int) (m : String) : ∃ c, statusOf (some (n, m)) = some (c, m) ∧
    (c = .ok ↔ n = 1) ∧ (c = .error ↔ n = 2) := by
  refine ⟨statusCode n, rfl, ?_, ?_⟩ <;> unfold statusCode <;> by_cases h1 : n = 1 <;> by_cases h2 : n = 2 <;> simp_all

example : spanIdHex [0, 0, 0, 0, 0, 0, 1, 171] = "00000000000001ab".toList := by decide +kernel

end Verif.Misc
