import Verif.Case.Model
/- Upper and lower case of ASCII letters. -/
namespace Verif.Case
open Verif.Util

theorem toNat_inj {a b : Char} (h : a.toNat = b.toNat) : a = b := Char.ext (UInt32.toNat_inj.1 h)

theorem toNat_toLower (c : Char) : c.toLower.toNat = if 65 ≤ c.toNat ∧ c.toNat ≤ 90 then c.toNat + 32 else c.toNat := by
  unfold Char.toLower
  by_cases h : c.val ≥ 'A'.val ∧ c.val ≤ 'Z'.val
  · have h' : 65 ≤ c.toNat ∧ c.toNat ≤ 90 := h
    rw [dif_pos h, if_pos h']
    show (c.val + 32).toNat = _
    rw [UInt32.toNat_add]
    show (c.toNat + 32) % 4294967296 = _
    omega
  · have h' : ¬ (65 ≤ c.toNat ∧ c.toNat ≤ 90) := h
    rw [dif_neg h, if_neg h']

theorem toNat_toUpper (c : Char) : c.toUpper.toNat = if 97 ≤ c.toNat ∧ c.toNat ≤ 122 then c.toNat - 32 else c.toNat := by
  unfold Char.toUpper
  by_cases h : 'a'.val ≤ c.val ∧ c.val ≤ 'z'.val
  · have h' : 97 ≤ c.toNat ∧ c.toNat ≤ 122 := h
    rw [dif_pos h, if_pos h']
    show (c.val + 4294967264).toNat = _
    rw [UInt32.toNat_add]
    show (c.toNat + 4294967264) % 4294967296 = _
    omega
  · have h' : ¬ (97 ≤ c.toNat ∧ c.toNat ≤ 122) := h
    rw [dif_neg h, if_neg h']

theorem isUpper_iff (c : Char) : c.isUpper = true ↔ 65 ≤ c.toNat ∧ c.toNat ≤ 90 := by
  unfold Char.isUpper
  rw [decide_eq_true_iff]
  exact Iff.rfl

theorem isLower_iff (c : Char) : c.isLower = true ↔ 97 ≤ c.toNat ∧ c.toNat ≤ 122 := by
  unfold Char.isLower
  rw [Bool.and_eq_true, decide_eq_true_iff, decide_eq_true_iff]
  exact Iff.rfl

theorem isUpper_false (c : Char) : c.isUpper = false ↔ ¬ (65 ≤ c.toNat ∧ c.toNat ≤ 90) := by
  rw [← isUpper_iff]; simp

theorem isLower_false (c : Char) : c.isLower = false ↔ ¬ (97 ≤ c.toNat ∧ c.toNat ≤ 122) := by
  rw [← isLower_iff]; simp

theorem lower_lower (c : Char) : c.toLower.toLower = c.toLower := by
  apply toNat_inj; simp only [toNat_toLower]; (repeat' split) <;> omega
theorem lower_upper (c : Char) : c.toUpper.toLower = c.toLower := by
  apply toNat_inj; simp only [toNat_toLower, toNat_toUpper]; (repeat' split) <;> omega
theorem upper_lower (c : Char) : c.toLower.toUpper = c.toUpper := by
  apply toNat_inj; simp only [toNat_toLower, toNat_toUpper]; (repeat' split) <;> omega
theorem upper_upper (c : Char) : c.toUpper.toUpper = c.toUpper := by
  apply toNat_inj; simp only [toNat_toUpper]; (repeat' split) <;> omega
theorem not_upper_lower (c : Char) : c.toLower.isUpper = false := by
  rw [isUpper_false, toNat_toLower]; split <;> omega
theorem not_lower_upper (c : Char) : c.toUpper.isLower = false := by
  rw [isLower_false, toNat_toUpper]; split <;> omega
theorem toLower_of_not_upper {c : Char} (h : c.isUpper = false) : c.toLower = c := by
  rw [isUpper_false] at h
  apply toNat_inj; rw [toNat_toLower, if_neg h]
theorem isUpper_toUpper {c : Char} (h : c.isLower = true) : c.toUpper.isUpper = true := by
  rw [isLower_iff] at h
  rw [isUpper_iff, toNat_toUpper, if_pos h]; omega
theorem isUpper_toUpper' {c : Char} (h : c.isUpper = true) : c.toUpper.isUpper = true := by
  rw [isUpper_iff] at *
  rw [toNat_toUpper]; split <;> omega
theorem isLower_toLower {c : Char} (h : c.isAlpha = true) : c.toLower.isLower = true := by
  unfold Char.isAlpha at h
  rw [Bool.or_eq_true, isUpper_iff, isLower_iff] at h
  rw [isLower_iff, toNat_toLower]; split <;> omega

/-- The characters that separate words, and the dot. -/
def isDelim (c : Char) : Bool := c = '_' || c = '-' || c = ' ' || c = '.'

theorem isDelim_iff (c : Char) : isDelim c = true ↔ c.toNat = 95 ∨ c.toNat = 45 ∨ c.toNat = 32 ∨ c.toNat = 46 := by
  unfold isDelim
  simp only [Bool.or_eq_true, decide_eq_true_eq]
  constructor
  · rintro (((rfl | rfl) | rfl) | rfl) <;> decide
  · rintro (h | h | h | h)
    · exact .inl (.inl (.inl (toNat_inj h)))
    · exact .inl (.inl (.inr (toNat_inj h)))
    · exact .inl (.inr (toNat_inj h))
    · exact .inr (toNat_inj h)

theorem isDelim_lower (c : Char) : isDelim c.toLower = isDelim c := by
  rw [Bool.eq_iff_iff, isDelim_iff, isDelim_iff, toNat_toLower]; split <;> omega
theorem isDelim_upper (c : Char) : isDelim c.toUpper = isDelim c := by
  rw [Bool.eq_iff_iff, isDelim_iff, isDelim_iff, toNat_toUpper]; split <;> omega
theorem delim_not_upper {c : Char} (h : isDelim c = true) : c.isUpper = false := by
  rw [isDelim_iff] at h; rw [isUpper_false]; omega
theorem delim_not_lower {c : Char} (h : isDelim c = true) : c.isLower = false := by
  rw [isDelim_iff] at h; rw [isLower_false]; omega

end Verif.Case
