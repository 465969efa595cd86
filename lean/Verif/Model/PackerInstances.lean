/-
A concrete JSON string length and integer reader, for the examples and to show that the assumptions about
wjson can be met.
-/
import Verif.Model.Packer

namespace Wrtstat

set_option autoImplicit false

/-- The length of a character in a JSON string. -/
def charSize (c : Char) : Nat :=
  if c = '"' ∨ c = '\\' then 2 else if c.toNat < 32 then 6 else 1

theorem charSize_pos (c : Char) : 1 ≤ charSize c := by unfold charSize; split <;> (try split) <;> omega

/-- Quotes, backslashes and control characters are escaped. -/
def exJson : Json where
  strSize s := 2 + (s.map charSize).sum
  le_strSize s := by
    induction s with
    | nil => simp
    | cons c s ih => simp only [List.length_cons, List.map_cons, List.sum_cons]; have := charSize_pos c; omega
  plain s h := by
    induction s with
    | nil => simp
    | cons c s ih =>
      have h1 : charSize c = 1 := by
        have := h c (by simp)
        unfold charSize
        rcases this with h1 | rfl
        · simp only [Char.isDigit, Bool.and_eq_true, decide_eq_true_eq] at h1
          have g1 : c ≠ '"' := by rintro rfl; exact absurd h1.1 (by decide)
          have g2 : c ≠ '\\' := by rintro rfl; exact absurd h1.2 (by decide)
          have g3 : ¬ c.toNat < 32 := by
            have := UInt32.le_iff_toNat_le.1 h1.1
            have e : (48 : UInt32).toNat = 48 := rfl
            have : 48 ≤ c.val.toNat := by rw [← e]; exact this
            show ¬ c.val.toNat < 32
            omega
          simp [g1, g2, g3]
        · decide
      have := ih fun c hc => h c (List.mem_cons_of_mem _ hc)
      simp only [List.length_cons, List.map_cons, List.sum_cons, h1]
      omega

/-- Digits are read as long as there are any; the value is taken modulo 2^64. -/
def readDigits : Nat → PName → Nat × PName
  | v, [] => (v, [])
  | v, c :: s => if c.isDigit then readDigits ((v * 10 + (c.toNat - 48)) % 2 ^ 64) s else (v, c :: s)

theorem readDigits_suffix (v : Nat) (s : PName) : (readDigits v s).2 <:+ s := by
  induction s generalizing v with
  | nil => simp [readDigits]
  | cons c s ih =>
    unfold readDigits
    by_cases h : c.isDigit
    · rw [if_pos h]; exact (ih _).trans (List.suffix_cons _ _)
    · rw [if_neg h]; exact List.suffix_refl _

theorem readDigits_decimal (n : Nat) (s : PName) (hs : s.head? = none ∨ s.head? = some '~') (hn : n < 2 ^ 64) :
    readDigits 0 (decimal n ++ s) = (n, s) := by
  suffices h : ∀ n, n < 2 ^ 64 → ∀ t, readDigits 0 (decimal n ++ t) = readDigits n t by
    rw [h n hn]
    cases s with
    | nil => rfl
    | cons c s =>
      simp at hs
      subst hs
      rfl
  intro n
  induction n using Nat.strongRecOn with
  | _ n ih =>
    intro hn t
    unfold decimal
    by_cases h : n < 10
    · rw [Nat.toDigits_of_lt_base h]
      simp only [List.singleton_append, readDigits, Nat.isDigit_digitChar, h, decide_true, if_true,
        Nat.toNat_digitChar_sub_48_of_lt_ten h]
      congr 1
      omega
    · rw [Nat.toDigits_of_base_le (by omega) (by omega), List.append_assoc]
      have := ih (n / 10) (by omega) (by omega) ([(n % 10).digitChar] ++ t)
      unfold decimal at this
      rw [this]
      have h10 : n % 10 < 10 := by omega
      simp only [List.singleton_append, readDigits, Nat.isDigit_digitChar, h10, decide_true, if_true,
        Nat.toNat_digitChar_sub_48_of_lt_ten h10]
      congr 1
      omega

theorem decimal_ne_nil (n : Nat) : decimal n ≠ [] := by
  unfold decimal
  have := Nat.length_toDigits_pos (b := 10) (n := n)
  intro h
  rw [h] at this
  simp at this

theorem decimal_digit (n : Nat) (c : Char) (h : c ∈ decimal n) : c.isDigit = true :=
  Nat.isDigit_of_mem_toDigits (by omega) (by omega) h

/-- The reader of the examples. -/
def exWjson : Wjson where
  isNumber s := match s with
    | [] => false
    | c :: _ => c.isDigit || c == '-'
  readInt := readDigits 0
  suffix := readDigits_suffix 0
  isNumber_decimal n s := by
    cases h : decimal n with
    | nil => exact absurd h (decimal_ne_nil n)
    | cons c t =>
      have := decimal_digit n c (by rw [h]; simp)
      simp [this]
  readInt_decimal n s hn hs := readDigits_decimal n s hs hn

end Wrtstat
