import Mathlib.Data.Int.Log
import Mathlib.Data.Rat.Floor
import Mathlib.Algebra.Order.Round
import Mathlib.Tactic.NormNum
import Mathlib.Tactic.Linarith
import Mathlib.Tactic.Positivity
import Mathlib.Tactic.FieldSimp
import Mathlib.Tactic.Ring

/-!
# Double-precision arithmetic

The fee estimator computes fee rates and medians with `f64`.  The operations used are: conversion from `u64` and `usize`, sum, quotient,
`round` and conversion to `u64`.  IEEE 754 defines sum, quotient and conversion as the exact result followed by rounding to the nearest
number with a 53-bit significand, ties to even; this is `fl` below, on rational numbers.  Subnormal numbers, infinities and signs are left
out: every quantity in fees.rs is zero or between 2^-64 and 2^66 in size, where none of them occurs.
-/

set_option autoImplicit false

namespace Verif.Fees

/-- Rounding to the nearest integer, ties to even. -/
def rne (x : ℚ) : ℤ :=
  if x - ⌊x⌋ < 1 / 2 then ⌊x⌋ else if 1 / 2 < x - ⌊x⌋ then ⌊x⌋ + 1 else if ⌊x⌋ % 2 = 0 then ⌊x⌋ else ⌊x⌋ + 1

/-- The exponent of the last place of a positive number: the significand has 53 bits. -/
def lastPlace (x : ℚ) : ℤ := Int.log 2 x - 52

/-- Rounding to double precision of a number that is not negative (IEEE 754, `roundTiesToEven`). -/
def fl (x : ℚ) : ℚ := if x ≤ 0 then 0 else (rne (x / 2 ^ lastPlace x) : ℚ) * 2 ^ lastPlace x

/-- `f64::round`, of a number that is not negative: to the nearest integer, ties upwards. -/
def roundUp (x : ℚ) : ℕ := ⌊x + 1 / 2⌋₊

/-- `as u64`: saturates. -/
def sat (n : ℕ) : ℕ := min n (2 ^ 64 - 1)

/-- A number with at most 53 significant bits. -/
def Double (x : ℚ) : Prop := ∃ (m : ℕ) (e : ℤ), m < 2 ^ 53 ∧ x = m * 2 ^ e

theorem rne_int (n : ℤ) : rne n = n := by simp [rne]

theorem rne_ge (x : ℚ) : ⌊x⌋ ≤ rne x := by
  unfold rne
  split
  · exact le_refl _
  · split
    · omega
    · split <;> omega

theorem rne_le (x : ℚ) : rne x ≤ ⌊x⌋ + 1 := by
  unfold rne
  split
  · omega
  · split
    · omega
    · split <;> omega

theorem rne_mono {x y : ℚ} (h : x ≤ y) : rne x ≤ rne y := by
  have hf : ⌊x⌋ ≤ ⌊y⌋ := Int.floor_le_floor h
  rcases Int.lt_or_eq_of_le hf with lt | eq
  · have := rne_le x
    have := rne_ge y
    omega
  · unfold rne
    rw [eq]
    split
    · split
      · omega
      · split
        · omega
        · split <;> omega
    · rename_i h1
      have : ¬ y - ⌊y⌋ < 1 / 2 := by
        rw [eq] at *
        linarith
      rw [if_neg this]
      split
      · rename_i h2
        have : 1 / 2 < y - ⌊y⌋ := by linarith
        rw [if_pos this]
      · split <;> split <;> omega

/-- The error is at most one half. -/
theorem rne_err (x : ℚ) : |(rne x : ℚ) - x| ≤ 1 / 2 := by
  have h1 := Int.floor_le x
  have h2 := Int.lt_floor_add_one x
  unfold rne
  rw [abs_le]
  split
  · constructor <;> linarith
  · split
    · push_cast
      constructor <;> linarith
    · split
      · constructor <;> linarith
      · push_cast
        constructor <;> linarith

theorem two_zpow_pos (e : ℤ) : (0 : ℚ) < 2 ^ e := zpow_pos (by norm_num) e

theorem scaled_ge {x : ℚ} (h : 0 < x) : (2 : ℚ) ^ 52 ≤ x / 2 ^ lastPlace x := by
  rw [le_div_iff₀ (two_zpow_pos _), lastPlace]
  have := Int.zpow_log_le_self (b := 2) (by norm_num) h
  have e : (2 : ℚ) ^ 52 * 2 ^ (Int.log 2 x - 52) = ((2 : ℕ) : ℚ) ^ Int.log 2 x := by
    rw [← zpow_natCast, ← zpow_add₀ (by norm_num)]
    norm_num
  rw [e]
  exact this

theorem scaled_lt (x : ℚ) : x / 2 ^ lastPlace x < (2 : ℚ) ^ 53 := by
  rw [div_lt_iff₀ (two_zpow_pos _), lastPlace]
  have := Int.lt_zpow_succ_log_self (b := 2) (by norm_num) x
  have e : (2 : ℚ) ^ 53 * 2 ^ (Int.log 2 x - 52) = ((2 : ℕ) : ℚ) ^ (Int.log 2 x + 1) := by
    rw [← zpow_natCast, ← zpow_add₀ (by norm_num)]
    congr 1
    omega
  rw [e]
  exact this

theorem rne_scaled_ge {x : ℚ} (h : 0 < x) : 2 ^ 52 ≤ rne (x / 2 ^ lastPlace x) := by
  have := rne_mono (scaled_ge h)
  have e : rne ((2 : ℚ) ^ 52) = 2 ^ 52 := by
    have := rne_int (2 ^ 52)
    push_cast at this
    exact this
  rw [e] at this
  exact this

theorem rne_scaled_le (x : ℚ) : rne (x / 2 ^ lastPlace x) ≤ 2 ^ 53 := by
  have := rne_mono (scaled_lt x).le
  have e : rne ((2 : ℚ) ^ 53) = 2 ^ 53 := by
    have := rne_int (2 ^ 53)
    push_cast at this
    exact this
  rw [e] at this
  exact this

theorem fl_pos {x : ℚ} (h : 0 < x) : fl x = (rne (x / 2 ^ lastPlace x) : ℚ) * 2 ^ lastPlace x := by
  rw [fl, if_neg (not_le.2 h)]

theorem fl_zero : fl 0 = 0 := by simp [fl]

theorem fl_nonneg (x : ℚ) : 0 ≤ fl x := by
  unfold fl
  split
  · exact le_refl _
  · rename_i h
    have := rne_scaled_ge (not_le.1 h)
    have : (0 : ℚ) ≤ (rne (x / 2 ^ lastPlace x) : ℚ) := by
      have h2 : (0 : ℤ) ≤ rne (x / 2 ^ lastPlace x) := le_trans (by norm_num) this
      exact_mod_cast h2
    exact mul_nonneg this (two_zpow_pos _).le

theorem fl_mono {x y : ℚ} (h : x ≤ y) : fl x ≤ fl y := by
  by_cases hx : x ≤ 0
  · rw [fl, if_pos hx]
    exact fl_nonneg y
  · have px := not_le.1 hx
    have py := lt_of_lt_of_le px h
    rw [fl_pos px, fl_pos py]
    have hl : lastPlace x ≤ lastPlace y := by
      have := Int.log_mono_right (b := 2) px h
      unfold lastPlace
      omega
    rcases Int.lt_or_eq_of_le hl with lt | eq
    · have h1 := rne_scaled_le x
      have h2 := rne_scaled_ge py
      have h1' : (rne (x / 2 ^ lastPlace x) : ℚ) ≤ 2 ^ 53 := by exact_mod_cast h1
      have h2' : (2 : ℚ) ^ 52 ≤ (rne (y / 2 ^ lastPlace y) : ℚ) := by exact_mod_cast h2
      calc (rne (x / 2 ^ lastPlace x) : ℚ) * 2 ^ lastPlace x ≤ 2 ^ 53 * 2 ^ lastPlace x :=
            mul_le_mul_of_nonneg_right h1' (two_zpow_pos _).le
        _ = 2 ^ 52 * 2 ^ (lastPlace x + 1) := by
            rw [zpow_add₀ (by norm_num)]
            ring
        _ ≤ 2 ^ 52 * 2 ^ lastPlace y :=
            mul_le_mul_of_nonneg_left (zpow_le_zpow_right₀ (by norm_num) (by omega)) (by norm_num)
        _ ≤ _ := mul_le_mul_of_nonneg_right h2' (two_zpow_pos _).le
    · rw [eq]
      have : rne (x / 2 ^ lastPlace y) ≤ rne (y / 2 ^ lastPlace y) :=
        rne_mono (div_le_div_of_nonneg_right h (two_zpow_pos _).le)
      have : (rne (x / 2 ^ lastPlace y) : ℚ) ≤ (rne (y / 2 ^ lastPlace y) : ℚ) := by exact_mod_cast this
      exact mul_le_mul_of_nonneg_right this (two_zpow_pos _).le

/-- The relative error is at most 2^-53. -/
theorem fl_err {x : ℚ} (h : 0 ≤ x) : |fl x - x| ≤ x / 2 ^ 53 := by
  rcases h.lt_or_eq with h | h
  · rw [fl_pos h]
    have e := rne_err (x / 2 ^ lastPlace x)
    have p := two_zpow_pos (lastPlace x)
    have q := scaled_ge h
    have : (rne (x / 2 ^ lastPlace x) : ℚ) * 2 ^ lastPlace x - x
        = ((rne (x / 2 ^ lastPlace x) : ℚ) - x / 2 ^ lastPlace x) * 2 ^ lastPlace x := by
      field_simp
    rw [this, abs_mul, abs_of_pos p]
    calc _ ≤ 1 / 2 * 2 ^ lastPlace x := mul_le_mul_of_nonneg_right e p.le
      _ ≤ x / 2 ^ 53 := by
        rw [le_div_iff₀ p] at q
        rw [le_div_iff₀ (by norm_num)]
        linarith
  · subst h
    simp [fl_zero]

theorem fl_double {x : ℚ} (h : Double x) : fl x = x := by
  obtain ⟨m, e, hm, rfl⟩ := h
  by_cases z : m = 0
  · subst z
    simp [fl_zero]
  · have pm : (0 : ℚ) < m := by exact_mod_cast Nat.pos_of_ne_zero z
    have p : (0 : ℚ) < m * 2 ^ e := mul_pos pm (two_zpow_pos e)
    rw [fl_pos p]
    have hle : lastPlace (m * 2 ^ e) ≤ e := by
      have h1 := Int.zpow_log_le_self (b := 2) (by norm_num) p
      have h2 : (m : ℚ) * 2 ^ e < 2 ^ (53 + e) := by
        rw [zpow_add₀ (by norm_num)]
        have : (m : ℚ) < 2 ^ (53 : ℤ) := by exact_mod_cast hm
        exact mul_lt_mul_of_pos_right this (two_zpow_pos e)
      have h3 : ((2 : ℕ) : ℚ) ^ Int.log 2 ((m : ℚ) * 2 ^ e) < 2 ^ (53 + e) := lt_of_le_of_lt h1 h2
      have h4 : Int.log 2 ((m : ℚ) * 2 ^ e) < 53 + e := (zpow_lt_zpow_iff_right₀ (a := (2 : ℚ)) (by norm_num)).1 (by exact_mod_cast h3)
      unfold lastPlace
      omega
    obtain ⟨k, hk⟩ := Int.eq_ofNat_of_zero_le (Int.sub_nonneg.2 hle)
    have hi : (m : ℚ) * 2 ^ e / 2 ^ lastPlace (m * 2 ^ e) = ((m * 2 ^ k : ℤ) : ℚ) := by
      rw [mul_div_assoc, ← zpow_sub₀ (by norm_num), hk]
      push_cast
      norm_cast
    rw [hi, rne_int, ← hi, div_mul_cancel₀ _ (two_zpow_pos _).ne']

theorem double_fl (x : ℚ) : Double (fl x) := by
  by_cases h : x ≤ 0
  · rw [fl, if_pos h]
    exact ⟨0, 0, by norm_num, by simp⟩
  · have p := not_le.1 h
    rw [fl_pos p]
    have h1 := rne_scaled_le x
    have h2 := rne_scaled_ge p
    rcases Int.lt_or_eq_of_le h1 with lt | eq
    · refine ⟨(rne (x / 2 ^ lastPlace x)).toNat, lastPlace x, by omega, ?_⟩
      congr 1
      have : (((rne (x / 2 ^ lastPlace x)).toNat : ℤ) : ℚ) = (rne (x / 2 ^ lastPlace x) : ℚ) := by
        rw [Int.toNat_of_nonneg (le_trans (by norm_num) h2)]
      exact_mod_cast this.symm
    · refine ⟨1, 53 + lastPlace x, by norm_num, ?_⟩
      rw [eq, zpow_add₀ (by norm_num)]
      push_cast
      norm_num

theorem Double.nat {n : ℕ} (h : n < 2 ^ 53) : Double n := ⟨n, 0, h, by simp⟩

theorem Double.two_mul {x : ℚ} (h : Double x) : Double (2 * x) := by
  obtain ⟨m, e, hm, rfl⟩ := h
  refine ⟨m, e + 1, hm, ?_⟩
  rw [zpow_add₀ (by norm_num)]
  ring

theorem Double.nonneg {x : ℚ} (h : Double x) : 0 ≤ x := by
  obtain ⟨m, e, hm, rfl⟩ := h
  exact mul_nonneg (Nat.cast_nonneg m) (two_zpow_pos e).le

theorem roundUp_nat (n : ℕ) : roundUp n = n := by
  unfold roundUp
  rw [Nat.floor_eq_iff (by positivity)]
  constructor <;> linarith

theorem roundUp_mono {x y : ℚ} (h : x ≤ y) : roundUp x ≤ roundUp y := Nat.floor_le_floor (by linarith)

/-- Rounding a double to an integer gives a double. -/
theorem Double.roundUp {x : ℚ} (h : Double x) : Double (roundUp x) := by
  obtain ⟨m, e, hm, rfl⟩ := h
  by_cases he : 0 ≤ e
  · obtain ⟨k, rfl⟩ := Int.eq_ofNat_of_zero_le he
    have : (m : ℚ) * 2 ^ (k : ℤ) = ((m * 2 ^ k : ℕ) : ℚ) := by push_cast; norm_cast
    rw [this, roundUp_nat, ← this]
    exact ⟨m, k, hm, rfl⟩
  · apply Double.nat
    have h1 : (m : ℚ) * 2 ^ e ≤ ((2 ^ 52 : ℕ) : ℚ) := by
      have h2 : (2 : ℚ) ^ e ≤ 2 ^ (-1 : ℤ) := zpow_le_zpow_right₀ (by norm_num) (by omega)
      have h3 : (m : ℚ) ≤ 2 ^ 53 := by exact_mod_cast hm.le
      calc (m : ℚ) * 2 ^ e ≤ 2 ^ 53 * 2 ^ (-1 : ℤ) := mul_le_mul h3 h2 (two_zpow_pos e).le (by norm_num)
        _ = _ := by norm_num
    have := roundUp_mono h1
    rw [roundUp_nat] at this
    exact lt_of_le_of_lt this (by norm_num)

end Verif.Fees
