import Mathlib.Data.Nat.Basic
/-!
# How the wallet shows amounts: `Balance` of wallet/src/wallet/ui.rs:44-54 (C153)

`Balance(n)` is shown as `format!("{:.4} BTC", n as f64 / 100000000.0)`.  For amounts below 2⁵³ satoshi (90 million bitcoins; there are at most 21 million) the conversion to `f64` is exact, so that
one floating-point division and one rounding to four decimals are left.  Both are modelled exactly, with natural numbers.  The padding (`f.pad`) is that of `Verif.Wallet.Table`.
-/

set_option autoImplicit false

namespace Verif.Wallet.Amount

/-- The natural number nearest to `a / b`; `up q` tells what to do with a number in the middle of `q` and `q + 1`. -/
def nearest (up : Nat → Bool) (a b : Nat) : Nat :=
  let q := a / b
  let r := a % b
  if 2 * r < b then q else if b < 2 * r then q + 1 else if up q then q + 1 else q

/-- The rule of IEEE 754 for numbers in the middle: the even one. -/
def toEven (q : Nat) : Bool := q % 2 = 1

/-- The exponent of the quotient: the least `k` for which `n · 2ᵏ / 10⁸` is at least 2⁵² (so that it has 53 binary digits).  `fuel` bounds the search: one satoshi needs 79. -/
def exponent (n : Nat) : Nat → Nat → Nat
  | 0, k => k
  | fuel + 1, k => if n * 2 ^ k < 2 ^ 52 * 10 ^ 8 then exponent n fuel (k + 1) else k

/-- `n as f64 / 100000000.0` (ui.rs:49), as fraction `mantissa / 2ᵏ`. -/
structure Double where
  mantissa : Nat
  k : Nat
  deriving DecidableEq, Repr

/-- The division (IEEE 754, correctly rounded). -/
def divide (n : Nat) : Double :=
  let k := exponent n 80 0
  ⟨nearest toEven (n * 2 ^ k) (10 ^ 8), k⟩

/-- `{:.4}` (ui.rs:50): the number of ten-thousandths that is nearest to the double.  The theorems hold whatever is done with numbers in the middle. -/
def format (up : Nat → Bool) (x : Double) : Nat := nearest up (x.mantissa * 10 ^ 4) (2 ^ x.k)

/-- The amount that is shown, in ten-thousandths of a bitcoin. -/
def shown (up : Nat → Bool) (n : Nat) : Nat := format up (divide n)

/-- The text (ui.rs:50). -/
def text (up : Nat → Bool) (n : Nat) : String :=
  let t := shown up n
  let d := toString (t % 10 ^ 4)
  toString (t / 10 ^ 4) ++ "." ++ String.ofList (List.replicate (4 - d.length) '0') ++ d ++ " BTC"

theorem nearest_spec (up : Nat → Bool) (a b : Nat) (hb : 0 < b) :
    2 * a ≤ 2 * (nearest up a b * b) + b ∧ 2 * (nearest up a b * b) ≤ 2 * a + b := by
  have h1 : b * (a / b) + a % b = a := Nat.div_add_mod a b
  have h2 : a % b < b := Nat.mod_lt a hb
  have h3 : (a / b) * b = b * (a / b) := Nat.mul_comm _ _
  have h4 : (a / b + 1) * b = b * (a / b) + b := by rw [Nat.add_mul, Nat.one_mul, h3]
  unfold nearest
  dsimp only
  split
  · rw [h3]; omega
  · split
    · rw [h4]; omega
    · split
      · rw [h4]; omega
      · rw [h3]; omega

theorem exponent_spec (n : Nat) : ∀ (fuel k : Nat), 2 ^ 52 * 10 ^ 8 ≤ n * 2 ^ exponent n fuel k ∨ exponent n fuel k = k + fuel
  | 0, k => .inr rfl
  | fuel + 1, k => by
    unfold exponent
    split
    · rcases exponent_spec n fuel (k + 1) with h | h
      · exact .inl h
      · exact .inr (by omega)
    · exact .inl (by omega)

/-- The double is so near to the amount that it can only be taken for this amount. -/
theorem exponent_large {n : Nat} (h : n < 2 ^ 53) : 5 * 10 ^ 7 < 2 ^ exponent n 80 0 := by
  rcases exponent_spec n 80 0 with h1 | h1
  · by_contra hc
    have h2 : n * 2 ^ exponent n 80 0 ≤ n * (5 * 10 ^ 7) := Nat.mul_le_mul_left n (by omega)
    omega
  · rw [h1]; decide

/-- **C153.** The amount that is shown is at most half of the last decimal, 5000 satoshi, away from the amount.  (Missing: it is not the amount; see `Scenarios.C153_dust_counterexample`.) -/
theorem C153_near_partial (up : Nat → Bool) {n : Nat} (h : n < 2 ^ 53) :
    shown up n * 10000 ≤ n + 5000 ∧ n ≤ shown up n * 10000 + 5000 := by
  have hk := exponent_large h
  generalize hp : 2 ^ exponent n 80 0 = p at hk
  have h1 := nearest_spec toEven (n * p) (10 ^ 8) (by decide)
  generalize hm : nearest toEven (n * p) (10 ^ 8) = m at h1
  have hs : shown up n = nearest up (m * 10 ^ 4) p := by simp only [shown, format, divide, hp, hm]
  have h2 := nearest_spec up (m * 10 ^ 4) p (by omega)
  rw [← hs] at h2
  generalize shown up n = t at *
  constructor
  · by_contra hc
    have h3 : (n + 5001) * p ≤ t * 10000 * p := Nat.mul_le_mul_right p (by omega)
    have h4 : t * 10000 * p = t * p * 10000 := by rw [Nat.mul_assoc, Nat.mul_comm 10000 p, ← Nat.mul_assoc]
    rw [Nat.add_mul, h4] at h3
    generalize t * p = x at *
    generalize n * p = y at *
    omega
  · by_contra hc
    have h3 : (t * 10000 + 5001) * p ≤ n * p := Nat.mul_le_mul_right p (by omega)
    have h4 : t * 10000 * p = t * p * 10000 := by rw [Nat.mul_assoc, Nat.mul_comm 10000 p, ← Nat.mul_assoc]
    rw [Nat.add_mul, h4] at h3
    generalize t * p = x at *
    generalize n * p = y at *
    omega

/-- **C153.** Amounts without further decimals are shown exactly. -/
theorem C153_exact_partial (up : Nat → Bool) {n : Nat} (h : n < 2 ^ 53) (hn : n % 10000 = 0) : shown up n = n / 10000 := by
  have := C153_near_partial up h
  omega

/-- **C153.** A larger amount is never shown as a smaller one. -/
theorem C153_order (up : Nat → Bool) {n n' : Nat} (h' : n' < 2 ^ 53) (hn : n ≤ n') : shown up n ≤ shown up n' := by
  rcases Nat.lt_or_eq_of_le hn with h | h
  · have h1 := C153_near_partial up (n := n) (by omega)
    have h2 := C153_near_partial up h'
    omega
  · rw [h]

/-- **C153.** Amounts that differ by more than a ten-thousandth are shown differently. -/
theorem C153_differ_partial (up : Nat → Bool) {n n' : Nat} (h' : n' < 2 ^ 53) (hn : n + 10000 < n') : shown up n < shown up n' := by
  have h1 := C153_near_partial up (n := n) (by omega)
  have h2 := C153_near_partial up h'
  omega

namespace Scenarios

/-- The test of the code (ui.rs:507-510), and all bitcoins there are. -/
example : text toEven 14912334245 = "149.1233 BTC" ∧ text toEven 2100000000000000 = "21000000.0000 BTC" := by decide +kernel

/-- Amounts in the middle: 0.00015 is shown as 0.0001 and 0.00025 as 0.0003, as the doubles next to them are smaller and larger. -/
example : text toEven 15000 = "0.0001 BTC" ∧ text toEven 25000 = "0.0003 BTC" := by decide +kernel

/-- **C153** is false of the code: coins of 4999 satoshi are shown as nothing. -/
theorem C153_dust_counterexample : text toEven 4999 = text toEven 0 ∧ text toEven 0 = "0.0000 BTC" := by decide +kernel

/-- **C153** is false of the code: the amounts of two coins, as they are shown, add up to more than the shown sum: 0.0001 and 0.0001, together 0.0001. -/
theorem C153_sum_counterexample : text toEven 6000 = "0.0001 BTC" ∧ text toEven (6000 + 6000) = "0.0001 BTC" := by decide +kernel

end Scenarios

end Verif.Wallet.Amount
