import Verif.Fees.Spec
import Mathlib.Algebra.Order.Floor.Semifield

/-!
# Fee rates and medians

Lemmas about the arithmetic of the estimator.
-/

set_option autoImplicit false

namespace Verif.Fees
open Verif.Tx

theorem sat_of_lt {n : ℕ} (h : n < 2 ^ 64) : sat n = n := by
  unfold sat
  omega

theorem quotient_eq (fee : ℚ) {w : ℕ} : fee / ((w : ℚ) / 4) = 4 * fee / w := by
  rw [div_div_eq_mul_div]
  ring

theorem rate_eq {fee w : ℕ} (hf : fee < 2 ^ 64) (h1 : 40 ≤ w) (h2 : w < 2 ^ 53) : rate fee w = roundUp (fl (4 * fl fee / w)) := by
  unfold rate
  rw [fl_double (Double.nat h2), quotient_eq]
  apply sat_of_lt
  have hw : (40 : ℚ) ≤ w := by exact_mod_cast h1
  have hd : Double ((2 ^ 64 : ℕ) : ℚ) := ⟨1, 64, by norm_num, by norm_num⟩
  have hd2 : Double ((2 ^ 61 : ℕ) : ℚ) := ⟨1, 61, by norm_num, by norm_num⟩
  have a1 : fl fee ≤ ((2 ^ 64 : ℕ) : ℚ) := by
    rw [← fl_double hd]
    exact fl_mono (by exact_mod_cast hf.le)
  have a2 : 4 * fl fee / w ≤ ((2 ^ 61 : ℕ) : ℚ) := by
    rw [div_le_iff₀ (by linarith)]
    push_cast at a1 ⊢
    nlinarith
  have a3 := roundUp_mono (fl_mono a2)
  rw [fl_double hd2, roundUp_nat] at a3
  exact lt_of_le_of_lt a3 (by norm_num)

theorem rate_double {fee w : ℕ} (hf : fee < 2 ^ 64) (h1 : 40 ≤ w) (h2 : w < 2 ^ 53) : Double (rate fee w) := by
  rw [rate_eq hf h1 h2]
  exact (double_fl _).roundUp

theorem rate_lt {fee w : ℕ} : rate fee w < 2 ^ 64 := by
  unfold rate sat
  omega

theorem rate_exact {fee w : ℕ} (hf : fee < 2 ^ 50) (h1 : 40 ≤ w) (h2 : w < 2 ^ 53) :
    rate fee w = (8 * fee + w) / (2 * w) := by
  rw [rate_eq (by omega) h1 h2, fl_double (x := fee) (Double.nat (by omega))]
  have wp : (0 : ℚ) < w := by exact_mod_cast (by omega : 0 < w)
  generalize hk : (8 * fee + w) / (2 * w) = k
  have hk1 : k * (2 * w) ≤ 8 * fee + w := by
    rw [← hk]
    exact Nat.div_mul_le_self _ _
  have hk2 : 8 * fee + w + 1 ≤ (k + 1) * (2 * w) := by
    rw [← hk]
    have := Nat.lt_mul_div_succ (8 * fee + w) (by omega : 0 < 2 * w)
    rw [Nat.mul_comm (2 * w)] at this
    exact this
  have hk1' : (k : ℚ) * (2 * w) ≤ 8 * fee + w := by exact_mod_cast hk1
  have hk2' : (8 : ℚ) * fee + w + 1 ≤ (k + 1) * (2 * w) := by exact_mod_cast hk2
  have hfq : (fee : ℚ) < 2 ^ 50 := by exact_mod_cast hf
  have xn : (0 : ℚ) ≤ 4 * fee / w := by positivity
  unfold roundUp
  rw [Nat.floor_eq_iff (by have := fl_nonneg (4 * (fee : ℚ) / w); linarith)]
  constructor
  · cases k with
    | zero =>
      have := fl_nonneg (4 * (fee : ℚ) / w)
      push_cast
      linarith
    | succ j =>
      have hj : 2 * j + 1 < 2 ^ 53 := by
        have : (j + 1) * 80 ≤ (j + 1) * (2 * w) := Nat.mul_le_mul_left _ (by omega)
        by_contra hc
        have : (j + 1) * (2 * w) = (j + 1) * w + (j + 1) * w := by ring
        have h3 : (j + 1) * w ≤ 8 * fee := by
          have : w ≤ (j + 1) * w := Nat.le_mul_of_pos_left _ (by omega)
          omega
        have h4 : (j + 1) * 40 ≤ (j + 1) * w := Nat.mul_le_mul_left _ h1
        omega
      have hd : Double ((j : ℚ) + 1 / 2) := ⟨2 * j + 1, -1, hj, by push_cast; rw [zpow_neg_one]; ring⟩
      have hle : (j : ℚ) + 1 / 2 ≤ 4 * fee / w := by
        rw [le_div_iff₀ wp]
        push_cast at hk1'
        nlinarith
      have := fl_mono hle
      rw [fl_double hd] at this
      push_cast
      linarith
  · have he := (abs_le.1 (fl_err xn)).2
    have h5 : 4 * (fee : ℚ) / w / 2 ^ 53 < 1 / (2 * w) := by
      rw [div_div, div_lt_div_iff₀ (by positivity) (by positivity)]
      nlinarith
    have h6 : 4 * (fee : ℚ) / w + 1 / (2 * w) ≤ k + 1 / 2 := by
      have : 4 * (fee : ℚ) / w + 1 / (2 * w) = (8 * fee + 1) / (2 * w) := by
        field_simp
        ring
      rw [this, div_le_iff₀ (by positivity)]
      nlinarith
    linarith

theorem rate_isRate {fee w : ℕ} (hf : fee < 2 ^ 64) (h1 : 40 ≤ w) (h2 : w < 2 ^ 53) : IsRate fee w (rate fee w) := by
  refine ⟨fun h => rate_exact h h1 h2, ?_⟩
  rw [rate_eq hf h1 h2]
  have wp : (0 : ℚ) < w := by exact_mod_cast (by omega : 0 < w)
  have fn : (0 : ℚ) ≤ fee := Nat.cast_nonneg _
  have e1 := abs_le.1 (fl_err fn)
  have n1 := fl_nonneg (fee : ℚ)
  have n2 : 0 ≤ 4 * fl fee / w := by positivity
  have e2 := abs_le.1 (fl_err n2)
  have n3 := fl_nonneg (4 * fl (fee : ℚ) / w)
  have e3 : |(roundUp (fl (4 * fl (fee : ℚ) / w)) : ℚ) - fl (4 * fl fee / w)| ≤ 1 / 2 := by
    unfold roundUp
    have f1 := Nat.floor_le (a := fl (4 * fl (fee : ℚ) / w) + 1 / 2) (by linarith)
    have f2 := Nat.lt_floor_add_one (fl (4 * fl (fee : ℚ) / w) + 1 / 2)
    rw [abs_le]
    constructor <;> linarith
  have e3 := abs_le.1 e3
  have q1 : 4 * fl fee / w - 4 * (fee : ℚ) / w ≤ 4 * fee / w / 2 ^ 53 := by
    rw [← sub_div, div_div, div_le_div_iff₀ wp (by positivity)]
    have := e1.2
    have : (4 * fl (fee : ℚ) - 4 * fee) * 2 ^ 53 ≤ 4 * fee := by
      have h8 : (fl (fee : ℚ) - fee) * 2 ^ 53 ≤ fee := (le_div_iff₀ (by norm_num)).1 this
      linarith
    calc _ = (4 * fl (fee : ℚ) - 4 * fee) * 2 ^ 53 * w := by ring
      _ ≤ _ := mul_le_mul_of_nonneg_right this wp.le
  have q2 : -(4 * fee / w / 2 ^ 53) ≤ 4 * fl fee / w - 4 * (fee : ℚ) / w := by
    rw [← sub_div, div_div, ← neg_div, div_le_div_iff₀ (by positivity) wp]
    have := e1.1
    have : -(4 * (fee : ℚ)) ≤ (4 * fl (fee : ℚ) - 4 * fee) * 2 ^ 53 := by
      have h8 : (-(fee : ℚ)) ≤ (fl (fee : ℚ) - fee) * 2 ^ 53 := by
        rw [← div_le_iff₀ (by norm_num)]
        rw [neg_div]
        exact this
      linarith
    calc _ = -(4 * (fee : ℚ)) * w := by ring
      _ ≤ _ * w := mul_le_mul_of_nonneg_right this wp.le
      _ = _ := by ring
  have xn : (0 : ℚ) ≤ 4 * fee / w := by positivity
  rw [abs_le]
  generalize 4 * (fee : ℚ) / w = x at *
  generalize 4 * fl (fee : ℚ) / w = y at *
  constructor <;> linarith

theorem middle_bounds {l r : ℕ} (h : l ≤ r) (hl : Double l) (hr : Double r) (hb : r < 2 ^ 64) : l ≤ middle l r ∧ middle l r ≤ r := by
  have hq : (l : ℚ) ≤ r := by exact_mod_cast h
  unfold middle
  rw [fl_double hl, fl_double hr]
  have h1 : (2 * l : ℚ) ≤ fl (l + r) := by
    rw [← fl_double hl.two_mul]
    exact fl_mono (by linarith)
  have h2 : fl (l + r) ≤ (2 * r : ℚ) := by
    rw [← fl_double hr.two_mul]
    exact fl_mono (by linarith)
  have h3 := roundUp_mono (by linarith : (l : ℚ) ≤ fl (l + r) / 2)
  have h4 := roundUp_mono (by linarith : fl (l + r) / 2 ≤ (r : ℚ))
  rw [roundUp_nat] at h3 h4
  rw [sat_of_lt (by omega)]
  exact ⟨h3, h4⟩

theorem middle_exact {l r : ℕ} (h : l + r < 2 ^ 53) : middle l r = (l + r + 1) / 2 := by
  unfold middle
  rw [fl_double (Double.nat (by omega)), fl_double (Double.nat (by omega))]
  have : (l : ℚ) + r = ((l + r : ℕ) : ℚ) := by push_cast; ring
  rw [this, fl_double (Double.nat h)]
  have e : roundUp (((l + r : ℕ) : ℚ) / 2) = (l + r + 1) / 2 := by
    unfold roundUp
    generalize l + r = n at *
    have : (n : ℚ) / 2 + 1 / 2 = ((n + 1 : ℕ) : ℚ) / ((2 : ℕ) : ℚ) := by
      push_cast
      ring
    rw [this, Nat.floor_div_natCast, Nat.floor_natCast]
  rw [e, sat_of_lt (by omega)]

/-- What `FeeEstimate::from` computes, for rates that are doubles (as those computed by `apply` are). -/
theorem ofRates_spec {rates : List ℕ} {est : Estimate} (h : Estimate.ofRates rates = some est) (hd : ∀ r ∈ rates, Double r ∧ r < 2 ^ 64) :
    est.low ∈ rates ∧ est.high ∈ rates ∧ (∀ r ∈ rates, est.low ≤ r ∧ r ≤ est.high) ∧ est.low ≤ est.median ∧ est.median ≤ est.high ∧
      IsMedian rates est.median := by
  unfold Estimate.ofRates at h
  have hp : (rates.insertionSort (· ≤ ·)).Perm rates := List.perm_insertionSort _ _
  have hs : (rates.insertionSort (· ≤ ·)).Pairwise (· ≤ ·) := List.pairwise_insertionSort _ _
  split at h
  · cases h
  · rename_i x xs e
    rw [e] at hp hs
    have hl : (x :: xs).length = rates.length := hp.length_eq
    simp only [Option.some.injEq] at h
    subst h
    have hlast : (x :: xs).getLast (by simp) ∈ rates := hp.mem_iff.1 (List.getLast_mem _)
    have hge : ∀ r ∈ x :: xs, x ≤ r ∧ r ≤ (x :: xs).getLast (by simp) := by
      intro r hr
      constructor
      · rcases List.mem_cons.1 hr with rfl | hr
        · exact le_refl _
        · exact (List.pairwise_cons.1 hs).1 _ hr
      · obtain ⟨i, hi, rfl⟩ := List.mem_iff_getElem.1 hr
        rw [List.getLast_eq_getElem]
        by_cases c : i = (x :: xs).length - 1
        · subst c
          exact le_refl _
        · exact List.pairwise_iff_getElem.1 hs _ _ _ _ (by omega)
    have mem : ∀ i, (hi : i < (x :: xs).length) → (x :: xs)[i] ∈ rates := fun i hi => hp.mem_iff.1 (List.getElem_mem hi)
    have pos : 0 < (x :: xs).length := by simp
    refine ⟨hp.mem_iff.1 List.mem_cons_self, hlast, fun r hr => hge r (hp.mem_iff.2 hr), ?_⟩
    by_cases odd : (x :: xs).length % 2 = 1
    · have hi : (x :: xs).length / 2 < (x :: xs).length := by omega
      have e2 : (x :: xs)[(x :: xs).length / 2]?.getD 0 = (x :: xs)[(x :: xs).length / 2] := by
        rw [List.getElem?_eq_getElem hi]
        rfl
      simp only [if_pos odd]
      rw [e2]
      have := hge _ (List.getElem_mem hi)
      refine ⟨this.1, this.2, x :: xs, hp, hs, ?_, ?_⟩
      · intro _
        rw [← hl, List.getElem?_eq_getElem hi]
      · intro h0
        rw [← hl] at h0
        omega
    · have hi : (x :: xs).length / 2 < (x :: xs).length := by omega
      have hj : (x :: xs).length / 2 - 1 < (x :: xs).length := by omega
      have e2 : (x :: xs)[(x :: xs).length / 2]?.getD 0 = (x :: xs)[(x :: xs).length / 2] := by
        rw [List.getElem?_eq_getElem hi]
        rfl
      have e3 : (x :: xs)[(x :: xs).length / 2 - 1]?.getD 0 = (x :: xs)[(x :: xs).length / 2 - 1] := by
        rw [List.getElem?_eq_getElem hj]
        rfl
      simp only [if_neg odd]
      rw [e2, e3]
      have b1 := hge _ (List.getElem_mem hi)
      have b2 := hge _ (List.getElem_mem hj)
      have le : (x :: xs)[(x :: xs).length / 2 - 1] ≤ (x :: xs)[(x :: xs).length / 2] :=
        List.pairwise_iff_getElem.1 hs _ _ _ _ (by omega)
      have d1 := hd _ (mem _ hi)
      have d2 := hd _ (mem _ hj)
      have mb := middle_bounds le d2.1 d1.1 d1.2
      refine ⟨le_trans b2.1 mb.1, le_trans mb.2 b1.2, x :: xs, hp, hs, ?_, ?_⟩
      · intro h1
        rw [← hl] at h1
        exact absurd h1 odd
      · intro _
        rw [← hl]
        exact ⟨_, _, List.getElem?_eq_getElem hj, List.getElem?_eq_getElem hi, mb.1, mb.2, fun h => middle_exact h⟩

theorem ofRates_isSome {rates : List ℕ} (h : rates ≠ []) : ∃ est, Estimate.ofRates rates = some est := by
  unfold Estimate.ofRates
  have hp : (rates.insertionSort (· ≤ ·)).Perm rates := List.perm_insertionSort _ _
  split
  · rename_i e
    rw [e] at hp
    exact absurd hp.symm.eq_nil h
  · exact ⟨_, rfl⟩

end Verif.Fees
