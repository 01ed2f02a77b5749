import Mathlib.Data.Nat.Size
import Mathlib.Tactic.NormNum
import Verif.Chain.Model

/-!
# Concrete difficulty arithmetic of rust-bitcoin 0.29 (the dependency the tree calls)

The header tree takes `target`, `compact` and `work` as parameters.  This file gives the functions of the `bitcoin` crate
(version 0.29, not part of /repo; written down from its public source) and proves the facts about them that the property
theorems assume.
-/

set_option autoImplicit false

namespace Verif.Chain.Compact

/-- Number of significant bytes of a 256-bit number: `(bits() + 7) / 8`. -/
def byteLen (x : Nat) : Nat := (Nat.size x + 7) / 8

/-- `BlockHeader::u256_from_compact_target`.  The result is truncated to 256 bits as by `Uint256::shl`. -/
def target (bits : Nat) : Nat :=
  let e := bits / 2 ^ 24
  let m := bits % 2 ^ 24
  if e ≤ 3 then
    let m' := m / 256 ^ (3 - e)
    if m' > 0x7fffff then 0 else m'
  else if m > 0x7fffff then 0 else m * 256 ^ (e - 3) % 2 ^ 256

/-- Mantissa before the sign correction in `compact_target_from_u256`. -/
def mantissa (x : Nat) : Nat :=
  if byteLen x ≤ 3 then x * 256 ^ (3 - byteLen x) else x / 256 ^ (byteLen x - 3)

/-- `BlockHeader::compact_target_from_u256`. -/
def compact (x : Nat) : Nat :=
  if mantissa x ≥ 0x800000 then mantissa x / 256 + (byteLen x + 1) * 2 ^ 24
  else mantissa x + byteLen x * 2 ^ 24

/-- `BlockHeader::work`: `!target / (target + 1) + 1` on 256 bits. -/
def work (bits : Nat) : Nat := (2 ^ 256 - 1 - target bits) / (target bits + 1) + 1

theorem lt_byteLen (x : Nat) : x < 256 ^ byteLen x := by
  have h1 := Nat.lt_size_self x
  have h2 : (256 : Nat) ^ byteLen x = 2 ^ (8 * byteLen x) := by rw [Nat.pow_mul]
  rw [h2]
  refine Nat.lt_of_lt_of_le h1 (Nat.pow_le_pow_right (by omega) ?_)
  unfold byteLen; omega

theorem le_of_byteLen {x : Nat} (h : x ≠ 0) : 256 ^ (byteLen x - 1) ≤ x := by
  have hs : 0 < Nat.size x := Nat.size_pos.2 (by omega)
  have h2 : (256 : Nat) ^ (byteLen x - 1) = 2 ^ (8 * (byteLen x - 1)) := by rw [Nat.pow_mul]
  rw [h2]
  have : 8 * (byteLen x - 1) < Nat.size x := by unfold byteLen; omega
  exact Nat.lt_size.1 this

theorem byteLen_pos {x : Nat} (h : x ≠ 0) : 1 ≤ byteLen x := by
  have hs : 0 < Nat.size x := Nat.size_pos.2 (by omega)
  unfold byteLen; omega

theorem byteLen_le {x n : Nat} (h : x < 256 ^ n) : byteLen x ≤ n := by
  by_contra hc
  have hx : x ≠ 0 := by
    rintro rfl
    unfold byteLen at hc; simp at hc
  have h1 := le_of_byteLen hx
  have h2 : (256 : Nat) ^ n ≤ 256 ^ (byteLen x - 1) := Nat.pow_le_pow_right (by omega) (by omega)
  omega

theorem mantissa_lt (x : Nat) : mantissa x < 2 ^ 24 := by
  unfold mantissa
  have h := lt_byteLen x
  have h24 : (2 : Nat) ^ 24 = 256 ^ 3 := by norm_num
  rw [h24]
  split
  · rename_i hle
    have : (256 : Nat) ^ 3 = 256 ^ byteLen x * 256 ^ (3 - byteLen x) := by
      rw [← Nat.pow_add]; congr 1; omega
    rw [this]
    exact Nat.mul_lt_mul_of_pos_right h (Nat.pow_pos (by omega))
  · rename_i hle
    rw [Nat.div_lt_iff_lt_mul (Nat.pow_pos (by omega)), ← Nat.pow_add]
    have : 3 + (byteLen x - 3) = byteLen x := by omega
    rw [this]; exact h

theorem mantissa_ge {x : Nat} (hx : x ≠ 0) : 2 ^ 16 ≤ mantissa x := by
  unfold mantissa
  have h := le_of_byteLen hx
  have hp := byteLen_pos hx
  have h16 : (2 : Nat) ^ 16 = 256 ^ 2 := by norm_num
  rw [h16]
  split
  · rename_i hle
    have : (256 : Nat) ^ 2 = 256 ^ (byteLen x - 1) * 256 ^ (3 - byteLen x) := by
      rw [← Nat.pow_add]; congr 1; omega
    rw [this]
    exact Nat.mul_le_mul_right _ h
  · rename_i hle
    rw [Nat.le_div_iff_mul_le (Nat.pow_pos (by omega)), ← Nat.pow_add]
    have : 2 + (byteLen x - 3) = byteLen x - 1 := by omega
    rw [this]; exact h

theorem split_lt {m e : Nat} (hm : m < 2 ^ 24) : (m + e * 2 ^ 24) / 2 ^ 24 = e ∧ (m + e * 2 ^ 24) % 2 ^ 24 = m := by
  omega

/-- Decoding the compact form of `x` gives `x` with all but its top 15 to 23 bits cleared. -/
theorem target_compact {x : Nat} (hx : x < 2 ^ 248) :
    target (compact x) ≤ x ∧ (x - target (compact x)) * 2 ^ 15 ≤ x := by
  by_cases h0 : x = 0
  · subst h0
    have hb : byteLen 0 = 0 := by simp [byteLen]
    have : compact 0 = 0 := by simp [compact, mantissa, hb]
    rw [this]
    decide
  have hlen : byteLen x ≤ 31 := by
    apply byteLen_le
    have : (256 : Nat) ^ 31 = 2 ^ 248 := by norm_num
    omega
  have hpos := byteLen_pos h0
  have hm := mantissa_lt x
  have hm' := mantissa_ge h0
  have hlt := lt_byteLen x
  -- decoding mantissa m at size n
  have dec : ∀ {m n : Nat}, m ≤ 0x7fffff → 3 < n → m * 256 ^ (n - 3) ≤ x → target (m + n * 2 ^ 24) = m * 256 ^ (n - 3) := by
    intro m n h1 h2 h3
    obtain ⟨a, b⟩ := split_lt (m := m) (e := n) (by omega)
    unfold target
    simp only [a, b]
    rw [if_neg (by omega), if_neg (by omega), Nat.mod_eq_of_lt]
    have : x < 2 ^ 256 := by omega
    omega
  have decS : ∀ {m n : Nat}, m ≤ 0x7fffff → n ≤ 3 → target (m + n * 2 ^ 24) = m / 256 ^ (3 - n) := by
    intro m n h1 h2
    obtain ⟨a, b⟩ := split_lt (m := m) (e := n) (by omega)
    unfold target
    simp only [a, b]
    rw [if_pos h2, if_neg]
    have : m / 256 ^ (3 - n) ≤ m := Nat.div_le_self _ _
    omega
  unfold compact
  by_cases hbig : mantissa x ≥ 0x800000
  · rw [if_pos hbig]
    by_cases h3 : byteLen x ≤ 3
    · -- small numbers
      have hmx : mantissa x = x * 256 ^ (3 - byteLen x) := by unfold mantissa; rw [if_pos h3]
      by_cases h4 : byteLen x = 3
      · have hx3 : mantissa x = x := by rw [hmx, h4]; simp
        rw [h4, hx3]
        rw [hx3] at hbig hm
        have h5 : x / 256 * 256 ≤ x := Nat.div_mul_le_self _ _
        have := dec (m := x / 256) (n := 4) (by omega) (by omega) (by simpa using h5)
        simp only [Nat.reduceAdd] at this ⊢
        rw [this]
        simp only [Nat.reduceSub, Nat.pow_one]
        omega
      · have h6 : byteLen x = 1 ∨ byteLen x = 2 := by omega
        rw [decS (by omega) (by omega), hmx]
        rcases h6 with h6 | h6
        · rw [h6] at hlt ⊢
          norm_num
          have : x * 65536 / 256 / 256 = x := by omega
          rw [this]; simp
        · rw [h6] at hlt ⊢
          norm_num
    · have hmx : mantissa x = x / 256 ^ (byteLen x - 3) := by unfold mantissa; rw [if_neg h3]
      have hq : mantissa x / 256 = x / 256 ^ (byteLen x + 1 - 3) := by
        rw [hmx, Nat.div_div_eq_div_mul, ← Nat.pow_succ]; congr 2; omega
      have hle : mantissa x / 256 * 256 ^ (byteLen x + 1 - 3) ≤ x := by rw [hq]; exact Nat.div_mul_le_self _ _
      rw [dec (by omega) (by omega) hle]
      refine ⟨hle, ?_⟩
      have hr : x - mantissa x / 256 * 256 ^ (byteLen x + 1 - 3) = x % 256 ^ (byteLen x + 1 - 3) := by
        rw [hq]
        have := Nat.div_add_mod x (256 ^ (byteLen x + 1 - 3))
        rw [Nat.mul_comm] at this
        omega
      have hr2 : x % 256 ^ (byteLen x + 1 - 3) < 256 ^ (byteLen x + 1 - 3) := Nat.mod_lt _ (Nat.pow_pos (by omega))
      rw [hr]
      calc x % 256 ^ (byteLen x + 1 - 3) * 2 ^ 15 ≤ 256 ^ (byteLen x + 1 - 3) * (mantissa x / 256) :=
            Nat.mul_le_mul (Nat.le_of_lt hr2) (by omega)
        _ = mantissa x / 256 * 256 ^ (byteLen x + 1 - 3) := Nat.mul_comm _ _
        _ ≤ x := hle
  · rw [if_neg hbig]
    by_cases h3 : byteLen x ≤ 3
    · have hmx : mantissa x = x * 256 ^ (3 - byteLen x) := by unfold mantissa; rw [if_pos h3]
      rw [decS (by omega) h3, hmx, Nat.mul_div_cancel _ (Nat.pow_pos (by omega))]
      simp
    · have hmx : mantissa x = x / 256 ^ (byteLen x - 3) := by unfold mantissa; rw [if_neg h3]
      have hle : mantissa x * 256 ^ (byteLen x - 3) ≤ x := by rw [hmx]; exact Nat.div_mul_le_self _ _
      rw [dec (by omega) (by omega) hle]
      refine ⟨hle, ?_⟩
      have hr : x - mantissa x * 256 ^ (byteLen x - 3) = x % 256 ^ (byteLen x - 3) := by
        rw [hmx]
        have := Nat.div_add_mod x (256 ^ (byteLen x - 3))
        rw [Nat.mul_comm] at this
        omega
      have hr2 : x % 256 ^ (byteLen x - 3) < 256 ^ (byteLen x - 3) := Nat.mod_lt _ (Nat.pow_pos (by omega))
      rw [hr]
      calc x % 256 ^ (byteLen x - 3) * 2 ^ 15 ≤ 256 ^ (byteLen x - 3) * mantissa x :=
            Nat.mul_le_mul (Nat.le_of_lt hr2) (by omega)
        _ = mantissa x * 256 ^ (byteLen x - 3) := Nat.mul_comm _ _
        _ ≤ x := hle

/-- Numbers with at most 23 significant bits, at a byte boundary: what compact targets can express. -/
theorem target_sparse (bits : Nat) : ∃ M k, target bits = M * 256 ^ k ∧ M ≤ 0x7fffff ∧ target bits < 2 ^ 256 := by
  unfold target
  simp only
  generalize bits / 2 ^ 24 = e
  have hm : bits % 2 ^ 24 < 2 ^ 24 := Nat.mod_lt _ (by norm_num)
  generalize bits % 2 ^ 24 = m at hm
  split
  · split
    · exact ⟨0, 0, by simp, by omega, by norm_num⟩
    · exact ⟨m / 256 ^ (3 - e), 0, by simp, by omega, by omega⟩
  · split
    · exact ⟨0, 0, by simp, by omega, by norm_num⟩
    · by_cases hk : e - 3 ≤ 32
      · refine ⟨m % 256 ^ (32 - (e - 3)), e - 3, ?_, ?_, Nat.mod_lt _ (by norm_num)⟩
        · have : (2 : Nat) ^ 256 = 256 ^ (32 - (e - 3)) * 256 ^ (e - 3) := by
            rw [← Nat.pow_add, Nat.sub_add_cancel hk]; norm_num
          rw [this, Nat.mul_mod_mul_right]
        · exact Nat.le_trans (Nat.mod_le _ _) (by omega)
      · refine ⟨0, 0, ?_, by omega, Nat.mod_lt _ (by norm_num)⟩
        have : (256 : Nat) ^ (e - 3) = 256 ^ (e - 3 - 32) * 2 ^ 256 := by
          have h : (2 : Nat) ^ 256 = 256 ^ 32 := by norm_num
          rw [h, ← Nat.pow_add, Nat.sub_add_cancel (by omega)]
        rw [this, ← Nat.mul_assoc, Nat.mul_mod_left]; simp

/-- Decoding the compact form never gives more. -/
theorem target_compact_le (x : Nat) : target (compact x) ≤ x := by
  have hm := mantissa_lt x
  have pos : ∀ n : Nat, 0 < (256 : Nat) ^ n := fun n => Nat.pow_pos (by omega)
  unfold compact
  split
  · rename_i hge
    obtain ⟨a, b⟩ := split_lt (m := mantissa x / 256) (e := byteLen x + 1) (by omega)
    unfold target
    simp only [a, b]
    split
    · rename_i he
      split
      · exact Nat.zero_le _
      · unfold mantissa
        rw [if_pos (by omega), Nat.div_div_eq_div_mul]
        have : 256 * 256 ^ (3 - (byteLen x + 1)) = 256 ^ (3 - byteLen x) := by
          rw [← Nat.pow_succ']; congr 1; omega
        rw [this, Nat.mul_div_cancel _ (pos _)]
    · rename_i he
      split
      · exact Nat.zero_le _
      · refine Nat.le_trans (Nat.mod_le _ _) ?_
        unfold mantissa
        split
        · rename_i h3
          have h3' : byteLen x = 3 := by omega
          rw [h3']
          simpa using Nat.div_mul_le_self x 256
        · rename_i h3
          rw [Nat.div_div_eq_div_mul]
          have : 256 ^ (byteLen x - 3) * 256 = 256 ^ (byteLen x + 1 - 3) := by
            rw [← Nat.pow_succ]; congr 1; omega
          rw [this]
          exact Nat.div_mul_le_self _ _
  · rename_i hlt
    obtain ⟨a, b⟩ := split_lt (m := mantissa x) (e := byteLen x) hm
    unfold target
    simp only [a, b]
    split
    · rename_i he
      split
      · exact Nat.zero_le _
      · unfold mantissa
        rw [if_pos he, Nat.mul_div_cancel _ (pos _)]
    · rename_i he
      split
      · exact Nat.zero_le _
      · refine Nat.le_trans (Nat.mod_le _ _) ?_
        unfold mantissa
        rw [if_neg he]
        exact Nat.div_mul_le_self _ _

/-- Decoded targets survive encoding and decoding. -/
theorem target_compact_target (bits : Nat) : target (compact (target bits)) = target bits := by
  obtain ⟨M, k, hx, hM, hlt⟩ := target_sparse bits
  generalize target bits = x at hx hlt
  by_cases h0 : x = 0
  · subst h0
    have hb : byteLen 0 = 0 := by simp [byteLen]
    have : compact 0 = 0 := by simp [compact, mantissa, hb]
    rw [this]
    decide
  have hpos := byteLen_pos h0
  have hm := mantissa_lt x
  have hlen := lt_byteLen x
  have hn : byteLen x ≤ k + 3 := by
    apply byteLen_le
    rw [hx, Nat.pow_add, Nat.mul_comm]
    exact Nat.mul_lt_mul_of_pos_left (by omega) (Nat.pow_pos (by omega))
  have dec : ∀ {m n : Nat}, m ≤ 0x7fffff → 3 < n → m * 256 ^ (n - 3) = x → target (m + n * 2 ^ 24) = x := by
    intro m n h1 h2 h3
    obtain ⟨a, b⟩ := split_lt (m := m) (e := n) (by omega)
    unfold target
    simp only [a, b]
    rw [if_neg (by omega), if_neg (by omega), h3, Nat.mod_eq_of_lt hlt]
  have decS : ∀ {m n : Nat}, m ≤ 0x7fffff → n ≤ 3 → target (m + n * 2 ^ 24) = m / 256 ^ (3 - n) := by
    intro m n h1 h2
    obtain ⟨a, b⟩ := split_lt (m := m) (e := n) (by omega)
    unfold target
    simp only [a, b]
    rw [if_pos h2, if_neg]
    have : m / 256 ^ (3 - n) ≤ m := Nat.div_le_self _ _
    omega
  unfold compact
  by_cases h3 : byteLen x ≤ 3
  · have hmx : mantissa x = x * 256 ^ (3 - byteLen x) := by unfold mantissa; rw [if_pos h3]
    by_cases hbig : mantissa x ≥ 0x800000
    · rw [if_pos hbig]
      by_cases h4 : byteLen x = 3
      · have hx3 : mantissa x = x := by rw [hmx, h4]; simp
        rw [h4, hx3]
        rw [hx3] at hbig hm
        have hk : k ≠ 0 := by rintro rfl; simp at hx; omega
        obtain ⟨j, rfl⟩ := Nat.exists_eq_succ_of_ne_zero hk
        have hdiv : x / 256 * 256 = x := by
          rw [hx, Nat.pow_succ, ← Nat.mul_assoc, Nat.mul_div_cancel _ (by omega)]
        exact dec (m := x / 256) (n := 4) (by omega) (by omega) (by simpa using hdiv)
      · have h6 : byteLen x = 1 ∨ byteLen x = 2 := by omega
        rw [decS (by omega) (by omega), hmx]
        rcases h6 with h6 | h6
        · rw [h6] at hlen ⊢
          norm_num
          omega
        · rw [h6] at hlen ⊢
          norm_num
    · rw [if_neg hbig, decS (by omega) h3, hmx, Nat.mul_div_cancel _ (Nat.pow_pos (by omega))]
  · have hmx : mantissa x = x / 256 ^ (byteLen x - 3) := by unfold mantissa; rw [if_neg h3]
    have hd : ∀ j, j ≤ k → x / 256 ^ j * 256 ^ j = x := by
      intro j hj
      have hk : (256 : Nat) ^ k = 256 ^ (k - j) * 256 ^ j := by rw [← Nat.pow_add, Nat.sub_add_cancel hj]
      rw [hx, hk, ← Nat.mul_assoc, Nat.mul_div_cancel _ (Nat.pow_pos (by omega))]
    by_cases hbig : mantissa x ≥ 0x800000
    · rw [if_pos hbig]
      have hk : byteLen x + 1 - 3 ≤ k := by
        by_contra hcon
        have hkk : k = byteLen x - 3 := by omega
        rw [hmx, ← hkk, hx, Nat.mul_div_cancel _ (Nat.pow_pos (by omega))] at hbig
        omega
      have hq : mantissa x / 256 = x / 256 ^ (byteLen x + 1 - 3) := by
        rw [hmx, Nat.div_div_eq_div_mul, ← Nat.pow_succ]; congr 2; omega
      exact dec (by omega) (by omega) (by rw [hq]; exact hd _ hk)
    · rw [if_neg hbig]
      exact dec (by omega) (by omega) (by rw [hmx]; exact hd _ (by omega))

/-- Every header carries positive work. -/
theorem work_pos (bits : Nat) : 0 < work bits := by exact Nat.succ_pos _

/-- The mainnet limit and its compact form. -/
theorem mainnet_limit : target 0x1d00ffff = 0xffff * 256 ^ 26 ∧ compact (0xffff * 256 ^ 26) = 0x1d00ffff := by
  constructor
  · norm_num [target]
  · have hs : Nat.size (0xffff * 256 ^ 26) = 224 := by
      apply Nat.le_antisymm
      · rw [Nat.size_le]; norm_num
      · have : 223 < Nat.size (0xffff * 256 ^ 26) := Nat.lt_size.2 (by norm_num)
        omega
    have hb : byteLen (0xffff * 256 ^ 26) = 28 := by unfold byteLen; rw [hs]
    unfold compact mantissa
    rw [hb]
    norm_num

end Verif.Chain.Compact
