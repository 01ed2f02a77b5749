import Verif.Cbf.Gcs
import Mathlib.Data.List.Induction
import Mathlib.Tactic.NormNum

/-! Round trips of the encodings in compact filters, and the search in the decoded values. -/

set_option autoImplicit false

namespace Verif.Cbf.Gcs
open Verif.Chain.Sha256 (beNat beBytes leBytes sha256)

/-! ## Bits -/

theorem bits_length (n x : Nat) : (bits n x).length = n := by
  induction n generalizing x with
  | zero => rfl
  | succ n ih => simp [bits, ih]

theorem ofBits_concat (l : List Bool) (b : Bool) : ofBits (l ++ [b]) = 2 * ofBits l + b.toNat := by
  simp [ofBits, List.foldl_append]

theorem ofBits_bits (n x : Nat) : ofBits (bits n x) = x % 2 ^ n := by
  induction n generalizing x with
  | zero => simp [bits, ofBits, Nat.mod_one]
  | succ n ih =>
    rw [bits, ofBits_concat, ih, Nat.pow_succ, Nat.mul_comm (2 ^ n) 2, Nat.mod_mul]
    have h : (decide (x % 2 = 1)).toNat = x % 2 := by
      rcases Nat.mod_two_eq_zero_or_one x with h | h <;> simp [h]
    rw [h]
    omega

theorem bits_ofBits (l : List Bool) : bits l.length (ofBits l) = l := by
  induction l using List.reverseRecOn with
  | nil => rfl
  | append_singleton l b ih =>
    rw [List.length_append, List.length_singleton, bits, ofBits_concat]
    have h1 : (2 * ofBits l + b.toNat) / 2 = ofBits l := by cases b <;> simp <;> omega
    have h2 : decide ((2 * ofBits l + b.toNat) % 2 = 1) = b := by cases b <;> simp <;> omega
    rw [h1, h2, ih]

theorem toBits_toBytes (fuel : Nat) (l : List Bool) (h : l.length ≤ 8 * fuel) : ∃ n, toBits (toBytes fuel l) = l ++ List.replicate n false := by
  induction fuel generalizing l with
  | zero =>
    have : l = [] := List.length_eq_zero_iff.1 (by omega)
    subst this
    exact ⟨0, rfl⟩
  | succ fuel ih =>
    rw [toBytes]
    by_cases he : l = []
    · subst he
      exact ⟨0, rfl⟩
    · rw [if_neg he]
      have hpos : 0 < l.length := List.length_pos_iff.2 he
      have hlen : ((l ++ List.replicate 7 false).take 8).length = 8 := by
        rw [List.length_take, List.length_append, List.length_replicate]; omega
      have hb : bits 8 (ofBits ((l ++ List.replicate 7 false).take 8)) = (l ++ List.replicate 7 false).take 8 := by
        have := bits_ofBits ((l ++ List.replicate 7 false).take 8)
        rwa [hlen] at this
      have hcons : toBits (ofBits ((l ++ List.replicate 7 false).take 8) :: toBytes fuel (l.drop 8)) =
          (l ++ List.replicate 7 false).take 8 ++ toBits (toBytes fuel (l.drop 8)) := by
        rw [toBits, List.flatMap_cons, hb]; rfl
      obtain ⟨n, hn⟩ := ih (l.drop 8) (by rw [List.length_drop]; omega)
      rw [hcons, hn]
      by_cases h8 : 8 ≤ l.length
      · refine ⟨n, ?_⟩
        rw [List.take_append_of_le_length h8, ← List.append_assoc, List.take_append_drop]
      · have hd : l.drop 8 = [] := List.drop_eq_nil_of_le (by omega)
        refine ⟨8 - l.length + n, ?_⟩
        rw [hd, List.nil_append, List.take_append, List.take_of_length_le (by omega), List.take_replicate, Nat.min_eq_left (by omega),
          List.append_assoc, List.replicate_append_replicate]

/-! ## Golomb-Rice codes -/

theorem unary_replicate (q : Nat) (l : List Bool) : unary (List.replicate q true ++ false :: l) = some (q, l) := by
  induction q with
  | zero => rfl
  | succ q ih => rw [List.replicate_succ, List.cons_append, unary, ih]; rfl

theorem golomb_roundtrip {n : Nat} (h : n < 2 ^ 64) (l : List Bool) : golombDecode (golombEncode n ++ l) = some (n, l) := by
  have hl := bits_length 19 n
  have h1 : readBits 19 (bits 19 n ++ l) = some (n % 2 ^ 19, l) := by
    unfold readBits
    rw [if_pos (by rw [List.length_append, hl]; omega), List.take_left' hl, List.drop_left' hl, ofBits_bits]
  simp only [golombDecode, golombEncode, List.append_assoc, List.cons_append, unary_replicate, h1]
  have : n / 2 ^ 19 * 2 ^ 19 + n % 2 ^ 19 = n := Nat.div_add_mod' n _
  rw [this, Nat.mod_eq_of_lt h]

/-! ## Numbers of variable length -/

theorem beNat_concat (l : List Nat) (b : Nat) : beNat (l ++ [b]) = beNat l * 256 + b := by simp [beNat, List.foldl_append]

theorem beNat_beBytes (n x : Nat) : beNat (beBytes n x) = x % 256 ^ n := by
  induction n generalizing x with
  | zero => simp [beBytes, beNat, Nat.mod_one]
  | succ n ih =>
    rw [beBytes, beNat_concat, ih, Nat.pow_succ, Nat.mul_comm (256 ^ n) 256, Nat.mod_mul]
    omega

theorem beBytes_length (n x : Nat) : (beBytes n x).length = n := by
  induction n generalizing x with
  | zero => rfl
  | succ n ih => simp [beBytes, ih]

theorem readLe_leBytes {n min x : Nat} (h1 : min ≤ x) (h2 : x < 256 ^ n) (l : List Nat) : readLe n min (leBytes n x ++ l) = some (x, l) := by
  have hl : (leBytes n x).length = n := by rw [leBytes, List.length_reverse, beBytes_length]
  unfold readLe
  rw [if_pos (by rw [List.length_append, hl]; omega), List.take_left' hl, List.drop_left' hl, leBytes, List.reverse_reverse, beNat_beBytes, Nat.mod_eq_of_lt h2]
  simp only
  rw [if_neg (by omega)]

theorem readVarInt_varInt {n : Nat} (h : n < 2 ^ 64) (l : List Nat) : readVarInt (varInt n ++ l) = some (n, l) := by
  unfold varInt
  by_cases h1 : n < 0xfd
  · rw [if_pos h1, List.singleton_append, readVarInt, if_neg (by omega), if_neg (by omega), if_neg (by omega)]
  by_cases h2 : n < 2 ^ 16
  · rw [if_neg h1, if_pos h2, List.cons_append, readVarInt, if_pos rfl, readLe_leBytes (by omega) (by omega)]
  by_cases h3 : n < 2 ^ 32
  · rw [if_neg h1, if_neg h2, if_pos h3, List.cons_append, readVarInt, if_neg (by omega), if_pos rfl, readLe_leBytes (by omega) (by omega)]
  · rw [if_neg h1, if_neg h2, if_neg h3, List.cons_append, readVarInt, if_neg (by omega), if_neg (by omega), if_pos rfl, readLe_leBytes (by omega) (by omega)]

/-! ## The search -/

/-- What the search has left: the value read last, and the values still encoded. -/
structure Left (data : Nat) (rest : List Nat) (remaining : Nat) (b : List Bool) : Prop where
  length : rest.length = remaining
  sorted : (data :: rest).Pairwise (· ≤ ·)
  small : ∀ x ∈ data :: rest, x < 2 ^ 64
  encoded : ∃ t, b = deltas data rest ++ t

theorem Left.next {data y : Nat} {rest : List Nat} {remaining : Nat} {b : List Bool} (h : Left data (y :: rest) (remaining + 1) b) :
    ∃ d b', golombDecode b = some (d, b') ∧ (data + d) % 2 ^ 64 = y ∧ Left y rest remaining b' := by
  obtain ⟨h1, h2, h3, t, rfl⟩ := h
  have hle : data ≤ y := (List.pairwise_cons.1 h2).1 y List.mem_cons_self
  have hy := h3 y (by simp)
  refine ⟨y - data, deltas y rest ++ t, ?_, ?_, ?_⟩
  · rw [deltas, List.append_assoc, golomb_roundtrip (by omega)]
  · rw [Nat.add_sub_cancel' hle, Nat.mod_eq_of_lt hy]
  · exact ⟨by simpa using h1, (List.pairwise_cons.1 h2).2, fun x hx => h3 x (List.mem_cons_of_mem _ hx), t, rfl⟩

/-- The inner loop ends at the value if it is there, at the first larger one otherwise, or at the end. -/
theorem seek_spec (p : Nat) : ∀ (rest : List Nat) (remaining data : Nat) (b : List Bool), Left data rest remaining b →
    (p ∈ data :: rest ∧ ∃ rest' remaining' b', seek p remaining data b = .found remaining' p b' ∧ Left p rest' remaining' b' ∧
      ∀ x, p ≤ x → (x ∈ data :: rest ↔ x ∈ p :: rest')) ∨
    (p ∉ data :: rest ∧ ∃ data' rest' remaining' b', seek p remaining data b = .past remaining' data' b' ∧ Left data' rest' remaining' b' ∧
      ∀ x, p ≤ x → (x ∈ data :: rest ↔ x ∈ data' :: rest')) ∨
    ((∀ x ∈ data :: rest, x < p) ∧ seek p remaining data b = .ended) := by
  intro rest
  induction rest with
  | nil =>
    intro remaining data b h
    have h0 : remaining = 0 := by simpa using h.length.symm
    subst h0
    rw [seek]
    by_cases h1 : data = p
    · subst h1
      exact .inl ⟨by simp, [], 0, b, by rw [if_pos rfl], h, fun _ _ => Iff.rfl⟩
    by_cases h2 : data < p
    · exact .inr (.inr ⟨by simpa using h2, by rw [if_neg h1, if_pos h2]⟩)
    · exact .inr (.inl ⟨by simpa using Ne.symm h1, data, [], 0, b, by rw [if_neg h1, if_neg h2], h, fun _ _ => Iff.rfl⟩)
  | cons y rest ih =>
    intro remaining data b h
    have h0 : remaining = rest.length + 1 := by simpa using h.length.symm
    subst h0
    rw [seek]
    by_cases h1 : data = p
    · subst h1
      exact .inl ⟨by simp, y :: rest, _, b, by rw [if_pos rfl], h, fun _ _ => Iff.rfl⟩
    by_cases h2 : data < p
    · obtain ⟨d, b', e1, e2, l⟩ := h.next
      rw [if_neg h1, if_pos h2, e1]
      simp only
      rw [e2]
      have hdrop : ∀ x, p ≤ x → (x ∈ data :: y :: rest ↔ x ∈ y :: rest) := by
        intro x hx
        rw [List.mem_cons (a := x) (b := data)]
        exact ⟨fun h => h.resolve_left (by omega), .inr⟩
      rcases ih _ _ _ l with ⟨m1, r', n', b'', m2, m3, m4⟩ | ⟨m1, d', r', n', b'', m2, m3, m4⟩ | ⟨m1, m2⟩
      · exact .inl ⟨List.mem_cons_of_mem _ m1, r', n', b'', m2, m3, fun x hx => (hdrop x hx).trans (m4 x hx)⟩
      · exact .inr (.inl ⟨fun hm => m1 ((hdrop p (Nat.le_refl _)).1 hm), d', r', n', b'', m2, m3, fun x hx => (hdrop x hx).trans (m4 x hx)⟩)
      · refine .inr (.inr ⟨fun x hx => ?_, m2⟩)
        rcases List.mem_cons.1 hx with rfl | hx
        · exact h2
        · exact m1 x hx
    · refine .inr (.inl ⟨fun hm => ?_, data, y :: rest, _, b, by rw [if_neg h1, if_neg h2], h, fun _ _ => Iff.rfl⟩)
      rcases List.mem_cons.1 hm with hm | hm
      · exact h1 hm.symm
      · have := (List.pairwise_cons.1 h.sorted).1 p hm
        omega

theorem anyLoop_spec : ∀ (ps : List Nat), ps.Pairwise (· ≤ ·) → ∀ (data : Nat) (rest : List Nat) (remaining : Nat) (b : List Bool), Left data rest remaining b →
    anyLoop ps remaining data b = some (decide (∃ p ∈ ps, p ∈ data :: rest)) := by
  intro ps
  induction ps with
  | nil => intro _ data rest remaining b _; simp [anyLoop]
  | cons p ps ih =>
    intro hs data rest remaining b h
    have hp := List.pairwise_cons.1 hs
    rw [anyLoop]
    rcases seek_spec p rest remaining data b h with ⟨m1, _, _, _, m2, -, -⟩ | ⟨m1, d', r', n', b', m2, m3, m4⟩ | ⟨m1, m2⟩
    · rw [m2]
      simp only
      rw [decide_eq_true (⟨p, List.mem_cons_self, m1⟩ : ∃ q ∈ p :: ps, q ∈ data :: rest)]
    · rw [m2]
      simp only
      rw [ih hp.2 d' r' n' b' m3]
      congr 1
      rw [decide_eq_decide]
      constructor
      · rintro ⟨q, hq, hm⟩
        exact ⟨q, List.mem_cons_of_mem _ hq, (m4 q (hp.1 q hq)).2 hm⟩
      · rintro ⟨q, hq, hm⟩
        rcases List.mem_cons.1 hq with rfl | hq
        · exact absurd hm m1
        · exact ⟨q, hq, (m4 q (hp.1 q hq)).1 hm⟩
    · rw [m2]
      simp only
      rw [decide_eq_false]
      rintro ⟨q, hq, hm⟩
      have h1 := m1 q hm
      rcases List.mem_cons.1 hq with rfl | hq
      · omega
      · have := hp.1 q hq
        omega

theorem allLoop_spec : ∀ (ps : List Nat), ps.Pairwise (· ≤ ·) → ∀ (data : Nat) (rest : List Nat) (remaining : Nat) (b : List Bool), Left data rest remaining b →
    allLoop ps remaining data b = some (decide (∀ p ∈ ps, p ∈ data :: rest)) := by
  intro ps
  induction ps with
  | nil => intro _ data rest remaining b _; simp [allLoop]
  | cons p ps ih =>
    intro hs data rest remaining b h
    have hp := List.pairwise_cons.1 hs
    rw [allLoop]
    rcases seek_spec p rest remaining data b h with ⟨m1, r', n', b', m2, m3, m4⟩ | ⟨m1, _, _, _, _, m2, -, -⟩ | ⟨m1, m2⟩
    · rw [m2]
      simp only
      rw [ih hp.2 p r' n' b' m3]
      congr 1
      rw [decide_eq_decide]
      constructor
      · intro ha q hq
        rcases List.mem_cons.1 hq with rfl | hq
        · exact m1
        · exact (m4 q (hp.1 q hq)).2 (ha q hq)
      · intro ha q hq
        exact (m4 q (hp.1 q hq)).1 (ha q (List.mem_cons_of_mem _ hq))
    · rw [m2]
      simp only
      rw [decide_eq_false]
      exact fun ha => m1 (ha p List.mem_cons_self)
    · rw [m2]
      simp only
      rw [decide_eq_false]
      intro ha
      have := m1 p (ha p List.mem_cons_self)
      omega

/-! ## Values -/

theorem mem_values {k : Nat × Nat} {n x : Nat} {l : List (List Nat)} : x ∈ values k n l ↔ ∃ e ∈ l, mapToRange (sipHash k e) (n * paramM % 2 ^ 64) = x := by
  rw [values, List.mem_insertionSort, List.mem_map]

theorem values_sorted (k : Nat × Nat) (n : Nat) (l : List (List Nat)) : (values k n l).Pairwise (· ≤ ·) := List.pairwise_insertionSort _ _

theorem values_small {k : Nat × Nat} {n x : Nat} {l : List (List Nat)} (h : x ∈ values k n l) : x < 2 ^ 64 := by
  obtain ⟨e, -, rfl⟩ := mem_values.1 h
  exact Nat.mod_lt _ (by norm_num)

theorem values_length (k : Nat × Nat) (n : Nat) (l : List (List Nat)) : (values k n l).length = l.length := by
  rw [values, List.length_insertionSort, List.length_map]

/-- The filter of a set of elements is read back. -/
theorem run_build {loop : List Nat → Nat → Nat → List Bool → Option Bool} {P : List Nat → List Nat → Bool}
    (hloop : ∀ ps, ps.Pairwise (· ≤ ·) → ∀ data rest remaining b, Left data rest remaining b → loop ps remaining data b = some (P ps (data :: rest)))
    {k : Nat × Nat} {elements query : List (List Nat)} (hlen : ((elements.filter (· ≠ [])).dedup).length < 2 ^ 64) :
    run loop k (build k elements) query =
      if query = [] then some true
      else if elements.filter (· ≠ []) = [] then some false
      else some (P (values k ((elements.filter (· ≠ [])).dedup).length query)
        (values k ((elements.filter (· ≠ [])).dedup).length (elements.filter (· ≠ [])).dedup)) := by
  set set := (elements.filter (· ≠ [])).dedup with hset
  have hnil : elements.filter (· ≠ []) = [] ↔ set = [] := by rw [hset, List.dedup_eq_nil]
  have hr : readVarInt (build k elements) = some (set.length, toBytes (deltas 0 (values k set.length set)).length (deltas 0 (values k set.length set))) := by
    rw [build, ← hset]
    exact readVarInt_varInt hlen _
  simp only [run, hr, Option.getD_some]
  by_cases hq : query = []
  · subst hq
    rw [if_pos rfl]
    rfl
  rw [if_neg hq]
  obtain ⟨p, ps, hv⟩ : ∃ p ps, values k set.length query = p :: ps := by
    cases hv : values k set.length query with
    | nil =>
      have := values_length k set.length query
      rw [hv] at this
      exact absurd (List.length_eq_zero_iff.1 this.symm) hq
    | cons p ps => exact ⟨p, ps, rfl⟩
  rw [hv]
  simp only
  by_cases hs : set = []
  · rw [if_pos (hnil.2 hs), hs]
    simp
  rw [if_neg (mt hnil.1 hs), if_neg (mt List.length_eq_zero_iff.1 hs)]
  obtain ⟨x, xs, hx⟩ : ∃ x xs, values k set.length set = x :: xs := by
    cases hv : values k set.length set with
    | nil =>
      have := values_length k set.length set
      rw [hv] at this
      exact absurd (List.length_eq_zero_iff.1 this.symm) hs
    | cons x xs => exact ⟨x, xs, rfl⟩
  obtain ⟨n, hn⟩ := toBits_toBytes (deltas 0 (values k set.length set)).length (deltas 0 (values k set.length set)) (by omega)
  rw [hn, hx, deltas, List.append_assoc, Nat.sub_zero, golomb_roundtrip (values_small (by rw [hx]; exact List.mem_cons_self))]
  simp only
  rw [← hv]
  refine hloop _ (values_sorted ..) _ _ _ _ ⟨?_, ?_, ?_, List.replicate n false, rfl⟩
  · have := values_length k set.length set
    rw [hx, List.length_cons] at this
    omega
  · rw [← hx]; exact values_sorted ..
  · intro y hy
    rw [← hx] at hy
    exact values_small hy

end Verif.Cbf.Gcs
