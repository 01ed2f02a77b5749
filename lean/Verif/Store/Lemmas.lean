import Verif.Store.Spec

/-!
# Helper lemmas about the stores
-/

set_option autoImplicit false

namespace Verif.Store

variable {H : Type} {c : Codec H} {checked : Bool}

theorem length_encAll (hc : c.Good) (l : List H) : (l.flatMap c.enc).length = l.length * c.size := by
  induction l with
  | nil => simp
  | cons h l ih => simp [ih, hc.enc_len, Nat.add_mul, Nat.add_comm]

theorem drop_encAll (hc : c.Good) : ∀ (n : Nat) (l : List H) (rest : Bytes), n ≤ l.length →
    (l.flatMap c.enc ++ rest).drop (n * c.size) = (l.drop n).flatMap c.enc ++ rest
  | 0, l, rest, _ => by simp
  | n + 1, [], rest, h => by simp at h
  | n + 1, x :: l, rest, h => by
    have ih := drop_encAll hc n l rest (by simpa using h)
    rw [List.flatMap_cons, List.append_assoc, Nat.add_mul, Nat.one_mul, Nat.add_comm, ← List.drop_drop,
      List.drop_append_of_le_length (by rw [hc.enc_len]; exact Nat.le_refl _),
      show (c.enc x).drop c.size = [] from by rw [← hc.enc_len x]; simp]
    simpa using ih

theorem take_encAll (hc : c.Good) : ∀ (n : Nat) (l : List H) (rest : Bytes), n ≤ l.length →
    (l.flatMap c.enc ++ rest).take (n * c.size) = (l.take n).flatMap c.enc
  | 0, l, rest, _ => by simp
  | n + 1, [], rest, h => by simp at h
  | n + 1, x :: l, rest, h => by
    have ih := take_encAll hc n l rest (by simpa using h)
    rw [List.flatMap_cons, List.append_assoc, Nat.add_mul, Nat.one_mul, Nat.add_comm, ← hc.enc_len x,
      List.take_length_add_append, hc.enc_len x, ih]
    simp

/-- Every byte string is a sequence of whole records followed by less than one record. -/
theorem bytes_split (hc : c.Good) (b : Bytes) :
    ∃ (l : List H) (rest : Bytes), b = l.flatMap c.enc ++ rest ∧ rest.length < c.size := by
  generalize hn : b.length = n
  induction n using Nat.strongRecOn generalizing b with
  | ind n ih =>
    by_cases h : b.length < c.size
    · exact ⟨[], b, by simp, h⟩
    · obtain ⟨x, hx⟩ := hc.enc_dec (b.take c.size) (by simp; omega)
      obtain ⟨l, rest, hb, hr⟩ := ih (b.drop c.size).length (by simp; have := hc.size_pos; omega) _ rfl
      refine ⟨x :: l, rest, ?_, hr⟩
      rw [List.flatMap_cons, hx, List.append_assoc, ← hb, List.take_append_drop]

theorem decodeItems_encAll (hc : c.Good) (l : List H) (rest : Bytes) :
    decodeItems c l.length (l.flatMap c.enc ++ rest) = (l, true) := by
  induction l with
  | nil => simp [decodeItems]
  | cons x l ih =>
    simp only [List.length_cons, decodeItems, List.flatMap_cons, List.append_assoc]
    rw [← hc.enc_len x, List.take_left, hc.dec_enc, List.drop_left]
    simp only [ih]

theorem readBatch_eq (b : Bytes) (index want : Nat) :
    readBatch b index want = (b.drop index).take want := by
  unfold readBatch
  by_cases h : want ≤ (b.drop index).length
  · simp only [h, ite_true]
  · simp only [h, ite_false]
    rw [List.append_assoc, List.take_left, List.take_of_length_le (by omega)]

/-- The number of whole records. -/
theorem div_encAll (hc : c.Good) (l : List H) {rest : Bytes} (hr : rest.length < c.size) :
    (l.flatMap c.enc ++ rest).length / c.size = l.length := by
  rw [List.length_append, length_encAll hc, Nat.add_comm, Nat.mul_comm,
    Nat.add_mul_div_left _ _ hc.size_pos, Nat.div_eq_of_lt hr, Nat.zero_add]

theorem mod_encAll (hc : c.Good) (l : List H) {rest : Bytes} (hr : rest.length < c.size) :
    (l.flatMap c.enc ++ rest).length % c.size = rest.length := by
  rw [List.length_append, length_encAll hc, Nat.add_comm, Nat.mul_comm,
    Nat.add_mul_mod_self_left, Nat.mod_eq_of_lt hr]

/-- Numbered items as the iterator yields them. -/
def numbered (n : Nat) (l : List H) : List (Res Error (Nat × H)) := (l.zipIdx n).map (fun p => .ok (p.2, p.1))

theorem numbered_cons (n : Nat) (x : H) (l : List H) :
    numbered n (x :: l) = .ok (n, x) :: numbered (n + 1) l := by
  simp [numbered, List.zipIdx_cons]

theorem yields_queue {s : FileStore H} : ∀ (q : List H) (index height : Nat) (xs : List (Res Error (Nat × H))),
    Yields c s ⟨true, [], index, height + q.length⟩ xs →
    Yields c s ⟨true, q, index, height⟩ (numbered height q ++ xs)
  | [], index, height, xs, h => by simpa [numbered] using h
  | x :: q, index, height, xs, h => by
    rw [numbered_cons, List.cons_append]
    refine .more (it' := ⟨true, q, index, height + 1⟩) ?_ (yields_queue q index (height + 1) xs ?_)
    · simp [iterNext, readerNext]
    · have e : height + 1 + q.length = height + (x :: q).length := by simp; omega
      rw [e]; exact h

theorem numbered_append (n : Nat) (l l' : List H) :
    numbered n (l ++ l') = numbered n l ++ numbered (n + l.length) l' := by
  simp [numbered, List.zipIdx_append]

/-- A read that gets nothing ends the iteration. -/
theorem yields_eof {s : FileStore H} {index height : Nat} (h : s.bytes.drop index = []) :
    Yields c s ⟨true, [], index, height⟩ [] := by
  refine .done (it' := ⟨true, [], index, height⟩) ?_
  simp [iterNext, readerNext, readBatch_eq, h, decodeItems]

theorem yields_from (hc : c.Good) {s : FileStore H} (rest : Bytes) (hr : rest.length < c.size) (L : List H)
    (hs : s.bytes = L.flatMap c.enc ++ rest) :
    ∀ (n k height : Nat), L.length - k ≤ n → k ≤ L.length →
      Yields c s ⟨true, [], k * c.size, height⟩ (numbered height (L.drop k)) := by
  have hpos := hc.size_pos
  intro n
  induction n with
  | zero =>
    intro k height hn hk
    have hk' : k = L.length := by omega
    subst hk'
    rw [List.drop_length]
    refine .done (it' := ⟨true, [], L.length * c.size + rest.length, height⟩) ?_
    have hd : s.bytes.drop (L.length * c.size) = rest := by
      rw [hs, drop_encAll hc _ _ _ (Nat.le_refl _), List.drop_length]; simp
    have ht : rest.take (c.size * batchSize) = rest := List.take_of_length_le (by
      simp only [batchSize]; omega)
    simp [iterNext, readerNext, readBatch_eq, hd, ht, Nat.div_eq_of_lt hr, decodeItems]
  | succ n ih =>
    intro k height hn hk
    by_cases hkl : k = L.length
    · subst hkl
      exact ih _ _ (by omega) (Nat.le_refl _)
    have hd : s.bytes.drop (k * c.size) = (L.drop k).flatMap c.enc ++ rest := by
      rw [hs, drop_encAll hc _ _ _ hk]
    by_cases hfull : batchSize ≤ (L.drop k).length
    · -- a full batch
      have ht : ((L.drop k).flatMap c.enc ++ rest).take (c.size * batchSize)
          = ((L.drop k).take batchSize).flatMap c.enc := by
        rw [Nat.mul_comm, take_encAll hc _ _ _ hfull]
      have hlen : (((L.drop k).take batchSize).flatMap c.enc).length = batchSize * c.size := by
        rw [length_encAll hc, List.length_take, Nat.min_eq_left hfull]
      have hdec : decodeItems c ((((L.drop k).take batchSize).flatMap c.enc).length / c.size)
          (((L.drop k).take batchSize).flatMap c.enc) = ((L.drop k).take batchSize, true) := by
        have := decodeItems_encAll hc ((L.drop k).take batchSize) []
        rw [List.append_nil] at this
        rw [hlen, Nat.mul_div_cancel _ hpos]
        rw [List.length_take, Nat.min_eq_left hfull] at this
        exact this
      have hb : (L.drop k).take batchSize ++ L.drop (k + batchSize) = L.drop k := by
        rw [← List.drop_drop, List.take_append_drop]
      obtain ⟨x, q, hq⟩ : ∃ x q, (L.drop k).take batchSize = x :: q := by
        cases hq : (L.drop k).take batchSize with
        | nil =>
          have := congrArg List.length hq
          rw [List.length_take, Nat.min_eq_left hfull] at this
          simp [batchSize] at this
        | cons x q => exact ⟨x, q, rfl⟩
      have hqlen : (x :: q).length = batchSize := by rw [← hq, List.length_take, Nat.min_eq_left hfull]
      have hkb : k + batchSize ≤ L.length := by
        rw [List.length_drop] at hfull; omega
      rw [← hb, hq, List.cons_append, numbered_cons, numbered_append]
      refine .more (it' := ⟨true, q, (k + batchSize) * c.size, height + 1⟩) ?_ (yields_queue q _ _ _ ?_)
      · simp only [iterNext, readerNext, readBatch_eq, hd, ht, hdec]
        rw [hlen, hq]
        simp [Nat.add_mul]
      · exact ih _ _ (by simp only [batchSize] at *; omega) hkb
    · -- the last, short batch
      have hshort : ((L.drop k).flatMap c.enc ++ rest).length ≤ c.size * batchSize := by
        rw [List.length_append, length_encAll hc]
        have : ((L.drop k).length + 1) * c.size ≤ batchSize * c.size :=
          Nat.mul_le_mul_right _ (by omega)
        rw [Nat.add_mul] at this
        rw [Nat.mul_comm c.size]
        omega
      have ht := List.take_of_length_le hshort
      have hdec : decodeItems c (((L.drop k).flatMap c.enc ++ rest).length / c.size)
          ((L.drop k).flatMap c.enc ++ rest) = (L.drop k, true) := by
        rw [div_encAll hc _ hr, decodeItems_encAll hc]
      obtain ⟨x, q, hq⟩ : ∃ x q, L.drop k = x :: q := by
        cases hq : L.drop k with
        | nil => rw [List.drop_eq_nil_iff] at hq; omega
        | cons x q => exact ⟨x, q, rfl⟩
      rw [hq, numbered_cons]
      refine .more (it' := ⟨true, q, k * c.size + ((L.drop k).flatMap c.enc ++ rest).length, height + 1⟩) ?_ ?_
      · simp only [iterNext, readerNext, readBatch_eq, hd, ht, hdec]
        generalize ((L.drop k).flatMap c.enc ++ rest).length = m
        rw [hq]
        simp
      · have := yields_queue (c := c) (s := s) q (k * c.size + ((L.drop k).flatMap c.enc ++ rest).length)
          (height + 1) [] (yields_eof (by
            rw [← List.drop_drop, hd, List.drop_length]))
        simpa using this

theorem yields_unique {s : FileStore H} {it : Iter H} {xs ys : List (Res Error (Nat × H))}
    (h : Yields c s it xs) (h' : Yields c s it ys) : xs = ys := by
  induction h generalizing ys with
  | done h1 =>
    cases h' with
    | done => rfl
    | more h2 _ => rw [h1] at h2; cases h2
  | more h1 _ ih =>
    cases h' with
    | done h2 => rw [h1] at h2; cases h2
    | more h2 h3 =>
      rw [h1] at h2
      cases h2
      rw [ih h3]

/-- Iteration over any file content: the genesis and the whole records. -/
theorem yields_file (hc : c.Good) {s : FileStore H} (rest : Bytes) (hr : rest.length < c.size) (L : List H)
    (hs : s.bytes = L.flatMap c.enc ++ rest) : Yields c s fileIter (numbered 0 (s.genesis :: L)) := by
  rw [numbered_cons]
  refine .more (it' := ⟨true, [], 0, 1⟩) (by simp [iterNext, fileIter]) ?_
  have := yields_from hc rest hr L hs L.length 0 1 (by omega) (by omega)
  simpa using this

/-- Reading a record of a file of whole records plus a rest. -/
theorem fileGet_encAll (hc : c.Good) (L : List H) (rest : Bytes) (hr : rest.length < c.size) (g : H) (n : Nat)
    (hn : n * c.size < 2 ^ 63) :
    fileGet c checked ⟨L.flatMap c.enc ++ rest, g⟩ n =
      match (g :: L)[n]? with | some h => .ok h | none => .err .unexpectedEof := by
  have hpos := hc.size_pos
  cases n with
  | zero => simp [fileGet]
  | succ ix =>
    have h1 : ix * c.size < 2 ^ 63 := by rw [Nat.add_mul] at hn; omega
    have h2 : ix * c.size < 2 ^ 64 := by omega
    simp only [fileGet, readRecord, mulU64, h2, ite_true, Res.ok_bind, seekStart, h1, List.getElem?_cons_succ]
    by_cases hix : ix < L.length
    · have hle : ix * c.size + c.size ≤ (L.flatMap c.enc ++ rest).length := by
        rw [List.length_append, length_encAll hc]
        have : (ix + 1) * c.size ≤ L.length * c.size := Nat.mul_le_mul_right _ hix
        rw [Nat.add_mul] at this
        omega
      rw [if_pos hle, drop_encAll hc _ _ _ (by omega)]
      have he : L.drop ix = L[ix] :: L.drop (ix + 1) := List.drop_eq_getElem_cons hix
      rw [he, List.flatMap_cons, List.append_assoc, ← hc.enc_len L[ix], List.take_left, hc.dec_enc,
        List.getElem?_eq_getElem hix]
    · have hle : ¬ ix * c.size + c.size ≤ (L.flatMap c.enc ++ rest).length := by
        rw [List.length_append, length_encAll hc]
        have : L.length * c.size ≤ ix * c.size := Nat.mul_le_mul_right _ (by omega)
        omega
      rw [if_neg hle, List.getElem?_eq_none (by omega)]

theorem fileRollback_encAll (hc : c.Good) (L : List H) (rest : Bytes) (g : H) (n : Nat)
    (hn : n * c.size < 2 ^ 63) (hle : n ≤ L.length) :
    fileRollback c checked ⟨L.flatMap c.enc ++ rest, g⟩ n = .ok ⟨(L.take n).flatMap c.enc, g⟩ := by
  have h2 : n * c.size < 2 ^ 64 := by omega
  have h3 : n * c.size ≤ (L.flatMap c.enc ++ rest).length := by
    rw [List.length_append, length_encAll hc]
    have := Nat.mul_le_mul_right c.size hle
    omega
  simp only [fileRollback, mulU64, h2, ite_true, Res.ok_bind, setLen, hn]
  rw [take_encAll hc _ _ _ hle, Nat.sub_eq_zero_of_le h3]
  simp

theorem leBytes_length (k n : Nat) : (leBytes k n).length = k := by
  induction k generalizing n with
  | zero => rfl
  | succ k ih => simp [leBytes, ih]

theorem leNat_leBytes (k n : Nat) : leNat (leBytes k n) = n % 256 ^ k := by
  induction k generalizing n with
  | zero => simp [leBytes, leNat, Nat.mod_one]
  | succ k ih =>
    simp only [leBytes, leNat, ih]
    have e : 256 ^ (k + 1) = 256 * 256 ^ k := by rw [Nat.pow_succ, Nat.mul_comm]
    rw [e, Nat.mod_mul, UInt8.toNat_ofNat']
    simp

theorem leNat_lt (b : Bytes) : leNat b < 256 ^ b.length := by
  induction b with
  | nil => simp [leNat]
  | cons x b ih =>
    simp only [leNat, List.length_cons, Nat.pow_succ]
    have := x.toNat_lt
    omega

theorem leBytes_leNat (b : Bytes) : leBytes b.length (leNat b) = b := by
  induction b with
  | nil => rfl
  | cons x b ih =>
    have hx := x.toNat_lt
    have h1 : (x.toNat + 256 * leNat b) % 256 = x.toNat := by omega
    have h2 : (x.toNat + 256 * leNat b) / 256 = leNat b := by omega
    simp only [List.length_cons, leBytes, leNat, h1, h2, ih, UInt8.ofNat_toNat]

theorem readLE_append (k n : Nat) (b : Bytes) : readLE k (leBytes k n ++ b) = some (n % 256 ^ k, b) := by
  have h := leBytes_length k n
  have h1 : (leBytes k n ++ b).take k = leBytes k n := by
    conv => lhs; rw [← h]
    rw [h]; rw [List.take_append_of_le_length (by omega), List.take_of_length_le (by omega)]
  have h2 : (leBytes k n ++ b).drop k = b := by
    rw [List.drop_append_of_le_length (by omega), List.drop_of_length_le (by omega)]; rfl
  unfold readLE
  rw [if_pos (by rw [List.length_append]; omega), h1, h2, leNat_leBytes]

theorem split_at {b : Bytes} (k : Nat) (hk : k ≤ b.length) :
    ∃ n < 256 ^ k, ∃ b', b = leBytes k n ++ b' ∧ b'.length = b.length - k := by
  have hl : (b.take k).length = k := by simp; omega
  refine ⟨leNat (b.take k), ?_, b.drop k, ?_, by simp⟩
  · have := leNat_lt (b.take k); rwa [hl] at this
  · have := leBytes_leNat (b.take k)
    rw [hl] at this
    rw [this, List.take_append_drop]

end Verif.Store
