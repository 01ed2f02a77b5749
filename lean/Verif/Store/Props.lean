import Verif.Store.Lemmas

/-!
# Properties of the header stores (C17 – C21)
-/

set_option autoImplicit false

namespace Verif.Store

variable {H : Type} {c : Codec H} {checked : Bool}

/-! ## C19: records decode to what was written -/

/-- C19 for block headers: 80 bytes, decoding inverts encoding, every 80-byte buffer is the encoding of a header. -/
theorem C19_block_header : headerCodec.Good ∧ headerCodec.size = 80 := by
  refine ⟨⟨by decide, ?_, ?_, ?_⟩, rfl⟩
  · intro h
    simp [headerCodec, encHeader, leBytes_length]
  · rintro ⟨v, p, m, t, b, n⟩
    simp only [headerCodec, encHeader, decHeader, List.append_assoc, readLE_append, Option.bind_eq_bind,
      Option.bind_some]
    have hn := readLE_append 4 n.toNat []
    rw [List.append_nil] at hn
    rw [hn]
    simp only [Option.bind_some, Option.some.injEq, BlockHeader.mk.injEq]
    refine ⟨?_, ?_, ?_, ?_, ?_, ?_⟩ <;>
      (apply BitVec.eq_of_toNat_eq; rw [BitVec.toNat_ofNat])
    · have := v.isLt; omega
    · have := p.isLt; omega
    · have := m.isLt; omega
    · have := t.isLt; omega
    · have := b.isLt; omega
    · have := n.isLt; omega
  · intro bs hb
    have hb : bs.length = 80 := hb
    obtain ⟨v, hv, b1, rfl, h1⟩ := split_at (b := bs) 4 (by omega)
    obtain ⟨p, hp, b2, rfl, h2⟩ := split_at (b := b1) 32 (by omega)
    obtain ⟨m, hm, b3, rfl, h3⟩ := split_at (b := b2) 32 (by omega)
    obtain ⟨t, ht, b4, rfl, h4⟩ := split_at (b := b3) 4 (by omega)
    obtain ⟨b, hb', b5, rfl, h5⟩ := split_at (b := b4) 4 (by omega)
    obtain ⟨n, hn, b6, rfl, h6⟩ := split_at (b := b5) 4 (by omega)
    have h7 : b6 = [] := List.eq_nil_of_length_eq_zero (by omega)
    subst h7
    refine ⟨⟨.ofNat _ v, .ofNat _ p, .ofNat _ m, .ofNat _ t, .ofNat _ b, .ofNat _ n⟩, ?_⟩
    simp only [headerCodec, encHeader, BitVec.toNat_ofNat]
    rw [Nat.mod_eq_of_lt (by omega), Nat.mod_eq_of_lt (by omega), Nat.mod_eq_of_lt (by omega),
      Nat.mod_eq_of_lt (by omega), Nat.mod_eq_of_lt (by omega), Nat.mod_eq_of_lt (by omega)]
    simp

/-- C19 for filter-header records: 64 bytes, decoding inverts encoding, every 64-byte buffer is the encoding of a
record. -/
theorem C19_filter_record : storedCodec.Good ∧ storedCodec.size = 64 := by
  refine ⟨⟨by decide, ?_, ?_, ?_⟩, rfl⟩
  · intro h
    simp [storedCodec, encStored, leBytes_length]
  · rintro ⟨a, b⟩
    simp only [storedCodec, encStored, decStored, readLE_append, Option.bind_eq_bind, Option.bind_some]
    have hn := readLE_append 32 b.toNat []
    rw [List.append_nil] at hn
    rw [hn]
    simp only [Option.bind_some, Option.some.injEq, StoredHeader.mk.injEq]
    refine ⟨?_, ?_⟩ <;> (apply BitVec.eq_of_toNat_eq; rw [BitVec.toNat_ofNat])
    · have := a.isLt; omega
    · have := b.isLt; omega
  · intro bs hb
    have hb : bs.length = 64 := hb
    obtain ⟨a, ha, b1, rfl, h1⟩ := split_at (b := bs) 32 (by omega)
    obtain ⟨b, hb', b2, rfl, h2⟩ := split_at (b := b1) 32 (by omega)
    have h7 : b2 = [] := List.eq_nil_of_length_eq_zero (by omega)
    subst h7
    refine ⟨⟨.ofNat _ a, .ofNat _ b⟩, ?_⟩
    simp only [storedCodec, encStored, BitVec.toNat_ofNat]
    rw [Nat.mod_eq_of_lt (by omega), Nat.mod_eq_of_lt (by omega)]
    simp

/-- C19: decoding of record-sized buffers is injective (any good codec, in particular the two above). -/
theorem C19_decoding_injective (hc : c.Good) {b b' : Bytes} {h : H} (hb : b.length = c.size)
    (hb' : b'.length = c.size) (h1 : c.dec b = some h) (h2 : c.dec b' = some h) : b = b' := by
  obtain ⟨x, rfl⟩ := hc.enc_dec b hb
  obtain ⟨y, rfl⟩ := hc.enc_dec b' hb'
  rw [hc.dec_enc] at h1 h2
  rw [Option.some.inj h1, Option.some.inj h2]

/-! ## C17: the file store is a list -/

/-- The file store holds the list `l`. -/
def Holds (c : Codec H) (s : FileStore H) (l : List H) : Prop :=
  ∃ tail, l = s.genesis :: tail ∧ s.bytes = tail.flatMap c.enc

theorem step_spec (hc : c.Good) {s : FileStore H} {l : List H} (hs : Holds c s l) (hfit : l.length * c.size < 2 ^ 63)
    {op : Op H} (hop : OpOK c.size l op) :
    (∃ s', FileStep c checked s op (specStep l op).1 s') ∧
      ∀ a s', FileStep c checked s op a s' →
        a = (specStep l op).1 ∧ Holds c s' (specStep l op).2 ∧ (specStep l op).2.length * c.size < 2 ^ 63 := by
  obtain ⟨tail, rfl, hb⟩ := hs
  obtain ⟨bytes, g⟩ := s
  simp only at hb hfit
  subst hb
  have hpos := hc.size_pos
  have hlen : ((g :: tail).length) * c.size = tail.length * c.size + c.size := by
    simp [Nat.add_mul]
  have hE : (tail.flatMap c.enc) = tail.flatMap c.enc ++ [] := by simp
  cases op with
  | put hs =>
    have hans : (filePut c ⟨tail.flatMap c.enc, g⟩ hs).1 = (g :: tail).length + hs.length - 1 := by
      simp only [filePut, length_encAll hc]
      rw [← Nat.add_mul, Nat.mul_div_cancel _ hpos]
      simp
    constructor
    · have := FileStep.put (c := c) (checked := checked) (s := ⟨tail.flatMap c.enc, g⟩) (hs := hs)
      rw [hans] at this
      exact ⟨_, this⟩
    · intro a s' h
      cases h with
      | put =>
        refine ⟨by rw [hans]; rfl, ⟨tail ++ hs, rfl, by simp [filePut]⟩, ?_⟩
        simp only [specStep, List.length_append]
        exact hop
  | rollback h =>
    have hop : h < (g :: tail).length := hop
    have hle : h ≤ tail.length := by simp at hop; omega
    have hr := fileRollback_encAll (checked := checked) hc tail [] g h (by
      have := Nat.mul_le_mul_right c.size hle; omega) hle
    rw [List.append_nil] at hr
    constructor
    · exact ⟨_, .rollback hr⟩
    · intro a s' hst
      cases hst with
      | rollback h' =>
        rw [hr] at h'
        cases h'
        refine ⟨rfl, ⟨tail.take h, by simp [specStep], rfl⟩, ?_⟩
        have : (List.take (h + 1) (g :: tail)).length ≤ (g :: tail).length := List.length_take_le' _ _
        exact Nat.lt_of_le_of_lt (Nat.mul_le_mul_right _ this) hfit
      | rollbackErr h' => rw [hr] at h'; cases h'
      | rollbackPanic h' => rw [hr] at h'; cases h'
  | get n =>
    have hg := fileGet_encAll (checked := checked) hc tail [] (by simpa using hpos) g n hop
    rw [List.append_nil] at hg
    constructor
    · have := FileStep.get (c := c) (checked := checked) (s := ⟨tail.flatMap c.enc, g⟩) (n := n)
      rw [hg] at this
      exact ⟨_, this⟩
    · intro a s' hst
      cases hst with
      | get => exact ⟨by rw [hg]; rfl, ⟨tail, rfl, rfl⟩, hfit⟩
  | len =>
    have hl : fileLen c ⟨tail.flatMap c.enc, g⟩ = .ok (g :: tail).length := by
      have h1 := mod_encAll hc tail (rest := []) (by simpa using hpos)
      have h2 := div_encAll hc tail (rest := []) (by simpa using hpos)
      rw [List.append_nil] at h1 h2
      simp only [fileLen, h1, h2]
      simp
    constructor
    · have := FileStep.len (c := c) (checked := checked) (s := ⟨tail.flatMap c.enc, g⟩)
      rw [hl] at this
      exact ⟨_, this⟩
    · intro a s' hst
      cases hst with
      | len => exact ⟨by rw [hl]; rfl, ⟨tail, rfl, rfl⟩, hfit⟩
  | height =>
    have hl : fileHeight c ⟨tail.flatMap c.enc, g⟩ = .ok ((g :: tail).length - 1) := by
      have h1 := mod_encAll hc tail (rest := []) (by simpa using hpos)
      have h2 := div_encAll hc tail (rest := []) (by simpa using hpos)
      rw [List.append_nil] at h1 h2
      simp only [fileHeight, fileLen, h1, h2]
      simp
    constructor
    · have := FileStep.height (c := c) (checked := checked) (s := ⟨tail.flatMap c.enc, g⟩)
      rw [hl] at this
      exact ⟨_, this⟩
    · intro a s' hst
      cases hst with
      | height => exact ⟨by rw [hl]; rfl, ⟨tail, rfl, rfl⟩, hfit⟩
  | iter =>
    have hy : Yields c ⟨tail.flatMap c.enc, g⟩ fileIter (numbered 0 (g :: tail)) :=
      yields_file hc [] (by simpa using hpos) tail hE
    constructor
    · exact ⟨_, .iter hy⟩
    · intro a s' hst
      cases hst with
      | iter h' =>
        exact ⟨by rw [yields_unique h' hy]; rfl, ⟨tail, rfl, rfl⟩, hfit⟩

theorem run_spec (hc : c.Good) {ops : List (Op H)} : ∀ {s : FileStore H} {l : List H}, Holds c s l →
    l.length * c.size < 2 ^ 63 → OpsOK c.size l ops →
    (∃ s', FileRun c checked s ops (specRun l ops).1 s') ∧
      ∀ as s', FileRun c checked s ops as s' → as = (specRun l ops).1 ∧ Holds c s' (specRun l ops).2 := by
  induction ops with
  | nil =>
    intro s l hs _ _
    refine ⟨⟨s, .nil⟩, ?_⟩
    intro as s' h
    cases h
    exact ⟨rfl, hs⟩
  | cons op ops ih =>
    intro s l hs hfit hops
    obtain ⟨⟨s1, h1⟩, h2⟩ := step_spec (checked := checked) hc hs hfit hops.1
    obtain ⟨_, hs1, hf1⟩ := h2 _ _ h1
    obtain ⟨⟨s2, h3⟩, _⟩ := ih hs1 hf1 hops.2
    refine ⟨⟨s2, .cons h1 h3⟩, ?_⟩
    intro as s' h
    cases h with
    | cons ha hb =>
      obtain ⟨e, hs', hf'⟩ := h2 _ _ ha
      obtain ⟨e', hs''⟩ := (ih hs' hf' hops.2).2 _ _ hb
      exact ⟨by rw [e, e']; rfl, hs''⟩

/-- C17: any sequence of operations on a new file store (used as documented) goes through and answers exactly what the
same operations on a plain list answer: `get`, `len`, `height`, the value returned by `put` and full iteration. -/
theorem C17_file_store_is_list (hc : c.Good) (g : H) (hfit : c.size < 2 ^ 63) {ops : List (Op H)}
    (hops : OpsOK c.size [g] ops) :
    (∃ s', FileRun c checked ⟨[], g⟩ ops (specRun [g] ops).1 s') ∧
      ∀ as s', FileRun c checked ⟨[], g⟩ ops as s' → as = (specRun [g] ops).1 := by
  have h := run_spec (checked := checked) hc (s := ⟨[], g⟩) (l := [g]) ⟨[], rfl, rfl⟩ (by simpa using hfit) hops
  exact ⟨h.1, fun as s' hr => (h.2 as s' hr).1⟩

/-- C17 / C18: the same from any store that holds a list, for instance one re-opened after a crash. -/
theorem C17_from_any_store (hc : c.Good) {s : FileStore H} {l : List H} (hs : Holds c s l)
    (hfit : l.length * c.size < 2 ^ 63) {ops : List (Op H)} (hops : OpsOK c.size l ops) :
    (∃ s', FileRun c checked s ops (specRun l ops).1 s') ∧
      ∀ as s', FileRun c checked s ops as s' → as = (specRun l ops).1 ∧ Holds c s' (specRun l ops).2 :=
  run_spec hc hs hfit hops

/-! ### Witnesses -/

namespace Witness

/-- Three different block headers. -/
def hdr (n : Nat) : BlockHeader := ⟨1, .ofNat _ (n * 7), .ofNat _ n, .ofNat _ (1000 + n), 0x207fffff, .ofNat _ n⟩

/-- A history with appends in batches, a roll-back, and reads. -/
def ops : List (Op BlockHeader) :=
  [.put [hdr 1, hdr 2], .put [hdr 3], .rollback 1, .put [hdr 4], .get 2, .get 9, .len, .height, .iter]

example : OpsOK headerCodec.size [hdr 0] ops := by
  simp [ops, OpsOK, OpOK, specStep, headerCodec]

/-- The answers of that history, spelled out. -/
example : (specRun [hdr 0] ops).1 =
    [.height (.ok 2), .height (.ok 3), .unit (.ok ()), .height (.ok 2), .header (.ok (hdr 4)),
     .header (.err .unexpectedEof), .height (.ok 3), .height (.ok 2),
     .items [.ok (0, hdr 0), .ok (1, hdr 1), .ok (2, hdr 4)]] := by decide

end Witness

/-- C17, limit of the documented use: rolling back to a height *above* the tip extends the file with zero records, which
are then returned as headers. -/
theorem C17_rollback_above_tip :
    ∃ s, fileRollback headerCodec false ⟨[], Witness.hdr 0⟩ 1 = .ok s ∧
      fileGet headerCodec false s 1 = .ok ⟨0, 0, 0, 0, 0, 0⟩ ∧ fileLen headerCodec s = .ok 2 := by
  refine ⟨⟨List.replicate 80 0, Witness.hdr 0⟩, ?_, ?_, ?_⟩ <;> decide

/-- C17, limit of the offsets: in a release build `get` of an astronomically large height wraps around and returns the
header of another height (in a debug build it panics). -/
theorem C17_get_wraps (L : List BlockHeader) (g x : BlockHeader) :
    fileGet headerCodec false ⟨(x :: L).flatMap headerCodec.enc, g⟩ (2 ^ 60 + 1) = .ok x ∧
      fileGet headerCodec true ⟨(x :: L).flatMap headerCodec.enc, g⟩ (2 ^ 60 + 1) = .panic := by
  have hc := C19_block_header.1
  constructor
  · have h := fileGet_encAll (checked := false) hc (x :: L) [] (by decide) g 1 (by decide)
    simp only [List.append_nil, List.getElem?_cons_succ, List.getElem?_cons_zero] at h
    rw [← h]
    simp [fileGet, readRecord, mulU64, headerCodec]
  · simp [fileGet, readRecord, mulU64, headerCodec]

/-! ## C20: memory store and file store are interchangeable -/

theorem mem_spec (s : MemStore H) (op : Op H) :
    (memStep s op).1 = (specStep (s.head :: s.tail) op).1 ∧
      (memStep s op).2.head :: (memStep s op).2.tail = (specStep (s.head :: s.tail) op).2 := by
  cases op with
  | put hs => simp [memStep, specStep, memPut]
  | rollback h =>
    cases h <;> simp [memStep, specStep, memRollback]
  | get n => exact ⟨rfl, rfl⟩
  | len => simp [memStep, specStep, memLen]
  | height => simp [memStep, specStep, memHeight]
  | iter => simp [memStep, specStep, memIter]

theorem memRun_spec (ops : List (Op H)) : ∀ s : MemStore H,
    (memRun s ops).1 = (specRun (s.head :: s.tail) ops).1 ∧
      (memRun s ops).2.head :: (memRun s ops).2.tail = (specRun (s.head :: s.tail) ops).2 := by
  induction ops with
  | nil => intro s; exact ⟨rfl, rfl⟩
  | cons op ops ih =>
    intro s
    obtain ⟨h1, h2⟩ := mem_spec s op
    obtain ⟨h3, h4⟩ := ih (memStep s op).2
    rw [h2] at h3 h4
    simp only [memRun, specRun]
    exact ⟨by rw [h1, h3], h4⟩

/-- C20: for every sequence of operations used as documented, the in-memory store and the file store give the same
answers. -/
theorem C20_interchangeable (hc : c.Good) (g : H) (hfit : c.size < 2 ^ 63) {ops : List (Op H)}
    (hops : OpsOK c.size [g] ops) {as : List (Ans H)} {s' : FileStore H}
    (hr : FileRun c checked ⟨[], g⟩ ops as s') : (memRun ⟨g, []⟩ ops).1 = as := by
  rw [(memRun_spec ops ⟨g, []⟩).1, (C17_file_store_is_list (checked := checked) hc g hfit hops).2 as s' hr]

/-- C20: the file store does reach such runs. -/
example : ∃ as s', FileRun headerCodec true ⟨[], Witness.hdr 0⟩ Witness.ops as s' ∧ as.length = 9 := by
  obtain ⟨s', h⟩ := (C17_file_store_is_list (checked := true) C19_block_header.1 (Witness.hdr 0) (by decide)
    (ops := Witness.ops) (by simp [Witness.ops, OpsOK, OpOK, specStep, headerCodec])).1
  exact ⟨_, s', h, rfl⟩

/-- C20, limit of the documented use: after a roll-back above the tip the two stores disagree. -/
theorem C20_rollback_above_tip :
    ∃ s, fileRollback headerCodec false ⟨[], Witness.hdr 0⟩ 1 = .ok s ∧
      fileLen headerCodec s ≠ memLen (memRollback ⟨Witness.hdr 0, []⟩ 1) :=
  ⟨⟨List.replicate 80 0, Witness.hdr 0⟩, by decide, by decide⟩

/-! ## C18: torn writes -/

/-- C18: `check` reports corruption exactly when the file is not a whole number of records. -/
theorem C18_check (s : FileStore H) :
    (fileCheck c s = .err .corruption ↔ ¬ c.size ∣ s.bytes.length) ∧
      (fileCheck c s = .ok () ↔ c.size ∣ s.bytes.length) := by
  rw [Nat.dvd_iff_mod_eq_zero]
  by_cases h : s.bytes.length % c.size = 0 <;> simp [fileCheck, fileLen, h]

/-- C18: whatever the file content (of a size the system supports), opening it as the client does (check, heal if
needed) succeeds, and the opened store is a store holding exactly the whole records of the content: the file keeps the
longest prefix of whole records, and those are returned by `get`. -/
theorem C18_open_heals (hc : c.Good) (g : H) (b : Bytes) (hb : b.length < 2 ^ 63) :
    ∃ s tail, openExisting c g b = .ok s ∧ Holds c s (g :: tail) ∧ fileCheck c s = .ok () ∧
      s.bytes = b.take (tail.length * c.size) ∧ b.length < (tail.length + 1) * c.size ∧
      (∀ n, n < tail.length → fileGet c checked s (n + 1) = fileGet c checked ⟨b, g⟩ (n + 1)) := by
  obtain ⟨L, rest, rfl, hr⟩ := bytes_split hc b
  have hpos := hc.size_pos
  have hmod := mod_encAll hc L hr
  have hlen : (L.flatMap c.enc ++ rest).length = L.length * c.size + rest.length := by
    rw [List.length_append, length_encAll hc]
  have hopen : openExisting c g (L.flatMap c.enc ++ rest) = .ok ⟨L.flatMap c.enc, g⟩ := by
    unfold openExisting fileCheck fileLen
    simp only [hmod]
    by_cases h0 : rest.length = 0
    · have : rest = [] := List.eq_nil_of_length_eq_zero h0
      subst this
      simp
    · have e : (L.flatMap c.enc ++ rest).length - rest.length = L.length * c.size := by omega
      simp only [ne_eq, h0, not_false_eq_true, ite_true, Res.err_bind, fileHeal, hmod, e, setLen]
      rw [if_pos (by omega), take_encAll hc _ _ _ (Nat.le_refl _), List.take_length,
        Nat.sub_eq_zero_of_le (by omega)]
      simp
  refine ⟨⟨L.flatMap c.enc, g⟩, L, hopen, ⟨L, rfl, rfl⟩, ?_, ?_, ?_, ?_⟩
  · rw [(C18_check _).2]
    simp only [length_encAll hc]
    exact Nat.dvd_mul_left _ _
  · rw [take_encAll hc _ _ _ (Nat.le_refl _), List.take_length]
  · rw [hlen, Nat.add_mul]; omega
  · intro n hn
    have h1 : (n + 1) * c.size < 2 ^ 63 := by
      have := Nat.mul_le_mul_right c.size (show n + 1 ≤ L.length by omega)
      omega
    have e1 := fileGet_encAll (checked := checked) hc L rest hr g (n + 1) h1
    have e2 := fileGet_encAll (checked := checked) hc L [] (by simpa using hpos) g (n + 1) h1
    rw [List.append_nil] at e2
    rw [e1, e2]

/-- C18: a crash that leaves any byte prefix of a store file: after re-opening, the store holds exactly the headers that
are completely within the prefix. -/
theorem C18_torn_write (hc : c.Good) (g : H) (tail : List H) (hfit : tail.length * c.size < 2 ^ 63) (k : Nat) :
    ∃ s, openExisting c g ((tail.flatMap c.enc).take k) = .ok s ∧ Holds c s (g :: tail.take (k / c.size)) := by
  have hpos := hc.size_pos
  obtain ⟨s, L, ho, hh, -, hb, hl, -⟩ := C18_open_heals (checked := true) hc g ((tail.flatMap c.enc).take k) (by
    rw [List.length_take, length_encAll hc]; omega)
  refine ⟨s, ho, ?_⟩
  obtain ⟨t, ht, hbt⟩ := hh
  rw [List.cons.injEq] at ht
  obtain ⟨hg, rfl⟩ := ht
  have hlen : s.bytes.length = L.length * c.size := by rw [hbt, length_encAll hc]
  rw [hb, List.length_take] at hlen
  rw [List.length_take, length_encAll hc, Nat.add_mul] at hl
  rw [List.length_take, length_encAll hc] at hlen
  have hLk : L.length * c.size ≤ k := by omega
  have hLt : L.length * c.size ≤ tail.length * c.size := by omega
  have hLt' : L.length ≤ tail.length := Nat.le_of_mul_le_mul_right hLt hpos
  have htk : tail.take (k / c.size) = tail.take L.length := by
    by_cases h : k < tail.length * c.size
    · have : k / c.size = L.length := Nat.div_eq_of_lt_le hLk (by rw [Nat.add_mul]; omega)
      rw [this]
    · have h1 : tail.length ≤ L.length := by
        have : tail.length * c.size < (L.length + 1) * c.size := by rw [Nat.add_mul]; omega
        have := Nat.lt_of_mul_lt_mul_right this
        omega
      have h2 : tail.length ≤ k / c.size := (Nat.le_div_iff_mul_le hpos).2 (by omega)
      rw [List.take_of_length_le h1, List.take_of_length_le h2]
  refine ⟨tail.take (k / c.size), by rw [hg], ?_⟩
  rw [htk, hb, List.take_take, Nat.min_eq_left hLk]
  have := take_encAll hc L.length tail [] hLt'
  rwa [List.append_nil] at this

/-- C18 is about something: three headers, torn in the middle of the third. -/
example : ∃ s, openExisting headerCodec (Witness.hdr 0)
    (([Witness.hdr 1, Witness.hdr 2, Witness.hdr 3].flatMap headerCodec.enc).take 200) = .ok s ∧
    Holds headerCodec s [Witness.hdr 0, Witness.hdr 1, Witness.hdr 2] :=
  C18_torn_write C19_block_header.1 (Witness.hdr 0) [Witness.hdr 1, Witness.hdr 2, Witness.hdr 3] (by decide) 200

/-- A full disk (not a crash): an append that fails half-way and is *not* followed by a restart leaves a torn record, and a
later append puts its records behind it: the later header is not what `get` returns. -/
theorem C18_failed_append_not_healed :
    ∃ s1 s2, filePutBudget headerCodec ⟨[], Witness.hdr 0⟩ [Witness.hdr 1] 40 = (none, s1) ∧
      filePutBudget headerCodec s1 [Witness.hdr 2] 1000 = (some 1, s2) ∧
      fileGet headerCodec false s2 1 ≠ .ok (Witness.hdr 1) ∧
      fileGet headerCodec false s2 1 ≠ .ok (Witness.hdr 2) :=
  ⟨_, _, rfl, rfl, by decide, by decide⟩

/-! ## C21: a crash during a re-org -/

/-- C21: if the process dies while a store operation runs (before it, after the truncation, or at any byte of the append),
the re-opened store holds the list before the operation, or a prefix of the list after it; during a `put` that prefix
contains the whole list before. -/
theorem C21_crash_any_op (hc : c.Good) {s : FileStore H} {l : List H} (hs : Holds c s l)
    (hfit : l.length * c.size < 2 ^ 63) {op : Op H} (hop : OpOK c.size l op) {b : Bytes}
    (hcr : CrashState c checked s op b) :
    ∃ s' l', openExisting c s.genesis b = .ok s' ∧ Holds c s' l' ∧
      (l' = l ∨ l' = (specStep l op).2 ∨ (∃ hs', op = .put hs' ∧ l <+: l' ∧ l' <+: l ++ hs')) := by
  obtain ⟨tail, rfl, hb⟩ := hs
  obtain ⟨bytes, g⟩ := s
  simp only at hb hfit
  subst hb
  have hpos := hc.size_pos
  have hlen : (g :: tail).length * c.size = tail.length * c.size + c.size := by simp [Nat.add_mul]
  have hwhole : ∀ t : List H, t.length * c.size < 2 ^ 63 →
      ∃ s', openExisting c g (t.flatMap c.enc) = .ok s' ∧ Holds c s' (g :: t) := by
    intro t ht
    obtain ⟨s', h1, h2⟩ := C18_torn_write hc g t ht (t.length * c.size)
    have e := length_encAll hc t
    rw [List.take_of_length_le (by omega)] at h1
    rw [Nat.mul_div_cancel _ hpos, List.take_length] at h2
    exact ⟨s', h1, h2⟩
  cases hcr with
  | before =>
    obtain ⟨s', h1, h2⟩ := hwhole tail (by omega)
    exact ⟨s', _, h1, h2, .inl rfl⟩
  | rollback hr =>
    rename_i h s1
    obtain ⟨-, h2⟩ := step_spec (checked := checked) hc (s := ⟨tail.flatMap c.enc, g⟩) (l := g :: tail)
      ⟨tail, rfl, rfl⟩ hfit hop
    obtain ⟨-, ⟨t, ht, hbt⟩, hf⟩ := h2 _ _ (.rollback hr)
    rw [ht] at hf
    have hg : s1.genesis = g := by
      simp [specStep] at ht
      exact ht.1.symm
    obtain ⟨s', h3, h4⟩ := hwhole t (by
      have : (s1.genesis :: t).length * c.size = t.length * c.size + c.size := by simp [Nat.add_mul]
      omega)
    rw [← hbt] at h3
    exact ⟨s', _, h3, h4, .inr (.inl (by rw [ht, hg]))⟩
  | put k =>
    rename_i hs
    have hop : ((g :: tail).length + hs.length) * c.size < 2 ^ 63 := hop
    have hfit2 : (tail ++ hs).length * c.size < 2 ^ 63 := by
      rw [List.length_append]
      refine Nat.lt_of_le_of_lt (Nat.mul_le_mul_right _ ?_) hop
      simp
    obtain ⟨s', h1, h2⟩ := C18_torn_write hc g (tail ++ hs) hfit2 (tail.length * c.size + k)
    have e : ((tail ++ hs).flatMap c.enc).take (tail.length * c.size + k)
        = tail.flatMap c.enc ++ (hs.flatMap c.enc).take k := by
      rw [List.flatMap_append, ← length_encAll hc tail, List.take_length_add_append]
    rw [e] at h1
    refine ⟨s', _, h1, h2, .inr (.inr ⟨hs, rfl, ?_, ?_⟩)⟩
    · have : tail.length ≤ (tail.length * c.size + k) / c.size :=
        (Nat.le_div_iff_mul_le hpos).2 (by omega)
      rw [List.take_append, List.take_of_length_le this]
      exact ⟨_, by rw [List.cons_append]⟩
    · rw [List.cons_append]
      exact List.cons_prefix_cons.2 ⟨rfl, List.take_prefix _ _⟩

/-- C21: a re-org replaces the headers above height `h` of the old chain `l` by `branch`: first `rollback h`, then
`put branch` (`cache.rs: switch_to_fork`).  Whatever the moment and byte of the crash, the re-opened store holds the old chain,
or a prefix of the new chain that contains the common ancestors. -/
theorem C21_crash_in_reorg (hc : c.Good) {s : FileStore H} {l branch : List H} (hs : Holds c s l)
    (hfit : l.length * c.size < 2 ^ 63) {h : Nat} (hh : h < l.length)
    (hfit' : (h + 1 + branch.length) * c.size < 2 ^ 63) {b : Bytes}
    (hcr : CrashState c checked s (.rollback h) b ∨
      ∃ s1, fileRollback c checked s h = .ok s1 ∧ CrashState c checked s1 (.put branch) b) :
    ∃ s' l', openExisting c s.genesis b = .ok s' ∧ Holds c s' l' ∧
      (l' = l ∨ (l.take (h + 1) <+: l' ∧ l' <+: l.take (h + 1) ++ branch)) := by
  rcases hcr with hcr | ⟨s1, hr, hcr⟩
  · obtain ⟨s', l', h1, h2, h3⟩ := C21_crash_any_op hc hs hfit (op := .rollback h) hh hcr
    refine ⟨s', l', h1, h2, ?_⟩
    rcases h3 with h3 | h3 | ⟨_, h3, _⟩
    · exact .inl h3
    · refine .inr ⟨?_, ?_⟩
      · rw [h3]; exact List.prefix_refl _
      · rw [h3]; exact List.prefix_append _ _
    · cases h3
  · obtain ⟨-, hsp⟩ := step_spec (checked := checked) hc hs hfit (op := .rollback h) hh
    obtain ⟨-, hs1, hf1⟩ := hsp _ _ (.rollback hr)
    have hg : s1.genesis = s.genesis := by
      obtain ⟨t, ht, -⟩ := hs
      obtain ⟨t1, ht1, -⟩ := hs1
      rw [ht] at ht1
      simp [specStep] at ht1
      exact ht1.1.symm
    have htl : (l.take (h + 1)).length = h + 1 := by simp; omega
    obtain ⟨s', l', h1, h2, h3⟩ := C21_crash_any_op hc hs1 hf1 (op := .put branch) (by
      show (((specStep l (.rollback h)).2).length + branch.length) * c.size < 2 ^ 63
      simp only [specStep, htl]; exact hfit') hcr
    rw [hg] at h1
    refine ⟨s', l', h1, h2, .inr ?_⟩
    rcases h3 with h3 | h3 | ⟨hs', h3, h4, h5⟩
    · rw [h3]; exact ⟨List.prefix_refl _, List.prefix_append _ _⟩
    · rw [h3]; exact ⟨List.prefix_append _ _, List.prefix_refl _⟩
    · cases h3
      exact ⟨h4, h5⟩

/-- C21 is about something: chain 0-1-2-3, re-org at height 1 to 4-5, crash in the middle of record 5. -/
example : ∃ s' l', openExisting headerCodec (Witness.hdr 0)
      ([Witness.hdr 1].flatMap headerCodec.enc ++
        ([Witness.hdr 4, Witness.hdr 5].flatMap headerCodec.enc).take 100) = .ok s' ∧
      Holds headerCodec s' l' ∧ (l' = [Witness.hdr 0, Witness.hdr 1, Witness.hdr 2, Witness.hdr 3] ∨
        ([Witness.hdr 0, Witness.hdr 1] <+: l' ∧
          l' <+: [Witness.hdr 0, Witness.hdr 1, Witness.hdr 4, Witness.hdr 5])) :=
  C21_crash_in_reorg (checked := true) C19_block_header.1
    (s := ⟨[Witness.hdr 1, Witness.hdr 2, Witness.hdr 3].flatMap headerCodec.enc, Witness.hdr 0⟩)
    (l := [Witness.hdr 0, Witness.hdr 1, Witness.hdr 2, Witness.hdr 3])
    ⟨_, rfl, rfl⟩ (by decide) (h := 1) (branch := [Witness.hdr 4, Witness.hdr 5]) (by decide) (by decide)
    (.inr ⟨⟨[Witness.hdr 1].flatMap headerCodec.enc, Witness.hdr 0⟩,
      by
        have := fileRollback_encAll (checked := true) C19_block_header.1 [Witness.hdr 1, Witness.hdr 2, Witness.hdr 3] []
          (Witness.hdr 0) 1 (by decide) (by decide)
        rw [List.append_nil] at this
        exact this,
      .put (hs := [Witness.hdr 4, Witness.hdr 5]) 100⟩)

end Verif.Store
