import Mathlib.Data.List.Induction
import Verif.Store.Props
import Verif.Chain.Networks
/-!
# C19, C11: the bytes in the file are the bytes that are hashed

The chain (`Verif.Chain`) works with headers whose hashes are numbers, and the file (`Verif.Store`) with records of bytes.
Here both are put together: `BlockHeader::block_hash` hashes what `consensus_encode` writes
(rust-bitcoin 0.29, `blockdata/block.rs: BlockHeader::block_hash`), and `chain/src/block/store/io.rs:15-26` (`put`) writes to the
file what `consensus_encode` writes.
-/

set_option autoImplicit false

namespace Verif.Store

open Verif.Chain (Header)
open Verif.Chain.Sha256 (beBytes beNat headerBytes blockHash sha256 toInt)

/-- A header of the chain as record of the file: the same six fields (the hashes as little-endian numbers). -/
def stored (h : Header) : BlockHeader :=
  ⟨.ofNat _ h.version, .ofNat _ (toInt h.prev), .ofNat _ (toInt h.merkle), .ofNat _ h.time, .ofNat _ h.bits, .ofNat _ h.nonce⟩

/-- The fields of a header fit into the fields of the struct: `i32`, two hashes of 32 bytes, three `u32`. -/
structure Fits (h : Header) : Prop where
  version : h.version < 2 ^ 32
  prev : h.prev < 2 ^ 256
  merkle : h.merkle < 2 ^ 256
  time : h.time < 2 ^ 32
  bits : h.bits < 2 ^ 32
  nonce : h.nonce < 2 ^ 32

theorem le_bytes : ∀ (k n : Nat), (leBytes k n).map UInt8.toNat = Verif.Chain.Sha256.leBytes k n
  | 0, _ => rfl
  | k + 1, n => by
    have := le_bytes k (n / 256)
    unfold Verif.Chain.Sha256.leBytes at this ⊢
    simp [leBytes, beBytes, this]

theorem be_mod : ∀ (k n : Nat), beBytes k (n % 256 ^ k) = beBytes k n
  | 0, _ => rfl
  | k + 1, n => by
    have h1 : n % 256 ^ (k + 1) / 256 = n / 256 % 256 ^ k := by
      rw [Nat.pow_succ, Nat.mul_comm, Nat.mod_mul_right_div_self]
    have h2 : n % 256 ^ (k + 1) % 256 = n % 256 := by
      rw [Nat.pow_succ]; exact Nat.mod_mul_left_mod _ _ _
    simp only [beBytes, h1, h2, be_mod k (n / 256)]

theorem be_length : ∀ (k n : Nat), (beBytes k n).length = k
  | 0, _ => rfl
  | k + 1, n => by simp [beBytes, be_length k]

theorem be_small : ∀ (k n : Nat), ∀ b ∈ beBytes k n, b < 256
  | 0, _, b, h => by simp [beBytes] at h
  | k + 1, n, b, h => by
    simp only [beBytes, List.mem_append, List.mem_singleton] at h
    rcases h with h | h
    · exact be_small k _ b h
    · omega

theorem beNat_append (l : List Nat) (b : Nat) : beNat (l ++ [b]) = beNat l * 256 + b := by
  simp [beNat]

/-- The bytes of the number made of some bytes are these bytes. -/
theorem be_beNat (l : List Nat) (h : ∀ b ∈ l, b < 256) : beBytes l.length (beNat l) = l := by
  induction l using List.reverseRecOn with
  | nil => rfl
  | append_singleton l b ih =>
    have hb : b < 256 := h b (by simp)
    have h1 : (beNat l * 256 + b) / 256 = beNat l := by omega
    have h2 : (beNat l * 256 + b) % 256 = b := by omega
    simp only [List.length_append, List.length_singleton, beBytes, beNat_append, h1, h2]
    rw [ih fun c hc => h c (by simp [hc])]

/-- The number made of the bytes of a number is the number. -/
theorem beNat_be : ∀ (k n : Nat), n < 256 ^ k → beNat (beBytes k n) = n
  | 0, n, h => by simp at h; subst h; rfl
  | k + 1, n, h => by
    have : n / 256 < 256 ^ k := by rw [Nat.pow_succ] at h; omega
    simp only [beBytes, beNat_append, beNat_be k _ this]
    omega

/-- A hash that is written as little-endian number has the bytes of the hash. -/
theorem hash_bytes (n : Nat) : (leBytes 32 (BitVec.ofNat 256 (toInt n)).toNat).map UInt8.toNat = beBytes 32 n := by
  rw [le_bytes, BitVec.toNat_ofNat]
  unfold Verif.Chain.Sha256.leBytes toInt
  rw [show (2 : Nat) ^ 256 = 256 ^ 32 by decide, be_mod]
  have := be_beNat (beBytes 32 n).reverse fun b hb => be_small 32 n b (List.mem_reverse.mp hb)
  rw [List.length_reverse, be_length] at this
  rw [this, List.reverse_reverse]

theorem word_bytes (n : Nat) : (leBytes 4 (BitVec.ofNat 32 n).toNat).map UInt8.toNat = Verif.Chain.Sha256.leBytes 4 n := by
  rw [le_bytes, BitVec.toNat_ofNat]
  unfold Verif.Chain.Sha256.leBytes
  rw [show (2 : Nat) ^ 32 = 256 ^ 4 by decide, be_mod]

theorem stored_bytes (h : Header) : (encHeader (stored h)).map UInt8.toNat = headerBytes h := by
  simp only [encHeader, stored, headerBytes, List.map_append, hash_bytes, word_bytes]

theorem enc_length (r : BlockHeader) : (encHeader r).length = 80 := by
  simp [encHeader, leBytes_length]

theorem flat_length (L : List BlockHeader) : (L.flatMap encHeader).length = 80 * L.length := by
  induction L with
  | nil => rfl
  | cons r L ih => simp only [List.flatMap_cons, List.length_append, enc_length, ih, List.length_cons]; omega

theorem flat_chunk : ∀ (L : List BlockHeader) (i : Nat) (r : BlockHeader), L[i]? = some r →
    ((L.flatMap encHeader).drop (80 * i)).take 80 = encHeader r
  | [], i, r, h => by simp at h
  | x :: L, 0, r, h => by
    simp only [List.getElem?_cons_zero, Option.some.injEq] at h
    subst h
    simp [List.flatMap_cons, enc_length]
  | x :: L, i + 1, r, h => by
    rw [List.getElem?_cons_succ] at h
    rw [← flat_chunk L i r h, List.flatMap_cons, show 80 * (i + 1) = (encHeader x).length + 80 * i by rw [enc_length]; omega,
      ← List.drop_drop, List.drop_left]

/-- C19: what is written to the file for a header is what is hashed to get the hash of the block. -/
theorem C19_hashed (h : Header) :
    (headerCodec.enc (stored h)).length = 80 ∧
    blockHash h = beNat (sha256 (sha256 ((headerCodec.enc (stored h)).map UInt8.toNat))) := by
  refine ⟨enc_length _, ?_⟩
  show _ = beNat (sha256 (sha256 ((encHeader (stored h)).map UInt8.toNat)))
  rw [stored_bytes]; rfl

theorem toInt_toInt {n : Nat} (h : n < 2 ^ 256) : toInt (toInt n) = n := by
  unfold toInt
  have := be_beNat (beBytes 32 n).reverse fun b hb => be_small 32 n b (List.mem_reverse.mp hb)
  rw [List.length_reverse, be_length] at this
  rw [this, List.reverse_reverse, beNat_be 32 n (by rw [show (256 : Nat) ^ 32 = 2 ^ 256 by decide]; exact h)]

/-- C19: two headers have the same bytes only if they are the same (for headers whose fields have their sizes). -/
theorem C19_same_bytes {h h' : Header} (f : Fits h) (f' : Fits h') :
    headerCodec.enc (stored h) = headerCodec.enc (stored h') ↔ h = h' := by
  refine ⟨fun e => ?_, fun e => e ▸ rfl⟩
  have e' : stored h = stored h' := by
    have g := C19_block_header.1
    have h1 := congrArg headerCodec.dec e
    rw [g.dec_enc, g.dec_enc] at h1
    exact Option.some.inj h1
  have key : ∀ {w a b : Nat}, a < 2 ^ w → b < 2 ^ w → BitVec.ofNat w a = BitVec.ofNat w b → a = b := by
    intro w a b ha hb hab
    have := congrArg BitVec.toNat hab
    rwa [BitVec.toNat_ofNat, BitVec.toNat_ofNat, Nat.mod_eq_of_lt ha, Nat.mod_eq_of_lt hb] at this
  have keyH : ∀ {a b : Nat}, a < 2 ^ 256 → b < 2 ^ 256 → BitVec.ofNat 256 (toInt a) = BitVec.ofNat 256 (toInt b) → a = b := by
    intro a b ha hb hab
    have h1 := hash_bytes a
    rw [hab, hash_bytes b] at h1
    have h2 := congrArg beNat h1
    rw [show (2 : Nat) ^ 256 = 256 ^ 32 by decide] at ha hb
    rw [beNat_be 32 b hb, beNat_be 32 a ha] at h2
    exact h2.symm
  obtain ⟨v, p, m, t, b, n⟩ := h
  obtain ⟨v', p', m', t', b', n'⟩ := h'
  simp only [stored, BlockHeader.mk.injEq] at e'
  obtain ⟨e1, e2, e3, e4, e5, e6⟩ := e'
  rw [Header.mk.injEq]
  exact ⟨key f.version f'.version e1, keyH f.prev f'.prev e2, keyH f.merkle f'.merkle e3, key f.time f'.time e4,
    key f.bits f'.bits e5, key f.nonce f'.nonce e6⟩

/-- C19: in a file that holds a list of headers, the `i`-th eighty bytes are those whose double SHA-256 is the hash of the `i`-th
header; and there are no further bytes. -/
theorem C19_file_hashed (L : List Header) :
    ((L.map stored).flatMap headerCodec.enc).length = 80 * L.length ∧
    ∀ i h, L[i]? = some h →
      blockHash h =
        beNat (sha256 (sha256 (((((L.map stored).flatMap headerCodec.enc).drop (80 * i)).take 80).map UInt8.toNat))) := by
  refine ⟨?_, fun i h hi => ?_⟩
  · show ((L.map stored).flatMap encHeader).length = _
    rw [flat_length, List.length_map]
  · show _ = beNat (sha256 (sha256 (((((L.map stored).flatMap encHeader).drop (80 * i)).take 80).map UInt8.toNat)))
    rw [flat_chunk _ i (stored h) (by rw [List.getElem?_map, hi]; rfl), stored_bytes]
    rfl

/-- The first block of every network has fields of the right sizes. -/
example (n : Verif.Chain.Networks.Network) : Fits n.genesis := by
  cases n <;> exact ⟨by decide +kernel, by decide +kernel, by decide +kernel, by decide +kernel, by decide +kernel, by decide +kernel⟩

/-- The first and the last bytes that are written for the first block of the main network: version 1, and the nonce 2083236893. -/
example : (headerCodec.enc (stored Verif.Chain.Networks.Network.mainnet.genesis)).take 4 = [1, 0, 0, 0] ∧
    (headerCodec.enc (stored Verif.Chain.Networks.Network.mainnet.genesis)).drop 76 = [0x1d, 0xac, 0x2b, 0x7c] := by
  decide +kernel

/-- Fields that do not fit are cut off, so that the sizes matter for `C19_same_bytes`. -/
example : headerCodec.enc (stored ⟨0, 0, 0, 0, 0, 2 ^ 32⟩) = headerCodec.enc (stored ⟨0, 0, 0, 0, 0, 0⟩) := by decide +kernel

end Verif.Store
