import Verif.Chain.Networks
import Verif.Chain.Props
import Verif.Chain.PropsValid
import Verif.Chain.PropsKeep

/-!
# Properties of the built-in networks (C135)

For every network, the theorems about the header tree hold with the real block hash, the real difficulty arithmetic and the built-in parameters.  That no two headers are linked in a circle (`Acyclic`) is
what is left to assume about the hash.
-/

set_option autoImplicit false

namespace Verif.Chain.Networks
open Sha256 (blockHash toInt sha256 headerBytes)

attribute [local irreducible] blockHash toInt Compact.target

section
variable {n : Network} {checked fail : Bool} {U : Header → Prop} {s : State}

/-- **C135.** The genesis hash of every network is the hash of its genesis header, which satisfies the proof-of-work it claims, within the limit of the network. -/
theorem C135_genesis (n : Network) : n.genesisHash = blockHash n.genesis ∧ toInt (blockHash n.genesis) ≤ Compact.target n.genesis.bits ∧ Compact.target n.genesis.bits ≤ n.powLimit ∧
    n.genesis.prev = 0 := by
  cases n <;> decide +kernel

/-- **C135.** Checkpoints are above genesis, in ascending order and one per height, and proof-of-work within the limit can lead to their hashes. -/
theorem C135_checkpoints (n : Network) : (n.checkpoints.map (·.1)).Pairwise (· < ·) ∧ ∀ p ∈ n.checkpoints, 0 < p.1 ∧ toInt p.2 ≤ n.powLimit ∧ p.2 < 2 ^ 256 := by
  cases n <;> decide +kernel

/-- **C135.** The name of a network is read as that network; nothing else is, but `bitcoin` for mainnet. -/
theorem C135_name (s : String) (n : Network) : Network.fromStr s = some n ↔ s = n.asStr ∨ (s = "bitcoin" ∧ n = .mainnet) := by
  constructor
  · intro h
    unfold Network.fromStr at h
    split at h
    · rename_i hs
      cases h
      rcases hs with rfl | rfl
      · exact .inl rfl
      · exact .inr ⟨rfl, rfl⟩
    · split at h
      · rename_i hs; cases h; exact .inl hs
      · split at h
        · rename_i hs; cases h; exact .inl hs
        · split at h
          · rename_i hs; cases h; exact .inl hs
          · cases h
  · rintro (rfl | ⟨rfl, rfl⟩)
    · cases n <;> decide +kernel
    · decide +kernel

/-- **C135.** Networks cannot be confused: they differ in genesis, magic number, port and name. -/
theorem C135_distinct {n n' : Network} (h : n.genesisHash = n'.genesisHash ∨ n.magic = n'.magic ∨ n.port = n'.port ∨ n.asStr = n'.asStr) : n = n' := by
  revert h
  cases n <;> cases n' <;> decide +kernel

/-- **C135.** The services asked for: blocks (the first bit), and compact filters (the seventh) unless only the chain is wanted. -/
theorem C135_services (all : Bool) (i : Nat) : (servicesOf all).testBit i = true ↔ i = 0 ∨ (all = true ∧ i = 6) := by
  have h1 : Nat.testBit 1 i = decide (i = 0) := by
    rw [show (1 : Nat) = 2 ^ 0 from rfl, Nat.testBit_two_pow]
    simp [eq_comm]
  have h64 : Nat.testBit 64 i = decide (i = 6) := by
    rw [show (64 : Nat) = 2 ^ 6 from rfl, Nat.testBit_two_pow]
    simp [eq_comm]
  cases all with
  | true =>
    unfold servicesOf
    rw [if_pos rfl, Nat.testBit_or, h1, h64]
    simp [or_comm]
  | false =>
    unfold servicesOf
    rw [if_neg (by decide), h1]
    simp

/-- **C135.** Retargeting cannot overflow 256 bits on the networks that retarget (on signet it would if the limit were a little larger). -/
theorem C135_no_overflow (h : (n.cfg checked).noRetarget = false) : (n.cfg checked).powLimit * ((n.cfg checked).timespan * 4) < 2 ^ 256 := by
  cases n with
  | regtest => cases h
  | _ => cases checked <;> decide +kernel

/-- **C135.** The parameters are as the theorems about validation need them, on all networks but regtest (which does not retarget). -/
theorem C135_params (h : n ≠ .regtest) : ParamsOK (n.cfg checked) :=
  ⟨by show 0 < 2016; decide, by simp [Network.cfg, h], fun b => Compact.target_compact_target b⟩

/-- Minimum difficulty is exactly the limit. -/
theorem C135_limit_exact (n : Network) : Compact.target (n.cfg checked).powLimitBits = n.powLimit := by
  cases n <;> cases checked <;> decide +kernel

/-- **C135.** A client that starts with an empty directory has the genesis header of its network, on every network. -/
theorem C135_starts (n : Network) (checked : Bool) : ∃ s, load (n.cfg checked) (new (n.cfg checked) n.genesis [n.genesis]) = .ok s ∧ s.headers = [n.genesis] ∧ s.chainwork = Compact.work n.genesis.bits := by
  have h : (match load (n.cfg checked) (new (n.cfg checked) n.genesis [n.genesis]) with
      | .ok s => decide (s.headers = [n.genesis]) && decide (s.chainwork = Compact.work n.genesis.bits)
      | _ => false) = true := by cases n <;> cases checked <;> decide +kernel
  split at h
  · rename_i s hs
    simp only [Bool.and_eq_true, decide_eq_true_eq] at h
    exact ⟨s, hs, h⟩
  · cases h

/-- **C135.** Whatever headers are presented to a client on one of the networks: its chain is one linked chain from the genesis header of the network, and all queries agree on it; -/
theorem C135_chain (ha : Acyclic (n.cfg checked) U) (r : Reach (n.cfg checked) U n.genesis fail s) : ConsistentView (n.cfg checked) n.genesis s :=
  C01_consistent_view ha (C135_genesis n).1 r

/-- **C135.** every header of it, including genesis, has a double SHA-256 hash, as an integer, at most the target it states, which is at most the limit of the network; -/
theorem C135_work (ha : Acyclic (n.cfg checked) U) (r : Reach (n.cfg checked) U n.genesis fail s) {k : Nat} {h : Header} (hk : s.getByHeight k = some h) :
    toInt (blockHash h) ≤ Compact.target h.bits ∧ Compact.target h.bits ≤ n.powLimit := by
  obtain ⟨g1, g2, g3, -⟩ := C135_genesis n
  refine ⟨?_, C08_target_limit (cfg := n.cfg checked) ha g1 g3 (C135_limit_exact n).le Compact.target_compact_le r hk⟩
  cases k with
  | zero =>
    have : h = n.genesis := by
      rw [getByHeight_headers, (reach_inv ha g1 r).1.headers_eq] at hk
      simpa using hk.symm
    rw [this]; exact g2
  | succ k => exact C08_proof_of_work (cfg := n.cfg checked) ha g1 r hk

/-- **C135.** and at the heights of the table it holds the block of the table. -/
theorem C135_held (ha : Acyclic (n.cfg checked) U) (r : Reach (n.cfg checked) U n.genesis fail s) {k hash : Nat} {h : Header} (hm : (k, hash) ∈ n.checkpointTable) (hk : s.getByHeight k = some h) :
    toInt (blockHash h) = hash := by
  have hpos : ∀ p ∈ n.checkpointTable, 1 ≤ p.1 ∧ AMap.get (n.cfg checked).checkpoints p.1 = some (toInt p.2) ∧ toInt (toInt p.2) = p.2 := by
    cases n <;> cases checked <;> decide +kernel
  obtain ⟨h1, h2, h3⟩ := hpos _ hm
  have := C08_checkpoints (cfg := n.cfg checked) ha (C135_genesis n).1 r h1 hk h2
  rw [show blockHash h = toInt hash from this]
  exact h3

end

namespace Example

/-- The first block of mainnet after genesis. -/
def block1 : Header :=
  ⟨1, Network.mainnet.genesisHash, toInt 0x0e3e2357e806b6cdb1f70b54c3a3a17b6714ee1f0e68bebb44a74b1efd512098, 1231469665, 0x1d00ffff, 2573394689⟩

def e : Env := ⟨id, 1700000000, false, false⟩

def U (h : Header) : Prop := h = block1

/-- It is accepted. -/
theorem accepts : (importBlocks (Network.mainnet.cfg false) (new (Network.mainnet.cfg false) Network.mainnet.genesis [Network.mainnet.genesis]) [(block1, e)]).1.headers =
    [Network.mainnet.genesis, block1] ∧
    toInt (blockHash block1) = 0x00000000839a8e6886ab5951d76f411475428afc90947ee320161bbf18eb6048 := by decide +kernel

theorem acyclic : Acyclic (Network.mainnet.cfg false) U := by
  refine ⟨fun h => if h = Network.mainnet.genesisHash then 0 else 1, ?_⟩
  rintro h rfl
  show (if block1.prev = Network.mainnet.genesisHash then 0 else 1) < (if blockHash block1 = Network.mainnet.genesisHash then 0 else 1)
  have : ¬ blockHash block1 = Network.mainnet.genesisHash := by decide +kernel
  rw [if_pos (show block1.prev = Network.mainnet.genesisHash from rfl), if_neg this]
  decide

/-- The hypotheses of `C135_chain`, `C135_work` and `C135_held` are met: a client on mainnet with the first two blocks of the real chain. -/
example : ∃ s, Acyclic (Network.mainnet.cfg false) U ∧ Reach (Network.mainnet.cfg false) U Network.mainnet.genesis false s ∧ s.getByHeight 1 = some block1 ∧
    (11111, 0x0000000069e244f73d78e8fd29ba2fd2ed618bd6fa2ee92559f542fdb26e7c1d) ∈ Network.mainnet.checkpointTable := by
  refine ⟨_, acyclic, .importBlocks [(block1, e)] .init ?_ ?_, ?_, by decide⟩
  · intro p hp
    rw [List.mem_singleton.1 hp]
    exact ⟨rfl, fun _ => .rfl, fun _ => ⟨rfl, rfl⟩⟩
  · decide +kernel
  · rw [getByHeight_headers, accepts.1]; rfl

end Example
end Verif.Chain.Networks
