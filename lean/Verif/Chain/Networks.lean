import Verif.Chain.Compact
import Verif.Chain.Sha256

/-!
# The built-in networks

`common/src/network.rs`, `common/src/block/{checkpoints,genesis}.rs`, and what they take from rust-bitcoin 0.29 (`Params::new`, `genesis_block`, `Network::magic`; not part of /repo, written down from
its public source).  With the real block hash (`Verif.Chain.Sha256`) and the real difficulty arithmetic (`Verif.Chain.Compact`) they give, for every network, a configuration of the header tree.
-/

set_option autoImplicit false

namespace Verif.Chain.Networks
open Sha256 (beNat beBytes blockHash toInt)

/-- `Network` (network.rs:33-44). -/
inductive Network where
  | mainnet
  | testnet
  | regtest
  | signet
  deriving DecidableEq, Repr

/-- `from_str` (network.rs:55-63); the error is dropped. -/
def Network.fromStr (s : String) : Option Network :=
  if s = "mainnet" ∨ s = "bitcoin" then some .mainnet
  else if s = "testnet" then some .testnet
  else if s = "regtest" then some .regtest
  else if s = "signet" then some .signet
  else none

/-- `as_str` (network.rs:119-127). -/
def Network.asStr : Network → String
  | .mainnet => "mainnet"
  | .testnet => "testnet"
  | .regtest => "regtest"
  | .signet => "signet"

/-- `port` (network.rs:89-97). -/
def Network.port : Network → Nat
  | .mainnet => 8333
  | .testnet => 18333
  | .regtest => 18334
  | .signet => 38333

/-- `magic` (network.rs:201-203; `Network::magic` of rust-bitcoin). -/
def Network.magic : Network → Nat
  | .mainnet => 0xD9B4BEF9
  | .testnet => 0x0709110B
  | .regtest => 0xDAB5BFFA
  | .signet => 0x40CF030A

/-- `From<Services> for ServiceFlags` (network.rs:24-31): with (`All`) or without (`Chain`) compact filters. -/
def servicesOf (all : Bool) : Nat := if all then 64 ||| 1 else 1

/-- The tables (checkpoints.rs:5-31), with the hashes as they are displayed. -/
def Network.checkpointTable : Network → List (Nat × Nat)
  | .mainnet => [(11111, 0x0000000069e244f73d78e8fd29ba2fd2ed618bd6fa2ee92559f542fdb26e7c1d),
      (33333, 0x000000002dd5588a74784eaa7ab0507a18ad16a236e7b1ce69f00d7ddfb5d0a6),
      (74000, 0x0000000000573993a3c9e41ce34471c079dcf5f52a0e824a81e7f953b8661a20),
      (105000, 0x00000000000291ce28027faea320c8d2b054b2e0fe44a773f3eefb151d6bdc97),
      (134444, 0x00000000000005b12ffd4cd315cd34ffd4a594f430ac814c91184a0d42d2b0fe),
      (168000, 0x000000000000099e61ea72015e79632f216fe6cb33d7899acb35b75c8303b763),
      (193000, 0x000000000000059f452a5f7340de6682a977387c17010ff6e6c3bd83ca8b1317),
      (210000, 0x000000000000048b95347e83192f69cf0366076336c639f9b7228e9ba171342e),
      (216116, 0x00000000000001b4f4b433e81ee46494af945cf96014816a4e2370f11b23df4e),
      (225430, 0x00000000000001c108384350f74090433e7fcf79a606b8e797f065b130575932),
      (250000, 0x000000000000003887df1f29024b06fc2200b55f8af8f35453d7be294df2d214),
      (279000, 0x0000000000000001ae8c72a0b0c301f67e3afca10e819efa9041e458e9bd7e40),
      (295000, 0x00000000000000004d9b4ef50f0f9d686fd69db2e03af35a100370c64632a983)]
  | .testnet => [(546, 0x000000002a936ca763904c3c35fce2f3556c559c0214345d31b1bcebf76acb70)]
  | .regtest => []
  | .signet => []

/-- `checkpoints` (network.rs:100-118).  A hash in the table is written backwards, as it is displayed: the number of the displayed digits is the hash as an integer, and the bytes of the hash are
those of that integer in reverse (`BlockHash::from_hex`; that the strings consist of 64 hexadecimal digits was seen when they were written down here as numbers). -/
def Network.checkpoints (n : Network) : List (Nat × Nat) := n.checkpointTable.map fun p => (p.1, toInt p.2)

/-- The bytes of the genesis hashes (genesis.rs:5-37). -/
def Network.genesisBytes : Network → List Nat
  | .mainnet => [0x6f, 0xe2, 0x8c, 0x0a, 0xb6, 0xf1, 0xb3, 0x72, 0xc1, 0xa6, 0xa2, 0x46, 0xae, 0x63, 0xf7, 0x4f,
      0x93, 0x1e, 0x83, 0x65, 0xe1, 0x5a, 0x08, 0x9c, 0x68, 0xd6, 0x19, 0x00, 0x00, 0x00, 0x00, 0x00]
  | .testnet => [0x43, 0x49, 0x7f, 0xd7, 0xf8, 0x26, 0x95, 0x71, 0x08, 0xf4, 0xa3, 0x0f, 0xd9, 0xce, 0xc3, 0xae,
      0xba, 0x79, 0x97, 0x20, 0x84, 0xe9, 0x0e, 0xad, 0x01, 0xea, 0x33, 0x09, 0x00, 0x00, 0x00, 0x00]
  | .regtest => [0x06, 0x22, 0x6e, 0x46, 0x11, 0x1a, 0x0b, 0x59, 0xca, 0xaf, 0x12, 0x60, 0x43, 0xeb, 0x5b, 0xbf,
      0x28, 0xc3, 0x4f, 0x3a, 0x5e, 0x33, 0x2a, 0x1f, 0xc7, 0xb2, 0xb7, 0x3c, 0xf1, 0x88, 0x91, 0x0f]
  | .signet => [0xf6, 0x1e, 0xee, 0x3b, 0x63, 0xa3, 0x80, 0xa4, 0x77, 0xa0, 0x63, 0xaf, 0x32, 0xb2, 0xbb, 0xc9,
      0x7c, 0x9f, 0xf9, 0xf0, 0x1f, 0x2c, 0x42, 0x25, 0xe9, 0x73, 0x98, 0x81, 0x08, 0x00, 0x00, 0x00]

/-- `genesis_hash` (network.rs:179-193). -/
def Network.genesisHash (n : Network) : Nat := beNat n.genesisBytes

/-- The merkle root of the genesis blocks: the id of the one transaction (`genesis_block` of rust-bitcoin). -/
def genesisMerkle : Nat := toInt 0x4a5e1e4baab89f3a32518a88c31bc87f618f76673e2cc77ab2127b7afdeda33b

/-- `genesis` (network.rs:167-176; `genesis_block` of rust-bitcoin). -/
def Network.genesis : Network → Header
  | .mainnet => ⟨1, 0, genesisMerkle, 1231006505, 0x1d00ffff, 2083236893⟩
  | .testnet => ⟨1, 0, genesisMerkle, 1296688602, 0x1d00ffff, 414098458⟩
  | .regtest => ⟨1, 0, genesisMerkle, 1296688602, 0x207fffff, 2⟩
  | .signet => ⟨1, 0, genesisMerkle, 1598918400, 0x1e0377ae, 52613770⟩

/-- `pow_limit` (`Params::new` of rust-bitcoin). -/
def Network.powLimit : Network → Nat
  | .mainnet => 0xffff * 2 ^ 208
  | .testnet => 0xffff * 2 ^ 208
  | .regtest => 0x7fffff * 2 ^ 232
  | .signet => 0x377ae * 2 ^ 216

/-- The configuration of the header tree for a network: `params` (network.rs:196-198; `Params::new` of rust-bitcoin), the checkpoints and the genesis hash, as loaded by the client
(client/src/client.rs:264-299). -/
def Network.cfg (n : Network) (checked : Bool) : Cfg where
  hash := blockHash
  hashInt := toInt
  target := Compact.target
  compact := Compact.compact
  work := Compact.work
  mainnet := decide (n = .mainnet)
  allowMin := decide (n = .testnet ∨ n = .regtest)
  noRetarget := decide (n = .regtest)
  powLimit := n.powLimit
  powLimitBits := Compact.compact n.powLimit
  interval := 2016
  timespan := 1209600
  spacing := 600
  genesisHash := n.genesisHash
  checkpoints := n.checkpoints
  checked := checked

end Verif.Chain.Networks
