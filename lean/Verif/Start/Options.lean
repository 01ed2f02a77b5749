import Verif.Chain.Networks
import Verif.Peer.NetScenarios
import Verif.Peer.PropsAccept
import Verif.Peer.PropsDial
import Verif.Peer.PropsNet
import Verif.Peer.PropsSaid
import Verif.Peer.Scenarios
/-!
# The options of the two programs: node/src/main.rs, node/src/lib.rs, wallet/src/main.rs, wallet/src/lib.rs (C156)

From the options of a program to the configuration of the managers.  The parsing of the command line is done by the crate argh; log levels, and what has nothing to do with the network, are left out.
-/

set_option autoImplicit false

namespace Verif.Start

open Verif (AMap)
open Verif.Addr (Sock Ip Domain domainOf)
open Verif.Chain.Networks (Network)
open Verif.Peer (Mgr Op Out Net Link Version Session Valid Run added)

/-- `Options` (node/src/main.rs:9-47); paths are strings. -/
structure NodeOptions where
  connect : List Sock
  listen : List Sock
  testnet : Bool
  signet : Bool
  regtest : Bool
  ipv4 : Bool
  ipv6 : Bool
  root : Option String

/-- `network` (node/src/main.rs:60-68). -/
def NodeOptions.network (o : NodeOptions) : Network :=
  if o.testnet then .testnet else if o.signet then .signet else if o.regtest then .regtest else .mainnet

/-- `domains` (node/src/main.rs:70-78). -/
def NodeOptions.domains (o : NodeOptions) : List Domain :=
  if o.ipv4 && o.ipv6 then [.ipv4, .ipv6] else if o.ipv4 then [.ipv4] else if o.ipv6 then [.ipv6] else [.ipv4, .ipv6]

/-- `Config` of the client (client/src/client.rs:48-74) as far as options reach it, with the two limits on connections (p2p/src/fsm.rs:363-371). -/
structure Config where
  network : Network
  domains : List Domain
  connect : List Sock
  listen : List Sock
  root : String
  maxOutbound : Nat
  maxInbound : Nat

/-- 0.0.0.0, port 0: any port. -/
def anyPort : Sock := ⟨.v4 0 0 0 0, 0⟩

/-- `Config::default` (client/src/client.rs:115-130, p2p/src/fsm.rs:373-381, p2p/src/fsm/peermgr.rs:48-50); `home` is the variable `HOME`. -/
def Config.default (home : Option String) : Config := ⟨.mainnet, [.ipv4, .ipv6], [], [anyPort], home.getD "", 8, 16⟩

/-- `run` (node/src/lib.rs:18-46): the configuration. -/
def NodeOptions.config (o : NodeOptions) (home : Option String) : Config :=
  let d := Config.default home
  { d with network := o.network, connect := o.connect, domains := o.domains, listen := if o.listen.isEmpty then [anyPort] else o.listen, root := o.root.getD d.root,
           maxOutbound := if o.connect.isEmpty then d.maxOutbound else o.connect.length }

/-- `Options` (wallet/src/main.rs:12-39), without the log level; addresses of the chain and derivation paths are numbers. -/
structure WalletOptions where
  addresses : List Nat
  birth : Nat
  network : Network
  connect : List Sock
  wallet : String
  hdPath : Nat
  offline : Bool

/-- The arguments of `nakamoto_wallet::run` (wallet/src/lib.rs:29-36). -/
structure WalletArgs where
  wallet : String
  birth : Nat
  hdPath : Nat
  network : Network
  connect : List Sock
  offline : Bool
  deriving DecidableEq

/-- `main` (wallet/src/main.rs:57-64). -/
def WalletOptions.args (o : WalletOptions) : WalletArgs := ⟨o.wallet, o.birth, o.hdPath, o.network, o.connect, o.offline⟩

/-- `run` (wallet/src/lib.rs:37-42): the configuration. -/
def WalletArgs.config (a : WalletArgs) (home : Option String) : Config :=
  { Config.default home with network := a.network, connect := a.connect, listen := [] }

/-- The directory of the client's files (`load`, client/src/client.rs:257-259); `join` with a separator. -/
def Config.dir (c : Config) : List String := [c.root, ".nakamoto", c.network.asStr]

/-- `Service::new` (client/src/service.rs:31-57) and `StateMachine::new` (p2p/src/fsm.rs:467-534): the configuration of the peer manager.  The services the client offers and its name are the default, as
no option changes them; `dbg`: a debug build. -/
def Config.peer (c : Config) (dbg : Bool) : Peer.Config :=
  { protocolVersion := 70016, agents := [], services := 0, persistent := c.connect, required := 1, preferred := 1 ||| 64, target := c.maxOutbound, maxInbound := c.maxInbound,
    retryMin := 1000, retryMax := 3600000, agent := "/nakamoto:0.3.0/", domains := c.domains, dbg := dbg }

/-! ## Lemmas -/

variable {cfg : Peer.Config} {tr : List Ip}

theorem session_connected {a : Sock} {h : List Op} {link : Link} {s : Option Peer.Seen} (g : Session cfg tr a h link s) : ∃ loc ht no, Op.connected a loc link ht no ∈ h := by
  induction g with
  | connected => exact ⟨_, _, _, List.mem_cons_self⟩
  | version _ _ ih => obtain ⟨l, x, y, hm⟩ := ih; exact ⟨l, x, y, List.mem_cons_of_mem _ hm⟩
  | wtxid _ ih => obtain ⟨l, x, y, hm⟩ := ih; exact ⟨l, x, y, List.mem_cons_of_mem _ hm⟩
  | verack _ ih => obtain ⟨l, x, y, hm⟩ := ih; exact ⟨l, x, y, List.mem_cons_of_mem _ hm⟩
  | other _ _ ih => obtain ⟨l, x, y, hm⟩ := ih; exact ⟨l, x, y, List.mem_cons_of_mem _ hm⟩

/-- With configured peers, and without commands of the user, only they are dialed. -/
theorem run_dialed {h : List Op} {m : Mgr} (r : Run cfg tr h m) (hu : ∀ a, .cmdConnect a ∉ h) (a : Sock) (ha : .connect a ∈ m.out) :
    domainOf a ∈ cfg.domains ∧ (cfg.persistent ≠ [] → a ∈ cfg.persistent) := by
  induction r with
  | start => simp [Mgr.new] at ha
  | @step h m m' op r lg e ih =>
    obtain ⟨l, hl⟩ := Peer.step_grows e
    rw [hl] at ha
    rcases List.mem_append.1 ha with h1 | h1
    · exact ih (fun b hb => hu b (List.mem_cons_of_mem _ hb)) h1
    · have := Peer.C115_dialed r lg e (a := a) (by rw [Peer.mem_added hl]; exact h1)
      refine ⟨this.1, fun hp => ?_⟩
      rcases this.2 with x | x | x
      · exact x
      · subst x; exact absurd List.mem_cons_self (hu a)
      · exact absurd x.1 hp

/-- Connections that the client opened were asked for. -/
theorem reach_asked {n : Net} (r : Net.Reach cfg tr n) : (∀ a ∈ n.dialing, .connect a ∈ n.m.out) ∧
    ∃ h, Run cfg tr h n.m ∧ ∀ a loc ht no, .connected a loc .outbound ht no ∈ h → .connect a ∈ n.m.out := by
  induction r with
  | start => exact ⟨by simp [Net.new], [], .start, by simp⟩
  | @step n n' r s ih =>
    obtain ⟨hd, h, hr, hh⟩ := ih
    have ho := Peer.step_out (Peer.run_inv hr) s
    have grow : ∀ {o : Out}, o ∈ n.m.out → o ∈ n'.m.out := fun {o} x => by rw [ho]; exact List.mem_append_left _ x
    have old : ∀ (op : Op), (∀ a loc ht no, op ≠ .connected a loc .outbound ht no) → ∀ a loc ht no, Op.connected a loc .outbound ht no ∈ op :: h → .connect a ∈ n'.m.out := by
      intro op hop a loc ht no hm
      rcases List.mem_cons.1 hm with x | x
      · exact absurd x.symm (hop a loc ht no)
      · exact grow (hh a loc ht no x)
    have drop : ∀ b, ∀ a ∈ n.dialing.filter (· ≠ b), .connect a ∈ n'.m.out := fun b a ha => grow (hd a (List.mem_filter.1 ha).1)
    cases s with
    | @input m' op i t e =>
      have lg : op.Legal := by cases op <;> trivial
      exact ⟨fun a ha => grow (hd a ha), _, .step hr lg e, old op (by rintro a loc ht no rfl; simp [Op.isInput] at i)⟩
    | @timer m' ord src p q lg e => exact ⟨fun a ha => grow (hd a ha), _, Run.step (op := .timer ord src) hr lg e, old _ (by simp)⟩
    | @accept m' a loc height nonce p f u e => exact ⟨fun a ha => grow (hd a ha), _, Run.step (op := .connected a loc .inbound height nonce) hr trivial e, old _ (by simp)⟩
    | @writable m' b loc height nonce p d e =>
      refine ⟨drop b, _, Run.step (op := .connected b loc .outbound height nonce) hr trivial e, fun a loc' ht no hm => ?_⟩
      rcases List.mem_cons.1 hm with x | x
      · simp only [Op.connected.injEq] at x; rw [x.1]; exact grow (hd b d)
      · exact grow (hh a _ _ _ x)
    | @closed m' b d src r' e => exact ⟨drop b, _, Run.step (op := .disconnected b d src) hr trivial e, old _ (by simp)⟩
    | process p => exact ⟨hd, h, hr, hh⟩
    | poll p q => exact ⟨hd, h, hr, hh⟩
    | @dialed m' b q p hq e =>
      refine ⟨fun a ha => ?_, _, Run.step (op := .attempted b) hr trivial e, old _ (by simp)⟩
      rcases (Peer.mem_sadd _ _ _).1 ha with x | x
      · subst x
        have : Out.connect a ∈ n.m.out.drop n.pos := by
          have : n.queue = n.m.out.drop n.pos := rfl
          rw [← this, hq]; exact List.mem_cons_self
        exact grow (List.mem_of_mem_drop this)
      · exact grow (hd a x)
    | @failed m' b q src p hq e => exact ⟨fun a ha => grow (hd a ha), _, Run.step (op := .disconnected b .dial src) hr trivial e, old _ (by simp)⟩
    | @disconnect m' b rs q src p hq h' e => exact ⟨drop b, _, Run.step (op := .disconnected b (.machine rs) src) hr trivial e, old _ (by simp)⟩
    | ignored p hq h' => exact ⟨hd, h, hr, hh⟩
    | other p hq ho => exact ⟨hd, h, hr, hh⟩

theorem versioned_sub : ∀ (l : AMap Sock Peer.Peer), (∀ p ∈ l, ∀ c i, p.2 = .connected c (some i) → c.addr = p.1) →
    ((l.filterMap fun p => p.2.versioned).map (·.2.addr)).Sublist l.keys
  | [], _ => .slnil
  | p :: l, hl => by
    have ih := versioned_sub l fun q hq => hl q (List.mem_cons_of_mem _ hq)
    have h0 := hl p List.mem_cons_self
    obtain ⟨k, v⟩ := p
    cases hv : v.versioned with
    | none => simp only [List.filterMap_cons, hv, AMap.keys, List.map_cons]; exact ih.cons _
    | some x =>
      obtain ⟨i, c⟩ := x
      have hc : v = .connected c (some i) := by
        cases v with
        | connected c' i' => cases i' with
          | none => simp [Peer.Peer.versioned] at hv
          | some i' => simp only [Peer.Peer.versioned, Option.some.injEq, Prod.mk.injEq] at hv; rw [hv.1, hv.2]
        | _ => simp [Peer.Peer.versioned] at hv
      simp only [List.filterMap_cons, hv, AMap.keys, List.map_cons]
      have : c.addr = k := h0 c i hc
      rw [this]
      exact ih.cons_cons _

/-- There is room for a configured peer that has not said who it is. -/
theorem room {n : Net} (r : Net.Reach cfg tr n) (hc : ∀ a, .connect a ∈ n.m.out → a ∈ cfg.persistent) {a : Sock} {c : Peer.Conn} (ha : n.m.peers.get a = some (.connected c none))
    (hl : c.link = .outbound) : (n.m.negotiated .outbound).length < cfg.persistent.length := by
  obtain ⟨-, h, hr, hh⟩ := reach_asked r
  have hi := Peer.run_inv hr
  have hnd := (Peer.run_list hr).nodup
  have addr : ∀ p ∈ n.m.peers, ∀ c i, p.2 = .connected c (some i) → c.addr = p.1 := by
    rintro ⟨k, v⟩ hp c i rfl
    exact (hi.sess k c (some i) (AMap.get_of_mem hnd hp)).1
  have asked : ∀ b c i, n.m.peers.get b = some (.connected c i) → c.link = .outbound → b ∈ cfg.persistent := by
    intro b c i hb hlb
    obtain ⟨-, s, g, -⟩ := hi.sess b c i hb
    obtain ⟨loc, ht, no, hm⟩ := session_connected g
    rw [hlb] at hm
    exact hc b (hh b loc ht no hm)
  have hsub := versioned_sub n.m.peers addr
  have key : ∀ p ∈ n.m.negotiated .outbound, n.m.peers.get p.2.addr = some (.connected p.2 (some p.1)) ∧ p.2.link = .outbound := by
    rintro ⟨i, c⟩ hp
    obtain ⟨hp, hf⟩ := List.mem_filter.1 hp
    simp only [Bool.and_eq_true, beq_iff_eq] at hf
    obtain ⟨⟨k, v⟩, hm, hv⟩ := List.mem_filterMap.1 hp
    have hv' : v = .connected c (some i) := by
      cases v with
      | connected c' i' => cases i' with
        | none => simp [Peer.Peer.versioned] at hv
        | some i' => simp only [Peer.Peer.versioned, Option.some.injEq, Prod.mk.injEq] at hv; rw [hv.1, hv.2]
      | _ => simp [Peer.Peer.versioned] at hv
    subst hv'
    have := addr _ hm c i rfl
    simp only at this
    exact ⟨by rw [this]; exact AMap.get_of_mem hnd hm, hf.2⟩
  have nd : ((n.m.negotiated .outbound).map (·.2.addr)).Nodup := by
    have : ((n.m.negotiated .outbound).map (·.2.addr)).Sublist n.m.peers.keys := ((List.filter_sublist).map _).trans hsub
    exact this.nodup hnd
  have hna : a ∉ (n.m.negotiated .outbound).map (·.2.addr) := by
    intro hm
    obtain ⟨p, hp, rfl⟩ := List.mem_map.1 hm
    have := (key p hp).1
    rw [ha] at this
    simp at this
  have hsubset : a :: (n.m.negotiated .outbound).map (·.2.addr) ⊆ cfg.persistent := by
    intro b hb
    rcases List.mem_cons.1 hb with rfl | hb
    · exact asked b c none ha hl
    · obtain ⟨p, hp, rfl⟩ := List.mem_map.1 hb
      exact asked _ _ _ (key p hp).1 (key p hp).2
  have := (List.subperm_of_subset (List.nodup_cons.2 ⟨hna, nd⟩) hsubset).length_le
  simp only [List.length_cons, List.length_map] at this
  omega

/-- What the loop at the start asks for. -/
theorem connectAll_asks : ∀ (l : List Sock) (m : Mgr), (∀ a, m.isConnected a = true ∨ m.isConnecting a = true → .connect a ∈ m.out) → ∀ a, (a ∈ l ∧ domainOf a ∈ cfg.domains ∨ .connect a ∈ m.out) →
    .connect a ∈ (m.connectAll cfg l).out
  | [], m, _, a, ha => by
    rcases ha with ha | ha
    · exact absurd ha.1 (by simp)
    · exact ha
  | b :: l, m, hm, a, ha => by
    simp only [Mgr.connectAll]
    unfold Mgr.connect
    by_cases h1 : (m.isConnected b || m.isConnecting b) = true
    · simp only [h1, if_true]
      refine connectAll_asks l m hm a ?_
      rcases ha with ⟨ha, hd⟩ | ha
      · rcases List.mem_cons.1 ha with rfl | ha
        · exact .inr (hm a (by simpa using h1))
        · exact .inl ⟨ha, hd⟩
      · exact .inr ha
    · simp only [h1, if_false, Bool.false_eq_true]
      by_cases h2 : domainOf b ∈ cfg.domains
      · simp only [h2, not_true_eq_false, if_false, if_true]
        refine connectAll_asks l (m.dial b) (fun x hx => ?_) a ?_
        · by_cases hb : x = b
          · subst hb; simp [Mgr.dial]
          · have : m.isConnected x = true ∨ m.isConnecting x = true := by
              simpa [Mgr.dial, Mgr.isConnected, Mgr.isConnecting, AMap.get_insert, Ne.symm hb] using hx
            simp [Mgr.dial, hm x this]
        · rcases ha with ⟨ha, hd⟩ | ha
          · rcases List.mem_cons.1 ha with rfl | ha
            · exact .inr (by simp [Mgr.dial])
            · exact .inl ⟨ha, hd⟩
          · exact .inr (by simp [Mgr.dial, ha])
      · simp only [h2, not_false_eq_true, if_true, Bool.false_eq_true, if_false]
        refine connectAll_asks l (m.emit [.evError b]) (fun x hx => ?_) a ?_
        · have := hm x hx
          simp [Mgr.emit, this]
        · rcases ha with ⟨ha, hd⟩ | ha
          · rcases List.mem_cons.1 ha with rfl | ha
            · exact absurd hd h2
            · exact .inl ⟨ha, hd⟩
          · exact .inr (by simp [Mgr.emit, ha])

theorem starts (hp : cfg.persistent ≠ []) {now : Nat} {m m' : Mgr} {src : List Peer.Cand} (h0 : (Mgr.new []).step cfg (.tick now) = .ok m) (h1 : m.step cfg (.init src) = .ok m') {a : Sock}
    (ha : a ∈ cfg.persistent) (hd : domainOf a ∈ cfg.domains) : .connect a ∈ m'.out := by
  cases h0
  have h1 : Mgr.initialize _ cfg src = .ok m' := h1
  unfold Mgr.initialize at h1
  have := Peer.maintain_persistent_id hp h1
  subst this
  have hk := connectAll_asks (cfg := cfg) cfg.persistent { Mgr.new [] with now := now } (by simp [Mgr.new, Mgr.isConnected, Mgr.isConnecting]) a (.inl ⟨ha, hd⟩)
  simp [Mgr.emit, hk]

/-! ## C156 -/

/-- **C156.** The node with `--connect` dials only the peers given, and with `-4` or `-6` only addresses of that kind (both, or none of the two: any address). -/
theorem C156_node_dials (o : NodeOptions) (home : Option String) (dbg : Bool) {h : List Op} {m : Mgr} (r : Run ((o.config home).peer dbg) [] h m) (hu : ∀ a, .cmdConnect a ∉ h) {a : Sock}
    (ha : .connect a ∈ m.out) : (o.connect ≠ [] → a ∈ o.connect) ∧ (o.ipv4 = true → o.ipv6 = false → domainOf a = .ipv4) ∧ (o.ipv6 = true → o.ipv4 = false → domainOf a = .ipv6) := by
  obtain ⟨hd, hp⟩ := run_dialed r hu a ha
  refine ⟨hp, fun h4 h6 => ?_, fun h6 h4 => ?_⟩
  · simpa [Config.peer, NodeOptions.config, NodeOptions.domains, h4, h6] using hd
  · simpa [Config.peer, NodeOptions.config, NodeOptions.domains, h4, h6] using hd

/-- **C156.** The same for the wallet. -/
theorem C156_wallet_dials (o : WalletOptions) (home : Option String) (dbg : Bool) {h : List Op} {m : Mgr} (r : Run ((o.args.config home).peer dbg) [] h m) (hu : ∀ a, .cmdConnect a ∉ h) {a : Sock}
    (ha : .connect a ∈ m.out) (hc : o.connect ≠ []) : a ∈ o.connect := (run_dialed r hu a ha).2 hc

/-- **C156.** At the start the node asks for a connection with every peer given whose kind of address is allowed. -/
theorem C156_node_starts (o : NodeOptions) (home : Option String) (dbg : Bool) (hc : o.connect ≠ []) {now : Nat} {m m' : Mgr} {src : List Peer.Cand}
    (h0 : (Mgr.new []).step ((o.config home).peer dbg) (.tick now) = .ok m) (h1 : m.step ((o.config home).peer dbg) (.init src) = .ok m') {a : Sock} (ha : a ∈ o.connect)
    (hd : domainOf a = .ipv4 ∧ (o.ipv4 = true ∨ o.ipv6 = false) ∨ domainOf a = .ipv6 ∧ (o.ipv6 = true ∨ o.ipv4 = false)) : .connect a ∈ m'.out := by
  exact starts hc h0 h1 ha (by
    rcases hd with ⟨h, h'⟩ | ⟨h, h'⟩ <;> rw [h] <;> simp only [Config.peer, NodeOptions.config, NodeOptions.domains] <;> cases h4 : o.ipv4 <;> cases h6 : o.ipv6 <;> simp_all)

/-- **C156.** The wallet asks for a connection with every peer given. -/
theorem C156_wallet_starts (o : WalletOptions) (home : Option String) (dbg : Bool) (hc : o.connect ≠ []) {now : Nat} {m m' : Mgr} {src : List Peer.Cand}
    (h0 : (Mgr.new []).step ((o.args.config home).peer dbg) (.tick now) = .ok m) (h1 : m.step ((o.args.config home).peer dbg) (.init src) = .ok m') {a : Sock} (ha : a ∈ o.connect) : .connect a ∈ m'.out :=
  starts hc h0 h1 ha (by
    simp only [Config.peer, WalletArgs.config, Config.default]
    cases h : domainOf a <;> simp)

/-- Peers that were given are accepted, if there is room for all of them. -/
theorem accepts {n : Net} (hd : cfg.dbg = false) (hr : Net.Reach cfg tr n) (hp : cfg.persistent ≠ []) (ht : cfg.persistent.length ≤ cfg.target) {h : List Op} (r : Run cfg tr h n.m)
    (hu : ∀ a, .cmdConnect a ∉ h) {a : Sock} {c : Peer.Conn} (ha : n.m.peers.get a = some (.connected c none)) (hl : c.link = .outbound) {v : Version} {height : Nat} {hook : Bool}
    (hv : Valid cfg tr h a .outbound v height hook) (hn : ∀ b c i, n.m.peers.get b = some (.connected c (some i)) → c.link = .outbound → i.nonce ≠ v.nonce) :
    ∃ m', n.m.step cfg (.message a true height hook (.version v)) = .ok m' ∧ m'.isConnected a = true ∧ .verack a ∈ added n.m m' ∧ ∀ b why, .disconnect b why ∉ added n.m m' := by
  obtain ⟨-, s, g, -⟩ := (Peer.run_inv r).sess a c none ha
  rw [hl] at g
  have hroom := room hr (fun a ha => (run_dialed r hu a ha).2 hp) ha hl
  obtain ⟨m', h1, h2, h3, h4, -⟩ := Peer.C73_accepted r ((Peer.isConnected_iff n.m a).2 ⟨c, none, ha⟩) g hv hn (.inr (.inr (by omega))) (by simp [hd])
  exact ⟨m', h1, h2, h3, h4⟩

/-- **C156.** The node refuses none of the peers given with `--connect` for having too many connections: whatever happened, when a peer that it dialed sends its first version message, and this is
valid and its number is not that of another peer, it is accepted, whatever services it has.  Partial: the property says this of both programs, and is false of the wallet (`C156_wallet_refuses`). -/
theorem C156_accepts_partial (o : NodeOptions) (home : Option String) {n : Net} (hr : Net.Reach ((o.config home).peer false) [] n) (hne : o.connect ≠ [])
    {h : List Op} (r : Run ((o.config home).peer false) [] h n.m) (hu : ∀ a, .cmdConnect a ∉ h) {a : Sock} {c : Peer.Conn}
    (ha : n.m.peers.get a = some (.connected c none)) (hl : c.link = .outbound) {v : Version} {height : Nat} {hook : Bool}
    (hv : Valid ((o.config home).peer false) [] h a .outbound v height hook)
    (hn : ∀ b c i, n.m.peers.get b = some (.connected c (some i)) → c.link = .outbound → i.nonce ≠ v.nonce) :
    ∃ m', n.m.step ((o.config home).peer false) (.message a true height hook (.version v)) = .ok m' ∧ m'.isConnected a = true ∧ .verack a ∈ added n.m m' ∧
      ∀ b why, .disconnect b why ∉ added n.m m' := by
  refine accepts rfl hr hne (Nat.le_of_eq ?_) r hu ha hl hv hn
  cases hx : o.connect with
  | nil => exact absurd hx hne
  | cons x l => simp [Config.peer, NodeOptions.config, hx]

/-- **C156.** What holds of the wallet: the same, if at most eight peers are given. -/
theorem C156_wallet_accepts_partial (o : WalletOptions) (home : Option String) {n : Net} (hr : Net.Reach ((o.args.config home).peer false) [] n) (hne : o.connect ≠ []) (h8 : o.connect.length ≤ 8)
    {h : List Op} (r : Run ((o.args.config home).peer false) [] h n.m) (hu : ∀ a, .cmdConnect a ∉ h) {a : Sock} {c : Peer.Conn}
    (ha : n.m.peers.get a = some (.connected c none)) (hl : c.link = .outbound) {v : Version} {height : Nat} {hook : Bool}
    (hv : Valid ((o.args.config home).peer false) [] h a .outbound v height hook)
    (hn : ∀ b c i, n.m.peers.get b = some (.connected c (some i)) → c.link = .outbound → i.nonce ≠ v.nonce) :
    ∃ m', n.m.step ((o.args.config home).peer false) (.message a true height hook (.version v)) = .ok m' ∧ m'.isConnected a = true ∧ .verack a ∈ added n.m m' ∧
      ∀ b why, .disconnect b why ∉ added n.m m' := accepts rfl hr hne h8 r hu ha hl hv hn

/-- **C156.** The network is the one asked for; the main one if none is.  Of several the first in the order testnet, signet, regtest is taken. -/
theorem C156_network (o : NodeOptions) (home : Option String) :
    (o.testnet = true → (o.config home).network = .testnet) ∧ (o.testnet = false → o.signet = true → (o.config home).network = .signet) ∧
    (o.testnet = false → o.signet = false → o.regtest = true → (o.config home).network = .regtest) ∧
    (o.testnet = false → o.signet = false → o.regtest = false → (o.config home).network = .mainnet) := by
  refine ⟨fun h => ?_, fun h h' => ?_, fun h h' h'' => ?_, fun h h' h'' => ?_⟩ <;> simp [NodeOptions.config, NodeOptions.network, *]

/-- **C156.** Clients for different networks never share a directory. -/
theorem C156_separate (c c' : Config) (h : c.dir = c'.dir) : c.network = c'.network := by
  simp only [Config.dir, List.cons.injEq, and_true, true_and] at h
  have := h.2
  cases hc : c.network <;> cases hc' : c'.network <;> simp_all [Network.asStr]

/-! ## Examples and counterexamples -/

namespace Scenarios

open Verif.Peer.Scenario (go after run legal_of loc ver)

def p (i : Nat) : Sock := ⟨.v4 8 8 8 i, 8333⟩

def nine : List Sock := [p 1, p 2, p 3, p 4, p 5, p 6, p 7, p 8, p 9]

/-- A version message of a node without compact filters. -/
def plain (nonce : Nat) : Version := { ver nonce 120 with services := 1 }

/-- Nine peers are given; all connect, and all but one finish the handshake. -/
def meet : List Op :=
  [.tick 1000000, .init []] ++ nine.map .attempted ++ nine.map (fun a => .connected a loc .outbound 100 7) ++
    [1, 2, 3, 4, 5, 6, 7, 8].map (fun i => .message (p i) true 100 true (.version (plain (20 + i)))) ++ [1, 2, 3, 4, 5, 6, 7, 8].map (fun i => .message (p i) true 100 true .verack)

def last : Op := .message (p 9) true 100 true (.version (plain 29))

def wallet : WalletOptions := ⟨[7], 0, .mainnet, nine, "wallet.db", 84, false⟩

def node : NodeOptions := ⟨nine, [], false, true, false, true, false, some "/data"⟩

/-- C156 is false of the wallet: of nine peers given, the ninth is refused for there being too many connections. -/
theorem C156_wallet_refuses : ∃ h m, Run ((wallet.args.config none).peer false) [] h m ∧ (∀ a, .cmdConnect a ∉ h) ∧ p 9 ∈ wallet.connect ∧
    .disconnect (p 9) .connectionLimit ∈ m.out := by
  refine ⟨_, _, run (ops := meet ++ [last]) (legal_of (by decide)) (by decide), ?_, by decide, by decide⟩
  intro a
  simp [meet, last, nine]

/-- C156 is false of the wallet: it has an option for addresses to watch, and what it does is the same whichever are given. -/
theorem C156_addresses_ignored (o : WalletOptions) (l : List Nat) : ({ o with addresses := l } : WalletOptions).args = o.args := rfl

/-- The node accepts it. -/
example : ((after ((node.config none).peer false) (meet ++ [last])).negotiated .outbound).length = 8 ∧ (after ((node.config none).peer false) (meet ++ [last])).isConnected (p 9) = true ∧
    .verack (p 9) ∈ (after ((node.config none).peer false) (meet ++ [last])).out := by decide

/-- The hypotheses of `C156_node_dials` and `C156_node_starts` are met. -/
example : Run ((node.config none).peer false) [] meet.reverse (after ((node.config none).peer false) meet) ∧ .connect (p 9) ∈ (after ((node.config none).peer false) meet).out ∧
    node.ipv4 = true ∧ node.ipv6 = false := ⟨run (legal_of (by decide)) (by decide), by decide, rfl, rfl⟩

/-- One peer is given; the connection is established. -/
def one : NodeOptions := ⟨[p 1], [], false, false, true, false, false, none⟩

def opened : List Peer.NetScenario.Act := [.input (.tick 1000000), .input (.init []), .process, .out, .out, .out, .poll, .writable (p 1)]

def opened' : List Op := [.tick 1000000, .init [], .attempted (p 1), .connected (p 1) loc .outbound 0 0]

/-- The hypotheses of `C156_accepts_partial` are met. -/
example : ∃ n h c, Net.Reach ((one.config none).peer false) [] n ∧ Run ((one.config none).peer false) [] h n.m ∧ (∀ a, .cmdConnect a ∉ h) ∧ n.m.peers.get (p 1) = some (.connected c none) ∧
    c.link = .outbound ∧ Valid ((one.config none).peer false) [] h (p 1) .outbound (plain 21) 100 true := by
  have hm : (Peer.NetScenario.after ((one.config none).peer false) false opened).m = after ((one.config none).peer false) opened' := rfl
  refine ⟨_, opened'.reverse, ⟨p 1, loc, .outbound, 1000000⟩, Peer.NetScenario.reach_after (l := opened) (by decide +kernel), by rw [hm]; exact run (legal_of (by decide)) (by decide), ?_, by rw [hm]; rfl, rfl,
    by decide, rfl, fun _ _ => by decide, fun _ _ => by decide⟩
  intro a
  simp [opened']

/-- The hypotheses of `C156_wallet_accepts_partial` are met: a wallet with one peer. -/
def small : WalletOptions := { wallet with connect := [p 1] }

example : ∃ n h c, Net.Reach ((small.args.config none).peer false) [] n ∧ Run ((small.args.config none).peer false) [] h n.m ∧ (∀ a, .cmdConnect a ∉ h) ∧ n.m.peers.get (p 1) = some (.connected c none) ∧
    c.link = .outbound ∧ Valid ((small.args.config none).peer false) [] h (p 1) .outbound (plain 21) 100 true := by
  have hm : (Peer.NetScenario.after ((small.args.config none).peer false) false opened).m = after ((small.args.config none).peer false) opened' := rfl
  refine ⟨_, opened'.reverse, ⟨p 1, loc, .outbound, 1000000⟩, Peer.NetScenario.reach_after (l := opened) (by decide +kernel), by rw [hm]; exact run (legal_of (by decide)) (by decide), ?_, by rw [hm]; rfl,
    rfl, by decide, rfl, fun _ _ => by decide, fun _ _ => by decide⟩
  intro a
  simp [opened']

/-- The directory of the node of the example. -/
example : (node.config none).dir = ["/data", ".nakamoto", "signet"] := rfl

end Scenarios

end Verif.Start
