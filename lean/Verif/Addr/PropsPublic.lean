import Verif.Addr.Scenarios

/-!
# C42, C131: which addresses are public, and how many of one network are kept
-/

set_option autoImplicit false

namespace Verif.Addr

/-! ## Specification -/

/-- A version 4 address as a number. -/
def v4num (a b c d : Nat) : Nat := a * 2 ^ 24 + b * 2 ^ 16 + c * 2 ^ 8 + d

/-- The address belongs to the network: their first `len` bits are the same. -/
def InNet (n : Nat) (net : (Nat × Nat × Nat × Nat) × Nat) : Prop := n / 2 ^ (32 - net.2) = v4num net.1.1 net.1.2.1 net.1.2.2.1 net.1.2.2.2 / 2 ^ (32 - net.2)

/-- The networks that are not public, as an administrator would write them: this network, private use, loopback, link-local, documentation, limited broadcast. -/
def reserved : List ((Nat × Nat × Nat × Nat) × Nat) :=
  [((0, 0, 0, 0), 8), ((10, 0, 0, 0), 8), ((172, 16, 0, 0), 12), ((192, 168, 0, 0), 16), ((127, 0, 0, 0), 8), ((169, 254, 0, 0), 16),
   ((192, 0, 2, 0), 24), ((198, 51, 100, 0), 24), ((203, 0, 113, 0), 24), ((255, 255, 255, 255), 32)]

/-- The two addresses are of the same network: of the same operator, as far as the address tells (first 16 bits of a version 4, first 32 bits of a version 6 address). -/
def SameNet : Ip → Ip → Prop
  | .v4 a b _ _, .v4 a' b' _ _ => a = a' ∧ b = b'
  | .v6 s t _, .v6 s' t' _ => s = s' ∧ t = t'
  | _, _ => False

/-! ## C42 -/

/-- **C42.** The addresses that count as routable and not local are exactly those outside the reserved networks. -/
theorem C42_public {a b c d : Nat} (ha : a < 256) (hb : b < 256) (hc : c < 256) (hd : d < 256) :
    (isRoutable (.v4 a b c d) = true ∧ isLocal (.v4 a b c d) = false) ↔ ∀ net ∈ reserved, ¬ InNet (v4num a b c d) net := by
  have e : ∀ x y z w k : Nat, InNet (v4num a b c d) ((x, y, z, w), k) ↔ v4num a b c d / 2 ^ (32 - k) = v4num x y z w / 2 ^ (32 - k) := fun _ _ _ _ _ => Iff.rfl
  have h1 : InNet (v4num a b c d) ((0, 0, 0, 0), 8) ↔ a = 0 := by rw [e]; unfold v4num; omega
  have h2 : InNet (v4num a b c d) ((10, 0, 0, 0), 8) ↔ a = 10 := by rw [e]; unfold v4num; omega
  have h3 : InNet (v4num a b c d) ((172, 16, 0, 0), 12) ↔ a = 172 ∧ 16 ≤ b ∧ b ≤ 31 := by rw [e]; unfold v4num; omega
  have h4 : InNet (v4num a b c d) ((192, 168, 0, 0), 16) ↔ a = 192 ∧ b = 168 := by rw [e]; unfold v4num; omega
  have h5 : InNet (v4num a b c d) ((127, 0, 0, 0), 8) ↔ a = 127 := by rw [e]; unfold v4num; omega
  have h6 : InNet (v4num a b c d) ((169, 254, 0, 0), 16) ↔ a = 169 ∧ b = 254 := by rw [e]; unfold v4num; omega
  have h7 : InNet (v4num a b c d) ((192, 0, 2, 0), 24) ↔ a = 192 ∧ b = 0 ∧ c = 2 := by rw [e]; unfold v4num; omega
  have h8 : InNet (v4num a b c d) ((198, 51, 100, 0), 24) ↔ a = 198 ∧ b = 51 ∧ c = 100 := by rw [e]; unfold v4num; omega
  have h9 : InNet (v4num a b c d) ((203, 0, 113, 0), 24) ↔ a = 203 ∧ b = 0 ∧ c = 113 := by rw [e]; unfold v4num; omega
  have h10 : InNet (v4num a b c d) ((255, 255, 255, 255), 32) ↔ a = 255 ∧ b = 255 ∧ c = 255 ∧ d = 255 := by rw [e]; unfold v4num; omega
  simp only [reserved, List.forall_mem_cons, List.not_mem_nil, false_implies, implies_true, and_true, h1, h2, h3, h4, h5, h6, h7, h8, h9, h10]
  have p1 : isPrivate a b = false ↔ a ≠ 10 ∧ ¬ (a = 172 ∧ 16 ≤ b ∧ b ≤ 31) ∧ ¬ (a = 192 ∧ b = 168) := by
    rw [← Bool.not_eq_true]; simp [isPrivate]; omega
  have p2 : isLoopback a = false ↔ a ≠ 127 := by simp [isLoopback]
  have p3 : isLinkLocal a b = false ↔ ¬ (a = 169 ∧ b = 254) := by simp [isLinkLocal]
  have p4 : isBroadcast a b c d = false ↔ ¬ (a = 255 ∧ b = 255 ∧ c = 255 ∧ d = 255) := by
    rw [← Bool.not_eq_true]; simp only [isBroadcast, Bool.and_eq_true, beq_iff_eq, and_assoc]
  have p5 : isDocumentation a b c = false ↔ ¬ (a = 192 ∧ b = 0 ∧ c = 2) ∧ ¬ (a = 198 ∧ b = 51 ∧ c = 100) ∧ ¬ (a = 203 ∧ b = 0 ∧ c = 113) := by
    rw [← Bool.not_eq_true]; simp only [isDocumentation, Bool.or_eq_true, Bool.and_eq_true, beq_iff_eq, and_assoc, not_or]
  have p6 : (a == 0 && b == 0 && c == 0 && d == 0) = false ↔ ¬ (a = 0 ∧ b = 0 ∧ c = 0 ∧ d = 0) := by
    rw [← Bool.not_eq_true]; simp only [Bool.and_eq_true, beq_iff_eq, and_assoc]
  by_cases hx : ((a == 192 && b == 0 && c == 0 && d == 9) || (a == 192 && b == 0 && c == 0 && d == 10)) = true
  · have : a = 192 ∧ b = 0 ∧ c = 0 := by
      simp only [Bool.or_eq_true, Bool.and_eq_true, beq_iff_eq] at hx
      omega
    simp only [isRoutable, isLocal, if_pos hx]
    obtain ⟨rfl, rfl, rfl⟩ := this
    simp [isPrivate, isLoopback, isLinkLocal]
  · simp only [isRoutable, isLocal, if_neg hx, Bool.and_eq_true, Bool.not_eq_true', Bool.or_eq_false_iff, p1, p2, p3, p4, p5, p6, bne_iff_ne]
    constructor
    · rintro ⟨⟨⟨⟨⟨⟨⟨q1, q2, q3⟩, q4⟩, q5⟩, q6⟩, q7, q8, q9⟩, q10⟩, -⟩
      exact ⟨q10, q1, q2, q3, q4, q5, q7, q8, q9, q6⟩
    · rintro ⟨q10, q1, q2, q3, q4, q5, q7, q8, q9, q6⟩
      exact ⟨⟨⟨⟨⟨⟨⟨q1, q2, q3⟩, q4⟩, q5⟩, q6⟩, q7, q8, q9⟩, q10⟩, ⟨⟨⟨q1, q2, q3⟩, q4⟩, q5⟩, fun h => q10 h.1⟩

/-- **C42.** All version 6 addresses count as public. -/
theorem C42_v6 (s t rest : Nat) : isRoutable (.v6 s t rest) = true ∧ isLocal (.v6 s t rest) = false := ⟨rfl, rfl⟩

/-- **C42, C41, C115.** The domain of an address is its version. -/
theorem C42_domain (a : Sock) (d : Domain) : domainOf a = d ↔ match d with
    | .ipv4 => ∃ w x y z, a.ip = .v4 w x y z
    | .ipv6 => ∃ s t r, a.ip = .v6 s t r := by
  obtain ⟨ip, port⟩ := a
  cases ip <;> cases d <;> simp [domainOf]

/-! ## C131 -/

theorem key_sameNet {x y : Ip} (h : SameNet x y) : addrKey x = addrKey y := by
  cases x <;> cases y <;> simp_all [SameNet, addrKey]

theorem key_lt (x : Ip) : addrKey x < 255 := by
  cases x <;> exact Nat.mod_lt _ (by decide)

theorem length_by_key {α : Type} (f : α → Nat) (B : Nat) : ∀ (K : Nat) (l : List α), (∀ x ∈ l, f x < K) → (∀ k, (l.filter (fun x => f x == k)).length ≤ B) → l.length ≤ K * B
  | 0, l, h, _ => by
    cases l with
    | nil => exact Nat.zero_le _
    | cons x l => exact absurd (h x List.mem_cons_self) (Nat.not_lt_zero _)
  | K + 1, l, h, hb => by
    have h1 := length_by_key f B K (l.filter fun x => !(f x == K)) (fun x hx => by
      obtain ⟨hm, hk⟩ := List.mem_filter.1 hx
      have := h x hm
      simp at hk
      omega) (fun k => by
      refine Nat.le_trans ?_ (hb k)
      rw [List.filter_filter, ← List.countP_eq_length_filter, ← List.countP_eq_length_filter]
      exact List.countP_mono_left fun x _ hx => by simp_all)
    have h2 := hb K
    have h3 := List.length_eq_length_filter_add (l := l) (fun x => f x == K)
    rw [Nat.succ_mul]
    omega

theorem same_key_le {cfg : Config} {peers : AMap Ip Known} {l : List Entry} {m : Mgr} (r : Run cfg peers l m) (k : Nat) (ips : List Ip) (hn : ips.Nodup)
    (hk : ∀ x ∈ ips, (m.peers.get x).isSome) (hs : ∀ x ∈ ips, addrKey x = k) : ips.length ≤ 256 := by
  obtain ⟨h1, h2⟩ := C39_index r
  cases ips with
  | nil => exact Nat.zero_le _
  | cons y ips =>
    obtain ⟨range, hr, -⟩ := h2 y (hk y List.mem_cons_self)
    rw [hs y List.mem_cons_self] at hr
    refine Nat.le_trans (List.subperm_of_subset hn fun x hx => ?_).length_le (h1 _ _ hr).2.1
    obtain ⟨range', hr', hm⟩ := h2 x (hk x hx)
    rw [hs x hx, hr] at hr'
    cases hr'
    exact hm

/-- **C131.** Whatever addresses peers announce, the book has at most 256 addresses of the same network. -/
theorem C131_network {cfg : Config} {peers : AMap Ip Known} {l : List Entry} {m : Mgr} (r : Run cfg peers l m) (ips : List Ip) (hn : ips.Nodup)
    (hk : ∀ x ∈ ips, (m.peers.get x).isSome) (hs : ∀ x ∈ ips, ∀ y ∈ ips, SameNet x y) : ips.length ≤ 256 := by
  cases ips with
  | nil => exact Nat.zero_le _
  | cons y ips => exact same_key_le r (addrKey y) _ hn hk fun x hx => key_sameNet (hs x hx y List.mem_cons_self)

/-- **C131.** Whatever addresses peers announce, the book has at most 65280 addresses. -/
theorem C131_size {cfg : Config} {peers : AMap Ip Known} {l : List Entry} {m : Mgr} (r : Run cfg peers l m) (ips : List Ip) (hn : ips.Nodup)
    (hk : ∀ x ∈ ips, (m.peers.get x).isSome) : ips.length ≤ 65280 := by
  refine length_by_key addrKey 256 255 ips (fun x _ => key_lt x) fun k => ?_
  exact same_key_le r k _ (hn.filter _) (fun x hx => hk x (List.mem_of_mem_filter hx)) fun x hx => by simpa using (List.mem_filter.1 hx).2

/-- **C131.** An address that entered the book by a peer's message is public: a version 4 address is outside the reserved networks. -/
theorem C131_public {cfg : Config} {peers : AMap Ip Known} {l : List Entry} {m m' : Mgr} (r : Run cfg peers l m) (e : Env) (hf : e.Fair) (now : Nat) (b : Sock) (msgs : List (Nat × NetAddr))
    {res : Option (NetAddr × Source)} (h : m.step cfg (.message e now b (.addr msgs)) = .ok (res, m')) {w x y z : Nat} (hw : w < 256) (hx : x < 256) (hy : y < 256) (hz : z < 256)
    (hnew : m.peers.get (.v4 w x y z) = none) (hin : (m'.peers.get (.v4 w x y z)).isSome) : .ipv4 ∈ cfg.domains ∧ ∀ net ∈ reserved, ¬ InNet (v4num w x y z) net := by
  obtain ⟨ka, hka⟩ := Option.isSome_iff_exists.1 hin
  rcases C42_accepted r e hf now b msgs h _ _ hka with h1 | ⟨-, ka0, h1, -⟩ | ⟨-, time, t, a, s, -, -, h1, h2, -⟩
  · rw [hnew] at h1; cases h1
  · rw [hnew] at h1; cases h1
  · have hd : domainOf s = .ipv4 := (C42_domain s .ipv4).2 ⟨w, x, y, z, h2⟩
    refine ⟨hd ▸ h1.domain, (C42_public hw hx hy hz).1 ?_⟩
    rw [← h2]
    exact ⟨h1.routable, h1.notLocal⟩

namespace Scenario

/-- The edges of some networks. -/
example : isRoutable (.v4 172 15 255 255) = true ∧ isRoutable (.v4 172 16 0 0) = false ∧ isRoutable (.v4 172 31 255 255) = false ∧ isRoutable (.v4 172 32 0 0) = true ∧
    ¬ InNet (v4num 172 15 255 255) ((172, 16, 0, 0), 12) ∧ InNet (v4num 172 31 255 255) ((172, 16, 0, 0), 12) := by
  refine ⟨by decide, by decide, by decide, by decide, ?_, ?_⟩ <;> simp [InNet, v4num]

/-- Two addresses of the book are of the same network, a third is not. -/
example : SameNet a.ip c.ip ∧ ¬ SameNet a.ip b.ip := by simp [SameNet, a, b, c]

/-- The theorems apply to the book of two addresses. -/
example : [a.ip, b.ip].length ≤ 65280 ∧ [a.ip].length ≤ 256 := by
  have r : Run cfg book [] (start book 600000) := ⟨_, starts book (by decide) _, .refl⟩
  refine ⟨C131_size r _ (by decide) (by decide), C131_network r _ (by decide) (by decide) (by simp [SameNet, a])⟩

/-- An address of a private network. -/
def inside : NetAddr := { services := 1, sock := some { ip := .v4 192 168 0 1, port := 8333 } }

/-- A peer announces a public address and one of a private network. -/
def told : Op := .message env 600000 a (.addr [(500, nc), (500, inside)])

example : ∃ res m', (start book 600000).step cfg told = .ok (res, m') ∧ m'.peers.get (.v4 192 168 0 1) = none ∧ (m'.peers.get c.ip).isSome ∧
    .ipv4 ∈ cfg.domains ∧ ∀ net ∈ reserved, ¬ InNet (v4num 8 8 4 4) net := by
  have r : Run cfg book [] (start book 600000) := ⟨_, starts book (by decide) _, .refl⟩
  obtain ⟨res, m', h⟩ := C39_no_panic r told fair
  have k : (match (start book 600000).step cfg told with
      | .ok (_, m') => m'.peers.get (.v4 192 168 0 1) == none && (m'.peers.get c.ip).isSome
      | _ => false) = true := by decide +kernel
  rw [h] at k
  simp only [Bool.and_eq_true, beq_iff_eq] at k
  exact ⟨res, m', h, k.1, k.2, C131_public r env fair 600000 a _ h (by decide) (by decide) (by decide) (by decide) (by decide) k.2⟩

end Scenario

end Verif.Addr
