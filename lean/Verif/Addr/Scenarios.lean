import Verif.Addr.Props

/-!
# The address manager: concrete histories

Examples that the hypotheses of the theorems are met, and counterexamples to the properties that do not hold in full.
-/

set_option autoImplicit false

namespace Verif.Addr.Scenario

/-- Take the first, keep the order. -/
def env : Env := { pick := fun _ => 0, ranges := id, ips := id }

theorem fair : env.Fair := ⟨fun _ h => h, fun _ => List.Perm.refl _, fun _ => List.Perm.refl _⟩

def cfg : Config := { requiredServices := 1, domains := [.ipv4, .ipv6] }

def a : Sock := { ip := .v4 8 8 8 8, port := 8333 }
def a' : Sock := { ip := .v4 8 8 8 8, port := 8334 }
def b : Sock := { ip := .v4 9 9 9 9, port := 8333 }
def c : Sock := { ip := .v4 8 8 4 4, port := 8333 }

def na : NetAddr := { services := 1, sock := some a }
def nb : NetAddr := { services := 1, sock := some b }
def nc : NetAddr := { services := 1, sock := some c }

/-- Two addresses in different ranges. -/
def book : AMap Ip Known := [(a.ip, { addr := na, source := .dns }), (b.ip, { addr := nb, source := .dns })]

theorem book_sound : Sound book := by
  intro ip ka h
  by_cases h1 : ip = a.ip
  · subst h1
    have : book.get a.ip = some { addr := na, source := .dns } := by decide
    rw [this] at h; injection h with h; subst h
    exact ⟨a, rfl, rfl, by decide, by decide⟩
  · by_cases h2 : ip = b.ip
    · subst h2
      have : book.get b.ip = some { addr := nb, source := .dns } := by decide
      rw [this] at h; injection h with h; subst h
      exact ⟨b, rfl, rfl, by decide, by decide⟩
    · exfalso
      simp [book, AMap.get_cons, Ne.symm h1, Ne.symm h2] at h

/-- Start at ten minutes with that book. -/
def start (peers : AMap Ip Known) (now : Nat) : Mgr :=
  match Mgr.new peers env with
  | .ok m => m.idle now true
  | _ => { peers := [], bans := [], ranges := [], connected := [], sources := [], locals := [], lastRequest := none,
           lastIdle := none, out := [] }

theorem starts (peers : AMap Ip Known) (hn : peers.keys.Nodup) (now : Nat) : Starts peers (start peers now) := by
  obtain ⟨m, h, hs⟩ := C39_start peers hn env fair now true
  unfold start
  rw [h]
  exact hs

/-- Run a list of calls. -/
def exec (m : Mgr) : List Op → List Entry × Mgr
  | [] => ([], m)
  | op :: ops =>
    match m.step cfg op with
    | .ok (res, m') => let r := exec m' ops; (r.1 ++ [(op, res)], r.2)
    | _ => ([], m)

/-- Executing fair calls gives a history. -/
theorem exec_steps : ∀ (ops : List Op) (m0 : Mgr) (l0 : List Entry) (m : Mgr), Inv m → m.lastIdle.isSome →
    Steps cfg m0 l0 m → (∀ op ∈ ops, op.Fair) → Steps cfg m0 ((exec m ops).1 ++ l0) (exec m ops).2
  | [], m0, l0, m, _, _, s, _ => s
  | op :: ops, m0, l0, m, hi, ht, s, hf => by
    obtain ⟨res, m', h, he⟩ := step_ok hi ht cfg op (hf op List.mem_cons_self)
    unfold exec
    rw [h]
    simp only [List.append_assoc, List.singleton_append]
    exact exec_steps ops m0 ((op, res) :: l0) m' he.inv he.idle (.step s (hf op List.mem_cons_self) h)
      (fun o ho => hf o (List.mem_cons_of_mem _ ho))

theorem run (peers : AMap Ip Known) (hn : peers.keys.Nodup) (now : Nat) (ops : List Op) (hf : ∀ op ∈ ops, op.Fair) :
    Run cfg peers (exec (start peers now) ops).1 (exec (start peers now) ops).2 := by
  have hs := starts peers hn now
  refine ⟨_, hs, ?_⟩
  have := exec_steps ops (start peers now) [] (start peers now) (starts_inv hs).1 (starts_inv hs).2.1 .refl hf
  rwa [List.append_nil] at this

def anyKnown : Known → Bool := fun _ => true

/-! ## C39, C40, C42: a normal history -/

def ops1 : List Op := [
  .sample env anyKnown, .attempted 600001 a, .connected a, .negotiated 600100 a 9 true none,
  .message env 600200 a (.addr [(500, nc), (0, nb)]), .disconnected a .permanent]

theorem fair1 : ∀ op ∈ ops1, op.Fair := by
  intro op h
  simp only [ops1, List.mem_cons, List.mem_nil_iff, or_false] at h
  rcases h with rfl | rfl | rfl | rfl | rfl | rfl <;> first | exact fair | trivial

-- a peer is sampled; another is connected, announces a third one, and is banned
example : (exec (start book 600000) ops1).1.length = 6 ∧
    ((exec (start book 600000) ops1).1.filterMap (·.2)) = [(nb, .dns)] ∧
    (exec (start book 600000) ops1).2.bans = [a.ip] ∧
    (exec (start book 600000) ops1).2.peers.keys = [c.ip, b.ip] ∧
    (exec (start book 600000) ops1).2.out.length = 2 := by decide

-- the hypotheses of `C40_banned_partial`
example : let r := exec (start book 600000) (ops1.take 5)
    linked a.ip r.1 = true ∧ isRoutable a.ip = true ∧ isLocal a.ip = false ∧ (r.2.peers.get c.ip).isSome ∧
      addrKey c.ip = addrKey a.ip ∧ Run cfg book r.1 r.2 :=
  ⟨by decide, by decide, by decide, by decide, by decide,
    run book (by decide) 600000 _ (fun op h => fair1 op (List.mem_of_mem_take h))⟩

-- an acceptable address
example : Acceptable cfg (exec (start book 600000) (ops1.take 4)).2 600000 500 nc c :=
  ⟨by decide, by decide, by decide, by decide, by decide, rfl, by decide, by decide, by decide, by decide, by decide⟩

-- a usable address, at most one connection per IP, and a source of addresses
example : (∃ ka, Usable cfg (start book 600000) 600000 anyKnown a.ip ka) ∧
    (exec (start book 600000) (ops1.take 4)).2.sources = [a] :=
  ⟨⟨{ addr := na, source := .dns }, by decide, rfl, ⟨a, rfl, by decide⟩, by decide, by decide, by decide⟩, by decide⟩

/-! ## C40 does not hold in full -/

/-- A peer connects to us and is disconnected for misbehaving; no address of its range is known. -/
def ops2 : List Op := [.connected a, .disconnected a .permanent]

/-- Later another peer announces it, and it is chosen to connect to. -/
def ops2' : List Op := [.message env 700000 b (.addr [(600, na)]), .sample env anyKnown]

/-- **C40** (counterexample) A misbehaving peer is disconnected for a reason that is not transient, but not banned: no address
in its range was known.  It is then accepted from an announcement and sampled. -/
theorem C40_ban_without_effect : ∃ l m l' m', Run cfg [] l m ∧ l.head?.map (·.1 matches .disconnected _ .permanent) = some true ∧
    linked a.ip l.tail = true ∧ isRoutable a.ip = true ∧ isLocal a.ip = false ∧ Steps cfg m l' m' ∧
    (m'.peers.get a.ip).isSome ∧ l'.head?.map (·.2) = some (some (na, .peer b)) := by
  have hf : ∀ op ∈ ops2, op.Fair := by
    intro op h
    simp only [ops2, List.mem_cons, List.mem_nil_iff, or_false] at h
    rcases h with rfl | rfl <;> trivial
  have hf' : ∀ op ∈ ops2', op.Fair := by
    intro op h
    simp only [ops2', List.mem_cons, List.mem_nil_iff, or_false] at h
    rcases h with rfl | rfl <;> exact fair
  have r := run [] (by decide) 600000 ops2 hf
  have s := exec_steps ops2' _ [] _ r.inv.1 r.inv.2 .refl hf'
  rw [List.append_nil] at s
  exact ⟨_, _, _, _, r, by decide, by decide, by decide, by decide, s, by decide, by decide⟩

/-! ## C41 does not hold in full -/

/-- Two connections with the same IP address; one is closed. -/
def ops3 : List Op := [.connected a, .connected a', .disconnected a' .other, .sample env anyKnown]

/-- **C41** (counterexample) An address with an open connection is sampled: when two connections share an IP address, closing one
of them makes the address count as not connected. -/
theorem C41_connected_sampled : ∃ l m, Run cfg [(a.ip, { addr := na, source := .dns })] l m ∧ isOpen a l = true ∧ l.head?.map (·.2) = some (some (na, .dns)) := by
  have hf : ∀ op ∈ ops3, op.Fair := by
    intro op h
    simp only [ops3, List.mem_cons, List.mem_nil_iff, or_false] at h
    rcases h with rfl | rfl | rfl | rfl <;> first | exact fair | trivial
  exact ⟨_, _, run _ (by decide) 600000 ops3 hf, by decide, by decide⟩

/-- Between the two samples at most 120.002 seconds pass. -/
def ops4 : List Op := [.message env 659999 b .other, .sample env anyKnown, .timer 720000 true, .timer 780000 true,
  .sample env anyKnown, .message env 780001 b .other]

/-- **C41** (counterexample) The same address is sampled twice within two minutes of real time (both samples are between two
messages received at 659.999 s and 780.001 s): the time of the sample is that of the last save of the address book. -/
theorem C41_sampled_early : ∃ l m, Run cfg [(a.ip, { addr := na, source := .dns })] l m ∧
    l.map (·.2) = [none, some (na, .dns), none, none, some (na, .dns), none] ∧
    l.map (fun x => match x.1 with | .message _ now _ _ => now | .timer now _ => now | _ => 0) =
      [780001, 0, 780000, 720000, 0, 659999] := by
  have hf : ∀ op ∈ ops4, op.Fair := by
    intro op h
    simp only [ops4, List.mem_cons, List.mem_nil_iff, or_false] at h
    rcases h with rfl | rfl | rfl | rfl | rfl | rfl <;> first | exact fair | trivial
  exact ⟨_, _, run _ (by decide) 600000 ops4 hf, by decide, by decide⟩

/-! ## C43 does not hold -/

/-- **C43** (counterexample) An address that would be accepted from a peer is not taken up when the user imports it. -/
theorem C43_not_imported : ∃ m m', Run cfg book [] m ∧ Acceptable cfg m 600000 600 nc c ∧ m.lastIdle = some 600000 ∧
    m.step cfg (.importAddresses env [nc]) = .ok (none, m') ∧ m'.peers.get c.ip = none := by
  have r := run book (by decide) 600000 [] (by simp)
  refine ⟨_, _, r, ⟨by decide, by decide, by decide, by decide, by decide, rfl, by decide, by decide, by decide, by decide, by decide⟩,
    by decide, C43_import_ignored r env [nc], by decide⟩

/-! ## C68 does not hold in full -/

/-- Two outbound connections to one IP address, both closed. -/
def ops5 : List Op := [.connected a, .connected a', .negotiated 600001 a 1 true none, .negotiated 600001 a' 1 true none,
  .disconnected a .other, .disconnected a' .other, .sample env anyKnown, .timer 660000 true]

/-- **C68** (counterexample) A peer that is no longer connected is asked for addresses: the second of two connections with the
same IP address is not forgotten when it is closed. -/
theorem C68_disconnected_asked : ∃ l m, Run cfg [(a.ip, { addr := na, source := .dns })] l m ∧ Proper l ∧ isOpen a' l = false ∧
    l.head?.map (fun x => match x.1 with | .timer _ _ => true | _ => false) = some true ∧ .getAddr a' ∈ m.out.drop 3 := by
  have hf : ∀ op ∈ ops5, op.Fair := by
    intro op h
    simp only [ops5, List.mem_cons, List.mem_nil_iff, or_false] at h
    rcases h with rfl | rfl | rfl | rfl | rfl | rfl | rfl | rfl <;> first | exact fair | trivial
  exact ⟨_, _, run _ (by decide) 600000 ops5 hf, ⟨by decide, by decide, trivial⟩, by decide, by decide, by decide⟩

-- hypotheses of `C68_connected_partial` and `C68_asked`
example : ∃ l m, Run cfg [(a.ip, { addr := na, source := .dns })] l m ∧ OneConn l ∧ Proper l ∧ isOpen a l = true ∧
    m.lastIdle = some 600000 ∧ m.lastRequest = none ∧ m.sources = [a] ∧ ∀ p ∈ m.peers, p.1 ∈ m.connected := by
  have hf : ∀ op ∈ [Op.connected a, Op.negotiated 600001 a 1 true none], op.Fair := by
    intro op h
    simp only [List.mem_cons, List.mem_nil_iff, or_false] at h
    rcases h with rfl | rfl <;> trivial
  exact ⟨_, _, run _ (by decide) 600000 _ hf, ⟨by simp [isOpen], trivial⟩, ⟨by decide, trivial⟩, by decide, by decide,
    by decide, by decide, by decide⟩

/-! ## C42 does not hold in full -/

/-- A full range: 256 addresses, with which handshakes were successful. -/
def full : AMap Ip Known := (List.range 256).map (fun i =>
  (.v4 8 8 8 i, { addr := { services := 1, sock := some { ip := .v4 8 8 8 i, port := 8333 } }, source := .dns,
                  lastSuccess := some 500000 }))

theorem full_nodup : full.keys.Nodup := by
  have : full.keys = (List.range 256).map (fun i => Ip.v4 8 8 8 i) := by
    simp [full, AMap.keys]
  rw [this]
  refine List.Nodup.map (fun x y h => ?_) List.nodup_range
  injection h

/-- A new address of that range, then one that is known, with other services. -/
def msg : List (Nat × NetAddr) :=
  [(600, nc), (600, { services := 1, sock := some { ip := .v4 8 8 8 255, port := 1 } })]

/-- **C42** (counterexample) A known address is overwritten by an announcement, port, source and times: the announcement before
it in the same message evicts it from its full range. -/
theorem C42_known_overwritten : ∃ l m, Run cfg full l m ∧
    full.get (.v4 8 8 8 255) = some { addr := { services := 1, sock := some { ip := .v4 8 8 8 255, port := 8333 } },
                                      source := .dns, lastSuccess := some 500000 } ∧
    l.map (fun x => match x.1 with | .message _ _ s (.addr as) => some (s, as) | _ => none) = [some (b, msg)] ∧
    m.peers.get (.v4 8 8 8 255) = some { addr := { services := 1, sock := some { ip := .v4 8 8 8 255, port := 1 } },
                                         source := .peer b, lastActive := some 600000 } := by
  refine ⟨_, _, run full full_nodup 600000 [.message env 600001 b (.addr msg)] ?_, by decide +kernel, by decide +kernel, by decide +kernel⟩
  intro op h
  simp only [List.mem_cons, List.mem_nil_iff, or_false] at h
  subst h; exact fair

end Verif.Addr.Scenario
