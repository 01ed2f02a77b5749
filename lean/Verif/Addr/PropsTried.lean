import Verif.Addr.Tried
import Verif.Addr.Props
import Verif.Addr.Scenarios

/-!
# Properties of the address manager: attempts, services, our own addresses (C41, C42, C133)
-/

set_option autoImplicit false

namespace Verif.Addr

section
variable {cfg : Config} {peers : AMap Ip Known} {l : List Entry} {m m1 m2 m' : Mgr}

/-! ## C41: services -/

theorem has_iff (s f : Nat) : has s f = true ↔ ∀ i, f.testBit i = true → s.testBit i = true := by
  unfold has
  rw [beq_iff_eq]
  constructor
  · intro h i hi
    rw [← h, Nat.testBit_and] at hi
    simp only [Bool.and_eq_true] at hi
    exact hi.1
  · intro h
    apply Nat.eq_of_testBit_eq
    intro i
    rw [Nat.testBit_and]
    cases hi : f.testBit i with
    | false => simp
    | true => simp [h i hi]

/-- **C41** An address that is drawn for its services offers all of them: every bit that is asked for is set. -/
theorem C41_services (r : Run cfg peers l m) (e : Env) (hf : e.Fair) (services : Nat) {a : NetAddr} {src : Source}
    (h : m.sample cfg e services = .ok (some (a, src), m')) : ∀ i, services.testBit i = true → a.services.testBit i = true := by
  obtain ⟨_, _, ka, -, hu, ha, -⟩ := C41_sampled_partial r e hf _ h
  have := hu.wanted
  rw [ha] at this
  exact (has_iff _ _).1 this

/-- **C41** If none is drawn, no address of the book that offers them all is usable. -/
theorem C41_services_complete (r : Run cfg peers l m) (e : Env) (hf : e.Fair) (services : Nat) (h : m.sample cfg e services = .ok (none, m')) :
    m' = m ∧ ∀ time ip ka, m.lastIdle = some time → (∀ i, services.testBit i = true → ka.addr.services.testBit i = true) →
      ¬ Usable cfg m time (fun _ => true) ip ka := by
  obtain ⟨h1, h2⟩ := C41_complete r e hf _ h
  refine ⟨h1, fun time ip ka ht hs hu => h2 time ip ka ht ⟨hu.known, (has_iff _ _).2 hs, hu.domain, hu.notFailed, hu.rested, hu.notConnected⟩⟩

/-! ## C42: our own addresses -/

theorem Run.locals (r : Run cfg peers l m) {b : Sock} {now : Nat} {a : Sock} {sv : Nat} {ob : Bool} {res : Option (NetAddr × Source)}
    (h : (.negotiated now a sv ob (some b), res) ∈ l) : b ∈ m.locals := by
  revert h
  refine Run.induct (P := fun l m => (Op.negotiated now a sv ob (some b), res) ∈ l → b ∈ m.locals) (fun _ _ h => by cases h) ?_ r
  intro l m op res' m' r ih hf hs _ h
  refine step_locals r.inv.1 r.inv.2 hf hs ?_
  rcases List.mem_cons.1 h with h | h
  · injection h with h1 h2
    exact .inr ⟨now, a, sv, ob, h1.symm⟩
  · exact .inl (ih h)

/-- **C42** An address under which some peer saw us is not added to the address book from then on, whoever announces it. -/
theorem C42_own (r : Run cfg peers l m) {b : Sock} {now : Nat} {a : Sock} {sv : Nat} {ob : Bool} {res : Option (NetAddr × Source)}
    (h : (.negotiated now a sv ob (some b), res) ∈ l) {op : Op} (hf : op.Fair) {res' : Option (NetAddr × Source)} (hs : m.step cfg op = .ok (res', m'))
    {x : Ip} {ka' : Known} (hx : m'.peers.get x = some ka') (hb : ka'.addr.sock = some b) :
    ∃ ka, m.peers.get x = some ka ∧ ka.addr.sock = some b := by
  have hl := r.locals h
  rcases (effect_of r.inv.1 r.inv.2 hf hs).entry x ka' hx with ⟨ka, h1, h2⟩ | ⟨_, _, na, s, ha, _, hk, _⟩
  · exact ⟨ka, h1, h2 ▸ hb⟩
  · exfalso
    have : na.sock = some b := hk ▸ hb
    rw [ha.sock] at this
    injection this with this
    exact ha.notOurs (this ▸ hl)

/-! ## C133 -/

/-- A handshake with that IP address never succeeded: none is recorded in the book at the start, and none was completed since. -/
def NeverMet (peers : AMap Ip Known) (l : List Entry) (x : Ip) : Prop :=
  (∀ ka, peers.get x = some ka → ka.lastSuccess = none) ∧ ∀ en ∈ l, ¬ Negotiates x en.1

theorem Run.neverMet {x : Ip} (r : Run cfg peers l m) (hn : NeverMet peers l x) : ∀ ka, m.peers.get x = some ka → ka.lastSuccess = none := by
  obtain ⟨h0, h1⟩ := hn
  revert h1
  refine Run.induct (P := fun l m => (∀ en ∈ l, ¬ Negotiates x en.1) → ∀ ka, m.peers.get x = some ka → ka.lastSuccess = none) ?_ ?_ r
  · intro m hs _ ka hk
    rcases (starts_inv hs).2.2.2.2.2 x with h | h
    · exact h0 ka (h ▸ hk)
    · rw [h] at hk; cases hk
  · intro l m op res m' r ih hf hs _ h1 ka hk
    rcases step_kept r.inv.1 r.inv.2 hf hs (h1 _ List.mem_cons_self) hk with ⟨ka0, g1, g2⟩ | ⟨-, g⟩
    · rw [g2.2]; exact ih (fun en hen => h1 en (List.mem_cons_of_mem _ hen)) ka0 g1
    · exact g

/-- The record of an address that was tried in vain. -/
def Vain (m : Mgr) (x : Ip) : Prop := ∀ ka, m.peers.get x = some ka → ka.lastAttempt.isSome ∧ ka.lastSuccess = none

theorem vain_steps {x : Ip} (hi : Inv m1) (ht : m1.lastIdle.isSome) (hv : Vain m1 x) {l' : List Entry} (s : Steps cfg m1 l' m2)
    (hq : ∀ en ∈ l', ¬ Negotiates x en.1 ∧ ¬ Announces x en.1) : Vain m2 x := by
  induction s with
  | refl => exact hv
  | step s f h ih =>
    have iv := s.inv hi ht
    intro ka hk
    have hq0 := hq _ List.mem_cons_self
    rcases step_kept iv.1 iv.2 f h hq0.1 hk with ⟨ka0, g1, g2⟩ | ⟨g, -⟩
    · have := ih (fun en hen => hq en (List.mem_cons_of_mem _ hen)) ka0 g1
      exact ⟨g2.1 this.1, g2.2.trans this.2⟩
    · exact absurd g hq0.2

theorem attempted_vain {x : Sock} (r : Run cfg peers l m) (hn : NeverMet peers l x.ip) {now : Nat} {res : Option (NetAddr × Source)}
    (h : m.step cfg (.attempted now x) = .ok (res, m1)) : Vain m1 x.ip := by
  have hn' := r.neverMet hn
  cases h
  intro ka hk
  unfold Mgr.peerAttempted Mgr.update at hk
  cases hg : m.peers.get x.ip with
  | none => rw [hg] at hk; simp only at hk; rw [hg] at hk; cases hk
  | some k0 =>
    rw [hg] at hk
    simp only [AMap.get_insert, if_true, Option.some.injEq] at hk
    subst hk
    exact ⟨rfl, hn' k0 hg⟩

theorem vain_not_sampled (hp : Sound peers) {a : Ip} (r : Run cfg peers l m) (hv : Vain m a) {e : Env} (hf : e.Fair) {pred : Known → Bool} {na : NetAddr} {src : Source}
    (h : m.step cfg (.sample e pred) = .ok (some (na, src), m')) {b : Sock} (hb : na.sock = some b) : b.ip ≠ a := by
  obtain ⟨_, ip, ka, -, hu, ha, -⟩ := C41_sampled_partial r e hf pred h
  obtain ⟨s, h1, h2, -⟩ := r.sound hp ip ka hu.known
  rw [ha, hb] at h1
  injection h1 with h1
  subst h1
  rintro rfl
  have := hv ka (h2 ▸ hu.known)
  have h3 := hu.notFailed this.1
  rw [this.2] at h3
  cases h3

/-- **C133** An address that never completed a handshake with us and that we tried to connect to is not drawn again, whatever happens, until it completes a handshake or is announced again. -/
theorem C133_tried (hp : Sound peers) (r : Run cfg peers l m) {a : Sock} (hn : NeverMet peers l a.ip) {now : Nat} {res : Option (NetAddr × Source)}
    (h : m.step cfg (.attempted now a) = .ok (res, m1)) {l' : List Entry} (s : Steps cfg m1 l' m2)
    (hq : ∀ en ∈ l', ¬ Negotiates a.ip en.1 ∧ ¬ Announces a.ip en.1) {op : Op} {na : NetAddr} {src : Source} (hm : (op, some (na, src)) ∈ l') {b : Sock}
    (hb : na.sock = some b) : b.ip ≠ a.ip := by
  have r1 : Run cfg peers _ m1 := r.next (op := .attempted now a) trivial h
  have hv := attempted_vain r hn h
  clear h
  revert hm hq
  induction s with
  | refl => intro _ hm; cases hm
  | @step l0 m3 m4 op0 res0 s f hst ih =>
    intro hq hm
    have hq' := fun en hen => hq en (List.mem_cons_of_mem _ hen)
    rcases List.mem_cons.1 hm with hm | hm
    · injection hm with hm1 hm2
      subst hm1; subst hm2
      cases op with
      | sample e pred => exact vain_not_sampled hp (Steps.run r1 s) (vain_steps r1.inv.1 r1.inv.2 hv s hq') f hst hb
      | timer now saved => simp only [Mgr.step] at hst; split at hst <;> cases hst
      | disconnected a r => simp only [Mgr.step] at hst; split at hst <;> cases hst
      | importAddresses e l => simp only [Mgr.step] at hst; split at hst <;> cases hst
      | message e now a msg => simp only [Mgr.step] at hst; split at hst <;> cases hst
      | _ => cases hst
    · exact ih hq' hm

theorem negotiate_success {now : Nat} {a : Sock} {sv : Nat} {ob : Bool} {rc : Option Sock} {x : Ip} {ka' : Known}
    (h : (m.peerNegotiated now a sv ob rc).peers.get x = some ka') :
    ∃ ka, m.peers.get x = some ka ∧ (ka.lastSuccess.isSome → ka'.lastSuccess.isSome) ∧ (x = a.ip → a.ip ∈ m.connected → ka'.lastSuccess.isSome) := by
  by_cases hx : a.ip = x
  · have h1 : (m.addLocal rc).peers = m.peers ∧ (m.addLocal rc).connected = m.connected := by unfold Mgr.addLocal; split <;> exact ⟨rfl, rfl⟩
    unfold Mgr.peerNegotiated at h
    rw [← h1.1, ← h1.2]
    generalize m.addLocal rc = m1 at *
    simp only [Mgr.negotiate] at h
    split at h
    · rename_i hc; exact ⟨ka', h, id, fun _ h => absurd h hc⟩
    · have h2 : (m1.addSource ob a).peers = m1.peers := by unfold Mgr.addSource; split <;> rfl
      rw [← h2]
      generalize m1.addSource ob a = m2 at *
      split at h
      · rename_i hg; rw [hx, h] at hg; cases hg
      · rename_i ka hka
        have h3 : (m2.askFirst a ka).peers = m2.peers := by unfold Mgr.askFirst; split <;> rfl
        have h4 : (m2.askFirst a ka).peers.get a.ip = some ka := h3 ▸ hka
        unfold Mgr.update at h
        rw [h4] at h
        simp only [AMap.get_insert, if_pos hx, Option.some.injEq] at h
        subst h
        exact ⟨ka, hx ▸ hka, fun _ => rfl, fun _ _ => rfl⟩
  · obtain ⟨ka, g1, g2⟩ := negotiate_kept hx h
    exact ⟨ka, g1, fun h => g2.2 ▸ h, fun h => absurd h.symm hx⟩

theorem success_steps {x : Ip} (hi : Inv m1) (ht : m1.lastIdle.isSome) (hv : ∀ ka, m1.peers.get x = some ka → ka.lastSuccess.isSome) {l' : List Entry} (s : Steps cfg m1 l' m2)
    (hq : ∀ en ∈ l', ¬ Announces x en.1) : ∀ ka, m2.peers.get x = some ka → ka.lastSuccess.isSome := by
  induction s with
  | refl => exact hv
  | @step l0 m3 m4 op res s f h ih =>
    have iv := s.inv hi ht
    intro ka hk
    have ih := ih (fun en hen => hq en (List.mem_cons_of_mem _ hen))
    by_cases hn : Negotiates x op
    · cases op with
      | negotiated now a sv ob rc =>
        cases h
        obtain ⟨k0, g1, g2, -⟩ := negotiate_success hk
        exact g2 (ih k0 g1)
      | _ => exact absurd hn id
    · rcases step_kept iv.1 iv.2 f h hn hk with ⟨k0, g1, g2⟩ | ⟨g, -⟩
      · rw [g2.2]; exact ih k0 g1
      · exact absurd g (hq _ List.mem_cons_self)

/-- **C133** An address with which a handshake was completed is not given up: as long as it is in the book (and was not announced anew), whatever happens, attempts in vain included, an
address is found when one is asked for, unless there is a connection with it or it was drawn in the last three minutes. -/
theorem C133_met (r : Run cfg peers l m) {a : Sock} (hl : linked a.ip l = true) (h1 : isRoutable a.ip = true) (h2 : isLocal a.ip = false) {now sv : Nat} {ob : Bool} {rc : Option Sock}
    {res : Option (NetAddr × Source)} (h : m.step cfg (.negotiated now a sv ob rc) = .ok (res, m1)) {l' : List Entry} (s : Steps cfg m1 l' m2) (hq : ∀ en ∈ l', ¬ Announces a.ip en.1)
    {ka : Known} (hk : m2.peers.get a.ip = some ka) {b : Sock} (hb : ka.addr.sock = some b) (hd : domainOf b ∈ cfg.domains) {time : Nat} (ht : m2.lastIdle = some time)
    {e : Env} (hf : e.Fair) (hs : m2.step cfg (.sample e (fun _ => true)) = .ok (none, m')) :
    linked a.ip (l' ++ (.negotiated now a sv ob rc, res) :: l) = true ∨ time < ka.lastSampled.getD 0 + 180000 := by
  have r1 : Run cfg peers _ m1 := r.next (op := .negotiated now a sv ob rc) trivial h
  have hc : a.ip ∈ m.connected := (r.connected a.ip).2 ⟨hl, h1, h2⟩
  have hv : ∀ ka, m1.peers.get a.ip = some ka → ka.lastSuccess.isSome := by
    cases h
    intro ka hk
    obtain ⟨_, -, -, g⟩ := negotiate_success hk
    exact g rfl hc
  have r2 := Steps.run r1 s
  have hsu := success_steps r1.inv.1 r1.inv.2 hv s hq ka hk
  by_contra hno
  rw [not_or] at hno
  refine (C41_complete r2 e hf _ hs).2 time a.ip ka ht ⟨hk, rfl, ⟨b, hb, hd⟩, fun _ => hsu, by omega, fun hcon => hno.1 ?_⟩
  exact ((r2.connected a.ip).1 hcon).1

/-! ## C69 -/

theorem forall₂_right {α β : Type} {R : α → β → Prop} {l1 : List α} {l2 : List β} (h : List.Forall₂ R l1 l2) {y : β} (hy : y ∈ l2) : ∃ x ∈ l1, R x y := by
  induction h with
  | nil => cases hy
  | cons hr _ ih =>
    rcases List.mem_cons.1 hy with rfl | hy
    · exact ⟨_, List.mem_cons_self, hr⟩
    · obtain ⟨x, h1, h2⟩ := ih hy; exact ⟨x, List.mem_cons_of_mem _ h1, h2⟩

theorem forall₂_left {α β : Type} {R : α → β → Prop} {l1 : List α} {l2 : List β} (h : List.Forall₂ R l1 l2) {x : α} (hx : x ∈ l1) : ∃ y ∈ l2, R x y := by
  induction h with
  | nil => cases hx
  | cons hr _ ih =>
    rcases List.mem_cons.1 hx with rfl | hx
    · exact ⟨_, List.mem_cons_self, hr⟩
    · obtain ⟨y, h1, h2⟩ := ih hx; exact ⟨y, List.mem_cons_of_mem _ h1, h2⟩

theorem getAddrLoop_times (m : Mgr) {e : Env} : ∀ {rs : List (List Ip)} {as : List (Nat × NetAddr)}, m.getAddrLoop e rs = .ok as →
    List.Forall₂ (fun range x => ∃ ip ∈ range, ∃ ka, m.peers.get ip = some ka ∧ x.2 = ka.addr ∧
      match ka.lastActive with | some t => x.1 * 1000 ≤ t ∧ t < (x.1 + 1) * 1000 | none => x.1 = 0) rs as
  | [], as, h => by cases h; exact .nil
  | range :: rs, as, h => by
    unfold Mgr.getAddrLoop at h
    split at h
    · cases h
    · split at h
      · cases h
      · rename_i ip hip
        split at h
        · cases h
        · rename_i ka hka
          split at h <;> cases h
          rename_i l hl
          refine .cons ⟨ip, List.mem_of_getElem? hip, ka, hka, rfl, ?_⟩ (getAddrLoop_times m hl)
          cases ka.lastActive with
          | none => rfl
          | some t => simp only [Option.map_some, Option.getD_some]; omega

/-- **C69** Every network with an address in the book is represented in the answer; and an address is sent with the second in which it was last active, or zero if it never was. -/
theorem C69_times (r : Run cfg peers l m) (e : Env) (now : Nat) (b : Sock) {res : Option (NetAddr × Source)} (h : m.step cfg (.message e now b .getAddr) = .ok (res, m')) :
    ∃ as, m'.out = m.out ++ [.addr b as] ∧
      (∀ x ∈ as, ∃ ip ka, m'.peers.get ip = some ka ∧ x.2 = ka.addr ∧ match ka.lastActive with | some t => x.1 * 1000 ≤ t ∧ t < (x.1 + 1) * 1000 | none => x.1 = 0) ∧
      ∀ ip, (m'.peers.get ip).isSome → ∃ x ∈ as, ∃ ip' ka, addrKey ip' = addrKey ip ∧ m'.peers.get ip' = some ka ∧ x.2 = ka.addr := by
  obtain ⟨hu, hfr, -, -⟩ := update_inv r.inv.1 b.ip (fun ka => { ka with lastActive := some now })
  simp only [Mgr.step, Mgr.messageReceived, Mgr.receivedGetAddr] at h
  generalize m.update b.ip (fun ka => { ka with lastActive := some now }) = m0 at *
  cases hl : m0.getAddrLoop e (m0.ranges.map (·.2)) with
  | ok as =>
    rw [hl] at h
    simp only [Res.ok.injEq, Prod.mk.injEq] at h
    obtain ⟨-, rfl⟩ := h
    have ht := getAddrLoop_times m0 hl
    refine ⟨as, by rw [hfr.out], fun x hx => ?_, fun ip hip => ?_⟩
    · obtain ⟨range, -, ip, -, ka, g1, g2, g3⟩ := forall₂_right ht hx
      exact ⟨ip, ka, g1, g2, g3⟩
    · rcases hu.book ip hip with hf | ⟨range, g1, g2⟩
      · exact hf.elim
      · have hm : range ∈ m0.ranges.map (·.2) := List.mem_map.2 ⟨_, AMap.mem_of_get g1, rfl⟩
        obtain ⟨x, hx, ip', hip', ka, k1, k2, -⟩ := forall₂_left ht hm
        exact ⟨x, hx, ip', ka, ((hu.range _ _ g1).2.2.2 ip' hip').1, k1, k2⟩
  | err x => rw [hl] at h; cases h
  | panic => rw [hl] at h; cases h

end

namespace Scenario

/-- The first address is tried; then another peer is connected, and it is time to draw again. -/
def ops133 : List Op := [.connected b, .negotiated 600100 b 9 true (some c), .timer 900000 true, .sample env anyKnown]

theorem fair133 : ∀ op ∈ ops133, op.Fair := by
  intro op h
  simp only [ops133, List.mem_cons, List.mem_nil_iff, or_false] at h
  rcases h with rfl | rfl | rfl | rfl <;> first | exact fair | trivial

-- the hypotheses of `C133_tried`; without the attempt the address would be drawn
example : NeverMet book [] a.ip ∧ (book.get a.ip).isSome ∧
    (∀ en ∈ (exec ((start book 600000).peerAttempted 600001 a) ops133).1, ¬ Negotiates a.ip en.1 ∧ ¬ Announces a.ip en.1) ∧
    (exec ((start book 600000).peerAttempted 600001 a) ops133).1.length = 4 ∧
    (exec ((start book 600000).peerAttempted 600001 a) ops133).1.head?.map (·.2) = some none ∧
    (exec (start book 600000) ops133).1.head?.map (·.2) = some (some (na, .dns)) := by
  refine ⟨⟨by decide, fun _ h => by cases h⟩, by decide, ?_, by decide, by decide, by decide⟩
  intro en h
  have : en.1 ∈ ops133 := by
    have : (exec ((start book 600000).peerAttempted 600001 a) ops133).1.map (·.1) = ops133.reverse := rfl
    have h2 := List.mem_map_of_mem (f := (·.1)) h
    rw [this] at h2
    exact List.mem_reverse.1 h2
  simp only [ops133, List.mem_cons, List.mem_nil_iff, or_false] at this
  rcases this with h | h | h | h <;> (rw [h]; simp [Negotiates, Announces]; try decide)

-- the hypotheses of `C42_own`: after that, our own address `c` is not accepted (it is otherwise: `C42_accepted`)
example : ((exec (start book 600000) (ops133.take 2 ++ [.message env 700000 b (.addr [(500, nc)])])).2.peers.get c.ip).isNone ∧
    ((exec (start book 600000) ([.connected b, .negotiated 600100 b 9 true none] ++ [.message env 700000 b (.addr [(500, nc)])])).2.peers.get c.ip).isSome := by decide

-- an address is drawn for its services, and none is drawn for others
example : ∃ m', (start book 600000).sample cfg env 1 = .ok (some (nb, .dns), m') ∧ (start book 600000).sample cfg env 4096 = .ok (none, start book 600000) :=
  ⟨_, rfl, rfl⟩

/-- A handshake is completed; the connection is lost; the address is tried in vain; later an address is drawn. -/
def opsMet : List Op := [.connected a, .negotiated 600100 a 9 true none, .disconnected a .other, .attempted 600200 a, .connected b, .timer 900000 true]

-- the hypotheses of `C133_met`: the address is in the book, not connected and rested, and it is drawn
example : linked a.ip (exec (start book 600000) (opsMet.take 1)).1 = true ∧ linked a.ip (exec (start book 600000) opsMet).1 = false ∧
    (exec (start book 600000) opsMet).1.length = 6 ∧ (exec (start book 600000) opsMet).2.lastIdle = some 900000 ∧
    ((exec (start book 600000) opsMet).2.peers.get a.ip).map (fun ka => (ka.lastAttempt, ka.lastSuccess)) = some (some 600200, some 600100) ∧
    (exec (start book 600000) (opsMet ++ [.sample env anyKnown])).1.head?.map (·.2) = some (some ({ na with services := 9 }, .dns)) := by decide

-- the hypotheses of `C69_times`: the first was active at 600.1 seconds, the other never
example : ∃ m', (exec (start book 600000) (opsMet.take 2)).2.step cfg (.message env 600100 c .getAddr) = .ok (none, m') ∧
    m'.out.getLast? = some (.addr c [(0, nb), (600, { na with services := 9 })]) := ⟨_, rfl, rfl⟩

end Scenario
end Verif.Addr
