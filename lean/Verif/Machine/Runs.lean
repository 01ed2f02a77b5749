import Verif.Machine.Parts
import Verif.Node.Runs

/-!
# The whole state machine: the managers in an execution
-/

set_option autoImplicit false

namespace Verif.Machine
open Verif.Addr (Sock Ip NetAddr Known Source has)
open Verif.Chain (Header)
open Verif.Peer (Cand)

variable {cfg : Cfg} {U : Header → Prop} {fail : Bool} {P : Node.Hist → Node.Fsm → Node.Input → Node.Fsm → List Node.Out → Prop}
variable {z : Setup} {is : List Input} {h : Node.Hist} {e : Env} {s s' : State}

theorem nodeInput_batch {i : Input} {j : Node.Input} (l : Legal U fail e i) (hj : nodeInput cfg s i = some j) :
    ∀ p ∈ j.batch, U p.1 ∧ Chain.EnvOk fail p.2 := by
  cases i with
  | message a ok msg =>
    simp only [nodeInput] at hj
    split at hj
    · cases msg <;> simp only [Msg.node, Option.some.injEq, reduceCtorEq] at hj <;> subst hj <;>
        first | exact l.message _ _ _ rfl | (intro p hp; simp [Node.Input.batch] at hp)
    · cases hj
  | importHeaders hs =>
    simp only [nodeInput, Option.some.injEq] at hj
    subst hj
    exact l.command _ rfl
  | next =>
    simp only [nodeInput] at hj
    split at hj
    · simp only [negotiatedInput, Option.some.injEq] at hj; subst hj; intro p hp; simp [Node.Input.batch] at hp
    · simp only [Option.some.injEq] at hj; subst hj; intro p hp; simp [Node.Input.batch] at hp
    · cases hj
    · split at hj
      · cases hj
      · simp only [Option.some.injEq] at hj; subst hj; intro p hp; simp [Node.Input.batch] at hp
  | _ =>
    simp only [nodeInput, Option.some.injEq, reduceCtorEq] at hj
    try (subst hj; intro p hp; simp [Node.Input.batch] at hp)

theorem node_legal {i : Input} {j : Node.Input} {now : Nat} (l : Legal U fail e i) (hj : ∀ p ∈ j.batch, U p.1 ∧ Chain.EnvOk fail p.2) :
    Node.Legal U fail (e.at now) j := ⟨l.sync, l.inv, hj⟩

theorem peer_legal {i : Input} {op : List Cand → Peer.Op} (l : Legal U fail e i) (hp : peerInput cfg e s i = some op) (src : List Cand) :
    (op src).Legal := by
  cases i with
  | timer => simp only [peerInput, Option.some.injEq] at hp; subst hp; exact l.ord
  | message a ok msg =>
    cases ok with
    | false => simp only [peerInput, Option.some.injEq] at hp; subst hp; trivial
    | true =>
      simp only [peerInput] at hp
      split at hp
      · cases hm : msg.peer with
        | none => simp [hm] at hp
        | some m => simp only [hm, Option.map_some, Option.some.injEq] at hp; subst hp; trivial
      · cases hp
  | next =>
    simp only [peerInput] at hp
    cases ht : nodeTurn s with
    | none => simp [ht] at hp
    | some o =>
      simp only [ht, Option.bind_some] at hp
      cases hc : complaint cfg o with
      | none => simp [hc] at hp
      | some q =>
        simp only [hc, Option.map_some, Option.some.injEq] at hp
        subst hp
        unfold complaint at hc
        split at hc <;> simp only [Option.some.injEq, reduceCtorEq] at hc <;> subst hc <;> trivial
  | _ =>
    simp only [peerInput, Option.some.injEq, reduceCtorEq] at hp
    try (subst hp; trivial)

/-- The outputs of the ping manager are a log. -/
theorem ping_grows {timeout : Nat} {l : List Ping.Obs} {m : Ping.Mgr} (r : Ping.Run timeout l m) (pe : Ping.Env) (hp : ∀ ks, (pe.order ks).Perm ks)
    (op : Ping.Op) : ∃ o, (m.step pe op).out = m.out ++ o := by
  by_cases ho : op = .timer
  · subst ho
    obtain ⟨o, h1, -⟩ := Ping.C34_timer r pe hp
    exact ⟨o, h1⟩
  · obtain ⟨o, h1, -⟩ := Ping.C34_others m pe op ho
    exact ⟨o, h1⟩

theorem run_node (r : Run cfg U fail P z is h s) : Node.Run cfg.node U fail P z.tree h s.node := by
  induction r with
  | start f c now e ea fa nd hm l hs ho p =>
    obtain ⟨h1, -⟩ := init_parts l hs
    exact .step (e.at now) (.start f c) (node_legal l (by intro p hp; simp [Node.Input.batch] at hp)) h1 (by simpa [Node.Fsm.new] using ho) p
  | silent e r l hs hj ih =>
    have := (step_effect hs).node
    simp only [hj] at this
    rw [this]
    exact ih
  | step e r l hs hj ho p ih =>
    have := (step_effect hs).node
    simp only [hj] at this
    exact .step _ ih (node_legal l (nodeInput_batch l hj)) this ho p

theorem peer_step {i : Input} {hp : List Peer.Op} (r : Peer.Run cfg.peer z.trusted hp s.peer) (l : Legal U fail e i) (hs : s.step cfg e i = .ok s') :
    ∃ hp', Peer.Run cfg.peer z.trusted hp' s'.peer := by
  have := (step_effect hs).peer
  cases ho : peerInput cfg e s i with
  | none => simp only [ho] at this; rw [this]; exact ⟨hp, r⟩
  | some op =>
    simp only [ho] at this
    obtain ⟨src, hx⟩ := this
    exact ⟨_, .step r (peer_legal l ho src) hx⟩

theorem run_peer (r : Run cfg U fail P z is h s) : ∃ hp, Peer.Run cfg.peer z.trusted hp s.peer := by
  induction r with
  | start f c now e ea fa nd hm l hs ho p =>
    obtain ⟨-, -, ⟨src, m, h1, h2⟩, -⟩ := init_parts l hs
    exact ⟨_, .step (op := .init src) (.step (op := .tick now) .start trivial h1) trivial h2⟩
  | silent e r l hs hj ih => obtain ⟨hp, ih⟩ := ih; exact peer_step ih l hs
  | step e r l hs hj ho p ih => obtain ⟨hp, ih⟩ := ih; exact peer_step ih l hs

theorem ping_step {i : Input} {lp : List Ping.Obs} (r : Ping.Run z.pingTimeout lp s.ping) (l : Legal U fail e i) (hs : s.step cfg e i = .ok s') :
    ∃ lp', Ping.Run z.pingTimeout lp' s'.ping := by
  have := (step_effect hs).ping
  cases ho : pingInput cfg s i with
  | none => simp only [ho] at this; rw [this]; exact ⟨lp, r⟩
  | some op =>
    simp only [ho] at this
    obtain ⟨o, h1⟩ := ping_grows r ⟨s.now, e.pingNonce, e.pingOrder⟩ l.ping op
    rw [this]
    exact ⟨_, .step _ op o r l.ping h1⟩

theorem run_ping (r : Run cfg U fail P z is h s) : ∃ lp, Ping.Run z.pingTimeout lp s.ping := by
  induction r with
  | start f c now e ea fa nd hm l hs ho p =>
    obtain ⟨-, h1, -⟩ := init_parts l hs
    rw [h1]
    exact ⟨_, .init⟩
  | silent e r l hs hj ih => obtain ⟨hp, ih⟩ := ih; exact ping_step ih l hs
  | step e r l hs hj ho p ih => obtain ⟨hp, ih⟩ := ih; exact ping_step ih l hs

theorem run_addr (r : Run cfg U fail P z is h s) : ∃ la, Addr.Run cfg.addr z.book la s.addr := by
  induction r with
  | start f c now e ea fa nd hm l hs ho p =>
    obtain ⟨-, -, -, ⟨x, h1⟩, -⟩ := init_parts l hs
    exact ⟨x, _, ⟨nd, ea, _, now, e.saved, fa, hm, rfl⟩, h1⟩
  | silent e r l hs hj ih =>
    obtain ⟨la, m0, h0, h1⟩ := ih
    obtain ⟨x, hx⟩ := step_addr l hs
    exact ⟨_, m0, h0, addr_steps_trans h1 hx⟩
  | step e r l hs hj ho p ih =>
    obtain ⟨la, m0, h0, h1⟩ := ih
    obtain ⟨x, hx⟩ := step_addr l hs
    exact ⟨_, m0, h0, addr_steps_trans h1 hx⟩

end Verif.Machine
