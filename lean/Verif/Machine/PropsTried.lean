import Verif.Machine.PropsAddrs
import Verif.Addr.PropsTried

/-!
# Properties of the whole state machine: addresses that were tried in vain, and our own (C42, C133)
-/

set_option autoImplicit false

namespace Verif.Machine
open Verif.Addr (Sock Ip NetAddr Known Source)
open Verif.Chain (Header)
open Relation (ReflTransGen)

variable {cfg : Cfg} {U : Header → Prop} {fail : Bool} {P : Node.Hist → Node.Fsm → Node.Input → Node.Fsm → List Node.Out → Prop}
variable {z : Setup} {is : List Input} {h : Node.Hist} {e : Env} {s s' : State}

/-- A peer announces that IP address, or it is reported that a handshake with it was completed. -/
def Mentions (ip : Ip) (s : State) (i : Input) : Prop :=
  (∃ b ok l t na sk, i = .message b ok (.addr l) ∧ (t, na) ∈ l ∧ na.sock = some sk ∧ sk.ip = ip) ∨
  (i = .next ∧ ∃ b n q, s.qPeer = .evNegotiated b n :: q ∧ b.ip = ip)

/-- One input that does not. -/
def NextQuiet (cfg : Cfg) (U : Header → Prop) (fail : Bool) (ip : Ip) (s s' : State) : Prop :=
  ∃ e i, Legal U fail e i ∧ s.step cfg e i = .ok s' ∧ ¬ Mentions ip s i

theorem heardOp_negotiates {en : Addr.Entry} {ip : Ip} (h : Addr.Negotiates ip en.1) : ∃ b, heardOp en = some (.negotiated b) ∧ b.ip = ip := by
  obtain ⟨op, c⟩ := en
  cases op <;> first | exact ⟨_, rfl, h⟩ | exact absurd h id

theorem Calm.quiet {x : List Addr.Entry} (hx : Calm x) (ip : Ip) : ∀ en ∈ x, ¬ Addr.Negotiates ip en.1 ∧ ¬ Addr.Announces ip en.1 := by
  intro en hen
  refine ⟨fun hn => ?_, hx.2 en hen ip⟩
  obtain ⟨b, hb, -⟩ := heardOp_negotiates hn
  have := List.mem_filterMap.2 ⟨en, hen, hb⟩
  rw [hx.1] at this
  cases this

theorem step_quiet {i : Input} (l : Legal U fail e i) (hs : s.step cfg e i = .ok s') {ip : Ip} (hm : ¬ Mentions ip s i) :
    ∃ x, Addr.Steps cfg.addr s.addr x s'.addr ∧ ∀ en ∈ x, ¬ Addr.Negotiates ip en.1 ∧ ¬ Addr.Announces ip en.1 := by
  obtain ⟨m, src, h1, h2, -⟩ := step_addrEffect hs
  have first : ∃ x, Addr.Steps cfg.addr s.addr x m ∧ ∀ en ∈ x, ¬ Addr.Negotiates ip en.1 ∧ ¬ Addr.Announces ip en.1 := by
    cases ho : addrInput e s i with
    | none => simp only [ho] at h1; subst h1; exact ⟨[], .refl, fun _ h => by cases h⟩
    | some op =>
      simp only [ho] at h1
      obtain ⟨c, h1⟩ := h1
      refine ⟨[(op, c)], .step .refl (addrInput_fair l ho) h1, fun en hen => ?_⟩
      rw [List.mem_singleton.1 hen]
      cases i with
      | message a ok msg =>
        simp only [addrInput] at ho
        split at ho
        · cases ho
          refine ⟨id, fun ha => hm (.inl ?_)⟩
          cases msg with
          | addr ad =>
            obtain ⟨t, na, sk, g1, g2, g3⟩ := ha
            exact ⟨a, ok, ad, t, na, sk, rfl, g1, g2, g3⟩
          | _ => exact absurd ha id
        · cases ho
      | timer => simp only [addrInput, Option.some.injEq] at ho; subst ho; exact ⟨id, id⟩
      | importAddresses x => simp only [addrInput, Option.some.injEq] at ho; subst ho; exact ⟨id, id⟩
      | next =>
        simp only [addrInput] at ho
        split at ho
        · cases ho; exact ⟨id, id⟩
        · cases ho; exact ⟨id, id⟩
        · rename_i b n q hq
          cases ho
          exact ⟨fun hn => hm (.inr ⟨rfl, b, n, q, hq, hn⟩), id⟩
        · cases ho; exact ⟨id, id⟩
        · cases ho
      | _ => simp [addrInput] at ho
  obtain ⟨x, hx, hq⟩ := first
  by_cases hd : drawsFor i = true
  · rw [if_pos hd] at h2
    obtain ⟨y, hy, hc, -⟩ := draw_heard l.draws h2
    refine ⟨_, addr_steps_trans hx hy, fun en hen => ?_⟩
    rcases List.mem_append.1 hen with hen | hen
    · exact hc.quiet ip en hen
    · exact hq en hen
  · rw [if_neg hd] at h2
    rw [h2.2]
    exact ⟨x, hx, hq⟩

theorem quiet_steps {ip : Ip} (hp : ReflTransGen (NextQuiet cfg U fail ip) s s') :
    ∃ x, Addr.Steps cfg.addr s.addr x s'.addr ∧ ∀ en ∈ x, ¬ Addr.Negotiates ip en.1 ∧ ¬ Addr.Announces ip en.1 := by
  induction hp with
  | refl => exact ⟨[], .refl, fun _ h => by cases h⟩
  | tail _ hn ih =>
    obtain ⟨x, hx, hq⟩ := ih
    obtain ⟨e, i, l, hs, hm⟩ := hn
    obtain ⟨y, hy, hq'⟩ := step_quiet l hs hm
    exact ⟨_, addr_steps_trans hx hy, fun en hen => (List.mem_append.1 hen).elim (hq' en) (hq en)⟩

theorem quiet_next {ip : Ip} (hp : ReflTransGen (NextQuiet cfg U fail ip) s s') : ReflTransGen (Next cfg U fail) s s' := by
  induction hp with
  | refl => exact .refl
  | tail _ hn ih =>
    obtain ⟨e, i, l, hs, -⟩ := hn
    exact ih.tail ⟨e, i, l, hs⟩

/-- **C133.** An address that the client tried to connect to, and that never completed a handshake with it, is not dialed again, whatever happens, until it is announced again or completes a
handshake — unless it is configured or the user asks for it. -/
theorem C133_machine (inj : Function.Injective cfg.id) (hb : Addr.Sound z.book) (r : Run cfg U fail anyStep z is h s) {a : Sock} {so : Source} {sv : Nat} {q : List Peer.Out}
    (hq : s.qPeer = .evConnecting a so sv :: q) (h0 : ∀ ka, z.book.get a.ip = some ka → ka.lastSuccess = none) (hn : ∀ b n, .evNegotiated b n ∈ s.taken → b.ip ≠ a.ip)
    (l : Legal U fail e .next) (hs : s.step cfg e .next = .ok s') {s1 s2 : State} (hp : ReflTransGen (NextQuiet cfg U fail a.ip) s' s1) {e' : Env} {i : Input}
    (l' : Legal U fail e' i) (hs' : s1.step cfg e' i = .ok s2) {b : Sock} (hbip : b.ip = a.ip) (ho : .connect b ∈ Peer.added s1.peer s2.peer) :
    b ∈ cfg.peer.persistent ∨ i = .connect b := by
  obtain ⟨is1, h1, r1⟩ := run_next inj r l hs
  obtain ⟨is2, h2, r2⟩ := next_run inj r1 (quiet_next hp)
  rcases (dialed_draws r2 l' hs' ho).2 with h2 | h2 | ⟨-, x, m, ea, pred, ⟨na, src⟩, m', g1, g2, g3, g4, g5⟩
  · exact .inl h2
  · exact .inr h2
  · exfalso
    obtain ⟨⟨la, ra, hh⟩, -⟩ := run_heard r
    obtain ⟨ma, sr, k1, k2, -⟩ := step_addrEffect hs
    simp only [addrInput, hq] at k1
    simp only [drawsFor, Bool.false_eq_true, if_false] at k2
    obtain ⟨c, k1⟩ := k1
    rw [← k2.2] at k1
    obtain ⟨y, hy, hyq⟩ := quiet_steps hp
    have never : Addr.NeverMet z.book la a.ip := by
      refine ⟨h0, fun en hen hneg => ?_⟩
      obtain ⟨b, hb1, hb2⟩ := heardOp_negotiates hneg
      have := List.mem_filterMap.2 ⟨en, hen, hb1⟩
      rw [hh] at this
      unfold heard at this
      obtain ⟨o, ho1, ho2⟩ := List.mem_filterMap.1 (List.mem_reverse.1 this)
      cases o <;> simp only [heardOut, Option.some.injEq, reduceCtorEq, Heard.negotiated.injEq] at ho2
      subst ho2
      exact hn _ _ ho1 hb2
    have hst := Addr.Steps.step (addr_steps_trans hy g1) (show (Addr.Op.sample ea pred).Fair from g3) g4
    refine Addr.C133_tried hb ra never k1 hst (fun en hen => ?_) List.mem_cons_self g5 hbip
    rcases List.mem_cons.1 hen with rfl | hen
    · exact ⟨id, id⟩
    · exact (List.mem_append.1 hen).elim (g2.quiet a.ip en) (hyq en)

end Verif.Machine
