import Verif.Addr.PropsTried
import Verif.Chain.PropsValid
import Verif.Peer.Scenarios
/-!
# Further concrete cases

For theorems with several hypotheses: a case in which all of them hold at once, and what the theorem then says.
-/

set_option autoImplicit false

namespace Verif.Witnesses

/-! ## Chain: checkpoints -/

section Chain
open Verif.Chain Verif.Chain.Scenario

/-- The headers of the two branches. -/
def U4 (h : Header) : Prop := h ∈ [a1, a2, b1, b2]

instance (h : Header) : Decidable (U4 h) := inferInstanceAs (Decidable (h ∈ [a1, a2, b1, b2]))

theorem acyclic4 : Acyclic cfgCp U4 := ⟨id, by
  have : ∀ h ∈ [a1, a2, b1, b2], id h.prev < id (cfgCp.hash h) := by decide
  exact this⟩

theorem free4 : CollisionFree cfgCp U4 := by
  have : ∀ a ∈ [a1, a2, b1, b2], ∀ b ∈ [a1, a2, b1, b2], cfgCp.hash a = cfgCp.hash b → a = b := by decide
  exact fun a b ha hb => this a ha b hb

theorem reach4 : Reach cfgCp U4 g false sCp := by
  refine Reach.importBlocks _ .init ?_ (by decide)
  intro p hp
  simp only [List.mem_cons, List.not_mem_nil, or_false] at hp
  rcases hp with rfl | rfl | rfl <;> exact ⟨by decide, eOk _⟩

/-- `C10_checkpoint_final_partial`: no chain of fewer than two of these headers has as much work as the chain up to the checkpoint at height two; another header of the branch does not change it. -/
example : 2 ≤ (importBlocks cfgCp sCp [(b2, e)]).1.height ∧ (importBlocks cfgCp sCp [(b2, e)]).1.headers.take 3 = [g, a1, a2] := by
  have := C10_checkpoint_final_partial acyclic4 free4 rfl reach4 (hs := [(b2, e)]) (by simp only [List.mem_singleton]; rintro p rfl; exact ⟨by decide, eOk _⟩) (n := 2) (cp := 12) (by decide) (by decide)
    (by decide) (by
      intro l t hp hu hl
      match l, hl with
      | [], _ => decide
      | [x], _ =>
        have : ∀ x ∈ [a1, a2, b1, b2], totalWork cfgCp [g, x] < totalWork cfgCp (sCp.headers.take (2 + 1)) := by decide
        exact this x (hu x List.mem_cons_self)
      | _ :: _ :: _, hl => simp only [List.length_cons] at hl; omega)
  exact ⟨this.1, this.2.trans (by decide)⟩

/-- `C10_fork_below_checkpoint_rejected`: a new header on top of the first block, below the checkpoint. -/
example : (importBlock cfgCp e sCp (mk 31 1 500 99)).1 = sCp ∧ ∃ er, (importBlock cfgCp e sCp (mk 31 1 500 99)).2 = .err er :=
  C10_fork_below_checkpoint_rejected (U := U) acyclicCp rfl (by decide) (reachCp false) (eOk false) (by decide) (n := 0) (b := g) (by decide) (by decide) (p := (2, 12)) (by decide) (by decide)
    (by decide) (by decide)

end Chain

/-! ## The address manager -/

section Addr
open Verif.Addr Verif.Addr.Scenario

/-- After the handshake of the history `ops1`. -/
def met : Mgr := (exec (start book 600000) (ops1.take 4)).2

theorem met_run : Run cfg book (exec (start book 600000) (ops1.take 4)).1 met := run book (by decide) 600000 _ fun op h => fair1 op (List.mem_of_mem_take h)

/-- `C42_inserted`: two addresses are announced; the last of them is in the book afterwards. -/
example : ∃ res m', met.step cfg (.message env 600200 a (.addr ([(0, nb)] ++ [(500, nc)]))) = .ok (res, m') ∧ (m'.peers.get c.ip).isSome := by
  obtain ⟨res, m', h⟩ := C39_no_panic met_run (.message env 600200 a (.addr ([(0, nb)] ++ [(500, nc)]))) fair
  exact ⟨res, m', h, C42_inserted met_run env fair 600200 a [(0, nb)] 500 nc (by decide) (time := 600000) (by decide)
    ⟨by decide, by decide, by decide, by decide, by decide, rfl, by decide, by decide, by decide, by decide, by decide⟩ h⟩

/-- `C42_known_kept_partial`: what is said of an address that is known does not matter. -/
example : ∃ res m', met.step cfg (.message env 600200 a (.addr [(700, { nb with services := 1033 })])) = .ok (res, m') ∧ m'.peers.get b.ip = met.peers.get b.ip := by
  obtain ⟨res, m', h⟩ := C39_no_panic met_run (.message env 600200 a (.addr [(700, { nb with services := 1033 })])) fair
  refine ⟨res, m', h, ?_⟩
  have := C42_known_kept_partial met_run env fair 600200 a _ b.ip (by decide) (by decide) h
  rwa [if_neg (by decide)] at this

/-- `C40_transient`. -/
example : ∃ res m', met.step cfg (.disconnected a .transient) = .ok (res, m') ∧ m'.peers = met.peers ∧ m'.bans = [] := by
  obtain ⟨res, m', h⟩ := C39_no_panic met_run (.disconnected a .transient) trivial
  obtain ⟨h1, h2⟩ := C40_transient met_run a .transient (.inl rfl) h
  exact ⟨res, m', h, h1, h2.trans (by decide)⟩

end Addr

/-! ## The peer manager -/

section Peer
open Verif.Peer Verif.Peer.Scenario

/-- `C45_target`: at the start, with three candidates. -/
example : opened.conns.length + opened.connecting.length ≤ cfg.target :=
  C45_target (cfg := cfg) (tr := []) (op := .init [cand a, cand b, cand c]) (run (ops := [.tick 1000000]) (legal_of (by decide)) (by decide)) trivial (m' := opened) rfl
    (a := b) (s := .dns) (f := 9) (by decide) (by decide)

/-- `C46_wakeup`: the persistent peer is lost. -/
example : ∃ m', (after pcfg (lost.take 4)).step pcfg (.disconnected a .connection []) = .ok m' ∧ .timer 1000 ∈ added (after pcfg (lost.take 4)) m' := by
  have r : Run pcfg [] (lost.take 4).reverse (after pcfg (lost.take 4)) := run (legal_of (by decide)) (by decide)
  obtain ⟨m', e⟩ : ∃ m', (after pcfg (lost.take 4)).step pcfg (.disconnected a .connection []) = .ok m' := ⟨_, rfl⟩
  refine ⟨m', e, ?_⟩
  have := C46_wakeup (by decide) r (by decide) e
  have hd : delay pcfg (losses a (lost.take 4).reverse) = 1000 := by decide
  rwa [hd] at this

/-- `C46_only`: the connection that is asked for a second later is the one that was scheduled. -/
example : ∃ t, Scheduled pcfg a lost.reverse t ∧ t ≤ timeOf lost.reverse := by
  obtain ⟨m', e⟩ : ∃ m', (after pcfg lost).step pcfg (.timer id []) = .ok m' := ⟨_, rfl⟩
  have hc := (C46_retry (by decide) lost_run (legal_timer []) e (by decide) lost_scheduled (by decide) (by decide) (by decide) (by decide)).1
  rcases C46_only (by decide) lost_run (legal_timer []) e (by decide) hc with ⟨-, _, h⟩ | h | ⟨-, t, h1, h2, -⟩
  · cases h
  · cases h
  · exact ⟨t, h1, h2⟩

/-- `C46_delay_doubles`, `C46_delay_max` and `C46_delay_bounds` with the settings of the client. -/
example : delay pcfg 5 = 32000 ∧ delay pcfg 40 = 3600000 ∧ 1000 ≤ delay pcfg 7 :=
  ⟨C46_delay_doubles 5 (by decide) (by decide) (by decide), C46_delay_max 40 (by decide) (by decide) (by decide), (C46_delay_bounds (cfg := pcfg) 7 (by decide)).1⟩

/-- An attempt to connect, six seconds ago. -/
def tried : List Op := [.tick 1000000, .init [cand a], .attempted a, .tick 1006000]

/-- `C72_slow_connect` and `C72_only`: it is given up. -/
example : ∃ m', (after cfg tried).step cfg (.timer id []) = .ok m' ∧ .disconnect a (.timeout "connection") ∈ added (after cfg tried) m' ∧ (after cfg tried).isConnecting a = true := by
  have r : Run cfg [] tried.reverse (after cfg tried) := run (legal_of (by decide)) (by decide)
  obtain ⟨m', e⟩ : ∃ m', (after cfg tried).step cfg (.timer id []) = .ok m' := ⟨_, rfl⟩
  have h := (C72_slow_connect r (legal_timer []) e (a := a) (t := 1000000) (by decide)).2 (by decide)
  refine ⟨m', e, h, ?_⟩
  rcases C72_only r (legal_timer []) e h with ⟨-, h'⟩ | ⟨h', -⟩
  · simp at h'
  · exact h'

end Peer

end Verif.Witnesses
