import Verif.Sync.PropsDownload
import Verif.Chain.ScenariosReorg

/-!
# C105 for forks: the answer of an honest peer that has a heavier chain
-/

set_option autoImplicit false

namespace Verif.Sync
open Verif.Chain (Header State Err ImportResult)

variable {cfg : Cfg} {U : Header → Prop} {fail : Bool} {P : State → Op → Prop} {g : Header} {t0 st : State}
variable {m m' : Mgr} {t t' : State} {h : Hist} {op : Op} {a : Nat}

/-- Blocks of the active chain are skipped. -/
theorem loop_active (ha : Chain.Acyclic cfg.chain U) (hg : cfg.chain.genesisHash = cfg.chain.hash g) (ht : Chain.Reach cfg.chain U g false t) :
    ∀ (l l2 : List (Header × Chain.Env)) (acc : Chain.Acc) (i : Nat), (∀ p ∈ l, p.1 ∈ t.headers) →
      ∃ i', Chain.importLoop cfg.chain t acc i (l ++ l2) = Chain.importLoop cfg.chain t acc i' l2
  | [], _, _, i, _ => ⟨i, rfl⟩
  | (x, e) :: l, l2, acc, i, hl => by
    have v := Chain.C01_consistent_view ha hg ht
    obtain ⟨n, hn⟩ := List.mem_iff_getElem?.1 (hl (x, e) List.mem_cons_self)
    have hk : t.contains (cfg.chain.hash x) = true := (v.contains _).2 ⟨n, x, by rw [Chain.getByHeight_headers]; exact hn, rfl⟩
    have himp : Chain.importBlock cfg.chain e t x = (t, .err (.duplicate (cfg.chain.hash x))) := by
      unfold Chain.importBlock
      simp only
      rw [if_pos]
      rw [State.contains] at hk
      simp [hk]
    obtain ⟨i', h1⟩ := loop_active ha hg ht l l2 acc (i + 1) (fun p hp => hl p (List.mem_cons_of_mem _ hp))
    refine ⟨i', ?_⟩
    rw [List.cons_append, Chain.importLoop, himp]
    exact h1

/-- Where an answer to a request for all headers starts. -/
theorem answer_from (ha : Chain.Acyclic cfg.chain U) (hg : cfg.chain.genesisHash = cfg.chain.hash g) (hs : Chain.Reach cfg.chain U g fail st)
    (hz : st.contains 0 = false) {locs : List Nat} (hne : locs ≠ []) {l : List Header} (e : Chain.locateHeaders st locs 0 2000 = .ok l) :
    ∃ j, ((∃ x, st.headers[j]? = some x ∧ cfg.chain.hash x ∈ locs) ∨ j = 0) ∧ l = (st.headers.drop (j + 1)).take 2000 := by
  obtain ⟨l', h1, -, h3⟩ := Chain.C13_locate_headers ha hg hs locs 0 2000
  rw [e] at h1
  cases h1
  have v := Chain.C01_consistent_view ha hg hs
  obtain ⟨j, hj, last, hlast, rfl⟩ := h3 hne
  refine ⟨j, ?_, ?_⟩
  · rcases hj with ⟨k, hk, y, hy⟩ | ⟨-, rfl⟩
    · obtain ⟨h1, h2⟩ := (v.byHash _ _ _).1 hy
      rw [Chain.getByHeight_headers] at h1
      subst h2
      exact .inl ⟨y, h1, List.mem_of_find?_eq_some hk⟩
    · exact .inr rfl
  · have hln : last = st.height := by
      rcases hlast with ⟨y, hy⟩ | ⟨-, hy⟩
      · have := (v.contains 0).2 ⟨last, y, (v.byHash _ _ _).1 hy⟩
        rw [hz] at this; cases this
      · exact hy
    subst hln
    unfold Chain.segment
    have := (tip_at ha hg hs).1
    by_cases hq : 2000 ≤ st.height - j
    · rw [Nat.min_eq_left hq]
    · rw [Nat.min_eq_right (by omega), List.take_of_length_le (by rw [List.length_drop]; omega),
        List.take_of_length_le (by rw [List.length_drop]; omega)]

/-- **C105 (forks, part).** A peer has a valid chain that forks off ours above height `n` and carries more work; its headers above the fork are unknown to us.
We asked it for headers, with hashes of blocks of our active chain, and no stale headers are known.  If the answer goes up to the peer's tip, then our active chain
is the peer's chain afterwards.  Partial: the peer's chain must be complete in one answer (2000 headers); the restrictions of `C124_heaviest_partial`
(in `Delivery`).  If what we get in the first answer does not carry more work: `C105_fork_never_adopted`.  (Release builds.) -/
theorem C105_fork_adopted_partial (hc : cfg.chain.checked = false) (hp : Chain.ParamsOK cfg.chain) (hmin : cfg.chain.allowMin = false)
    (ha : Chain.Acyclic cfg.chain U) (hg : cfg.chain.genesisHash = cfg.chain.hash g) (h0 : Chain.Reach cfg.chain U g false t0)
    (hst : Chain.Reach cfg.chain U g fail st) (hz : st.contains 0 = false) (r : Run cfg U false P t0 h m t) {n : Nat} {b : Header} {fork : List Header}
    (hchain : st.headers = t.headers.take (n + 1) ++ fork) (hd : Chain.Delivery cfg.chain U t n b fork)
    (hmore : Chain.totalWork cfg.chain t.headers < Chain.totalWork cfg.chain st.headers)
    {s : Sent} (w : awaiting cfg a h = some s) (hne : s.locators.1 ≠ []) (hloc : ∀ k ∈ s.locators.1, t.contains k = true) (hstop : s.locators.2 = 0)
    {env : Env} {now : Nat} {hs : List (Header × Chain.Env)} (ans : Chain.locateHeaders st s.locators.1 s.locators.2 2000 = .ok (hs.map (·.1)))
    (hall : (hs.map (·.1)).getLast? = st.headers.getLast?) (l : (Op.headers env now a hs).Legal U false)
    (valid : ∀ p ∈ hs, Chain.ValidBeyond cfg.chain p.2.clock (t.headers.take (n + 1)) fork ∧ Chain.NoWrapBeyond cfg.chain p.2.clock (t.headers.take (n + 1)) fork)
    (e : { m with out := [] }.step cfg t (.headers env now a hs) = .ok (m', t')) : t'.headers = st.headers := by
  have ht := run_reach h0 r
  have hi := (Chain.reach_inv ha hg ht).1
  have vt := Chain.C01_consistent_view ha hg ht
  have vs := Chain.C01_consistent_view ha hg hst
  obtain ⟨hn, -⟩ := Chain.take_base hd.base
  have hlt : (t.headers.take (n + 1)).length = n + 1 := by rw [List.length_take]; omega
  have hfw : Chain.totalWork cfg.chain (t.headers.drop (n + 1)) < Chain.totalWork cfg.chain fork := by
    have h1 : Chain.totalWork cfg.chain t.headers = Chain.totalWork cfg.chain (t.headers.take (n + 1)) + Chain.totalWork cfg.chain (t.headers.drop (n + 1)) := by
      conv_lhs => rw [← List.take_append_drop (n + 1) t.headers]
      rw [Chain.totalWork_append]
    have h2 : Chain.totalWork cfg.chain st.headers = Chain.totalWork cfg.chain (t.headers.take (n + 1)) + Chain.totalWork cfg.chain fork := by
      rw [hchain, Chain.totalWork_append]
    omega
  have hfne : fork ≠ [] := by
    rintro rfl
    simp [Chain.totalWork] at hfw
  rw [hstop] at ans
  obtain ⟨j, hj, hseg⟩ := answer_from ha hg hst hz hne ans
  -- the answer starts at or below the fork
  have hjn : j ≤ n := by
    rcases hj with ⟨x, hx, hk⟩ | rfl
    · by_contra hgt
      rw [hchain, List.getElem?_append_right (by omega)] at hx
      have hu := hd.unknown x (List.mem_of_getElem? hx)
      have := hloc _ hk
      rw [Chain.State.isKnown, Bool.or_eq_false_iff] at hu
      rw [Chain.State.contains] at this
      rw [this] at hu
      exact absurd hu.1 (by simp)
    · exact Nat.zero_le _
  -- and goes to the end
  have hfull : hs.map (·.1) = st.headers.drop (j + 1) := by
    rw [hseg]
    apply List.take_of_length_le
    by_contra hgt
    have hlen : (st.headers.drop (j + 1)).length = st.headers.length - (j + 1) := List.length_drop
    rw [hseg, List.getLast?_eq_getElem?, List.length_take, Nat.min_eq_left (by omega), List.getElem?_take, if_pos (by omega), List.getElem?_drop,
      List.getLast?_eq_getElem?] at hall
    have hlt1 : j + 1 + (2000 - 1) < st.headers.length := by omega
    have hlt2 : st.headers.length - 1 < st.headers.length := by omega
    rw [List.getElem?_eq_getElem hlt1, List.getElem?_eq_getElem hlt2] at hall
    have e1 := Option.some.inj hall
    have b1 := (vs.byHash _ _ _).2 ⟨by rw [Chain.getByHeight_headers]; exact List.getElem?_eq_getElem hlt1, rfl⟩
    have b2 := (vs.byHash _ _ _).2 ⟨by rw [Chain.getByHeight_headers]; exact List.getElem?_eq_getElem hlt2, rfl⟩
    rw [e1, b2] at b1
    have := congrArg Prod.fst (Option.some.inj b1)
    simp only at this
    omega
  have hlen : hs.length ≤ 2000 := by
    have := congrArg List.length hseg
    rw [List.length_map, List.length_take] at this
    omega
  have hsplit : hs.map (·.1) = (t.headers.take (n + 1)).drop (j + 1) ++ fork := by
    rw [hfull, hchain, List.drop_append_of_le_length (by omega)]
  obtain ⟨l1, l2, rfl, h1, h2⟩ := List.map_eq_append_iff.1 hsplit
  -- the last one is new
  obtain ⟨last, hlast⟩ : ∃ last, l2.getLast? = some last := by
    cases hq : l2.getLast? with
    | none =>
      rw [List.getLast?_eq_none_iff.1 hq] at h2
      exact absurd h2.symm hfne
    | some x => exact ⟨x, rfl⟩
  have hlm : last.1 ∈ fork := by
    rw [← h2]
    exact List.mem_map_of_mem (List.mem_of_getLast? hlast)
  have hnew : t.contains (cfg.chain.hash last.1) = false := by
    have hu := hd.unknown _ hlm
    rw [Chain.State.isKnown, Bool.or_eq_false_iff] at hu
    exact hu.1
  have hcon : connected a h ≠ none := C50_connected r a (by rw [w]; simp)
  have htt := C50_wanted r e hlen hcon (.inl (by rw [w]; simp)) (last := last) (by rw [List.getLast?_append, hlast]; rfl) hnew
  rw [htt, Chain.importBlocks_fst]
  obtain ⟨i', hi'⟩ := loop_active ha hg ht l1 l2 ⟨[], [], [], t.height, cfg.chain.hash t.last.header, t.last.header⟩ 0 (by
    intro p hp'
    have : p.1 ∈ (t.headers.take (n + 1)).drop (j + 1) := by rw [← h1]; exact List.mem_map_of_mem hp'
    exact List.mem_of_mem_take (List.mem_of_mem_drop this))
  rw [hi']
  have hm := Chain.midway_loop hc hp hmin ha hi hd l2 t ⟨[], [], [], t.height, cfg.chain.hash t.last.header, t.last.header⟩ i' [] [] (by simp [h2])
    (fun p hp' => by
      have hp2 : p ∈ l1 ++ l2 := List.mem_append_right _ hp'
      exact ⟨(l.2 p hp2).2, valid p hp2⟩)
    ⟨hi, .inl ⟨rfl, by simp [hd.noStale], by simp [Chain.totalWork]⟩⟩
  rw [List.nil_append, h2] at hm
  rcases hm.2 with ⟨-, -, k⟩ | ⟨k, -, -⟩
  · omega
  · rw [k, hchain]

end Verif.Sync

namespace Verif.Sync.Scenario
open Verif.Chain (Header State Err ImportResult)
open Verif.Chain.Scenario (a1 b1 b2 g e)

/-- We have `a1`; a peer that says it has two blocks connects and is asked. -/
def lagging : List Cmd := [.give [a1], .peer 7300000 1 2 false true]

/-- What it has: `b1` and `b2`, off genesis. -/
def ahead : State := (Chain.importBlocks (conf false).chain (fresh false) [(b1, e), (b2, e)]).1

theorem ahead_reach : Chain.Reach (conf false).chain U g false ahead :=
  .importBlocks _ (reach false false) (fun p hp => by
    simp only [List.mem_cons, List.not_mem_nil, or_false] at hp
    rcases hp with rfl | rfl <;> exact ⟨by decide, Chain.Scenario.eOk _⟩) (by decide)

theorem ahead_valid : Chain.ValidBeyond (conf false).chain e.clock [g] [b1, b2] ∧ Chain.NoWrapBeyond (conf false).chain e.clock [g] [b1, b2] := by
  refine ⟨fun i x hx => ?_, fun i hi => ?_⟩
  · match i, hx with
    | 0, hx => cases hx; exact ⟨⟨g, rfl, rfl⟩, ⟨⟨100, by decide, by decide⟩, by decide, by decide⟩, by decide, by decide, fun cp h => by cases h⟩
    | 1, hx => cases hx; exact ⟨⟨b1, rfl, rfl⟩, ⟨⟨201, by decide, by decide⟩, by decide, by decide⟩, by decide, by decide, fun cp h => by cases h⟩
    | n + 2, hx => simp at hx
  · match i, hi with
    | 0, _ => exact ⟨by decide, fun l h => by cases h; decide, fun f l h1 h2 => by cases h1; cases h2; decide⟩
    | 1, _ => exact ⟨by decide, fun l h => by cases h; decide, fun f l h1 h2 => by cases h1; cases h2; decide⟩
    | n + 2, hi => simp at hi

theorem ahead_delivery : Chain.Delivery (conf false).chain U (tree false lagging) 0 g [b1, b2] where
  base := by decide
  checkpoint := by decide
  noStale k := by
    have : (tree false lagging).orphans = [] := by decide
    rw [this]; rfl
  unknown := by decide
  univ := by decide
  work := by decide
  short := by decide
  later := by decide

/-- C105: the peer's answer makes its chain ours. -/
example {m' : Mgr} {t' : State}
    (e1 : { state false lagging with out := [] }.step (conf false) (tree false lagging) (.headers env 7300020 1 [(b1, e), (b2, e)]) = .ok (m', t')) :
    t'.headers = [g, b1, b2] := by
  have r : Run (conf false) U false Any (fresh false) (hist false lagging) (state false lagging) (tree false lagging) := run (by decide) (by decide)
  have h := C105_fork_adopted_partial (n := 0) (b := g) (fork := [b1, b2]) (s := ⟨7300000, ([11, 1], 0), .other⟩) (hs := [(b1, e), (b2, e)]) rfl ⟨by decide, rfl, fun _ => rfl⟩ rfl (acyclic false) rfl
    (reach false false) ahead_reach (by decide) r (by decide) ahead_delivery (by decide) (by decide) (by decide) (by decide) rfl (by decide) (by decide)
    (Cmd.legal (c := .recv 7300020 1 [b1, b2]) (by decide)) (fun p hp => by
      simp only [List.mem_cons, List.not_mem_nil, or_false] at hp
      rcases hp with rfl | rfl <;> exact ahead_valid) e1
  rw [h]
  decide

/-- And it is processed. -/
example : ∃ m' t', { state false lagging with out := [] }.step (conf false) (tree false lagging) (.headers env 7300020 1 [(b1, e), (b2, e)]) = .ok (m', t') := ⟨_, _, rfl⟩

end Verif.Sync.Scenario
