import Verif.Sync.Scenarios
import Verif.Chain.PropsAccept

/-!
# Downloading the chain of an honest peer: C105

A peer answers our requests for headers as `locate_headers` does on its own tree (C13).
-/

set_option autoImplicit false

namespace Verif.Sync
open Verif.Chain (Header State Err ImportResult)

variable {cfg : Cfg} {U : Header → Prop} {fail : Bool} {P : State → Op → Prop} {g : Header} {t0 st : State}
variable {m m' : Mgr} {t t' : State} {h : Hist} {op : Op} {a : Nat}

/-- At network time `clock`, each header of the chain after the first obeys the consensus rules given those before it
(`Chain.ValidNext`), carries work, and no 32-bit time overflows. -/
structure ValidChain (cfg : Chain.Cfg) (clock : Nat) (chain : List Header) : Prop where
  next : ∀ n x, chain[n + 1]? = some x → Chain.ValidNext cfg clock (chain.take (n + 1)) x
  wrap : ∀ n, Chain.NoWrap cfg clock (chain.take (n + 1))
  work : ∀ x ∈ chain, 0 < cfg.work x.bits

/-- What happens after the history `h0`: the peer `a`, whose tree is `st`, answers our requests, each with at most 2000 headers;
and other things happen that bring no headers and do not end a request to the peer.  The number counts the answers.  While headers are
imported the store works and network time is such that the peer's chain is valid. -/
inductive Talk (cfg : Cfg) (U : Header → Prop) (st : State) (a : Nat) (h0 : Hist) (m0 : Mgr) (t0 : State) : Nat → Hist → Mgr → State → Prop where
  | start : Talk cfg U st a h0 m0 t0 0 h0 m0 t0
  | answer {k : Nat} {h : Hist} {m m' : Mgr} {t t' : State} {s : Sent} {env : Env} {now : Nat} {hs : List (Header × Chain.Env)}
      (r : Talk cfg U st a h0 m0 t0 k h m t) (w : awaiting cfg a h = some s)
      (ans : Chain.locateHeaders st s.locators.1 s.locators.2 2000 = .ok (hs.map (·.1)))
      (l : (Op.headers env now a hs).Legal U false) (valid : ∀ p ∈ hs, ValidChain cfg.chain p.2.clock st.headers)
      (e : { m with out := [] }.step cfg t (.headers env now a hs) = .ok (m', t')) :
      Talk cfg U st a h0 m0 t0 (k + 1) ((.headers env now a hs, m'.out) :: h) m' t'
  | other {k : Nat} {h : Hist} {m m' : Mgr} {t t' : State} {op : Op} (r : Talk cfg U st a h0 m0 t0 k h m t) (l : op.Legal U false)
      (quiet : op.batch = []) (keeps : release cfg a op (awaiting cfg a h) = awaiting cfg a h)
      (e : { m with out := [] }.step cfg t op = .ok (m', t')) :
      Talk cfg U st a h0 m0 t0 k ((op, m'.out) :: h) m' t'

/-- Any operation may happen. -/
def Whatever (_ : State) (_ : Op) : Prop := True

theorem talk_run {h0 : Hist} {m0 : Mgr} {t1 : State} {k : Nat} (r0 : Run cfg U false Whatever t0 h0 m0 t1)
    (r : Talk cfg U st a h0 m0 t1 k h m t) : Run cfg U false Whatever t0 h m t := by
  induction r with
  | start => exact r0
  | answer _ _ _ l _ e ih => exact .step ih l trivial e
  | other _ l _ _ e ih => exact .step ih l trivial e

theorem importBlocks_nil (c : Chain.Cfg) (t : State) : Chain.importBlocks c t [] = (t, .ok .tipUnchanged) := rfl

/-- Operations without headers leave the tree as it is. -/
theorem quiet_tree (hq : op.batch = []) (e : m.step cfg t op = .ok (m', t')) : t' = t := by
  cases op with
  | headers env now b hs =>
    have : hs = [] := hq
    subst this
    simp only [Mgr.step, Mgr.headers, List.head?_nil, Res.ok.injEq, Prod.mk.injEq] at e
    exact e.2.symm
  | userImport env hs =>
    have : hs = [] := hq
    subst this
    simp only [Mgr.step, Mgr.userImport, importBlocks_nil, Res.ok.injEq, Prod.mk.injEq] at e
    exact e.2.symm
  | gone b => simp only [Mgr.step, Res.ok.injEq, Prod.mk.injEq] at e; exact e.2.symm
  | init env now => simp only [Mgr.step, Res.bind_eq_ok] at e; obtain ⟨_, _, e⟩ := e; cases e; rfl
  | negotiated env now b n x y z => simp only [Mgr.step, Res.bind_eq_ok] at e; obtain ⟨_, _, e⟩ := e; cases e; rfl
  | getheaders b lc => simp only [Mgr.step, Res.bind_eq_ok] at e; obtain ⟨_, _, e⟩ := e; cases e; rfl
  | inv now b items => simp only [Mgr.step, Res.bind_eq_ok] at e; obtain ⟨_, _, e⟩ := e; cases e; rfl
  | timer env now => simp only [Mgr.step, Res.bind_eq_ok] at e; obtain ⟨_, _, e⟩ := e; cases e; rfl

/-- A valid chain can be imported piece by piece. -/
theorem validRun_of_chain {c : Chain.Cfg} {chain : List Header} : ∀ (hs : List (Header × Chain.Env)) (n : Nat), 0 < n → n ≤ chain.length →
    hs.map (·.1) <+: chain.drop n → (∀ p ∈ hs, ValidChain c p.2.clock chain) → Chain.ValidRun c (chain.take n) hs
  | [], _, _, _, _, _ => trivial
  | (x, e) :: hs, n, h0, hn, hp, hv => by
    have hx : chain[n]? = some x := by
      have h1 : (chain.drop n)[0]? = some x := by
        obtain ⟨r, hr⟩ := hp
        rw [← hr]; rfl
      simpa using h1
    have hlt : n < chain.length := (List.getElem?_eq_some_iff.1 hx).1
    have v := hv _ List.mem_cons_self
    have htake : chain.take (n + 1) = chain.take n ++ [x] := by
      rw [List.take_add_one, hx]; rfl
    refine ⟨?_, ?_, v.work x (List.mem_of_getElem? hx), ?_⟩
    · have := v.next (n - 1) x (by rw [Nat.sub_add_cancel h0]; exact hx)
      rwa [Nat.sub_add_cancel h0] at this
    · have := v.wrap (n - 1)
      rwa [Nat.sub_add_cancel h0] at this
    · rw [← htake]
      refine validRun_of_chain hs (n + 1) (by omega) hlt ?_ (fun p hp => hv p (List.mem_cons_of_mem _ hp))
      rw [List.drop_eq_getElem_cons hlt] at hp
      simp only [List.map_cons] at hp
      have := (List.cons_prefix_cons.1 hp).2
      exact this

/-- The answers of a peer are headers of its active chain. -/
theorem answer_mem (ha : Chain.Acyclic cfg.chain U) (hg : cfg.chain.genesisHash = cfg.chain.hash g) (hs : Chain.Reach cfg.chain U g fail st)
    {locs : List Nat} {stop max : Nat} {l : List Header} (e : Chain.locateHeaders st locs stop max = .ok l) : ∀ x ∈ l, x ∈ st.headers := by
  obtain ⟨l', h1, h2, h3⟩ := Chain.C13_locate_headers ha hg hs locs stop max
  rw [e] at h1
  cases h1
  have v := Chain.C01_consistent_view ha hg hs
  intro x hx
  by_cases hl : locs = []
  · rw [h2 hl] at hx
    cases hb : st.getBlock stop with
    | none => rw [hb] at hx; simp at hx
    | some q =>
      rw [hb] at hx
      simp only [Option.map_some, Option.toList_some, List.mem_singleton] at hx
      subst hx
      have := ((v.byHash stop q.1 q.2).1 hb).1
      rw [Chain.getByHeight_headers] at this
      exact List.mem_of_getElem? this
  · obtain ⟨n, -, last, -, rfl⟩ := h3 hl
    exact List.mem_of_mem_drop (List.mem_of_mem_take hx)

/-- The answer to a request that starts at an active block and names no block to stop at. -/
theorem answer_segment (ha : Chain.Acyclic cfg.chain U) (hg : cfg.chain.genesisHash = cfg.chain.hash g) (hs : Chain.Reach cfg.chain U g fail st)
    (hz : st.contains 0 = false) {locs : List Nat} {n max : Nat} {x : Header} {l : List Header} (hx : st.headers[n]? = some x)
    (hl : locs.head? = some (cfg.chain.hash x)) (e : Chain.locateHeaders st locs 0 max = .ok l) :
    l = (st.headers.drop (n + 1)).take (min max (st.height - n)) := by
  obtain ⟨l', h1, -, h3⟩ := Chain.C13_locate_headers ha hg hs locs 0 max
  rw [e] at h1
  cases h1
  have v := Chain.C01_consistent_view ha hg hs
  have hne : locs ≠ [] := by rintro rfl; simp at hl
  obtain ⟨j, hj, last, hlast, rfl⟩ := h3 hne
  have hc : st.contains (cfg.chain.hash x) = true := (v.contains _).2 ⟨n, x, by rw [Chain.getByHeight_headers]; exact hx, rfl⟩
  have hb : st.getBlock (cfg.chain.hash x) = some (n, x) := (v.byHash _ _ _).2 ⟨by rw [Chain.getByHeight_headers]; exact hx, rfl⟩
  obtain ⟨tl, rfl⟩ : ∃ tl, locs = cfg.chain.hash x :: tl := by
    cases locs with
    | nil => simp at hl
    | cons y tl => simp at hl; exact ⟨tl, by rw [hl]⟩
  have hfind : (cfg.chain.hash x :: tl).find? (fun k => st.contains k) = some (cfg.chain.hash x) := by
    rw [List.find?_cons, hc]
  have hjn : j = n := by
    rcases hj with ⟨k, hk, y, hy⟩ | ⟨hall, -⟩
    · rw [hfind] at hk
      cases hk
      rw [hb] at hy
      exact (congrArg Prod.fst (Option.some.inj hy)).symm
    · have := hall _ List.mem_cons_self
      rw [hc] at this; cases this
  have hln : last = st.height := by
    rcases hlast with ⟨y, hy⟩ | ⟨-, hy⟩
    · have := (v.contains 0).2 ⟨last, y, (v.byHash _ _ _).1 hy⟩
      rw [hz] at this; cases this
    · exact hy
  rw [hjn, hln]; rfl

/-- If we have the peer's chain, its answers change nothing. -/
theorem answer_complete (ha : Chain.Acyclic cfg.chain U) (hg : cfg.chain.genesisHash = cfg.chain.hash g) (ht : Chain.Reach cfg.chain U g fail t)
    {hs : List (Header × Chain.Env)} (hm : ∀ p ∈ hs, p.1 ∈ t.headers) {env : Env} {now : Nat}
    (e : m.headers cfg env t now a hs = .ok (m', t')) : t' = t := by
  have v := Chain.C01_consistent_view ha hg ht
  have hi : Ignored m t cfg a hs := by
    cases hq : hs.getLast? with
    | none => exact .inl (List.getLast?_eq_none_iff.1 hq)
    | some last =>
      refine .inr (.inr (.inr ⟨last, hq, (v.contains _).2 ?_⟩))
      obtain ⟨n, hn⟩ := List.mem_iff_getElem?.1 (hm last (List.mem_of_getLast? hq))
      exact ⟨n, last.1, by rw [Chain.getByHeight_headers]; exact hn, rfl⟩
  cases headers_ok e with
  | misbehaved => rfl
  | ignored => rfl
  | known => rfl
  | unchanged _ i => exact absurd hi i
  | aborted _ i => exact absurd hi i
  | changed _ i => exact absurd hi i
  | full _ i => exact absurd hi i

/-- The state of the download. -/
structure Progress (cfg : Cfg) (st : State) (a n : Nat) (h : Hist) (t : State) : Prop where
  headers : t.headers = st.headers.take n
  orphans : ∀ k, t.orphans.get k = none
  asked : t.headers = st.headers ∨ ∃ s, awaiting cfg a h = some s ∧ s.locators.1.head? = some (t.tip cfg.chain).1 ∧ s.locators.2 = 0

theorem tip_at (ha : Chain.Acyclic cfg.chain U) (hg : cfg.chain.genesisHash = cfg.chain.hash g) (ht : Chain.Reach cfg.chain U g fail t) :
    t.headers.length = t.height + 1 ∧ t.headers[t.height]? = some t.last.header := by
  have i := (Chain.reach_inv ha hg ht).1
  have h1 := Chain.headers_length i
  have h2 := Chain.headers_last t
  rw [List.getLast?_eq_getElem?, h1] at h2
  exact ⟨h1, h2⟩

/-- After a full message that changed the tip, the peer is asked for more. -/
theorem full_asks {env : Env} {now : Nat} {hs : List (Header × Chain.Env)} (e : m.headers cfg env t now a hs = .ok (m', t'))
    (hlen : hs.length = 2000) {header : Header} {hash n : Nat} {cn rv : List (Nat × Header)}
    (hch : Chain.importBlocks cfg.chain t hs = (t', .ok (.tipChanged header hash n rv cn))) (hne : t' ≠ t) :
    Out.getHeaders a ([hash], 0) ∈ m'.out := by
  cases headers_ok e with
  | misbehaved h1 => omega
  | ignored => exact absurd rfl hne
  | known => exact absurd rfl hne
  | aborted h1 hi hp hr => rw [hch] at hr; simp at hr
  | unchanged h1 hi hp hr => rw [hch] at hr; simp at hr
  | changed h1 => omega
  | @full p m' header' hash' height' rv' cn' hlen hi hp hr e1 =>
    rw [hch] at hr
    cases hr
    obtain ⟨q, k1, -⟩ := updated_get (m := Mgr.heard m now a p) (env := env) (t := (Chain.importBlocks cfg.chain t hs).1)
      (now := now) (a := a) (hash := hash) (height := n) (r := rv) (c := cn) (p := { p with lastActive := some now }) (by rw [heard_get]; simp) a
    obtain ⟨o, h1, h2⟩ := request_ok (K := (· = .disconnect)) e1 rfl
    rcases h2 with ⟨-, -, h2 | h2⟩ | ⟨rfl, -⟩
    · rw [(updated_fields (env := env)).1, AMap.contains_iff, ← AMap.get_isSome_iff] at h2
      simp [Mgr.heard] at h2
    · rw [k1] at h2; simp at h2
    · rw [h1.out]; simp [zeros]

/-- The answer, if a block is missing: it is imported, and the chain grows by it. -/
theorem answer_import (hc : cfg.chain.checked = false) (hp : Chain.ParamsOK cfg.chain) (ha : Chain.Acyclic cfg.chain U)
    (cf : Chain.CollisionFree cfg.chain U) (hg : cfg.chain.genesisHash = cfg.chain.hash g)
    (hst : Chain.Reach cfg.chain U g fail st) (hz : st.contains 0 = false) (ht : Chain.Reach cfg.chain U g false t) {n : Nat} (hn : 0 < n)
    (pr : Progress cfg st a n h t) (hcomp : t.headers ≠ st.headers) {s : Sent} {hs : List (Header × Chain.Env)} (w : awaiting cfg a h = some s)
    (ans : Chain.locateHeaders st s.locators.1 s.locators.2 2000 = .ok (hs.map (·.1)))
    (l : ∀ p ∈ hs, U p.1 ∧ Chain.EnvOk false p.2) (valid : ∀ p ∈ hs, ValidChain cfg.chain p.2.clock st.headers) :
    hs.length ≤ 2000 ∧ (∃ last, hs.getLast? = some last ∧ t.contains (cfg.chain.hash last.1) = false) ∧
    ∃ t' conn, Chain.importBlocks cfg.chain t hs = (t', .ok (.tipChanged (t'.tip cfg.chain).2 (t'.tip cfg.chain).1 t'.height [] conn)) ∧
      t'.headers = st.headers.take (n + 2000) ∧ t'.headers ≠ t.headers ∧ (∀ k, t'.orphans.get k = none) ∧
      (hs.length ≠ 2000 → t'.headers = st.headers) := by
  have hlen : n ≤ st.headers.length → t.headers.length = n := fun hle => by rw [pr.headers, List.length_take]; omega
  obtain ⟨s', w', hloc, hstop⟩ := pr.asked.resolve_left hcomp
  rw [w] at w'
  cases w'
  have hlt : n < st.headers.length := by
    by_contra hge
    apply hcomp
    rw [pr.headers, List.take_of_length_le (by omega)]
  have htl := hlen (by omega)
  obtain ⟨hth, htip⟩ := tip_at ha hg ht
  obtain ⟨hsh, -⟩ := tip_at ha hg hst
  have hnt : n = t.height + 1 := by omega
  have hstt : st.headers[t.height]? = some t.last.header := by
    rw [pr.headers, List.getElem?_take] at htip
    rw [if_pos (by omega)] at htip
    exact htip
  rw [hstop] at ans
  have hseg := answer_segment ha hg hst hz hstt hloc ans
  rw [← hnt] at hseg
  have hsl : hs.length = min 2000 (st.headers.length - n) := by
    have := congrArg List.length hseg
    rw [List.length_map, List.length_take, List.length_drop] at this
    omega
  have hne : hs ≠ [] := by
    intro hnil
    rw [hnil, List.length_nil] at hsl
    omega
  have hseg' : hs.map (·.1) = (st.headers.drop n).take 2000 := by
    rw [hseg]
    by_cases hq : 2000 ≤ st.height - t.height
    · rw [Nat.min_eq_left hq]
    · rw [Nat.min_eq_right (by omega), List.take_of_length_le (by rw [List.length_drop]; omega),
        List.take_of_length_le (by rw [List.length_drop]; omega)]
  have hrun : Chain.ValidRun cfg.chain t.headers hs := by
    rw [pr.headers]
    refine validRun_of_chain hs n hn (by omega) ?_ valid
    rw [hseg']
    exact List.take_prefix _ _
  obtain ⟨t1, conn, himp, hh1, ho1⟩ := Chain.C104_valid_batch_accepted hc hp ha cf hg ht pr.orphans hne l hrun
  obtain ⟨last, hlast⟩ : ∃ last, hs.getLast? = some last := by
    cases hq : hs.getLast? with
    | none => exact absurd (List.getLast?_eq_none_iff.1 hq) hne
    | some x => exact ⟨x, rfl⟩
  have vt := Chain.C01_consistent_view ha hg ht
  have vs := Chain.C01_consistent_view ha hg hst
  have hnew : t.contains (cfg.chain.hash last.1) = false := by
    rw [Bool.eq_false_iff]
    intro hk
    obtain ⟨j, x, hj, hx⟩ := (vt.contains _).1 hk
    rw [Chain.getByHeight_headers] at hj
    have hjn : j < n := by
      have := (List.getElem?_eq_some_iff.1 hj).1
      omega
    have hj' : st.headers[j]? = some x := by
      rw [pr.headers, List.getElem?_take, if_pos hjn] at hj
      exact hj
    have hl1 : (hs.map (·.1)).getLast? = some last.1 := by rw [List.getLast?_map, hlast]; rfl
    rw [List.getLast?_eq_getElem?, List.length_map, hseg', List.getElem?_take, if_pos (by omega), List.getElem?_drop] at hl1
    have b1 := (vs.byHash (cfg.chain.hash last.1) j x).2 ⟨by rw [Chain.getByHeight_headers]; exact hj', hx⟩
    have b2 := (vs.byHash (cfg.chain.hash last.1) _ last.1).2 ⟨by rw [Chain.getByHeight_headers]; exact hl1, rfl⟩
    rw [b1] at b2
    have := congrArg Prod.fst (Option.some.inj b2)
    simp only at this
    omega
  have hhead : t1.headers = st.headers.take (n + 2000) := by
    rw [hh1, hseg', pr.headers, List.take_add]
  refine ⟨by omega, ⟨last, hlast, hnew⟩, t1, conn, himp, hhead, ?_, ho1, ?_⟩
  · intro he
    have := congrArg List.length hh1
    rw [he, List.length_append, List.length_map] at this
    omega
  · intro hfull
    rw [hhead, List.take_of_length_le (by omega)]

/-- One answer. -/
theorem answer_step (hc : cfg.chain.checked = false) (hp : Chain.ParamsOK cfg.chain) (ha : Chain.Acyclic cfg.chain U)
    (cf : Chain.CollisionFree cfg.chain U) (hg : cfg.chain.genesisHash = cfg.chain.hash g) (h0 : Chain.Reach cfg.chain U g false t0)
    (hst : Chain.Reach cfg.chain U g fail st) (hz : st.contains 0 = false) (r : Run cfg U false P t0 h m t) {n : Nat} (hn : 0 < n)
    (pr : Progress cfg st a n h t) {s : Sent} {env : Env} {now : Nat} {hs : List (Header × Chain.Env)} (w : awaiting cfg a h = some s)
    (ans : Chain.locateHeaders st s.locators.1 s.locators.2 2000 = .ok (hs.map (·.1)))
    (l : (Op.headers env now a hs).Legal U false) (valid : ∀ p ∈ hs, ValidChain cfg.chain p.2.clock st.headers)
    (e : { m with out := [] }.step cfg t (.headers env now a hs) = .ok (m', t')) :
    Progress cfg st a (n + 2000) ((.headers env now a hs, m'.out) :: h) t' := by
  have ht := run_reach h0 r
  by_cases hcomp : t.headers = st.headers
  · have hm : ∀ p ∈ hs, p.1 ∈ t.headers := by
      intro p hp'
      rw [hcomp]
      exact answer_mem ha hg hst ans p.1 (List.mem_map_of_mem hp')
    have htt := answer_complete ha hg ht hm e
    subst htt
    have hge : st.headers.length ≤ n := by
      have h1 := congrArg List.length pr.headers
      rw [hcomp, List.length_take] at h1
      omega
    exact ⟨by rw [hcomp, List.take_of_length_le (by omega)], pr.orphans, .inl hcomp⟩
  · obtain ⟨hlen, ⟨last, hlast, hnew⟩, t1, conn, himp, hhead, hgrow, ho1, hshort⟩ :=
      answer_import hc hp ha cf hg hst hz ht hn pr hcomp w ans l.2 valid
    have hcon : connected a h ≠ none := C50_connected r a (by rw [w]; simp)
    have ht' : t' = t1 := by
      rw [C50_wanted r e hlen hcon (.inl (by rw [w]; simp)) hlast hnew, himp]
    subst ht'
    refine ⟨hhead, ho1, ?_⟩
    by_cases hfull : hs.length = 2000
    · right
      have one := (C50_one r l e a).1
      have hreq : ([(t'.tip cfg.chain).1], 0) ∈ requests a m'.out := by
        rw [mem_requests]
        exact full_asks e hfull himp (fun he => hgrow (congrArg State.headers he))
      cases hr : requests a m'.out with
      | nil => rw [hr] at hreq; cases hreq
      | cons x xs =>
        rw [hr] at one hreq
        have hxs : xs = [] := by
          cases xs with
          | nil => rfl
          | cons => simp at one
        subst hxs
        rw [List.mem_singleton] at hreq
        refine ⟨⟨now, x, cause (.headers env now a hs) m'.out⟩, ?_, ?_, ?_⟩
        · simp only [awaiting, hr]; rfl
        · rw [← hreq]; rfl
        · rw [← hreq]
    · exact .inl (hshort hfull)

/-- What else happens leaves the download where it is. -/
theorem other_step (r : Run cfg U false P t0 h m t) {n : Nat} (pr : Progress cfg st a n h t) (l : op.Legal U false) (quiet : op.batch = [])
    (keeps : release cfg a op (awaiting cfg a h) = awaiting cfg a h) (e : { m with out := [] }.step cfg t op = .ok (m', t')) :
    Progress cfg st a n ((op, m'.out) :: h) t' := by
  have := quiet_tree quiet e
  subst this
  refine ⟨pr.headers, pr.orphans, pr.asked.imp id ?_⟩
  rintro ⟨s, w, h1, h2⟩
  have hr : requests a m'.out = [] := by
    by_contra hne
    have := ((C50_one r l e a).2 hne).1
    rw [keeps, w] at this
    cases this
  exact ⟨s, by rw [awaiting, hr]; exact keeps.trans w, h1, h2⟩

/-- **C105.** A peer has a valid chain that extends ours, by any number of blocks, and we have asked it for the headers after our tip.  However the
answers and other events interleave: after `k` answers our active chain is the peer's chain up to `2000 * k` blocks above where we were (all of it, if there
are not so many); and as long as a block is missing, a request to the peer is outstanding, and its answer will be processed without a panic.  (Release builds.) -/
theorem C105_download (hc : cfg.chain.checked = false) (hp : Chain.ParamsOK cfg.chain) (ha : Chain.Acyclic cfg.chain U)
    (cf : Chain.CollisionFree cfg.chain U) (hg : cfg.chain.genesisHash = cfg.chain.hash g) (h0 : Chain.Reach cfg.chain U g false t0)
    (hst : Chain.Reach cfg.chain U g fail st) (hz : st.contains 0 = false) (h64 : st.height < 2 ^ 64)
    {hist0 : Hist} {m0 : Mgr} {t1 : State} (r0 : Run cfg U false Whatever t0 hist0 m0 t1) (hpre : t1.headers <+: st.headers)
    (horph : ∀ k, t1.isKnown k = true → t1.contains k = true) {s0 : Sent} (hw : awaiting cfg a hist0 = some s0)
    (hloc : s0.locators.1.head? = some (t1.tip cfg.chain).1) (hstop : s0.locators.2 = 0) {k : Nat}
    (r : Talk cfg U st a hist0 m0 t1 k h m t) :
    t.headers = st.headers.take (t1.height + 1 + 2000 * k) ∧
    (t.headers ≠ st.headers → ∃ s, awaiting cfg a h = some s ∧
      ∃ hs, Chain.locateHeaders st s.locators.1 s.locators.2 2000 = .ok hs ∧
        ∀ env now (es : List (Header × Chain.Env)), es.map (·.1) = hs → (Op.headers env now a es).Legal U false →
          (∀ p ∈ es, ValidChain cfg.chain p.2.clock st.headers) →
          ∃ m' t', { m with out := [] }.step cfg t (.headers env now a es) = .ok (m', t')) := by
  have hreach1 := run_reach h0 r0
  have pr : Progress cfg st a (t1.height + 1 + 2000 * k) h t := by
    induction r with
    | start =>
      refine ⟨?_, ?_, .inr ⟨s0, hw, hloc, hstop⟩⟩
      · have := List.prefix_iff_eq_take.1 hpre
        rw [(tip_at ha hg hreach1).1] at this
        exact this
      · intro q
        cases hq : t1.orphans.get q with
        | none => rfl
        | some x =>
          have h1 := ((Chain.reach_inv ha hg hreach1).1.orphans q x hq).2.2
          have h2 := horph q (by simp [State.isKnown, AMap.contains, hq])
          rw [State.contains, AMap.contains_iff, ← AMap.get_isSome_iff, h1] at h2
          cases h2
    | answer r w ans l valid e ih =>
      rw [Nat.mul_succ, ← Nat.add_assoc]
      exact answer_step hc hp ha cf hg h0 hst hz (talk_run r0 r) (Nat.add_pos_left (Nat.succ_pos _) _) ih w ans l valid e
    | other r l quiet keeps e ih => exact other_step (talk_run r0 r) ih l quiet keeps e
  refine ⟨pr.headers, fun hne => ?_⟩
  obtain ⟨s, w, -, -⟩ := pr.asked.resolve_left hne
  obtain ⟨hs, h1, -⟩ := Chain.C13_locate_headers ha hg hst s.locators.1 s.locators.2 2000
  refine ⟨s, w, hs, h1, fun env now es he l hv => ?_⟩
  have ht := run_reach h0 (talk_run r0 r)
  have hle : ∀ {t' : State} {n : Nat}, Chain.Reach cfg.chain U g false t' → t'.headers = st.headers.take n → t'.height < 2 ^ 64 := by
    intro t' n hr' he'
    have h2 := congrArg List.length he'
    rw [(tip_at ha hg hr').1, List.length_take, (tip_at ha hg hst).1] at h2
    omega
  subst he
  refine C79_no_panic_partial hc ha cf hg h0 (talk_run r0 r) l (hle ht pr.headers) ?_
  obtain ⟨-, -, t2, conn, himp, hhead, -⟩ :=
    answer_import hc hp ha cf hg hst hz ht (Nat.add_pos_left (Nat.succ_pos _) _) pr hne w h1 l.2 hv
  have hnp := Chain.C01_import_no_panic hc ha cf hg ht l.2
  have hr2 := Chain.Reach.importBlocks es ht l.2 hnp
  rw [himp] at hr2
  have hb : (Op.headers env now a es).batch = es := rfl
  rw [hb, himp]
  exact hle hr2 hhead

/-- After a header that is known and stale, the peer is asked for it again. -/
theorem stale_asks {env : Env} {now : Nat} {x : Header} {e1 : Chain.Env} (e : m.headers cfg env t now a [(x, e1)] = .ok (m', t'))
    (ign : ¬ Ignored m t cfg a [(x, e1)]) (himp : Chain.importBlocks cfg.chain t [(x, e1)] = (t, .ok .tipUnchanged)) {l : List Nat}
    (hloc : Chain.locatorHashes cfg.chain t t.height = .ok l) : Out.getHeaders a (l, cfg.chain.hash x) ∈ m'.out := by
  cases headers_ok e with
  | misbehaved h1 => simp at h1
  | ignored _ hi => exact absurd hi ign
  | known _ hi => exact absurd hi ign
  | aborted _ _ _ hr => rw [himp] at hr; cases hr
  | changed _ _ _ hr => rw [himp] at hr; cases hr
  | full _ _ _ hr => rw [himp] at hr; cases hr
  | @unchanged p m' first hashes hlen hi hp hr hf hl e2 =>
    rw [himp] at hl
    have hl : Chain.locatorHashes cfg.chain t t.height = .ok hashes := hl
    rw [hloc] at hl
    cases hl
    cases hf
    obtain ⟨o, h1, h2⟩ := request_ok (K := (· = .ignore)) e2 rfl
    rcases h2 with ⟨-, -, h2 | h2⟩ | ⟨rfl, -⟩
    · rw [AMap.contains_iff, ← AMap.get_isSome_iff] at h2
      simp [Mgr.heard] at h2
    · simp [heard_get] at h2
    · rw [h1.out]; simp

/-- **C105 fails for forks.** Once we asked a peer for the fork that starts with the stale header `x` (which is what is done when a peer's headers do not
change the tip), and the peer answers with `x` as asked, nothing else is ever asked of the peer: after any number of answers, the active chain is still the same
and the same request is outstanding, no matter how much work the peer's chain carries.  (Release builds; debug builds panic, `Scenario.C79_stale_twice`.) -/
theorem C105_fork_never_adopted {hist0 : Hist} {m0 : Mgr} {t1 : State} (r0 : Run cfg U false Whatever t0 hist0 m0 t1) {x : Header}
    (hknown : t1.isKnown (cfg.chain.hash x) = true) (hstale : t1.contains (cfg.chain.hash x) = false) {s0 : Sent}
    (hw : awaiting cfg a hist0 = some s0) (hloc : Chain.locatorHashes cfg.chain t1 t1.height = .ok s0.locators.1)
    (hstop : s0.locators.2 = cfg.chain.hash x) (hans : Chain.locateHeaders st s0.locators.1 s0.locators.2 2000 = .ok [x]) {k : Nat}
    (r : Talk cfg U st a hist0 m0 t1 k h m t) :
    t = t1 ∧ ∃ s, awaiting cfg a h = some s ∧ s.locators = s0.locators := by
  induction r with
  | start => exact ⟨rfl, s0, hw, rfl⟩
  | @other k h m m' t t' op r l quiet keeps e ih =>
    obtain ⟨rfl, s, w, hs⟩ := ih
    refine ⟨quiet_tree quiet e, s, ?_, hs⟩
    have hr : requests a m'.out = [] := by
      by_contra hne
      have := ((C50_one (talk_run r0 r) l e a).2 hne).1
      rw [keeps, w] at this
      cases this
    rw [awaiting, hr]; exact keeps.trans w
  | @answer k h m m' t t' s env now hs r w ans l valid e ih =>
    obtain ⟨rfl, s', w', hs'⟩ := ih
    rw [w] at w'
    cases w'
    rw [hs', hans] at ans
    obtain ⟨e1, rfl⟩ : ∃ e1, hs = [(x, e1)] := by
      match hs, ans with
      | [(y, e1)], ans => simp at ans; exact ⟨e1, by rw [ans]⟩
    have himp : Chain.importBlocks cfg.chain t [(x, e1)] = (t, .ok .tipUnchanged) := by
      have : Chain.importBlock cfg.chain e1 t x = (t, .err (.duplicate (cfg.chain.hash x))) := by
        have hk : (t.index.contains (cfg.chain.hash x) || t.orphans.contains (cfg.chain.hash x)) = true := hknown
        simp only [Chain.importBlock, hk, ite_true]
      simp only [Chain.importBlocks, Chain.importLoop, this]
      rfl
    have rr := talk_run r0 r
    have hcon : connected a h ≠ none := C50_connected rr a (by rw [w]; simp)
    have ht : t' = t := by
      rw [C50_wanted rr e (by simp) hcon (.inl (by rw [w]; simp)) (last := (x, e1)) rfl hstale, himp]
    subst ht
    refine ⟨rfl, ?_⟩
    have i := (run_inv rr).clear
    have ign : ¬ Ignored { m with out := [] } t' cfg a [(x, e1)] := by
      rintro (hnil | ⟨h1, -⟩ | h1 | ⟨y, h1, h2⟩)
      · cases hnil
      · simp at h1
      · apply hcon
        rw [← i.conn a, h1]; rfl
      · have hy : (x, e1) = y := Option.some.inj h1
        rw [← hy, hstale] at h2; cases h2
    have one := (C50_one rr l e a).1
    have hreq : s0.locators ∈ requests a m'.out := by
      rw [mem_requests]
      have := stale_asks e ign himp hloc
      rwa [← hstop] at this
    cases hr : requests a m'.out with
    | nil => rw [hr] at hreq; cases hreq
    | cons y ys =>
      rw [hr] at one hreq
      have hys : ys = [] := by
        cases ys with
        | nil => rfl
        | cons => simp at one
      subst hys
      rw [List.mem_singleton] at hreq
      exact ⟨⟨now, y, cause (.headers env now a [(x, e1)]) m'.out⟩, by simp only [awaiting, hr]; rfl, hreq.symm⟩

/-- Locators start with the tip. -/
theorem locators_head (ha : Chain.Acyclic cfg.chain U) (hg : cfg.chain.genesisHash = cfg.chain.hash g) (ht : Chain.Reach cfg.chain U g fail t)
    (h64 : t.height < 2 ^ 64) {hashes : List Nat} (e : Chain.locatorHashes cfg.chain t t.height = .ok hashes) :
    hashes.head? = some (t.tip cfg.chain).1 := by
  obtain ⟨heights, hashes', h1, h2, h3⟩ := Chain.locatorHashes_from ha hg ht (Nat.le_refl _) h64
  rw [e] at h1
  cases h1
  obtain ⟨tl, hh⟩ : ∃ tl, heights = t.height :: tl := by
    have := h2.head
    cases heights with
    | nil => simp at this
    | cons x tl => simp at this; exact ⟨tl, by rw [this]⟩
  rw [hh, List.filter_cons_of_pos (by simpa using Chain.lastCheckpoint_le (cfg := cfg.chain) t), List.map_cons, Chain.getByHeight_headers,
    (tip_at ha hg ht).2] at h3
  cases hashes with
  | nil => simp at h3
  | cons x xs =>
    simp only [List.map_cons, Option.map_some, List.cons.injEq, Option.some.injEq] at h3
    rw [h3.1]; rfl

/-- **C105 (start).** A client that just started, with any tree, asks the first peer that connects and says that its chain is longer for the headers
after its tip, if the peer serves blocks and not compact filters.  (If it serves compact filters it is not asked, see
`Scenario.C81_all_serve_filters`.) -/
theorem C105_start_partial (hc : cfg.chain.checked = false) (ha : Chain.Acyclic cfg.chain U) (cf : Chain.CollisionFree cfg.chain U)
    (hg : cfg.chain.genesisHash = cfg.chain.hash g) (h0 : Chain.Reach cfg.chain U g false t0) (h64 : t0.height < 2 ^ 64) {env : Env} (hl : env.Legal)
    {now n : Nat} {outbound : Bool} (hn : t0.height < n) :
    ∃ m', Run cfg U false Whatever t0 [(.negotiated env now a n true false outbound, m'.out)] m' t0 ∧
      ∃ s, awaiting cfg a [(.negotiated env now a n true false outbound, m'.out)] = some s ∧
        s.locators.1.head? = some (t0.tip cfg.chain).1 ∧ s.locators.2 = 0 := by
  have l : (Op.negotiated env now a n true false outbound).Legal U false := ⟨hl, by simp [Op.batch]⟩
  have r0 : Run cfg U false Whatever t0 [] Mgr.new t0 := .start
  obtain ⟨m', t', e⟩ := C79_no_panic_partial hc ha cf hg h0 r0 l h64 h64
  have htt := quiet_tree rfl e
  subst htt
  have r1 : Run cfg U false Whatever t' [(.negotiated env now a n true false outbound, m'.out)] m' t' := .step r0 l trivial e
  refine ⟨m', r1, ?_⟩
  have hcon : connected a [(.negotiated env now a n true false outbound, m'.out)] = some ⟨outbound, false, n⟩ := by simp [connected]
  obtain ⟨b, s, hb⟩ := C81_connected_partial r0 l e (by simp) ⟨a, _, hcon, hn⟩ ⟨a, _, hcon, rfl⟩
  have hba : b = a := by
    by_contra hne
    refine C50_connected r1 b (by rw [hb]; simp) ?_
    simp [connected, Ne.symm hne]
  subst hba
  refine ⟨s, hb, ?_⟩
  simp only [awaiting] at hb
  cases hr : requests b m'.out with
  | nil => simp [hr, release] at hb
  | cons x xs =>
    simp only [hr, Option.some.injEq] at hb
    subst hb
    have hx : Out.getHeaders b x ∈ m'.out := mem_requests.1 (by rw [hr]; simp)
    have hw := C50_why r0 l e hx
    cases hw with
    | sync hs hloc ho => exact ⟨locators_head ha hg h0 h64 hloc, rfl⟩
    | fork ho => cases ho
    | more ho => cases ho
    | announced ho => cases ho
    | retry ho => cases ho

end Verif.Sync

namespace Verif.Sync.Scenario
open Verif.Chain (Header State Err ImportResult)
open Verif.Chain.Scenario (a1 a2 a3 b1 b2 b3 b4 g e mk)

/-- The peer's tree. -/
def theirs : State := (Chain.importBlocks (conf false).chain (fresh false) [(a1, e), (a2, e), (a3, e)]).1

theorem theirs_reach : Chain.Reach (conf false).chain U g false theirs :=
  .importBlocks _ (reach false false) (fun p hp => by
    simp only [List.mem_cons, List.not_mem_nil, or_false] at hp
    rcases hp with rfl | rfl | rfl <;> exact ⟨by decide, Chain.Scenario.eOk _⟩) (by decide)

theorem theirs_headers : theirs.headers = [g, a1, a2, a3] := by decide

theorem theirs_valid : ValidChain (conf false).chain e.clock theirs.headers := by
  rw [theirs_headers]
  refine ⟨fun n x hx => ?_, fun n => ?_, by decide⟩
  · match n, hx with
    | 0, hx => cases hx; exact ⟨⟨g, rfl, rfl⟩, ⟨⟨100, by decide, by decide⟩, by decide, by decide⟩, by decide, by decide, fun cp h => by cases h⟩
    | 1, hx => cases hx; exact ⟨⟨a1, rfl, rfl⟩, ⟨⟨200, by decide, by decide⟩, by decide, by decide⟩, by decide, by decide, fun cp h => by cases h⟩
    | 2, hx => cases hx; exact ⟨⟨a2, rfl, rfl⟩, ⟨⟨200, by decide, by decide⟩, by decide, by decide⟩, by decide, by decide, fun cp h => by cases h⟩
    | n + 3, hx => simp at hx
  · match n with
    | 0 => exact ⟨by decide, fun l h => by cases h; decide, fun f l h1 h2 => by cases h1; cases h2; decide⟩
    | 1 => exact ⟨by decide, fun l h => by cases h; decide, fun f l h1 h2 => by cases h1; cases h2; decide⟩
    | 2 => exact ⟨by decide, fun l h => by cases h; decide, fun f l h1 h2 => by cases h1; cases h2; decide⟩
    | n + 3 =>
      rw [List.take_of_length_le (by simp)]
      exact ⟨by decide, fun l h => by cases h; decide, fun f l h1 h2 => by cases h1; cases h2; decide⟩

/-- C105: a fresh client, a peer with three more blocks; the peer's answer, and then a timer. -/
example : ∃ h m t, Talk (conf false) U theirs 1 (hist false [.start 7300000, .peer 7300000 1 3 false true])
      (state false [.start 7300000, .peer 7300000 1 3 false true]) (fresh false) 1 h m t ∧ t.headers = theirs.headers ∧
    Chain.ParamsOK (conf false).chain ∧ theirs.contains 0 = false ∧ (fresh false).headers <+: theirs.headers ∧
    awaiting (conf false) 1 (hist false [.start 7300000, .peer 7300000 1 3 false true]) = some ⟨7300000, ([1], 0), .other⟩ ∧
    ((fresh false).tip (conf false).chain).1 = 1 ∧ ∀ k, (fresh false).isKnown k = true → (fresh false).contains k = true := by
  have r1 : Talk (conf false) U theirs 1 (hist false [.start 7300000, .peer 7300000 1 3 false true])
      (state false [.start 7300000, .peer 7300000 1 3 false true]) (fresh false) 1 _ _ _ :=
    .answer (s := ⟨7300000, ([1], 0), .other⟩) (env := env) (now := 7300020) (hs := [(a1, e), (a2, e), (a3, e)]) .start (by decide) (by decide)
      (Cmd.legal (c := .recv 7300020 1 [a1, a2, a3]) (by decide)) (by
        intro p hp
        simp only [List.mem_cons, List.not_mem_nil, or_false] at hp
        rcases hp with rfl | rfl | rfl <;> exact theirs_valid) rfl
  exact ⟨_, _, _, .other (op := .timer env 7300030) r1 (Cmd.legal (c := .tick 7300030) (by decide)) rfl (by decide) rfl, by decide,
    ⟨by decide, rfl, fun _ => rfl⟩, by decide, by decide, by decide, by decide, fun k h => by simpa [State.isKnown, State.contains, fresh, Chain.new, AMap.contains] using h⟩

/-- We have the chain `a1`, `a2`; a peer announces the header `b1` of a fork. -/
def forked : List Cmd := [.give [a1, a2], .peer 7300000 1 1 false true, .recv 7300000 1 [b1]]

/-- Then the fork becomes longer. -/
def heavier : State := (Chain.importBlocks (conf false).chain (fresh false) [(b1, e), (b2, e), (b3, e), (b4, e)]).1

theorem heavier_headers : heavier.headers = [g, b1, b2, b3, b4] := by decide

theorem heavier_valid : ValidChain (conf false).chain e.clock heavier.headers := by
  rw [heavier_headers]
  refine ⟨fun n x hx => ?_, fun n => ?_, by decide⟩
  · match n, hx with
    | 0, hx => cases hx; exact ⟨⟨g, rfl, rfl⟩, ⟨⟨100, by decide, by decide⟩, by decide, by decide⟩, by decide, by decide, fun cp h => by cases h⟩
    | 1, hx => cases hx; exact ⟨⟨b1, rfl, rfl⟩, ⟨⟨201, by decide, by decide⟩, by decide, by decide⟩, by decide, by decide, fun cp h => by cases h⟩
    | 2, hx => cases hx; exact ⟨⟨b2, rfl, rfl⟩, ⟨⟨201, by decide, by decide⟩, by decide, by decide⟩, by decide, by decide, fun cp h => by cases h⟩
    | 3, hx => cases hx; exact ⟨⟨b3, rfl, rfl⟩, ⟨⟨301, by decide, by decide⟩, by decide, by decide⟩, by decide, by decide, fun cp h => by cases h⟩
    | n + 4, hx => simp at hx
  · match n with
    | 0 => exact ⟨by decide, fun l h => by cases h; decide, fun f l h1 h2 => by cases h1; cases h2; decide⟩
    | 1 => exact ⟨by decide, fun l h => by cases h; decide, fun f l h1 h2 => by cases h1; cases h2; decide⟩
    | 2 => exact ⟨by decide, fun l h => by cases h; decide, fun f l h1 h2 => by cases h1; cases h2; decide⟩
    | 3 => exact ⟨by decide, fun l h => by cases h; decide, fun f l h1 h2 => by cases h1; cases h2; decide⟩
    | n + 4 =>
      rw [List.take_of_length_le (by simp)]
      exact ⟨by decide, fun l h => by cases h; decide, fun f l h1 h2 => by cases h1; cases h2; decide⟩

/-- **C105 fails for forks.** The peer's chain is valid and has more work than ours, and the peer answers every request.  This can go on for any number of
answers, and never changes our chain. -/
theorem C105_fork_loop : Run (conf false) U false Any (fresh false) (hist false forked) (state false forked) (tree false forked) ∧
    ValidChain (conf false).chain e.clock heavier.headers ∧ (tree false forked).chainWork < heavier.chainWork ∧
    (∀ k, ∃ h m t, Talk (conf false) U heavier 1 (hist false forked) (state false forked) (tree false forked) k h m t) ∧
    ∀ k h m t, Talk (conf false) U heavier 1 (hist false forked) (state false forked) (tree false forked) k h m t → t.headers = [g, a1, a2] := by
  have r0 : Run (conf false) U false Any (fresh false) (hist false forked) (state false forked) (tree false forked) := run (by decide) (by decide)
  have key : ∀ {k h m t}, Talk (conf false) U heavier 1 (hist false forked) (state false forked) (tree false forked) k h m t →
      t = tree false forked ∧ ∃ s, awaiting (conf false) 1 h = some s ∧ s.locators = ([12, 11, 1], 21) := fun r =>
    C105_fork_never_adopted (s0 := ⟨7300000, ([12, 11, 1], 21), .other⟩) (x := b1) r0 (by decide) (by decide) (by decide) (by rfl) rfl (by decide) r
  refine ⟨r0, heavier_valid, by decide, fun k => ?_, fun k h m t r => ?_⟩
  · induction k with
    | zero => exact ⟨_, _, _, .start⟩
    | succ k ih =>
      obtain ⟨h, m, t, r⟩ := ih
      obtain ⟨rfl, s, w, hs⟩ := key r
      have l : (Op.headers env 7300000 1 [(b1, e)]).Legal U false := Cmd.legal (c := .recv 7300000 1 [b1]) (by decide)
      obtain ⟨m', t', he⟩ := C79_no_panic_partial rfl (acyclic false) (collisionFree false) rfl (reach false false) (talk_run r0 r) l (by decide) (by decide)
      refine ⟨_, _, _, .answer r w (by rw [hs]; decide) l (fun p hp => ?_) he⟩
      rw [List.mem_singleton] at hp
      subst hp
      exact heavier_valid
  · rw [(key r).1]; decide

end Verif.Sync.Scenario
