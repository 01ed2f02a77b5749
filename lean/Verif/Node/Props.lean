import Verif.Node.Watch
import Verif.Wallet.Props

/-!
# The state machine: properties
-/

set_option autoImplicit false

namespace Verif.Node
open Verif.Tx (Block Transaction OutPoint TxOut)
open Verif.Chain (Header)
open Verif.Cbf (Matches)

variable {cfg : Cfg} {U : Header → Prop} {fail : Bool} {t0 : Chain.State} {n n' : Fsm} {g : Header} {h : Hist}
  {P : Hist → Fsm → Input → Fsm → List Out → Prop}

/-! ## C88: the parts keep their guarantees -/

/-- **C88.** In every history of the whole state machine, whatever the peers and the user do: the header tree answers consistently (C01), and every manager is in a
state it reaches by a history of its own, so that everything proved about the managers holds. -/
theorem C88_parts (c : Ctx cfg U fail t0 g) (r : Run cfg U fail P t0 h n) : Chain.ConsistentView cfg.sync.chain g n.tree ∧
    (∃ hs, Sync.Run cfg.sync U fail (fun _ _ => True) t0 hs n.sync n.tree) ∧ (∃ hi, Inv.Run cfg.cbf.checked hi n.inv) ∧
    ∃ l, Cbf.Log cfg.cbf l n.cbf :=
  have p := run_parts r
  ⟨c.view p, p.sync, p.inv, p.cbf⟩

/-! ## C89: scanned filters -/

theorem Run.keep {a b : List (Input × List Out)} : ∀ {n' : Fsm}, Run cfg U fail Calm t0 (a ++ b) n' → ∃ n, Run cfg U fail Calm t0 b n ∧ n.tree.chain <+: n'.tree.chain := by
  induction a with
  | nil => intro n' r; exact ⟨n', r, List.prefix_rfl⟩
  | cons x a ih =>
    intro n' r
    rw [List.cons_append] at r
    rcases r with _ | ⟨e, r, l, hs, ho, p⟩
    obtain ⟨n, r0, hp⟩ := ih r
    exact ⟨n, r0, hp.trans p.chain⟩

theorem step_scanned (c : Ctx cfg U fail t0 g) {e : Env} {i : Input} {outs : List Out} (r : Run cfg U fail Calm t0 h n) (l : Legal U fail e i)
    (hs : n.step cfg e i = .ok n') (ho : n'.log = n.log ++ outs) (p : Calm h n i n' outs) :
    ∃ a, Goes cfg (watching ((i, outs) :: h)) (Tracked ((i, outs) :: h)) a n n' := by
  have j := run_J c r
  have hw := run_watching (.step e r l hs ho p)
  have hT := run_tracked (.step e r l hs ho p)
  by_cases hr : ∃ a b v, i = .rescan a b v
  · obtain ⟨a, b, v, rfl⟩ := hr
    exact ⟨_, goes_rescan j.fits hs hT⟩
  · by_cases hv : ∃ v, i = .watch v
    · obtain ⟨v, rfl⟩ := hv
      simp only [Fsm.step] at hs
      obtain ⟨h1, h2⟩ := Cbf.step_order cfg.cbf _ _ n.cbf n'.cbf _ (called_scans hs).1 rfl
      exact ⟨_, goes_of j.fits hs rfl hw hT h1 h2⟩
    · refine ⟨_, goes_step j l hs p ho (fun a b v hx => hr ⟨a, b, v, hx⟩) (fun v hx => hv ⟨v, hx⟩) ?_ hT⟩
      rw [run_watching r]
      cases i <;> first | rfl | exact absurd ⟨_, _, _, rfl⟩ hr | exact absurd ⟨_, rfl⟩ hv

theorem Run.grow (c : Ctx cfg U fail t0 g) {a b : List (Input × List Out)} : ∀ {n' : Fsm}, Run cfg U fail Calm t0 (a ++ b) n' →
    ∃ n, Run cfg U fail Calm t0 b n ∧ (∀ h k, (view cfg n.tree).byHeight h = some k → (view cfg n'.tree).byHeight h = some k) ∧
      ∃ ext, n'.cbf.filters.all = n.cbf.filters.all ++ ext := by
  induction a with
  | nil => intro n' r; exact ⟨n', r, fun _ _ h => h, [], by simp⟩
  | cons x a ih =>
    intro n' r
    rw [List.cons_append] at r
    rcases r with _ | ⟨e, r, l, hs, ho, p⟩
    obtain ⟨n, r0, hk, ext, hx⟩ := ih r
    obtain ⟨_, go⟩ := step_scanned c r l hs ho p
    obtain ⟨ext', hx'⟩ := go.grow
    exact ⟨n, r0, fun h k hh => go.keep h k (hk h k hh), ext ++ ext', by rw [hx', hx, List.append_assoc]⟩

/-- **C89, what holds.** In a calm history, every filter reported as scanned is the one the filter headers commit to at that height, the block reported is the one at that height
of the active chain, and the filter was reported to match iff it matches the scripts watched at that moment (or the outputs of transactions watched).  Missing: re-orgs, for which see
`C31_scans_reverted_block`. -/
theorem C89_scanned_partial (c : Ctx cfg U fail t0 g) {later earlier : Hist} {i : Input} {outs : List Out}
    (r : Run cfg U fail Calm t0 (later ++ (i, outs) :: earlier) n) : ∀ height hash mt, (height, hash, mt) ∈ scans outs →
    onChain cfg n height = some hash ∧ ∃ f txs, filterAt cfg n height f ∧ Tracked ((i, outs) :: earlier) txs ∧
      (mt = true ↔ Matches cfg.cbf (watching ((i, outs) :: earlier)) txs f hash) := by
  intro height hash mt hx
  obtain ⟨n1, r1, hk, hg⟩ := Run.grow c r
  rcases r1 with _ | ⟨e, r, l, hs, ho, p⟩
  obtain ⟨_, go⟩ := step_scanned c r l hs ho p
  obtain ⟨d, h1, _, h3⟩ := go.out
  rw [List.append_cancel_left (ho.symm.trans h1)] at hx
  obtain ⟨h1, f, txs, hT, h2, h3⟩ := (h3 _ hx).later hk hg
  rw [byHeight_view] at h1
  exact ⟨h1, f, txs, h2, hT, h3⟩

theorem scanned_onChain (c : Ctx cfg U fail t0 g) (r : Run cfg U fail Calm t0 h n) {x : Nat × Nat × Bool} (hx : x ∈ scans (outputs h)) :
    onChain cfg n x.1 = some x.2.1 := by
  obtain ⟨y, hy, he⟩ := List.mem_filterMap.1 hx
  obtain ⟨z, hz, hm⟩ := List.mem_flatMap.1 hy
  obtain ⟨a, b, hab⟩ := List.append_of_mem (List.mem_reverse.1 hz)
  subst hab
  exact (C89_scanned_partial c r _ _ _ (List.mem_filterMap.2 ⟨y, hm, he⟩)).1

/-! ## C90: blocks are reported in the order in which their filters matched -/

theorem mem_found {l : List Out} {height hash : Nat} (hx : (height, hash) ∈ found l) : (height, hash, true) ∈ scans l := by
  rw [found_scans, List.mem_filterMap] at hx
  obtain ⟨⟨a, b, mt⟩, hm, he⟩ := hx
  split at he
  · rename_i ht
    simp only at ht
    subst ht
    cases he
    exact hm
  · cases he

/-- **C90, what holds.** In a calm history, the blocks reported are, in the same order and each once, the first of those whose filters were found to match; each is the block at
the height of the active chain, as it was sent by a peer.  Missing: re-orgs, blocks requested by the user, and rescans that start before everything was reported, or find
matching filters in memory (`C90_user_request`, `C90_cached_match`). -/
theorem C90_reports_partial (c : Ctx cfg U fail t0 g) (r : Run cfg U fail Calm t0 h n) :
    (reported (outputs h)).map (fun p => (p.1, p.2.hash)) <+: found (outputs h) ∧
    ∀ p ∈ reported (outputs h), onChain cfg n p.1 = some p.2.hash ∧ Sent p.2 h := by
  have j := run_J c r
  have hl := run_log r
  have hp := j.core.prefix
  have ht := j.told
  rw [hl] at hp ht
  refine ⟨hp, fun p hm => ⟨?_, ht p hm⟩⟩
  have hm' : (p.1, p.2.hash) ∈ found (outputs h) := hp.subset (List.mem_map.2 ⟨p, hm, rfl⟩)
  exact scanned_onChain c r (mem_found hm')

/-- **C90 (all are reported), what holds.** In a calm history, when every block found to match was received since and all outputs were taken, all of them are reported. -/
theorem C90_complete_partial (c : Ctx cfg U fail t0 g) (r : Run cfg U fail Calm t0 h n) (ha : ∀ k, ¬ Awaited k h) (hd : Drained n) :
    (reported (outputs h)).map (fun p => (p.1, p.2.hash)) = found (outputs h) := by
  have j := run_J c r
  have hl := run_log r
  have hc := j.core
  rw [hd.2.1, hl] at hc
  exact hc.complete fun k hk => ha k (j.await k hk)

/-! ## C91: a rescan reports all matching blocks -/

theorem outputs_append (a b : Hist) : outputs (a ++ b) = outputs b ++ outputs a := by simp [outputs]

theorem Followed.later {x : Nat × List Nat} (f : Followed h x) (l : Hist) : Followed (l ++ h) x := by
  obtain ⟨t, e, hx⟩ := f
  refine ⟨t, e, hx.imp (fun ⟨o, h⟩ => ⟨o, List.mem_append_right _ h⟩) fun h => ?_⟩
  rw [outputs_append]
  exact List.mem_append_left _ h

/-- What is scanned since a rescan was started. -/
theorem since (c : Ctx cfg U fail t0 g) {s : Nat} {stop : Cbf.Bound} {w : List Nat} {outs : List Out} {later : Hist}
    (r : Run cfg U fail Calm t0 (later ++ (.rescan (.included s) stop w, outs) :: h) n')
    (hl : ∀ x ∈ later, (∀ a b v, x.1 ≠ .rescan a b v) ∧ ∀ v, x.1 ≠ .watch v) :
    (scans (outputs (later ++ [(.rescan (.included s) stop w, outs)]))).map (·.1) =
      List.range' s (scans (outputs (later ++ [(.rescan (.included s) stop w, outs)]))).length ∧
    ∀ x ∈ scans (outputs (later ++ [(.rescan (.included s) stop w, outs)])), Scanned cfg w (fun txs => ∀ x ∈ txs, Followed (later ++ (.rescan (.included s) stop w, outs) :: h) x) n' x := by
  obtain ⟨n, r0, go⟩ := run_goes (T := fun txs => ∀ x ∈ txs, Followed (later ++ (.rescan (.included s) stop w, outs) :: h) x) c r hl
    (fun l1 l2 m e r x hx => by rw [e, List.append_assoc]; exact ((run_tracked r).only x hx).later l1)
  obtain ⟨d, h1, h2, h3⟩ := go.out
  rw [run_log r, run_log r0, show later ++ (Input.rescan (.included s) stop w, outs) :: h = (later ++ [(Input.rescan (.included s) stop w, outs)]) ++ h by simp,
    outputs_append] at h1
  rw [List.append_cancel_left h1]
  have hs : (Cbf.Bound.included s).first (view cfg n.tree) = s := rfl
  rw [hs] at h2
  refine ⟨?_, h3⟩
  rw [h2]
  congr 1
  have := congrArg List.length h2
  simpa using this.symm

/-- The blocks reported since are those found since. -/
theorem since_reported (c : Ctx cfg U fail t0 g) {s : Nat} {stop : Cbf.Bound} {w : List Nat} {outs : List Out} {later : Hist}
    (r : Run cfg U fail Calm t0 (later ++ (.rescan (.included s) stop w, outs) :: h) n')
    (ha : ∀ k, ¬ Awaited k (later ++ (.rescan (.included s) stop w, outs) :: h)) (hd : Drained n') :
    (reported (outputs (later ++ [(.rescan (.included s) stop w, outs)]))).map (fun p => (p.1, p.2.hash)) =
      found (outputs (later ++ [(.rescan (.included s) stop w, outs)])) := by
  have all := C90_complete_partial c r ha hd
  obtain ⟨n1, r1, _⟩ := Run.keep r
  rcases r1 with _ | ⟨e, r0, l, hs, ho, p⟩
  have h0 := (p.rescan _ _ _ rfl).1
  rw [show later ++ (Input.rescan (.included s) stop w, outs) :: h = (later ++ [(Input.rescan (.included s) stop w, outs)]) ++ h by simp,
    outputs_append, reported_append, found_append, List.map_append, h0] at all
  exact List.append_cancel_left all

/-- **C91, what holds.** A rescan from the height `s` on for the scripts `w`, in a calm history in which no other rescan and no other script is asked for since:
the heights scanned since are `s`, `s + 1`, … without gap; when every matching block was received and all outputs were taken, the heights reported since are ascending, and
every block of those heights whose filter (any the filter headers commit to) contains one of the scripts was reported; and only blocks are reported whose filters contain one of the
scripts or all outputs of a transaction that was submitted or reverted.  Missing: as for `C90_reports_partial`. -/
theorem C91_rescan_partial (c : Ctx cfg U fail t0 g) {s : Nat} {stop : Cbf.Bound} {w : List Nat} {outs : List Out} {later : Hist}
    (r : Run cfg U fail Calm t0 (later ++ (.rescan (.included s) stop w, outs) :: h) n')
    (hl : ∀ x ∈ later, (∀ a b v, x.1 ≠ .rescan a b v) ∧ ∀ v, x.1 ≠ .watch v)
    (ha : ∀ k, ¬ Awaited k (later ++ (.rescan (.included s) stop w, outs) :: h)) (hd : Drained n') :
    let l := outputs (later ++ [(.rescan (.included s) stop w, outs)])
    (scans l).map (·.1) = List.range' s (scans l).length ∧
    ((reported l).map (·.1)).Pairwise (· < ·) ∧
    (∀ height, s ≤ height → height < s + (scans l).length → ∀ hash, onChain cfg n' height = some hash →
      w ≠ [] → (∀ f, filterAt cfg n' height f → cfg.cbf.matchAny f hash w = some true) → ∃ b, (height, b) ∈ reported l ∧ b.hash = hash) ∧
    ∀ height b, (height, b) ∈ reported l → ∃ f txs, filterAt cfg n' height f ∧
      (∀ x ∈ txs, Followed (later ++ (.rescan (.included s) stop w, outs) :: h) x) ∧ Matches cfg.cbf w txs f b.hash := by
  intro l
  obtain ⟨h1, h2⟩ := since c r hl
  have h3 := since_reported c r ha hd
  refine ⟨h1, ?_, ?_, ?_⟩
  · have h4 : (reported l).map (·.1) = (found l).map (·.1) := by rw [← h3, List.map_map]; rfl
    rw [h4, found_scans]
    have h5 : ((scans l).map (·.1)).Pairwise (· < ·) := by rw [h1]; exact List.pairwise_lt_range' ..
    rw [List.pairwise_map] at h5 ⊢
    refine List.Pairwise.filterMap _ ?_ h5
    intro a a' haa x hx y hy
    split at hx
    · split at hy
      · simp only [Option.some.injEq] at hx hy
        subst hx hy
        exact haa
      · cases hy
    · cases hx
  · intro height hle hlt hash hch hw hm
    have h4 : height ∈ (scans l).map (·.1) := by rw [h1, List.mem_range'_1]; exact ⟨hle, hlt⟩
    obtain ⟨⟨a, k, mt⟩, hx, rfl⟩ := List.mem_map.1 h4
    obtain ⟨x1, f', txs, _, x2, x3⟩ := h2 _ hx
    rw [byHeight_view] at x1
    have hk : k = hash := by
      simp only [onChain] at hch
      simp only at x1
      rw [hch] at x1
      exact (Option.some.inj x1).symm
    subst hk
    have hmt : mt = true := x3.2 (.inl ⟨hw, hm f' x2⟩)
    subst hmt
    have hfound : (a, k) ∈ found l := by
      rw [found_scans, List.mem_filterMap]
      exact ⟨_, hx, rfl⟩
    rw [← h3] at hfound
    obtain ⟨⟨a', b⟩, hb', he⟩ := List.mem_map.1 hfound
    simp only [Prod.mk.injEq] at he
    obtain ⟨rfl, rfl⟩ := he
    exact ⟨b, hb', rfl⟩
  · intro height b hb
    have hfound : (height, b.hash) ∈ found l := by
      rw [← h3]
      exact List.mem_map.2 ⟨_, hb, rfl⟩
    obtain ⟨_, f, txs, hT, x2, x3⟩ := h2 _ (mem_found hfound)
    exact ⟨f, txs, x2, hT, x3.1 rfl⟩

/-! ## C93: the order of messages does not matter -/

/-- **C93, what holds.** Two calm histories with a rescan from the same height for the same scripts, followed by messages in any order, and which end with the same chains of blocks and filter
headers, have reported the same blocks at the same heights in the same order, when as many heights were scanned in both, every matching block was received and all outputs were taken.
No two blocks with the same hash were sent.  Missing: re-orgs, transactions watched, and what is missing in `C90_reports_partial`. -/
theorem C93_order_partial {U1 U2 : Header → Prop} {fail1 fail2 : Bool} {t1 t2 : Chain.State} {g1 g2 : Header} (c1 : Ctx cfg U1 fail1 t1 g1) (c2 : Ctx cfg U2 fail2 t2 g2)
    {s : Nat} {stop1 stop2 : Cbf.Bound} {w : List Nat} {outs1 outs2 : List Out} {later1 later2 h1 h2 : Hist} {n1 n2 : Fsm}
    (r1 : Run cfg U1 fail1 Calm t1 (later1 ++ (.rescan (.included s) stop1 w, outs1) :: h1) n1)
    (r2 : Run cfg U2 fail2 Calm t2 (later2 ++ (.rescan (.included s) stop2 w, outs2) :: h2) n2)
    (hl1 : ∀ x ∈ later1, (∀ a b v, x.1 ≠ .rescan a b v) ∧ ∀ v, x.1 ≠ .watch v) (hl2 : ∀ x ∈ later2, (∀ a b v, x.1 ≠ .rescan a b v) ∧ ∀ v, x.1 ≠ .watch v)
    (ha1 : ∀ k, ¬ Awaited k (later1 ++ (.rescan (.included s) stop1 w, outs1) :: h1)) (ha2 : ∀ k, ¬ Awaited k (later2 ++ (.rescan (.included s) stop2 w, outs2) :: h2))
    (hd1 : Drained n1) (hd2 : Drained n2)
    (hn1 : NoTransactions (later1 ++ (.rescan (.included s) stop1 w, outs1) :: h1)) (hn2 : NoTransactions (later2 ++ (.rescan (.included s) stop2 w, outs2) :: h2))
    (hb : ∀ b1 b2, Sent b1 (later1 ++ (.rescan (.included s) stop1 w, outs1) :: h1) → Sent b2 (later2 ++ (.rescan (.included s) stop2 w, outs2) :: h2) →
      b1.hash = b2.hash → b1 = b2)
    (len : Nat) (e1 : (scans (outputs (later1 ++ [(.rescan (.included s) stop1 w, outs1)]))).length = len)
    (e2 : (scans (outputs (later2 ++ [(.rescan (.included s) stop2 w, outs2)]))).length = len) (hsame : SameChain cfg w n1 n2 s len) :
    reported (outputs (later1 ++ [(.rescan (.included s) stop1 w, outs1)])) = reported (outputs (later2 ++ [(.rescan (.included s) stop2 w, outs2)])) := by
  have no : ∀ {h : Hist}, NoTransactions h → ∀ {txs : Verif.AMap Nat (List Nat)}, (∀ x ∈ txs, Followed h x) → txs = [] := by
    intro h hn txs hx
    refine List.eq_nil_iff_forall_not_mem.2 fun x hm => ?_
    obtain ⟨t, _, ⟨o, ho⟩ | ho⟩ := hx x hm
    · exact hn.1 t o ho
    · exact hn.2 t ho
  obtain ⟨a1, b1⟩ := since c1 r1 hl1
  obtain ⟨a2, b2⟩ := since c2 r2 hl2
  have f1 := since_reported c1 r1 ha1 hd1
  have f2 := since_reported c2 r2 ha2 hd2
  have sent : ∀ {U : Header → Prop} {fail : Bool} {t : Chain.State} {g : Header} {stop : Cbf.Bound} {outs : List Out} {later h : Hist} {n : Fsm}, Ctx cfg U fail t g →
      Run cfg U fail Calm t (later ++ (.rescan (.included s) stop w, outs) :: h) n →
      ∀ p ∈ reported (outputs (later ++ [(.rescan (.included s) stop w, outs)])), Sent p.2 (later ++ (.rescan (.included s) stop w, outs) :: h) := by
    intro U fail t g stop outs later h n c r p hp
    refine ((C90_reports_partial c r).2 p ?_).2
    rw [show later ++ (Input.rescan (.included s) stop w, outs) :: h = (later ++ [(Input.rescan (.included s) stop w, outs)]) ++ h by simp, outputs_append, reported_append]
    exact List.mem_append_right _ hp
  have s1 := sent c1 r1
  have s2 := sent c2 r2
  generalize outputs (later1 ++ [(Input.rescan (.included s) stop1 w, outs1)]) = l1 at *
  generalize outputs (later2 ++ [(Input.rescan (.included s) stop2 w, outs2)]) = l2 at *
  have hscan : scans l1 = scans l2 := by
    refine List.ext_getElem (e1.trans e2.symm) fun i hi1 hi2 => ?_
    have p1 : (scans l1)[i].1 = s + i := by
      have : ((scans l1).map (·.1))[i]'(by simpa using hi1) = s + i := by simp [a1]
      simpa using this
    have p2 : (scans l2)[i].1 = s + i := by
      have : ((scans l2).map (·.1))[i]'(by simpa using hi2) = s + i := by simp [a2]
      simpa using this
    obtain ⟨x1, y1, txs1, T1, z1, m1⟩ := b1 _ (List.getElem_mem hi1)
    obtain ⟨x2, y2, txs2, T2, z2, m2⟩ := b2 _ (List.getElem_mem hi2)
    rw [byHeight_view] at x1 x2
    generalize (scans l1)[i] = u1 at *
    generalize (scans l2)[i] = u2 at *
    obtain ⟨height1, k1, mt1⟩ := u1
    obtain ⟨height2, k2, mt2⟩ := u2
    simp only at p1 p2 x1 x2 z1 z2 m1 m2
    subst p1 p2
    have hi : i < len := e1 ▸ hi1
    have hk : k1 = k2 := by
      have := hsame.blocks i hi
      simp only [onChain] at this
      rw [x1, x2] at this
      exact Option.some.inj this
    have hf := hsame.filters i hi y1 y2 k1 z1 z2 x1
    have ht1 := no hn1 T1
    have ht2 := no hn2 T2
    subst hk ht1 ht2
    have : mt1 = mt2 := by
      refine Bool.eq_iff_iff.2 (m1.trans (Iff.trans ?_ m2.symm))
      simp only [Matches, hf]
      simp
    rw [this]
  have hrep : (reported l1).map (fun p => (p.1, p.2.hash)) = (reported l2).map (fun p => (p.1, p.2.hash)) := by
    rw [f1, f2, found_scans, found_scans, hscan]
  refine List.ext_getElem (by simpa using congrArg List.length hrep) fun i hi1 hi2 => ?_
  have q : ((reported l1).map (fun p => (p.1, p.2.hash)))[i]'(by simpa using hi1) = ((reported l2).map (fun p => (p.1, p.2.hash)))[i]'(by simpa using hi2) := by
    simp only [hrep]
  simp only [List.getElem_map, Prod.mk.injEq] at q
  exact Prod.ext q.1 (hb _ _ (s1 _ (List.getElem_mem hi1)) (s2 _ (List.getElem_mem hi2)) q.2)

/-! ## C92: the wallet -/

section
open Verif.Wallet (Codec Pays Unspent Sane Db scan)

theorem unspent_append {c : Codec} {addrs : List Nat} (a b : List Transaction) (k : OutPoint) (o : TxOut) :
    Unspent c addrs (a ++ b) k o ↔ Unspent c addrs b k o ∨ (Unspent c addrs a k o ∧ ∀ t ∈ b, k ∉ t.inputs) := by
  constructor
  · rintro ⟨pre, tx, post, h1, h2, h3⟩
    rcases List.append_eq_append_iff.1 h1 with ⟨z, z1, z2⟩ | ⟨z, z1, z2⟩
    · exact .inl ⟨z, tx, post, z2, h2, h3⟩
    · cases z with
      | nil => exact .inl ⟨[], tx, post, by simpa using z2.symm, h2, h3⟩
      | cons y z =>
        simp only [List.cons_append, List.cons.injEq] at z2
        obtain ⟨rfl, rfl⟩ := z2
        refine .inr ⟨⟨pre, tx, z, z1, h2, fun t ht => h3 t ?_⟩, fun t ht => h3 t ?_⟩
        · simp only [List.mem_cons, List.mem_append] at ht ⊢; tauto
        · simp only [List.mem_cons, List.mem_append]; tauto
  · rintro (⟨pre, tx, post, h1, h2, h3⟩ | ⟨⟨pre, tx, post, h1, h2, h3⟩, h4⟩)
    · exact ⟨a ++ pre, tx, post, by simp [h1], h2, h3⟩
    · refine ⟨pre, tx, post ++ b, by simp [h1], h2, fun t ht => ?_⟩
      simp only [List.mem_cons, List.mem_append] at ht
      rcases ht with ht | ht | ht
      · exact h3 t (by simp [ht])
      · exact h3 t (by simp [ht])
      · exact h4 t ht

/-- Leaving out blocks that do not concern the addresses changes nothing. -/
theorem unspent_filter {α : Type} {c : Codec} {addrs : List Nat} {T : List Transaction} (f : α → Block) (m : α → Bool) (k : OutPoint) (o : TxOut) :
    ∀ l : List α, (∀ x ∈ l, ∀ t ∈ (f x).txs, t ∈ T) → (∀ x ∈ l, m x = false → ¬ Concerns c addrs T (f x)) →
    (Unspent c addrs ((l.map f).flatMap (·.txs)) k o ↔ Unspent c addrs (((l.filter m).map f).flatMap (·.txs)) k o)
  | [], _, _ => Iff.rfl
  | x :: l, hT, hm => by
    have ih := unspent_filter (c := c) (addrs := addrs) (T := T) f m k o l (fun y hy => hT y (List.mem_cons_of_mem _ hy)) (fun y hy => hm y (List.mem_cons_of_mem _ hy))
    rw [List.map_cons, List.flatMap_cons, unspent_append, ih]
    have pays : Unspent c addrs (f x).txs k o → ∃ t ∈ T, Pays c addrs t k o := by
      rintro ⟨pre, tx, post, h1, h2, _⟩
      exact ⟨tx, hT x (List.mem_cons_self ..) tx (by rw [h1]; simp), h2⟩
    cases hx : m x with
    | true =>
      rw [List.filter_cons_of_pos hx, List.map_cons, List.flatMap_cons, unspent_append]
      refine or_congr_right ⟨fun ⟨h1, h2⟩ => ⟨h1, fun t ht => h2 t ?_⟩, fun ⟨h1, h2⟩ => ⟨h1, fun t ht hk => ?_⟩⟩
      · obtain ⟨b, hb, ht⟩ := List.mem_flatMap.1 ht
        obtain ⟨y, hy, rfl⟩ := List.mem_map.1 hb
        exact List.mem_flatMap.2 ⟨_, List.mem_map_of_mem (List.mem_filter.1 hy).1, ht⟩
      · obtain ⟨b, hb, ht⟩ := List.mem_flatMap.1 ht
        obtain ⟨y, hy, rfl⟩ := List.mem_map.1 hb
        cases hmy : m y with
        | true => exact h2 t (List.mem_flatMap.2 ⟨_, List.mem_map_of_mem (List.mem_filter.2 ⟨hy, hmy⟩), ht⟩) hk
        | false =>
          obtain ⟨t', ht', hp⟩ := pays h1
          exact hm y (List.mem_cons_of_mem _ hy) hmy ⟨t, ht, .inr ⟨k, hk, t', ht', o, hp⟩⟩
    | false =>
      rw [List.filter_cons_of_neg (by simp [hx])]
      refine ⟨fun h => h.resolve_right fun h' => ?_, .inl⟩
      obtain ⟨pre, tx, post, h1, h2, _⟩ := h'.1
      exact hm x (List.mem_cons_self ..) hx ⟨tx, by rw [h1]; simp, .inl ⟨k, o, h2⟩⟩

/-- **C92, what holds.** The wallet, with a fresh database, scans the blocks that are reported after it asked for a rescan from the height `s` on for the scripts of its addresses.  In a
calm history, when every matching block was received and all outputs were taken: the coins in the database are exactly the outputs paid to the wallet's addresses in the blocks of the
active chain at the heights scanned, and not spent there.  `Genuine`: the blocks sent by peers are the blocks of the chain, and their filters contain what they should.  Missing: what is
missing in `C90_reports_partial`; and nothing in the client checks that the transactions of a block belong to its hash, so that blocks sent by peers need not be
genuine (`C92_forged_block`). -/
theorem C92_wallet_partial (ctx : Ctx cfg U fail t0 g) {c : Codec} (hc : c.Sound) {addrs : List Nat} (hne : addrs ≠ []) {s : Nat} {stop : Cbf.Bound}
    {outs : List Out} {later : Hist}
    (r : Run cfg U fail Calm t0 (later ++ (.rescan (.included s) stop (c.watch addrs), outs) :: h) n')
    (hl : ∀ x ∈ later, (∀ a b v, x.1 ≠ .rescan a b v) ∧ ∀ v, x.1 ≠ .watch v)
    (ha : ∀ k, ¬ Awaited k (later ++ (.rescan (.included s) stop (c.watch addrs), outs) :: h)) (hd : Drained n')
    (len : Nat) (hlen : len = (scans (outputs (later ++ [(.rescan (.included s) stop (c.watch addrs), outs)]))).length)
    (blocks : Nat → Block) (hg : Genuine cfg c addrs (later ++ (.rescan (.included s) stop (c.watch addrs), outs) :: h) n' blocks s len)
    (hs : Sane (((List.range' s len).map blocks).flatMap (·.txs))) {db : Db} {balance : Nat}
    (e : scan c (c.watch addrs) ((reported (outputs (later ++ [(.rescan (.included s) stop (c.watch addrs), outs)]))).map (·.2)) (Db.new, 0) = .ok (db, balance))
    (k : OutPoint) (o : TxOut) :
    db.utxo c k = some o ↔ Unspent c addrs (((List.range' s len).map blocks).flatMap (·.txs)) k o := by
  obtain ⟨h1, h2⟩ := since ctx r hl
  have h3 := since_reported ctx r ha hd
  have told := (run_J ctx r).told
  rw [run_log r, show later ++ (Input.rescan (.included s) stop (c.watch addrs), outs) :: h =
    (later ++ [(Input.rescan (.included s) stop (c.watch addrs), outs)]) ++ h by simp, outputs_append, reported_append] at told
  rw [← hlen] at h1
  generalize outputs (later ++ [(Input.rescan (.included s) stop (c.watch addrs), outs)]) = l at *
  -- the heights scanned
  have hall : (List.range' s len).map blocks = (scans l).map (fun x => blocks x.1) := by
    rw [← h1, List.map_map]; rfl
  have at' : ∀ x ∈ scans l, ∃ i < len, x.1 = s + i := by
    intro x hx
    have : x.1 ∈ List.range' s len := by rw [← h1]; exact List.mem_map_of_mem hx
    rw [List.mem_range'_1] at this
    exact ⟨x.1 - s, by omega, by omega⟩
  have hhash : ∀ x ∈ scans l, (blocks x.1).hash = x.2.1 := by
    intro x hx
    obtain ⟨i, hi, he⟩ := at' x hx
    obtain ⟨x1, _⟩ := h2 x hx
    rw [byHeight_view] at x1
    rw [he] at x1 ⊢
    exact hg.hash i hi _ x1
  -- the blocks reported
  have hrep : (reported l).map (·.2) = ((scans l).filter (fun x => x.2.2)).map (fun x => blocks x.1) := by
    have f1 : found l = ((scans l).filter (fun x => x.2.2)).map (fun x => (x.1, x.2.1)) := by
      rw [found_scans]
      clear * -
      induction scans l with
      | nil => rfl
      | cons x l ih =>
        obtain ⟨a, b, mt⟩ := x
        cases mt <;> simp [ih]
    have f2 : (reported l).map (·.2) = (reported l).map (fun p => blocks p.1) := by
      refine List.map_congr_left fun p hp => ?_
      have hm : (p.1, p.2.hash) ∈ found l := by rw [← h3]; exact List.mem_map.2 ⟨p, hp, rfl⟩
      have hsc := mem_found hm
      obtain ⟨i, hi, he⟩ := at' _ hsc
      have hh := hhash _ hsc
      simp only at he hh
      rw [he] at hh ⊢
      exact hg.sent i hi p.2 (by simpa using told p (List.mem_append_right _ hp)) hh.symm
    have f3 : (reported l).map (fun p => blocks p.1) = (found l).map (fun p => blocks p.1) := by rw [← h3, List.map_map]; rfl
    rw [f2, f3, f1, List.map_map]; rfl
  have sub : ∀ t ∈ ((reported l).map (·.2)).flatMap (·.txs), t ∈ ((List.range' s len).map blocks).flatMap (·.txs) := by
    intro t ht
    rw [hrep] at ht
    rw [hall]
    obtain ⟨b, hb', ht⟩ := List.mem_flatMap.1 ht
    obtain ⟨y, hy, rfl⟩ := List.mem_map.1 hb'
    exact List.mem_flatMap.2 ⟨_, List.mem_map_of_mem (List.mem_filter.1 hy).1, ht⟩
  rw [Wallet.C57_coins hc ⟨fun t ht t' ht' => hs.ids t (sub t ht) t' (sub t' ht'), fun t ht => hs.amounts t (sub t ht)⟩ e, hrep, hall]
  rw [← unspent_filter (T := ((List.range' s len).map blocks).flatMap (·.txs)) (fun x => blocks x.1) (fun x : Nat × Nat × Bool => x.2.2) k o (scans l)]
  · intro x hx t ht
    rw [hall]
    exact List.mem_flatMap.2 ⟨_, List.mem_map_of_mem hx, ht⟩
  · intro x hx hm hcon
    obtain ⟨i, hi, he⟩ := at' x hx
    obtain ⟨x1, f, txs, _, x2, x3⟩ := h2 x hx
    have hw : c.watch addrs ≠ [] := by simpa [Codec.watch] using hne
    rw [he] at x2 hcon
    have := hg.filter i hi f x2 hcon
    rw [← he, hhash x hx] at this
    have : x.2.2 = true := x3.2 (.inl ⟨hw, this⟩)
    rw [hm] at this
    cases this

end

end Verif.Node
