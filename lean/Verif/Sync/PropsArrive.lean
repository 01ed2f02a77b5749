import Verif.Sync.Calm

/-!
# C123: we get to the tip of the best chain
-/

set_option autoImplicit false

namespace Verif.Sync
open Verif.Chain (Header State Err ImportResult)

variable {cfg : Cfg} {U : Header → Prop} {fail : Bool} {P : State → Op → Prop} {g : Header} {t0 st : State}
variable {m m' : Mgr} {t t' : State} {h : Hist} {op : Op} {a : Nat}

/-- Something happens again and again. -/
def Often (P : Nat → Prop) : Prop := ∀ n, ∃ j, n ≤ j ∧ P j

/-- What comes in, with the chain `chain` in the network and the tree `t`: headers are successive ones of the chain, starting at most one above our tip, at network
times such that the chain is valid; and blocks announced by `inv` are known already. -/
structure Honest (cfg : Cfg) (chain : List Header) (t : State) (op : Op) : Prop where
  piece : ∃ i, i ≤ t.headers.length ∧ op.batch.map (·.1) <+: chain.drop i
  valid : ∀ p ∈ op.batch, ValidChain cfg.chain p.2.clock chain
  announced : Announced t op

/-- An endless execution of a client that starts with the tree `t0`; the best chain is that of `st`.  Any operations may come in any order, with these conditions: what
comes in is honest; from some time on there is always some peer that does not serve compact filters, and while we are not at the tip some peer with a longer chain than ours;
timers go on; and a request made to peers again and again is answered again and again while it is outstanding, as `locate_headers` does on `st` (so any number of messages
may be lost, and any number of peers may never answer). -/
structure Syncs (cfg : Cfg) (U : Header → Prop) (st t0 : State) (H : Nat → Hist) (f : Nat → Mgr) (T : Nat → State) (op : Nat → Op) : Prop where
  start : H 0 = [] ∧ f 0 = Mgr.new ∧ T 0 = t0
  step : ∀ n, { f n with out := [] }.step cfg (T n) (op n) = .ok (f (n + 1), T (n + 1))
  hist : ∀ n, H (n + 1) = (op n, (f (n + 1)).out) :: H n
  legal : ∀ n, (op n).Legal U false
  honest : ∀ n, Honest cfg st.headers (T n) (op n)
  peers : ∃ N, ∀ n, N ≤ n → Usable (H n) ∧ ((T n).headers ≠ st.headers → Behind (H n) (T n)) ∧ ∀ env now, op n ≠ .init env now
  timer : ∀ d, Often fun n => ∃ env now, op n = .timer env now ∧ d ≤ now
  answered : ∀ lc : Locators, (Often fun n => ∃ a, Out.getHeaders a lc ∈ (f (n + 1)).out) →
    Often fun n => ∃ a s env now hs, awaiting cfg a (H n) = some s ∧ s.locators = lc ∧ op n = .headers env now a hs ∧
      Chain.locateHeaders st lc.1 lc.2 2000 = .ok (hs.map (·.1))

/-- Our chain is the beginning of the best chain, and no other headers are known. -/
structure Good (st t : State) : Prop where
  headers : t.headers <+: st.headers
  orphans : ∀ k, t.orphans.get k = none

/-- Headers we have are passed over. -/
theorem import_known {c : Chain.Cfg} {rest : List (Header × Chain.Env)} {s : State} {acc : Chain.Acc} : ∀ (hs : List (Header × Chain.Env)) (i : Nat),
    (∀ p ∈ hs, s.isKnown (c.hash p.1) = true) → Chain.importLoop c s acc i (hs ++ rest) = Chain.importLoop c s acc (i + hs.length) rest
  | [], i, _ => by simp
  | (x, e) :: hs, i, hk => by
    have h1 : Chain.importBlock c e s x = (s, .err (.duplicate (c.hash x))) := by
      have : (s.index.contains (c.hash x) || s.orphans.contains (c.hash x)) = true := hk _ List.mem_cons_self
      simp only [Chain.importBlock, this, ite_true]
    rw [List.cons_append]
    simp only [Chain.importLoop, h1]
    rw [import_known hs (i + 1) (fun p hp => hk p (List.mem_cons_of_mem _ hp)), List.length_cons]
    congr 1
    omega

/-- What importing a piece of the chain does: nothing, if we have it; else our chain grows. -/
theorem piece_import (hc : cfg.chain.checked = false) (hp : Chain.ParamsOK cfg.chain) (ha : Chain.Acyclic cfg.chain U)
    (cf : Chain.CollisionFree cfg.chain U) (hg : cfg.chain.genesisHash = cfg.chain.hash g) (ht : Chain.Reach cfg.chain U g false t) (gd : Good st t)
    {hs : List (Header × Chain.Env)} {i : Nat} (hi : i ≤ t.headers.length) (hseg : hs.map (·.1) <+: st.headers.drop i)
    (l : ∀ p ∈ hs, U p.1 ∧ Chain.EnvOk false p.2) (valid : ∀ p ∈ hs, ValidChain cfg.chain p.2.clock st.headers) :
    (Chain.importBlocks cfg.chain t hs = (t, .ok .tipUnchanged) ∧ ∀ p ∈ hs, p.1 ∈ t.headers) ∨
    (∃ t' header hash height rv cn, Chain.importBlocks cfg.chain t hs = (t', .ok (.tipChanged header hash height rv cn)) ∧ Good st t' ∧
      t.headers.length < t'.headers.length) := by
  have inv := (Chain.reach_inv ha hg ht).1
  have v := Chain.C01_consistent_view ha hg ht
  obtain ⟨tl, htl⟩ := gd.headers
  obtain ⟨r, hr⟩ := hseg
  have hlen0 : 0 < t.headers.length := by rw [(tip_at ha hg ht).1]; omega
  let k := t.headers.length - i
  have hpre : ∀ p ∈ hs.take k, p.1 ∈ t.headers := by
    intro p hp'
    have h1 : p.1 ∈ (hs.map (·.1)).take k := by rw [← List.map_take]; exact List.mem_map_of_mem hp'
    have h2 : (hs.map (·.1)).take k <+: (st.headers.drop i).take k := by
      rw [← hr, List.take_append]
      exact List.prefix_append _ _
    have h3 : (st.headers.drop i).take k = t.headers.drop i := by
      rw [← htl, List.drop_append_of_le_length hi, List.take_append_of_le_length (by rw [List.length_drop]),
        List.take_of_length_le (by rw [List.length_drop])]
    rw [h3] at h2
    exact List.mem_of_mem_drop (h2.subset h1)
  have hknown : ∀ p ∈ hs.take k, t.isKnown (cfg.chain.hash p.1) = true := by
    intro p hp'
    obtain ⟨n, hn⟩ := List.mem_iff_getElem?.1 (hpre p hp')
    have h1 : t.contains (cfg.chain.hash p.1) = true := (v.contains _).2 ⟨n, p.1, by rw [Chain.getByHeight_headers]; exact hn, rfl⟩
    have h2 : t.index.contains (cfg.chain.hash p.1) = true := h1
    simp [State.isKnown, h2]
  have hloop := import_known (c := cfg.chain) (rest := hs.drop k) (s := t)
    (acc := ⟨[], [], [], t.height, cfg.chain.hash t.last.header, t.last.header⟩) (hs.take k) 0 hknown
  rw [List.take_append_drop] at hloop
  by_cases hnil : hs.drop k = []
  · left
    have hall : hs.take k = hs := by
      have := List.take_append_drop k hs
      rwa [hnil, List.append_nil] at this
    refine ⟨?_, by rw [hall] at hpre; exact hpre⟩
    unfold Chain.importBlocks
    simp only [hloop, hnil, Chain.importLoop]
    rfl
  · right
    have hrest : (hs.drop k).map (·.1) <+: st.headers.drop t.headers.length := by
      refine ⟨r, ?_⟩
      have hkl : k ≤ (hs.map (·.1)).length := by
        rw [List.length_map]
        by_contra hgt
        exact hnil (List.drop_of_length_le (by omega))
      rw [List.map_drop, ← List.drop_append_of_le_length hkl, hr, List.drop_drop]
      congr 1
      omega
    have htake : st.headers.take t.headers.length = t.headers := by rw [← htl, List.take_left]
    have hrun : Chain.ValidRun cfg.chain t.headers (hs.drop k) := by
      have := validRun_of_chain (c := cfg.chain) (chain := st.headers) (hs.drop k) t.headers.length hlen0 (by rw [← htl]; simp) hrest
        (fun p hp' => valid p (List.mem_of_mem_drop hp'))
      rwa [htake] at this
    obtain ⟨s', a', h1, h2, h3, h4, -, h6, -⟩ := Chain.accept_loop hc hp ha (hs.drop k) ⟨[], [], [], t.height, cfg.chain.hash t.last.header, t.last.header⟩
      (0 + (hs.take k).length) inv gd.orphans (fun p hp' => l p (List.mem_of_mem_drop hp')) hrun
    obtain ⟨b1, b2, b3, b4⟩ := h6 hnil
    have hnp := Chain.C01_import_no_panic hc ha cf hg ht l
    have hgood : Good st s' := by
      refine ⟨?_, h3⟩
      rw [h4]
      obtain ⟨z, hz⟩ := hrest
      refine ⟨z, ?_⟩
      rw [List.append_assoc, hz]
      conv_lhs => rw [← htake]
      rw [List.length_take, Nat.min_eq_left (by rw [← htl]; simp), List.take_append_drop]
    have hgrow : t.headers.length < s'.headers.length := by
      rw [h4, List.length_append, List.length_map]
      have := List.length_pos_iff.2 hnil
      omega
    unfold Chain.importBlocks at hnp ⊢
    simp only [hloop, h1] at hnp ⊢
    rw [if_neg (by simpa using b4)] at hnp ⊢
    split at hnp
    · exact absurd rfl hnp
    · rename_i hne
      rw [if_neg hne]
      exact ⟨s', _, _, _, _, _, rfl, hgood, hgrow⟩

/-- What an operation does to the tree. -/
theorem step_tree (e : m.step cfg t op = .ok (m', t')) : t' = t ∨ t' = (Chain.importBlocks cfg.chain t op.batch).1 := by
  by_cases hq : op.batch = []
  · exact .inl (quiet_tree hq e)
  · cases op with
    | headers env now b hs =>
      cases headers_ok e with
      | misbehaved => exact .inl rfl
      | ignored => exact .inl rfl
      | known => exact .inl rfl
      | aborted => exact .inr rfl
      | unchanged => exact .inr rfl
      | changed => exact .inr rfl
      | full => exact .inr rfl
    | userImport env hs =>
      simp only [Mgr.step, Mgr.userImport] at e
      split at e
      · cases e
      · cases e; exact .inr rfl
    | _ => exact absurd rfl hq

/-- Our chain grows or the tree stays as it is. -/
theorem step_good (hc : cfg.chain.checked = false) (hp : Chain.ParamsOK cfg.chain) (ha : Chain.Acyclic cfg.chain U)
    (cf : Chain.CollisionFree cfg.chain U) (hg : cfg.chain.genesisHash = cfg.chain.hash g) (ht : Chain.Reach cfg.chain U g false t) (gd : Good st t)
    (l : op.Legal U false) (hon : Honest cfg st.headers t op) (e : m.step cfg t op = .ok (m', t')) :
    Good st t' ∧ (t' = t ∨ t.headers.length < t'.headers.length) := by
  obtain ⟨i, hi, hseg⟩ := hon.piece
  rcases step_tree e with rfl | h1
  · exact ⟨gd, .inl rfl⟩
  · rcases piece_import hc hp ha cf hg ht gd hi hseg l.2 hon.valid with ⟨h2, -⟩ | ⟨t1, _, _, _, _, _, h2, h3, h4⟩
    · rw [h2] at h1; subst h1; exact ⟨gd, .inl rfl⟩
    · rw [h2] at h1; subst h1; exact ⟨h3, .inr h4⟩

/-- While the tree stays as it is, requests start at its tip and name no block to stop at. -/
theorem step_fresh (hc : cfg.chain.checked = false) (hp : Chain.ParamsOK cfg.chain) (ha : Chain.Acyclic cfg.chain U)
    (cf : Chain.CollisionFree cfg.chain U) (hg : cfg.chain.genesisHash = cfg.chain.hash g) (h0 : Chain.Reach cfg.chain U g false t0)
    (r : Run cfg U false P t0 h m t) (cl : Calm m) (gd : Good st t) (l : op.Legal U false) (hon : Honest cfg st.headers t op)
    (e : { m with out := [] }.step cfg t op = .ok (m', t)) {lc : Locators} (hx : Out.getHeaders a lc ∈ m'.out) :
    ∃ hashes, Chain.locatorHashes cfg.chain t t.height = .ok hashes ∧ lc = (hashes, 0) := by
  have ht := run_reach h0 r
  have hw := C50_why r l e hx
  obtain ⟨i, hi, hseg⟩ := hon.piece
  have himp := piece_import hc hp ha cf hg ht gd hi hseg l.2 hon.valid
  cases hw with
  | sync hs hl ho => exact ⟨_, hl, rfl⟩
  | @fork env now a hs first hashes ho hf hr hl =>
    exfalso
    subst ho
    rcases himp with ⟨-, hall⟩ | ⟨t1, _, _, _, _, _, h2, -⟩
    · have v := Chain.C01_consistent_view ha hg ht
      have hig : Ignored { m with out := [] } t cfg a hs := by
        cases hq : hs.getLast? with
        | none => exact .inl (List.getLast?_eq_none_iff.1 hq)
        | some last =>
          refine .inr (.inr (.inr ⟨last, hq, (v.contains _).2 ?_⟩))
          obtain ⟨n, hn⟩ := List.mem_iff_getElem?.1 (hall last (List.mem_of_getLast? hq))
          exact ⟨n, last.1, by rw [Chain.getByHeight_headers]; exact hn, rfl⟩
      have hno : ∀ {M : Mgr} {T : State}, Headers cfg env { m with out := [] } t now a hs M T → ∀ b lc, Out.getHeaders b lc ∉ M.out := by
        intro M T hh b lc hb
        cases hh with
        | misbehaved => simp [Mgr.push] at hb
        | ignored => simp at hb
        | known => simp [Mgr.heard] at hb
        | aborted _ i => exact i hig
        | unchanged _ i => exact i hig
        | changed _ i => exact i hig
        | full _ i => exact i hig
      exact hno (headers_ok e) _ _ hx
    · have h2 : Chain.importBlocks cfg.chain t hs = _ := h2
      rw [hr] at h2
      cases h2
  | @more env now a hs hash height rv cn ho hlen hch =>
    exfalso
    obtain ⟨header, hch⟩ := hch
    rcases himp with ⟨h2, -⟩ | ⟨t1, _, _, _, _, _, h2, -, h4⟩
    · rw [hch] at h2; cases h2
    · rw [hch] at h2
      cases h2
      omega
  | @announced now a stop items hashes ho hs ht' hl =>
    exfalso
    have hmem := List.mem_of_getLast? hs
    rw [List.mem_filter] at hmem
    have := hon.announced now _ items ho stop hmem.1
    simp [this] at hmem
  | @retry env now a b s ho hw hd hc' hne =>
    subst ho
    exact timer_fresh r cl l e hx

/-- The latest time of an operation. -/
def lastTime : Hist → Nat
  | [] => 0
  | (op, _) :: h => max op.time (lastTime h)

theorem release_some {w : Option Sent} {s : Sent} (h : release cfg a op w = some s) : w = some s := by
  unfold release at h
  split at h
  · split at h
    · cases h
    · exact h
  · split at h
    · cases h
    · exact h
  · exact (Option.filter_eq_some_iff.1 h).1
  · exact h

theorem awaiting_time : ∀ {h : Hist} {s : Sent}, awaiting cfg a h = some s → s.time ≤ lastTime h
  | [], _, e => by cases e
  | (op, outs) :: h, s, e => by
    unfold awaiting at e
    split at e
    · cases e
      simp only [lastTime]
      omega
    · have := awaiting_time (release_some e)
      simp only [lastTime]
      omega

variable {H : Nat → Hist} {f : Nat → Mgr} {T : Nat → State} {ops : Nat → Op}

theorem Syncs.run (d : Syncs cfg U st t0 H f T ops) : ∀ n, Run cfg U false (Honest cfg st.headers) t0 (H n) (f n) (T n)
  | 0 => by rw [d.start.1, d.start.2.1, d.start.2.2]; exact .start
  | n + 1 => by rw [d.hist n]; exact .step (d.run n) (d.legal n) (d.honest n) (d.step n)

/-- If nobody is asked any more, then nobody is asked later on although someone could be. -/
theorem Syncs.asks (d : Syncs cfg U st t0 H f T ops) (hto : cfg.timeout ≠ 600000) {n0 : Nat}
    (hb : ∀ n, n0 ≤ n → Behind (H n) (T n) ∧ Usable (H n) ∧ ∀ env now, ops n ≠ .init env now) :
    Often fun n => ∃ lc a, Out.getHeaders a lc ∈ (f (n + 1)).out := by
  intro N0
  by_contra hcon
  have hno : ∀ j, N0 ≤ j → ∀ a, requests a (f (j + 1)).out = [] := by
    intro j hj a
    cases hq : requests a (f (j + 1)).out with
    | nil => rfl
    | cons x xs =>
      have hx : x ∈ requests a (f (j + 1)).out := by rw [hq]; simp
      exact absurd ⟨j, hj, x, a, mem_requests.1 hx⟩ hcon
  obtain ⟨N, hN⟩ : ∃ N, N = max N0 n0 := ⟨_, rfl⟩
  have haw : ∀ j, N0 ≤ j → ∀ a, awaiting cfg a (H (j + 1)) = release cfg a (ops j) (awaiting cfg a (H j)) := by
    intro j hj a
    rw [d.hist j, awaiting, hno j hj a]
  have hkeep : ∀ i a s, awaiting cfg a (H (N + i)) = some s → awaiting cfg a (H N) = some s := by
    intro i
    induction i with
    | zero => intro a s hs; exact hs
    | succ i ih =>
      intro a s hs
      rw [← Nat.add_assoc, haw (N + i) (by omega)] at hs
      exact ih a s (release_some hs)
  obtain ⟨j, hj, env, now, hop, hnow⟩ := d.timer (lastTime (H N) + cfg.timeout) N
  obtain ⟨i, rfl⟩ := Nat.exists_eq_add_of_le hj
  have hnone : ∀ k a, awaiting cfg a (H (N + i + 1 + k)) = none := by
    intro k a
    induction k with
    | zero =>
      show awaiting cfg a (H (N + i + 1)) = none
      rw [haw (N + i) (by omega), hop]
      cases hw : awaiting cfg a (H (N + i)) with
      | none => rfl
      | some s =>
        have := awaiting_time (hkeep i a s hw)
        simp only [release, Option.filter]
        rw [if_neg]
        simp only [decide_eq_true_eq]
        omega
    | succ k ih =>
      rw [← Nat.add_assoc, haw _ (by omega), ih]
      cases hr : release cfg a (ops (N + i + 1 + k)) none with
      | none => rfl
      | some s => exact absurd (release_some hr) (by simp)
  have hlook : ∀ k, looked (H (N + i + 1 + k)) = looked (H (N + i + 1)) ∧
      ∀ env now, ops (N + i + 1 + k) = .timer env now → now < (looked (H (N + i + 1 + k))).getD 0 + 600000 := by
    have one : ∀ k, looked (H (N + i + 1 + k + 1)) = looked (H (N + i + 1 + k)) ∧
        ∀ env now, ops (N + i + 1 + k) = .timer env now → now < (looked (H (N + i + 1 + k))).getD 0 + 600000 := by
      intro k
      cases ho : ops (N + i + 1 + k) with
      | timer env now =>
        have l := d.legal (N + i + 1 + k)
        have e := d.step (N + i + 1 + k)
        have hbn := hb (N + i + 1 + k + 1) (by omega)
        have hh := d.hist (N + i + 1 + k)
        rw [ho] at l e hh
        rw [hh] at hbn
        rcases timer_looks (d.run _) l e hto hbn.1 hbn.2.1 with ⟨a, s, hs⟩ | ⟨h1, h2⟩
        · rw [← hh, Nat.add_assoc, hnone (k + 1) a] at hs
          cases hs
        · rw [hh]
          refine ⟨h1, ?_⟩
          intro env' now' heq
          cases heq
          exact h2
      | init env now => exact absurd ho ((hb _ (by omega)).2.2 env now)
      | _ => rw [d.hist, ho]; exact ⟨rfl, by simp⟩
    intro k
    refine ⟨?_, (one k).2⟩
    induction k with
    | zero => rfl
    | succ k ih => rw [← Nat.add_assoc, (one k).1, ih]
  obtain ⟨j, hj, env', now', hop', hnow'⟩ := d.timer ((looked (H (N + i + 1))).getD 0 + 600000) (N + i + 1)
  obtain ⟨k, rfl⟩ := Nat.exists_eq_add_of_le hj
  have h1 := (hlook k).2 env' now' hop'
  rw [(hlook k).1] at h1
  omega

/-- **C123.** If the best chain is valid and extends ours, then in every such execution we are at its tip at some time, and from then on.  (Missing: peers that send
other headers, see `C105_fork_never_adopted`; release builds only, see `Scenario.C79_stale_twice`.) -/
theorem C123_synced_partial (hc : cfg.chain.checked = false) (hp : Chain.ParamsOK cfg.chain) (ha : Chain.Acyclic cfg.chain U)
    (cf : Chain.CollisionFree cfg.chain U) (hg : cfg.chain.genesisHash = cfg.chain.hash g) (h0 : Chain.Reach cfg.chain U g false t0)
    (hst : Chain.Reach cfg.chain U g fail st) (hz : st.contains 0 = false) (h64 : st.height < 2 ^ 64) (hto : cfg.timeout ≠ 600000)
    (hpre : t0.headers <+: st.headers) (horph : ∀ k, t0.isKnown k = true → t0.contains k = true) (d : Syncs cfg U st t0 H f T ops) :
    ∃ N, ∀ n, N ≤ n → (T n).headers = st.headers := by
  have hreach : ∀ n, Chain.Reach cfg.chain U g false (T n) := fun n => run_reach h0 (d.run n)
  have hgood : ∀ n, Good st (T n) := by
    intro n
    induction n with
    | zero =>
      rw [d.start.2.2]
      refine ⟨hpre, fun q => ?_⟩
      cases hq : t0.orphans.get q with
      | none => rfl
      | some x =>
        have h1 := ((Chain.reach_inv ha hg h0).1.orphans q x hq).2.2
        have h2 := horph q (by simp [State.isKnown, AMap.contains, hq])
        rw [State.contains, AMap.contains_iff, ← AMap.get_isSome_iff, h1] at h2
        cases h2
    | succ n ih => exact (step_good hc hp ha cf hg (hreach n) ih (d.legal n) (d.honest n) (d.step n)).1
  have hstep : ∀ n, T (n + 1) = T n ∨ (T n).headers.length < (T (n + 1)).headers.length :=
    fun n => (step_good hc hp ha cf hg (hreach n) (hgood n) (d.legal n) (d.honest n) (d.step n)).2
  have hle : ∀ n, (T n).headers.length ≤ st.headers.length := fun n => (hgood n).headers.length_le
  have hcalm : ∀ n, Calm (f n) := fun n => run_calm (fun _ _ p => p.announced) (d.run n)
  -- as long as headers are missing, the chain grows
  have grows : ∀ n0, (T n0).headers ≠ st.headers → ∃ j, n0 ≤ j ∧ T (j + 1) ≠ T j := by
    intro n0 hne
    by_contra hcon
    have hsame : ∀ i, T (n0 + i) = T n0 := by
      intro i
      induction i with
      | zero => rfl
      | succ i ih =>
        rw [← ih]
        by_contra hx
        exact hcon ⟨n0 + i, by omega, hx⟩
    obtain ⟨N, hN⟩ := d.peers
    have hasks := d.asks hto (n0 := max N n0) (fun n hn => by
      obtain ⟨h1, h2, h3⟩ := hN n (by omega)
      obtain ⟨i, rfl⟩ := Nat.exists_eq_add_of_le (show n0 ≤ n by omega)
      exact ⟨h2 (by rw [hsame i]; exact hne), h1, h3⟩)
    have hfresh : ∀ i lc a, Out.getHeaders a lc ∈ (f (n0 + i + 1)).out →
        ∃ hashes, Chain.locatorHashes cfg.chain (T n0) (T n0).height = .ok hashes ∧ lc = (hashes, 0) := by
      intro i lc a hx
      have e := d.step (n0 + i)
      rw [show T (n0 + i + 1) = T (n0 + i) from (hsame (i + 1)).trans (hsame i).symm] at e
      have := step_fresh hc hp ha cf hg h0 (d.run (n0 + i)) (hcalm _) (hgood _) (d.legal _) (d.honest _) e hx
      rwa [hsame i] at this
    obtain ⟨j, hj, lc, b, hx⟩ := hasks n0
    obtain ⟨i, rfl⟩ := Nat.exists_eq_add_of_le hj
    obtain ⟨hashes, hloc, rfl⟩ := hfresh i lc b hx
    have hoft : Often fun n => ∃ a, Out.getHeaders a (hashes, 0) ∈ (f (n + 1)).out := by
      intro M
      obtain ⟨j, hj, lc, b, hx⟩ := hasks (max n0 M)
      obtain ⟨i, rfl⟩ := Nat.exists_eq_add_of_le (show n0 ≤ j by omega)
      obtain ⟨hashes', hloc', rfl⟩ := hfresh i lc b hx
      rw [hloc] at hloc'
      cases hloc'
      exact ⟨n0 + i, by omega, b, hx⟩
    obtain ⟨j, hj, a, s, env, now, hs, hw, hlc, hop, hans⟩ := d.answered _ hoft n0
    obtain ⟨i, rfl⟩ := Nat.exists_eq_add_of_le hj
    have hth : (T n0).height < 2 ^ 64 := by
      have h1 := hle n0
      rw [(tip_at ha hg (hreach n0)).1, (tip_at ha hg hst).1] at h1
      omega
    have hhead := locators_head ha hg (hreach n0) hth hloc
    have hpr : Progress cfg st a (T (n0 + i)).headers.length (H (n0 + i)) (T (n0 + i)) := by
      refine ⟨List.prefix_iff_eq_take.1 (hgood _).headers, (hgood _).orphans, .inr ⟨s, hw, ?_, ?_⟩⟩
      · rw [hlc, hsame i]; exact hhead
      · rw [hlc]
    have l := d.legal (n0 + i)
    have hon := d.honest (n0 + i)
    have e := d.step (n0 + i)
    rw [hop] at l hon e
    obtain ⟨hlen, ⟨last, hlast, hnew⟩, t1, conn, himp, -, hgrow, -⟩ :=
      answer_import hc hp ha cf hg hst hz (hreach (n0 + i)) (by rw [(tip_at ha hg (hreach _)).1]; omega) hpr (by rw [hsame i]; exact hne) hw
        (by rw [hlc]; exact hans) l.2 hon.valid
    have hcn : connected a (H (n0 + i)) ≠ none := C50_connected (d.run _) a (by rw [hw]; simp)
    have h1 := C50_wanted (d.run _) e hlen hcn (.inl (by rw [hw]; simp)) hlast hnew
    have himp : Chain.importBlocks cfg.chain (T (n0 + i)) hs = _ := himp
    rw [himp] at h1
    rw [show T (n0 + i + 1) = T (n0 + i) from (hsame (i + 1)).trans (hsame i).symm] at h1
    exact hgrow (congrArg State.headers h1).symm
  have hmono : ∀ n i, (T n).headers.length ≤ (T (n + i)).headers.length := by
    intro n i
    induction i with
    | zero => exact Nat.le_refl _
    | succ i ih =>
      rcases hstep (n + i) with h1 | h1
      · rw [← Nat.add_assoc, h1]; exact ih
      · rw [← Nat.add_assoc]; omega
  have reach : ∀ k n, st.headers.length - (T n).headers.length = k → ∃ j, (T j).headers = st.headers := by
    intro k
    induction k using Nat.strongRecOn with
    | _ k ih =>
      intro n hk
      by_cases hdone : (T n).headers = st.headers
      · exact ⟨n, hdone⟩
      · obtain ⟨j, hj, hne⟩ := grows n hdone
        have h1 := (hstep j).resolve_left hne
        obtain ⟨i, rfl⟩ := Nat.exists_eq_add_of_le hj
        have h2 := hmono n i
        have h3 := hle (n + i + 1)
        exact ih _ (by omega) (n + i + 1) rfl
  obtain ⟨N, hN⟩ := reach _ 0 rfl
  refine ⟨N, fun n hn => ?_⟩
  obtain ⟨i, rfl⟩ := Nat.exists_eq_add_of_le hn
  have h1 := hmono N i
  rw [hN] at h1
  exact (hgood (N + i)).headers.eq_of_length_le h1

end Verif.Sync
