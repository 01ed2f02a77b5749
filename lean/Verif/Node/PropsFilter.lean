import Verif.Node.PropsTidy
import Verif.Cbf.PropsGcs

/-!
# Scans with real compact filters: C91, C92, C137

The theorems about scans say what is reported in terms of the answers of the filters.  Here the filters are the ones of BIP158 (`Verif.Cbf.Gcs`), so that they can be stated in terms of the scripts and transactions in the blocks.
The hash of a filter stays a parameter: that no other filter has the same hash is assumed where it is needed (`Only`).
-/

set_option autoImplicit false

namespace Verif.Node
open Verif.Tx (Block Transaction OutPoint TxOut)
open Verif.Chain (Header)
open Verif.Cbf.Gcs (Filtered blockFilter elements C136_any C136_found C136_all_found)

section
variable {cfg : Cfg} {U : Header → Prop} {fail : Bool} {t0 : Chain.State} {g : Header} {n' : Fsm} {h : Hist}
variable {sb : Nat → List Nat} {coin : OutPoint → Nat}

/-! ## Specification -/

/-- Filters are asked as by rust-bitcoin; `sb` gives the bytes of a script. -/
structure RealFilters (sb : Nat → List Nat) (p : Cbf.Params) : Prop where
  any : ∀ f hash w, p.matchAny f hash w = Cbf.Gcs.matchAny (Cbf.Gcs.keys hash) f (w.map sb)
  all : ∀ f hash w, p.matchAll f hash w = Cbf.Gcs.matchAll (Cbf.Gcs.keys hash) f (w.map sb)

/-- The filter headers commit to the filter of the block at this height, and to no other. -/
def Only (cfg : Cfg) (sb : Nat → List Nat) (coin : OutPoint → Nat) (n : Fsm) (height : Nat) (b : Block) : Prop :=
  (elements sb coin b).length < 2 ^ 64 ∧ ∀ f, filterAt cfg n height f → f = blockFilter sb coin b

/-- The script is in filters: it is not empty and does not begin with OP_RETURN. -/
def Findable (script : List Nat) : Prop := script ≠ [] ∧ ∀ l, script ≠ 0x6a :: l

/-- The blocks of the active chain from `s` on are `blocks s`, `blocks (s + 1)`, … (`len` of them), peers sent no other blocks with the same hashes, and the filter headers commit to their filters.  The first transaction of a block
spends none of the coins of the others, and `coin` knows the scripts of these. -/
structure Honest (cfg : Cfg) (sb : Nat → List Nat) (coin : OutPoint → Nat) (h : Hist) (n : Fsm) (blocks : Nat → Block) (s len : Nat) : Prop where
  hash : ∀ i < len, ∀ k, onChain cfg n (s + i) = some k → (blocks (s + i)).hash = k
  sent : ∀ i < len, ∀ b, Sent b h → b.hash = (blocks (s + i)).hash → b = blocks (s + i)
  filter : ∀ i < len, Only cfg sb coin n (s + i) (blocks (s + i))
  first : ∀ i < len, ∀ t ts, (blocks (s + i)).txs = t :: ts → ∀ k ∈ t.inputs, ∀ t' ∈ ((List.range' s len).map blocks).flatMap (·.txs), k.txid ≠ t'.txid
  coins : ∀ t' ∈ ((List.range' s len).map blocks).flatMap (·.txs), ∀ k o, k.txid = t'.txid → t'.outputs[k.vout]? = some o → coin k = o.script

/-! ## C91 -/

/-- **C91 with compact filters.** As `C91_rescan_partial`, said about what is in the blocks: every block at the heights scanned that pays to one of the scripts asked for, or spends a coin that was paid to one, is reported. -/
theorem C91_filters_partial (hp : RealFilters sb cfg.cbf) (c : Ctx cfg U fail t0 g) {s : Nat} {stop : Cbf.Bound} {w : List Nat} {outs : List Out} {later : Hist}
    (r : Run cfg U fail Calm t0 (later ++ (.rescan (.included s) stop w, outs) :: h) n')
    (hl : ∀ x ∈ later, (∀ a b v, x.1 ≠ .rescan a b v) ∧ ∀ v, x.1 ≠ .watch v)
    (ha : ∀ k, ¬ Awaited k (later ++ (.rescan (.included s) stop w, outs) :: h)) (hd : Drained n')
    {height : Nat} (h1 : s ≤ height) (h2 : height < s + (scans (outputs (later ++ [(.rescan (.included s) stop w, outs)]))).length)
    {b : Block} (hch : onChain cfg n' height = some b.hash) (hf : Only cfg sb coin n' height b) {x : Nat} (hx : x ∈ w) (hin : Filtered sb coin b (sb x)) :
    ∃ b', (height, b') ∈ reported (outputs (later ++ [(.rescan (.included s) stop w, outs)])) ∧ b'.hash = b.hash := by
  refine (C91_rescan_partial c r hl ha hd).2.2.1 height h1 h2 b.hash hch (List.ne_nil_of_mem hx) fun f hff => ?_
  rw [hp.any, hf.2 f hff]
  exact C136_found hf.1 (List.mem_map_of_mem hx) hin

/-- **C91 with compact filters and re-orgs.** As `C91_rescan_reorg_partial`, said about what is in the blocks. -/
theorem C91_filters_reorg_partial (hp : RealFilters sb cfg.cbf) (c : Ctx cfg U fail t0 g) (cf : Chain.CollisionFree cfg.sync.chain U) {s : Nat} {w : List Nat} {outs : List Out} {later : Hist}
    (r : Tidy cfg U fail t0 (later ++ (.rescan (.included s) .unbounded w, outs) :: h) n')
    (hl : ∀ x ∈ later, (∀ a b v, x.1 ≠ .rescan a b v) ∧ ∀ v, x.1 ≠ .watch v)
    (ha : ∀ k, ¬ Awaited k (later ++ (.rescan (.included s) .unbounded w, outs) :: h)) (hd : Drained n')
    {height : Nat} (h1 : s ≤ height) (h2 : height < progress s (outputs (later ++ [(.rescan (.included s) .unbounded w, outs)])))
    {b : Block} (hch : onChain cfg n' height = some b.hash) (hf : Only cfg sb coin n' height b) {x : Nat} (hx : x ∈ w) (hin : Filtered sb coin b (sb x)) :
    ∃ b', (height, b') ∈ reported (outputs (later ++ [(.rescan (.included s) .unbounded w, outs)])) ∧ b'.hash = b.hash := by
  refine ((C91_rescan_reorg_partial c cf r hl).2.2 ha hd).2 height h1 h2 b.hash hch (List.ne_nil_of_mem hx) fun f hff => ?_
  rw [hp.any, hf.2 f hff]
  exact C136_found hf.1 (List.mem_map_of_mem hx) hin

/-! ## C92 -/

theorem mem_blocks {blocks : Nat → Block} {s len i : Nat} (hi : i < len) {t : Transaction} (ht : t ∈ (blocks (s + i)).txs) :
    t ∈ ((List.range' s len).map blocks).flatMap (·.txs) :=
  List.mem_flatMap.2 ⟨_, List.mem_map.2 ⟨s + i, List.mem_range'_1.2 ⟨by omega, by omega⟩, rfl⟩, ht⟩

theorem Honest.genuine (hp : RealFilters sb cfg.cbf) {c : Wallet.Codec} {addrs : List Nat} {n : Fsm} {blocks : Nat → Block} {s len : Nat} (ho : Honest cfg sb coin h n blocks s len)
    (ha : ∀ a ∈ addrs, Findable (sb (c.scriptOf a))) : Genuine cfg c addrs h n blocks s len where
  hash := ho.hash
  sent := ho.sent
  filter := by
    intro i hi f hf hc
    rw [hp.any, (ho.filter i hi).2 f hf]
    obtain ⟨t, ht, ⟨k, o, -, hget, a, ham, hs⟩ | ⟨k, hk, t', ht', o, htx, hget, a, ham, hs⟩⟩ := hc
    · refine C136_found (ho.filter i hi).1 (s := sb (c.scriptOf a)) (List.mem_map_of_mem (List.mem_map_of_mem ham)) ?_
      rw [← hs]
      exact .output ht (List.mem_of_getElem? hget) (by rw [hs]; exact (ha a ham).1) (by rw [hs]; exact (ha a ham).2)
    · have hcoin := ho.coins t' ht' k o htx hget
      refine C136_found (ho.filter i hi).1 (s := sb (c.scriptOf a)) (List.mem_map_of_mem (List.mem_map_of_mem ham)) ?_
      rw [← hs, ← hcoin]
      cases hb : (blocks (s + i)).txs with
      | nil => rw [hb] at ht; cases ht
      | cons t0 ts =>
        rw [hb] at ht
        rcases List.mem_cons.1 ht with rfl | ht
        · exact absurd htx (ho.first i hi _ _ hb k hk t' ht')
        · exact .spent hb ht hk (by rw [hcoin, hs]; exact (ha a ham).1)

/-- **C92 with compact filters.** As `C92_wallet_partial`, with the filters of BIP158 instead of an assumption about their answers: the coins in the wallet's database are exactly the outputs paid to its addresses in the blocks of the
active chain at the heights scanned, and not spent there. -/
theorem C92_filters_partial (hp : RealFilters sb cfg.cbf) (ctx : Ctx cfg U fail t0 g) {c : Wallet.Codec} (hc : c.Sound) {addrs : List Nat} (hne : addrs ≠ []) (hfa : ∀ a ∈ addrs, Findable (sb (c.scriptOf a)))
    {s : Nat} {stop : Cbf.Bound} {outs : List Out} {later : Hist}
    (r : Run cfg U fail Calm t0 (later ++ (.rescan (.included s) stop (c.watch addrs), outs) :: h) n')
    (hl : ∀ x ∈ later, (∀ a b v, x.1 ≠ .rescan a b v) ∧ ∀ v, x.1 ≠ .watch v)
    (ha : ∀ k, ¬ Awaited k (later ++ (.rescan (.included s) stop (c.watch addrs), outs) :: h)) (hd : Drained n')
    (len : Nat) (hlen : len = (scans (outputs (later ++ [(.rescan (.included s) stop (c.watch addrs), outs)]))).length)
    (blocks : Nat → Block) (hg : Honest cfg sb coin (later ++ (.rescan (.included s) stop (c.watch addrs), outs) :: h) n' blocks s len)
    (hs : Wallet.Sane (((List.range' s len).map blocks).flatMap (·.txs))) {db : Wallet.Db} {balance : Nat}
    (e : Wallet.scan c (c.watch addrs) ((reported (outputs (later ++ [(.rescan (.included s) stop (c.watch addrs), outs)]))).map (·.2)) (Wallet.Db.new, 0) = .ok (db, balance))
    (k : OutPoint) (o : TxOut) :
    db.utxo c k = some o ↔ Wallet.Unspent c addrs (((List.range' s len).map blocks).flatMap (·.txs)) k o :=
  C92_wallet_partial ctx hc hne r hl ha hd len hlen blocks (hg.genuine hp hfa) hs e k o

/-! ## C137 -/

/-- **C137 (in the client).** A transaction was submitted before a rescan (without end) was asked for, and is not confirmed yet.  Then every block scanned since that is on the active chain and contains the transaction was found to
match (and so is fetched), in tidy histories, with re-orgs.  Partial: only if the script of no output of the transaction is empty or begins with OP_RETURN (see `C137_counterexample`); histories as for `C91_rescan_reorg_partial`. -/
theorem C137_scanned_partial (hp : RealFilters sb cfg.cbf) (c : Ctx cfg U fail t0 g) (cf : Chain.CollisionFree cfg.sync.chain U) {s : Nat} {w : List Nat} {outs : List Out} {later : Hist}
    (r : Tidy cfg U fail t0 (later ++ (.rescan (.included s) .unbounded w, outs) :: h) n')
    (hl : ∀ x ∈ later, (∀ a b v, x.1 ≠ .rescan a b v) ∧ ∀ v, x.1 ≠ .watch v)
    {t : Transaction} {outs' : List Out} (hsub : (Input.submit t, outs') ∈ h)
    (hnot : ∀ block height, Out.inv (.confirmed t.txid block height) ∉ outputs (later ++ (.rescan (.included s) .unbounded w, outs) :: h))
    (hid : ∀ t', (∃ o, (Input.submit t', o) ∈ later ++ (.rescan (.included s) .unbounded w, outs) :: h) ∨ Out.inv (.reverted t') ∈ outputs (later ++ (.rescan (.included s) .unbounded w, outs) :: h) →
      t'.txid = t.txid → t'.outputs = t.outputs)
    (ho : ∀ o ∈ t.outputs, Findable (sb o.script))
    {height : Nat} (h1 : s ≤ height) (h2 : height < progress s (outputs (later ++ [(.rescan (.included s) .unbounded w, outs)])))
    {b : Block} (hch : onChain cfg n' height = some b.hash) (hf : Only cfg sb coin n' height b) (ht : t ∈ b.txs) :
    latest (outputs (later ++ [(.rescan (.included s) .unbounded w, outs)])) height = some (b.hash, true) := by
  have q : Since cfg w (fun txs => (t.txid, t.outputs.map (·.script)) ∈ txs) s (outputs (later ++ [(.rescan (.included s) .unbounded w, outs)])) n' := by
    refine since_tidy c cf r hl fun l1 l2 m e r' => ?_
    have tr := run_tracked r'.run
    obtain ⟨scripts, hm⟩ := tr.all t outs' (List.mem_append_right _ (List.mem_cons_of_mem _ hsub)) (by
      intro block height hm
      refine hnot block height ?_
      rw [e, List.append_assoc, outputs_append]
      exact List.mem_append_left _ hm)
    obtain ⟨t', e', hx⟩ := tr.only _ hm
    have e1 : t'.txid = t.txid := (congrArg Prod.fst e').symm
    have e2 : scripts = t'.outputs.map (·.script) := congrArg Prod.snd e'
    have e3 := hid t' (by
      rw [e, List.append_assoc, outputs_append]
      exact hx.imp (fun ⟨o, hm⟩ => ⟨o, List.mem_append_right _ hm⟩) (fun hm => List.mem_append_left _ hm)) e1
    rw [e2, e3] at hm
    exact hm
  obtain ⟨hash, mt, h3, h4, f, txs, h5, h6, h7⟩ := q.each height h1 h2
  rw [byHeight_view] at h4
  have : hash = b.hash := Option.some.inj (h4.symm.trans hch)
  subst this
  rw [h3]
  have hfb := hf.2 f h6
  subst hfb
  have hall : cfg.cbf.matchAll (blockFilter sb coin b) b.hash (t.outputs.map (·.script)) = some true := by
    rw [hp.all]
    refine C136_all_found hf.1 fun x hx => ?_
    rw [List.map_map, List.mem_map] at hx
    obtain ⟨o, hm, rfl⟩ := hx
    exact .output ht hm (ho o hm).1 (ho o hm).2
  have hmt : mt = true := by
    refine h7.2 ?_
    by_cases hw : w = []
    · exact .inr ⟨.inl hw, _, h5, hall⟩
    · obtain ⟨m, answer, h8, -⟩ := C136_any (sb := sb) (coin := coin) (query := w.map sb) hf.1 (by simpa using hw)
      have h9 : cfg.cbf.matchAny (blockFilter sb coin b) b.hash w = some answer := by rw [hp.any]; exact h8
      cases answer
      · exact .inr ⟨.inr h9, _, h5, hall⟩
      · exact .inl ⟨hw, h9⟩
  rw [hmt]

end

end Verif.Node
