import Verif.Cbf.GcsLemmas
import Verif.Cbf.Spec

/-!
# Property theorems about compact filters (BIP158): C136, C137
-/

set_option autoImplicit false

namespace Verif.Cbf.Gcs
open Verif.Chain.Sha256 (toInt)
open Verif.Chain.Networks (Network)
open Verif.Tx (OutPoint Block)

section
variable {sb : Nat → List Nat} {coin : OutPoint → Nat} {b : Block} {query : List (List Nat)}

/-! ## Specification -/

/-- What BIP158 says is in the filter of a block: the scripts of its outputs, unless they begin with OP_RETURN, and the scripts of the outputs spent by its transactions, but for the first (which is
the coinbase transaction and spends nothing); no empty scripts. -/
inductive Filtered (sb : Nat → List Nat) (coin : OutPoint → Nat) (b : Block) : List Nat → Prop where
  | output {t o} : t ∈ b.txs → o ∈ t.outputs → sb o.script ≠ [] → (∀ l, sb o.script ≠ 0x6a :: l) → Filtered sb coin b (sb o.script)
  | spent {first others t k} : b.txs = first :: others → t ∈ others → k ∈ t.inputs → sb (coin k) ≠ [] → Filtered sb coin b (sb (coin k))

/-- The two scripts cannot be told apart by a filter with `n` elements: their hashes agree when scaled down to `n * 784931` values. -/
def Collide (hash n : Nat) (s s' : List Nat) : Prop :=
  mapToRange (sipHash (keys hash) s) (n * 784931 % 2 ^ 64) = mapToRange (sipHash (keys hash) s') (n * 784931 % 2 ^ 64)

/-! ## Lemmas -/

theorem mem_elements {s : List Nat} : s ∈ (elements sb coin b).filter (· ≠ []) ↔ Filtered sb coin b s := by
  have hop : ∀ l : List Nat, (!isOpReturn l) = true ↔ ∀ t, l ≠ 0x6a :: t := by
    intro l
    unfold isOpReturn
    cases l with
    | nil => simp
    | cons x l =>
      simp only [List.head?_cons, Option.some.injEq, Bool.not_eq_true', decide_eq_false_iff_not, ne_eq, List.cons.injEq, not_and]
      exact ⟨fun h t e => absurd e h, fun h e => h l e rfl⟩
  rw [List.mem_filter, elements, List.mem_append, List.mem_filter, List.mem_flatMap, List.mem_flatMap, hop]
  simp only [List.mem_map, ne_eq, decide_not, Bool.not_eq_true', decide_eq_false_iff_not]
  constructor
  · rintro ⟨⟨⟨t, ht, o, ho, rfl⟩, h2⟩ | ⟨t, ht, k, hk, rfl⟩, hne⟩
    · exact .output ht ho hne h2
    · cases hb : b.txs with
      | nil => rw [hb] at ht; cases ht
      | cons first others => rw [hb] at ht; exact .spent hb ht hk hne
  · intro h
    cases h with
    | output ht ho hne h2 => exact ⟨.inl ⟨⟨_, ht, _, ho, rfl⟩, h2⟩, hne⟩
    | spent hb ht hk hne => exact ⟨.inr ⟨_, by rw [hb]; exact ht, _, hk, rfl⟩, hne⟩

theorem dedup_small (h : (elements sb coin b).length < 2 ^ 64) : (((elements sb coin b).filter (· ≠ [])).dedup).length < 2 ^ 64 :=
  Nat.lt_of_le_of_lt (Nat.le_trans (List.Sublist.length_le (List.dedup_sublist _)) (List.length_filter_le _ _)) h

/-- The number of elements of a block's filter. -/
def count (sb : Nat → List Nat) (coin : OutPoint → Nat) (b : Block) : Nat := (((elements sb coin b).filter (· ≠ [])).dedup).length

theorem mem_values_query {s : List Nat} (hs : s ∈ query) :
    mapToRange (sipHash (keys b.hash) s) (count sb coin b * paramM % 2 ^ 64) ∈ values (keys b.hash) (count sb coin b) query := mem_values.2 ⟨s, hs, rfl⟩

theorem starts_chain {p : Params} (h : p.genHeader = p.filterHeader p.genHash zeroHeader) : FilterChain p [(p.genHash, p.genHeader)] :=
  ⟨⟨(p.genHash, p.genHeader), rfl, rfl, h⟩, fun h a b _ hb => by simp at hb⟩

theorem starts_committed {p : Params} {f : Filter} (h : p.genHeader = p.filterHeader p.genHash zeroHeader) (hf : p.filterHash f = p.genHash) :
    Committed p [(p.genHash, p.genHeader)] 0 f := ⟨p.genHeader, zeroHeader, rfl, rfl, by rw [hf, h]⟩

/-! ## C136 -/

/-- **C136 (any).** The filter of any block, asked for a non-empty list of scripts, answers (there is no error): yes, iff one of them is in the filter or collides with a script that is. -/
theorem C136_any (h : (elements sb coin b).length < 2 ^ 64) (hq : query ≠ []) :
    ∃ n answer, matchAny (keys b.hash) (blockFilter sb coin b) query = some answer ∧
      (answer = true ↔ ∃ s ∈ query, ∃ s', Filtered sb coin b s' ∧ Collide b.hash n s s') := by
  refine ⟨count sb coin b, ?_⟩
  rw [matchAny, blockFilter, run_build (P := fun ps l => decide (∃ p ∈ ps, p ∈ l)) (fun ps hs data rest remaining b hl => anyLoop_spec ps hs data rest remaining b hl)
    (dedup_small h), if_neg hq]
  by_cases he : (elements sb coin b).filter (· ≠ []) = []
  · rw [if_pos he]
    refine ⟨false, rfl, by simp, ?_⟩
    rintro ⟨s, -, s', hs', -⟩
    have := mem_elements.2 hs'
    rw [he] at this
    cases this
  · rw [if_neg he]
    refine ⟨_, rfl, ?_⟩
    rw [decide_eq_true_iff]
    constructor
    · rintro ⟨p, hp, hp'⟩
      obtain ⟨s, hs, rfl⟩ := mem_values.1 hp
      obtain ⟨s', hs', e⟩ := mem_values.1 hp'
      exact ⟨s, hs, s', mem_elements.1 (List.mem_dedup.1 hs'), e.symm⟩
    · rintro ⟨s, hs, s', hs', e⟩
      exact ⟨_, mem_values_query hs, mem_values.2 ⟨s', List.mem_dedup.2 (mem_elements.2 hs'), e.symm⟩⟩

/-- **C136 (all).** The filter of any block, asked for all of a non-empty list of scripts, answers: yes, iff each of them is in the filter or collides with a script that is. -/
theorem C136_all (h : (elements sb coin b).length < 2 ^ 64) (hq : query ≠ []) :
    ∃ n answer, matchAll (keys b.hash) (blockFilter sb coin b) query = some answer ∧
      (answer = true ↔ ∀ s ∈ query, ∃ s', Filtered sb coin b s' ∧ Collide b.hash n s s') := by
  refine ⟨count sb coin b, ?_⟩
  rw [matchAll, blockFilter, run_build (P := fun ps l => decide (∀ p ∈ ps, p ∈ l)) (fun ps hs data rest remaining b hl => allLoop_spec ps hs data rest remaining b hl)
    (dedup_small h), if_neg hq]
  by_cases he : (elements sb coin b).filter (· ≠ []) = []
  · rw [if_pos he]
    refine ⟨false, rfl, by simp, fun ha => ?_⟩
    obtain ⟨s, hs⟩ := List.exists_mem_of_ne_nil _ hq
    obtain ⟨s', hs', -⟩ := ha s hs
    have := mem_elements.2 hs'
    rw [he] at this
    cases this
  · rw [if_neg he]
    refine ⟨_, rfl, ?_⟩
    rw [decide_eq_true_iff]
    constructor
    · intro ha s hs
      obtain ⟨s', hs', e⟩ := mem_values.1 (ha _ (mem_values_query hs))
      exact ⟨s', mem_elements.1 (List.mem_dedup.1 hs'), e.symm⟩
    · intro ha p hp
      obtain ⟨s, hs, rfl⟩ := mem_values.1 hp
      obtain ⟨s', hs', e⟩ := ha s hs
      exact mem_values.2 ⟨s', List.mem_dedup.2 (mem_elements.2 hs'), e.symm⟩

/-- **C136 (nothing is missed).** The filter of a block matches every list of scripts with one that an output of the block pays to (unless it is empty or begins with OP_RETURN), or that a coin spent
in the block was paid to. -/
theorem C136_found (h : (elements sb coin b).length < 2 ^ 64) {s : List Nat} (hs : s ∈ query) (hf : Filtered sb coin b s) :
    matchAny (keys b.hash) (blockFilter sb coin b) query = some true := by
  obtain ⟨n, answer, h1, h2⟩ := C136_any (sb := sb) (coin := coin) h (List.ne_nil_of_mem hs)
  rw [h1, h2.2 ⟨s, hs, s, hf, rfl⟩]

/-- **C136 (nothing is missed, all).** -/
theorem C136_all_found (h : (elements sb coin b).length < 2 ^ 64) (hf : ∀ s ∈ query, Filtered sb coin b s) :
    matchAll (keys b.hash) (blockFilter sb coin b) query = some true := by
  by_cases hq : query = []
  · subst hq
    rw [matchAll, blockFilter, run_build (P := fun ps l => decide (∀ p ∈ ps, p ∈ l)) (fun ps hs data rest remaining b hl => allLoop_spec ps hs data rest remaining b hl)
      (dedup_small h), if_pos rfl]
  · obtain ⟨n, answer, h1, h2⟩ := C136_all (sb := sb) (coin := coin) h hq
    rw [h1, h2.2 fun s hs => ⟨s, hf s hs, rfl⟩]

/-- **C136 (genesis).** On every network the filter header of the genesis block is the one of its filter, which matches its only output, and it begins a chain of filter headers; on testnet it is the one given in
the documentation (common/src/block/filter.rs:20-32). -/
theorem C136_genesis (n : Network) (checked : Bool) :
    FilterChain (params sb n checked) [((params sb n checked).genHash, (params sb n checked).genHeader)] ∧
    Committed (params sb n checked) [((params sb n checked).genHash, (params sb n checked).genHeader)] 0 (genesisFilter n) ∧
    matchAny (keys n.genesisHash) (genesisFilter n) [genesisScript] = some true ∧
    toInt (params sb .testnet checked).genHeader = 0x21584579b7eb08997773e5aeff3a7f932700042d0ed2a6129012b7d7ae81b750 := by
  have hg : (params sb n checked).genHeader = (params sb n checked).filterHeader (params sb n checked).genHash zeroHeader := by simp only [params]
  refine ⟨starts_chain hg, starts_committed hg (by simp only [params]), ?_, ?_⟩
  · cases n <;> decide +kernel
  · show toInt (filterHeader (sha256d (genesisFilter .testnet)) zeroHeader) = _
    decide +kernel

/-! ## C137 -/

/-- **C137.** (Under the condition named.)  The filter of a block that contains a transaction matches the outputs of the transaction, as they are followed after it was submitted.  Partial: only if the script of none of its outputs is
empty or begins with OP_RETURN; such transactions are not found, see `C137_counterexample`. -/
theorem C137_found_partial (h : (elements sb coin b).length < 2 ^ 64) {t : Tx.Transaction} (ht : t ∈ b.txs)
    (ho : ∀ o ∈ t.outputs, sb o.script ≠ [] ∧ ∀ l, sb o.script ≠ 0x6a :: l) {n : Network} {checked : Bool} {r : Rescan} (hr : (t.txid, t.outputs.map (·.script)) ∈ r.transactions) :
    r.matchFilter (params sb n checked) (blockFilter sb coin b) b.hash = some true := by
  have h1 : (params sb n checked).matchAll (blockFilter sb coin b) b.hash (t.outputs.map (·.script)) = some true := by
    refine C136_all_found h fun s hs => ?_
    rw [List.map_map, List.mem_map] at hs
    obtain ⟨o, hm, rfl⟩ := hs
    exact .output ht hm (ho o hm).1 (ho o hm).2
  have hany : r.transactions.any (fun t => ((params sb n checked).matchAll (blockFilter sb coin b) b.hash t.2).getD false) = true :=
    List.any_eq_true.2 ⟨_, hr, by simp only; rw [h1]; rfl⟩
  have hne : r.transactions.isEmpty = false := by
    cases hl : r.transactions with
    | nil => rw [hl] at hr; cases hr
    | cons => rfl
  unfold Rescan.matchFilter
  by_cases hw : r.watch.isEmpty
  · rw [if_pos hw]
    simp only [Bool.not_false, hne, Bool.and_self, if_true, hany]
  · rw [if_neg hw]
    have hwne : r.watch.map sb ≠ [] := by
      intro e
      rw [List.map_eq_nil_iff] at e
      rw [e] at hw
      exact hw rfl
    obtain ⟨m, answer, h2, -⟩ := C136_any (sb := sb) (coin := coin) h hwne
    have h3 : (params sb n checked).matchAny (blockFilter sb coin b) b.hash r.watch = some answer := h2
    rw [h3]
    cases answer
    · simp only [Bool.not_false, hne, Bool.and_self, if_true, hany]
    · simp

end

/-! ## Concrete cases -/

namespace Scenario

/-- The bytes of a few scripts: pay to a witness public key hash, to a script hash, data, none. -/
def sb : Nat → List Nat
  | 0 => []
  | 1 => 0x00 :: 0x14 :: List.replicate 20 7
  | 2 => 0xa9 :: 0x14 :: List.replicate 20 9 ++ [0x87]
  | 3 => [0x6a, 0x02, 0xca, 0xfe]
  | n + 4 => 0x51 :: 0x20 :: List.replicate 32 n

def coin : OutPoint → Nat := fun k => k.vout + 10

def coinbase : Tx.Transaction := ⟨100, 100, [OutPoint.null], [⟨50, 4⟩], 400⟩

/-- Pays to two scripts, and to nobody with some data. -/
def pay : Tx.Transaction := ⟨101, 201, [⟨90, 0⟩, ⟨91, 2⟩], [⟨10, 1⟩, ⟨20, 2⟩, ⟨0, 3⟩], 400⟩

/-- Without data. -/
def plain : Tx.Transaction := ⟨102, 202, [⟨92, 1⟩], [⟨10, 1⟩, ⟨20, 2⟩], 400⟩

def block : Block := ⟨12345, [coinbase, pay, plain]⟩

/-- The filter, as bytes, has as many elements as there are scripts to be found. -/
example : count sb coin block = 6 ∧ (blockFilter sb coin block).length = 17 := by decide +kernel

/-- The hypotheses of `C136_found` are met: a script paid to, and one of a coin spent. -/
example : matchAny (keys block.hash) (blockFilter sb coin block) [sb 77, sb 2] = some true ∧
    matchAny (keys block.hash) (blockFilter sb coin block) [sb 12] = some true :=
  ⟨C136_found (by decide) (s := sb 2) (by simp) (.output (t := pay) (o := ⟨20, 2⟩) (by decide) (by decide) (by decide) (by intro l h; cases h)),
    C136_found (by decide) (s := sb (coin ⟨91, 2⟩)) (by decide) (.spent (first := coinbase) (others := [pay, plain]) (t := pay) (k := ⟨91, 2⟩) rfl (by decide) (by decide) (by decide))⟩

/-- A script that is not there is not found (if it does not collide). -/
example : matchAny (keys block.hash) (blockFilter sb coin block) [sb 77] = some false := by decide +kernel

/-- The client follows the transactions that were submitted. -/
def follows (t : Tx.Transaction) : Rescan := { Rescan.new 0 with transactions := [(t.txid, t.outputs.map (·.script))] }

/-- The hypotheses of `C137_found_partial` are met. -/
example : (follows plain).matchFilter (params sb .regtest true) (blockFilter sb coin block) block.hash = some true :=
  C137_found_partial (by decide) (t := plain) (by decide) (by
    intro o ho
    simp only [plain, List.mem_cons, List.not_mem_nil, or_false] at ho
    rcases ho with rfl | rfl <;> exact ⟨by decide, by intro l h; cases h⟩) (by decide)

/-- **C137 fails in general** (defect of the code): the scripts followed for a transaction include those with OP_RETURN, but filters do not, so that the block that contains a transaction with data is not
found, although all other outputs are there. -/
theorem C137_counterexample : pay ∈ block.txs ∧
    (follows pay).matchFilter (params sb .regtest true) (blockFilter sb coin block) block.hash = some false ∧
    matchAll (keys block.hash) (blockFilter sb coin block) [sb 1, sb 2] = some true := by
  refine ⟨by decide, ?_, ?_⟩
  · decide +kernel
  · decide +kernel

end Scenario

end Verif.Cbf.Gcs
