import Verif.Inv.Props

/-!
# C122: blocks that were asked for are delivered
-/

set_option autoImplicit false

namespace Verif.Inv
open Verif.Tx

/-- Something happens again and again. -/
def Often (P : Nat → Prop) : Prop := ∀ n, ∃ j, n ≤ j ∧ P j

/-- The block is at that height of the chain given by its hashes. -/
def IsAt (t : List Nat) (k : Option Nat) (hash : Nat) : Prop := ∀ i, k = some i ↔ t[i]? = some hash

/-- An endless execution after some history, with the same chain of blocks `t` all the time.  Any operations may come in any order, with these conditions: no more
blocks are asked for by the user or because of filters, those asked for before are blocks of the chain, there is always some peer serving blocks, timers go on, and a
block requested from peers again and again comes in again and again (so any number of messages may be lost). -/
structure Downloads (c : Bool) (t : List Nat) (H : Nat → Hist) (f : Nat → Mgr) (op : Nat → Op) : Prop where
  start : Run c (H 0) (f 0)
  step : ∀ n, { f n with out := [] }.step c (op n) = .ok (f (n + 1))
  hist : ∀ n, H (n + 1) = (op n, (f (n + 1)).out) :: H n
  legal : ∀ n, (op n).Legal
  chain : ∀ n b k, op n = .block b k → IsAt t k b.hash
  asked : ∀ x, Outstanding x (H 0) → x ∈ t
  quiet : ∀ n x, op n ≠ .getBlock x
  peers : ∀ n, ∃ a ft, connected a (H n) = some ft ∧ ft.network = true
  timer : ∀ T, Often fun n => ∃ env now height, op n = .timer env now height ∧ T ≤ now
  sent : ∀ x, (Often fun n => ∃ a, Out.getBlock a x ∈ (f (n + 1)).out) → Often fun n => ∃ b k, op n = .block b k ∧ b.hash = x

variable {c : Bool} {t : List Nat} {H : Nat → Hist} {f : Nat → Mgr} {op : Nat → Op}

theorem Downloads.run (d : Downloads c t H f op) : ∀ n, Run c (H n) (f n)
  | 0 => d.start
  | n + 1 => by rw [d.hist n]; exact .step (d.run n) (d.legal n) (d.step n)

/-- What is outstanding changes only when a block comes in. -/
theorem Downloads.outstanding (d : Downloads c t H f op) (n x : Nat) :
    Outstanding x (H (n + 1)) ↔ Outstanding x (H n) ∧ ∀ b k, op n = .block b k → b.hash ≠ x := by
  rw [d.hist n]
  cases h : op n with
  | block b k =>
    constructor
    · rintro ⟨h1, h2⟩
      exact ⟨h2, fun b' k' e => by cases e; exact h1⟩
    · rintro ⟨h1, h2⟩
      exact ⟨h2 b k rfl, h1⟩
  | getBlock y => exact absurd h (d.quiet n y)
  | _ => exact ⟨fun h => ⟨h, by simp⟩, fun h => h.1⟩

theorem Downloads.outstanding_anti (d : Downloads c t H f op) {x n : Nat} : ∀ j, Outstanding x (H (n + j)) → Outstanding x (H n)
  | 0, h => h
  | j + 1, h => d.outstanding_anti j ((d.outstanding (n + j) x).1 h).1

/-- An outstanding block comes in at some time. -/
theorem Downloads.arrives (d : Downloads c t H f op) {n x : Nat} (hx : Outstanding x (H n)) : ∃ j, n ≤ j ∧ ∃ b k, op j = .block b k ∧ b.hash = x := by
  apply Classical.byContradiction
  intro hcon
  have hno : ∀ j, n ≤ j → ∀ b k, op j = .block b k → b.hash ≠ x := fun j hj b k h1 h2 => hcon ⟨j, hj, b, k, h1, h2⟩
  have hout : ∀ i, Outstanding x (H (n + i)) := by
    intro i
    induction i with
    | zero => exact hx
    | succ i ih => exact (d.outstanding (n + i) x).2 ⟨ih, hno (n + i) (by omega)⟩
  have hask : Often fun j => ∃ a, Out.getBlock a x ∈ (f (j + 1)).out := by
    intro N
    apply Classical.byContradiction
    intro hc2
    have hsame : ∀ i, Verif.Inv.asked x (H (n + N + i)) = Verif.Inv.asked x (H (n + N)) := by
      intro i
      induction i with
      | zero => rfl
      | succ i ih =>
        rw [← ih, show n + N + (i + 1) = n + N + i + 1 from rfl, d.hist]
        cases h : op (n + N + i) with
        | block b k => simp only [Verif.Inv.asked]; rw [if_neg (hno (n + N + i) (by omega) b k h)]
        | timer env now height =>
          simp only [Verif.Inv.asked]
          rw [if_neg]
          intro hany
          rw [List.any_eq_true] at hany
          obtain ⟨o, ho1, ho2⟩ := hany
          cases o with
          | getBlock a y =>
            have : y = x := by simpa [Out.isRequestOf] using ho2
            subst this
            exact hc2 ⟨n + N + i, by omega, a, ho1⟩
          | _ => simp [Out.isRequestOf] at ho2
        | _ => rfl
    obtain ⟨j, hj, env, now, height, ho, hT⟩ := d.timer ((Verif.Inv.asked x (H (n + N))).head?.getD 0 + 15000) (n + N)
    obtain ⟨i, rfl⟩ := Nat.exists_eq_add_of_le hj
    obtain ⟨b, ft, k1, k2⟩ := d.peers (n + N + i + 1)
    have hs := d.step (n + N + i)
    have hle := d.legal (n + N + i)
    rw [d.hist, ho] at k1
    rw [ho] at hs hle
    have hoi := hout (N + i)
    rw [← Nat.add_assoc] at hoi
    obtain ⟨a, ha⟩ := C49_block_retried (d.run _) hle hs hoi (by rw [hsame i]; exact hT) k1 k2
    exact hc2 ⟨n + N + i, by omega, a, ha⟩
  obtain ⟨j, hj, b, k, h1, h2⟩ := d.sent x hask n
  exact hno j hj b k h1 h2

/-- A block waiting for others, and being on the chain. -/
def OnHold (t : List Nat) (k : Nat) (b : Block) (h : Hist) : Prop := Waiting k b h ∧ t[k]? = some b.hash ∧ ¬ Outstanding b.hash h

theorem Downloads.hold (d : Downloads c t H f op) {n k : Nat} {b : Block} (h : OnHold t k b (H n)) :
    (∃ fe, Out.processed b k fe ∈ (f (n + 1)).out) ∨ OnHold t k b (H (n + 1)) := by
  by_cases hp : processed (f (n + 1)).out = []
  · right
    refine ⟨?_, h.2.1, fun ho => h.2.2 ((d.outstanding n _).1 ho).1⟩
    rw [d.hist]
    refine ⟨hp, ?_⟩
    cases ho : op n with
    | block e i =>
      cases i with
      | none => exact h.1
      | some i =>
        refine .inr ⟨?_, h.1⟩
        rintro ⟨rfl, h2⟩
        have := ((d.chain n e (some i) ho) i).1 rfl
        rw [h.2.1] at this
        exact h.2.2 (Option.some.inj this ▸ h2)
    | _ => exact h.1
  · left
    obtain ⟨⟨k', b'⟩, hm⟩ := List.exists_mem_of_ne_nil _ hp
    obtain ⟨e, i, h1, h2, h3, -⟩ := (C48_processed (d.run n) (d.legal n) (d.step n) k' b').1 (mem_processed.1 hm)
    refine (C48_processed (d.run n) (d.legal n) (d.step n) k b).2 ⟨e, i, h1, h2, h3, .inr ⟨?_, h.1⟩⟩
    rintro rfl
    have := ((d.chain n e _ h1) k).1 rfl
    rw [h.2.1] at this
    exact h.2.2 (Option.some.inj this ▸ h2)

/-- From any time on at which a block is outstanding: all outstanding ones and those on hold are processed. -/
theorem Downloads.all (d : Downloads c t H f op) : ∀ (l : Nat) (L : List Nat) (n : Nat), L.length ≤ l → (∀ x, Outstanding x (H n) → x ∈ L) → (∃ x, Outstanding x (H n)) →
    (∀ x, Outstanding x (H n) → ∃ j b k fe, n ≤ j ∧ b.hash = x ∧ t[k]? = some x ∧ Out.processed b k fe ∈ (f (j + 1)).out) ∧
    ∀ k b, OnHold t k b (H n) → ∃ j fe, n ≤ j ∧ Out.processed b k fe ∈ (f (j + 1)).out
  | 0, L, n, hl, hL, ⟨x, hx⟩ => by
    have := List.eq_nil_of_length_eq_zero (Nat.le_zero.1 hl)
    subst this
    exact absurd (hL x hx) (by simp)
  | l + 1, L, n, hl, hL, ⟨x0, hx0⟩ => by
    classical
    -- the first outstanding block to come in
    have hex : ∃ j, n ≤ j ∧ ∃ b k, op j = .block b k ∧ Outstanding b.hash (H n) := by
      obtain ⟨j, hj, b, k, h1, h2⟩ := d.arrives hx0
      exact ⟨j, hj, b, k, h1, by rw [h2]; exact hx0⟩
    obtain ⟨hj, b, k, hop, hout⟩ := Nat.find_spec hex
    have hmin := fun i => @Nat.find_min _ _ hex i
    generalize Nat.find hex = j at hj hop hmin
    obtain ⟨s, rfl⟩ := Nat.exists_eq_add_of_le hj
    have hsame : ∀ i, i ≤ s → ∀ x, Outstanding x (H n) → Outstanding x (H (n + i)) := by
      intro i
      induction i with
      | zero => exact fun _ x h => h
      | succ i ih =>
        intro hi x hx
        refine (d.outstanding (n + i) x).2 ⟨ih (by omega) x hx, fun b' k' e he => ?_⟩
        exact hmin (n + i) (by omega) ⟨by omega, b', k', e, by rw [he]; exact hx⟩
    have hkeep : ∀ i, i ≤ s → ∀ k b, OnHold t k b (H n) → (∃ j fe, n ≤ j ∧ Out.processed b k fe ∈ (f (j + 1)).out) ∨ OnHold t k b (H (n + i)) := by
      intro i
      induction i with
      | zero => exact fun _ k b h => .inr h
      | succ i ih =>
        intro hi k b hb
        rcases ih (by omega) k b hb with h | h
        · exact .inl h
        · rcases d.hold h with ⟨fe, h⟩ | h
          · exact .inl ⟨n + i, fe, by omega, h⟩
          · exact .inr h
    have hLb : b.hash ∈ L := hL _ hout
    -- it is on the chain
    have hmem : b.hash ∈ t := by
      have := d.outstanding_anti (n := 0) n (by rw [Nat.zero_add]; exact hout)
      exact d.asked _ this
    obtain ⟨i0, hi0⟩ := List.mem_iff_getElem?.1 hmem
    have hki := ((d.chain (n + s) b k hop) i0).2 hi0
    subst hki
    have hrun := d.run (n + s)
    have hstep := d.step (n + s)
    have hle := d.legal (n + s)
    have hos := hsame s (Nat.le_refl _)
    by_cases hlast : ∀ x, Outstanding x (H (n + s)) → x = b.hash
    · -- the last one: everything is processed
      have key := fun k' b' => (C48_processed hrun hle hstep k' b').2
      refine ⟨fun x hx => ?_, fun k' b' hb => ?_⟩
      · obtain ⟨fe, hfe⟩ := key i0 b ⟨b, i0, hop, hos _ hout, hlast, .inl ⟨rfl, rfl⟩⟩
        have hxb := hlast x (hos x hx)
        subst hxb
        exact ⟨n + s, b, i0, fe, by omega, rfl, hi0, hfe⟩
      · rcases hkeep s (Nat.le_refl _) k' b' hb with h | h
        · exact h
        · have hne : k' ≠ i0 := by
            rintro rfl
            have := h.2.1
            rw [hi0] at this
            exact h.2.2 (Option.some.inj this ▸ hos _ hout)
          obtain ⟨fe, hfe⟩ := key k' b' ⟨b, i0, hop, hos _ hout, hlast, .inr ⟨hne, h.1⟩⟩
          exact ⟨n + s, fe, by omega, hfe⟩
    · -- others are missing
      have hnp : processed (f (n + s + 1)).out = [] := by
        rw [List.eq_nil_iff_forall_not_mem]
        rintro ⟨k', b'⟩ hm
        obtain ⟨e, i, h1, h2, h3, -⟩ := (C48_processed hrun hle hstep k' b').1 (mem_processed.1 hm)
        rw [hop] at h1
        cases h1
        exact hlast h3
      have hnew : OnHold t i0 b (H (n + s + 1)) := by
        refine ⟨?_, hi0, fun h => ((d.outstanding (n + s) _).1 h).2 b (some i0) hop rfl⟩
        rw [d.hist, hop]
        exact ⟨hnp, .inl ⟨rfl, hos _ hout, rfl⟩⟩
      have hrest : ∃ x, Outstanding x (H (n + s + 1)) := by
        simp only [not_forall] at hlast
        obtain ⟨x, h1, h2⟩ := hlast
        exact ⟨x, (d.outstanding (n + s) x).2 ⟨h1, fun b' k' e he => by rw [hop] at e; cases e; exact h2 he.symm⟩⟩
      obtain ⟨r1, r2⟩ := d.all l (L.filter (· ≠ b.hash)) (n + s + 1) (by
          have : (L.filter (· ≠ b.hash)).length < L.length := List.length_filter_lt_length_iff_exists.2 ⟨b.hash, hLb, by simp⟩
          omega)
        (fun x hx => by
          have h2 := (d.outstanding (n + s) x).1 hx
          rw [List.mem_filter]
          refine ⟨hL x (d.outstanding_anti s h2.1), ?_⟩
          have := h2.2 b (some i0) hop
          simpa using Ne.symm this) hrest
      refine ⟨fun x hx => ?_, fun k' b' hb => ?_⟩
      · by_cases hxb : x = b.hash
        · subst hxb
          obtain ⟨j, fe, hj, hfe⟩ := r2 i0 b hnew
          exact ⟨j, b, i0, fe, by omega, rfl, hi0, hfe⟩
        · obtain ⟨j, b', k', fe, h1, h2⟩ := r1 x ((d.outstanding (n + s) x).2 ⟨hos x hx, fun b' k' e he => by rw [hop] at e; cases e; exact hxb he.symm⟩)
          exact ⟨j, b', k', fe, by omega, h2⟩
      · rcases hkeep s (Nat.le_refl _) k' b' hb with h | h
        · exact h
        · rcases d.hold h with ⟨fe, h⟩ | h
          · exact ⟨n + s, fe, by omega, h⟩
          · obtain ⟨j, fe, hj, hfe⟩ := r2 k' b' h
            exact ⟨j, fe, by omega, hfe⟩

/-- Hashes of the blocks asked for in a history. -/
def wanted : Hist → List Nat
  | [] => []
  | (.getBlock x, _) :: h => x :: wanted h
  | _ :: h => wanted h

theorem mem_wanted {x : Nat} : ∀ {h : Hist}, Outstanding x h → x ∈ wanted h
  | (op, outs) :: h, ho => by
    cases op with
    | getBlock y =>
      rcases ho with rfl | ho
      · exact List.mem_cons_self
      · exact List.mem_cons_of_mem _ (mem_wanted ho)
    | block b k => exact mem_wanted (h := h) ho.2
    | _ => exact mem_wanted (h := h) ho

/-- **C122** (part): in every endless execution with a chain that stays as it is, after any history: if the blocks asked for are blocks of the chain and no more are
asked for, there is always some peer serving blocks, timers go on, and blocks requested again and again come in again and again, then every block asked for is delivered,
with its height — however many requests and blocks are lost, in whatever order they come in, and whatever else happens meanwhile.

Missing: a single block that does not come in keeps all the others from being delivered, for ever: `C122_blocked`. -/
theorem C122_blocks_arrive_partial (d : Downloads c t H f op) {x : Nat} (hx : Outstanding x (H 0)) :
    ∃ n b k fe, b.hash = x ∧ t[k]? = some x ∧ Out.processed b k fe ∈ (f (n + 1)).out := by
  obtain ⟨j, b, k, fe, -, h⟩ := (d.all _ (wanted (H 0)) 0 (Nat.le_refl _) (fun x hx => mem_wanted hx) ⟨x, hx⟩).1 x hx
  exact ⟨j, b, k, fe, h⟩

/-- **C122** (why not all of it): as long as a block that was asked for does not come in, no block is delivered, whatever else comes in.  Blocks asked for stay asked
for: also if there is no such block, and also after a re-org. -/
theorem C122_blocked {x : Nat} {h1 : Hist} : ∀ {h2 : Hist} {m : Mgr}, Run c (h2 ++ h1) m → Outstanding x h1 → (∀ y ∈ h2, ∀ b k, y.1 = .block b k → b.hash ≠ x) →
    (∀ y ∈ h2, processed y.2 = []) ∧ Outstanding x (h2 ++ h1)
  | [], _, _, h, _ => ⟨by simp, h⟩
  | (op, outs) :: h2, m, r, h, hno => by
    cases r with
    | step r le e =>
      obtain ⟨k1, k2⟩ := C122_blocked (h2 := h2) r h (fun y hy => hno y (List.mem_cons_of_mem _ hy))
      have hop := hno _ List.mem_cons_self
      simp only at hop
      refine ⟨?_, ?_⟩
      · intro y hy
        rcases List.mem_cons.1 hy with rfl | hy
        · simp only
          rw [List.eq_nil_iff_forall_not_mem]
          rintro ⟨n, b⟩ hm
          obtain ⟨d, j, rfl, -, h3, -⟩ := (C48_processed r le e n b).1 (mem_processed.1 hm)
          exact hop d (some j) rfl (h3 x k2).symm
        · exact k1 y hy
      · cases op with
        | getBlock y => exact .inr k2
        | block b k => exact ⟨hop b k rfl, k2⟩
        | _ => exact k2

end Verif.Inv
