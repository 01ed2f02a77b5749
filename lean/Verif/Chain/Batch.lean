import Verif.Base.Sorted
import Verif.Chain.Props

/-!
# Helper lemmas about `import_blocks`: what the accumulated lists contain
-/

set_option autoImplicit false

namespace Verif.Chain
open AMap

variable {cfg : Cfg} {U : Header → Prop} {g : Header} {s : State}

/-- No two different headers that were ever presented have the same hash. -/
def CollisionFree (cfg : Cfg) (U : Header → Prop) : Prop := ∀ a b, U a → U b → cfg.hash a = cfg.hash b → a = b

/-- A chain from genesis is determined by the hash of its tip. -/
theorem gpath_unique (ha : Acyclic cfg U) (cf : CollisionFree cfg U) : ∀ {l l' : List Header} {t : Nat},
    Path cfg.hash (cfg.hash g) l t → (∀ h ∈ l, U h) → Path cfg.hash (cfg.hash g) l' t → (∀ h ∈ l', U h) → l = l' := by
  obtain ⟨rank, hr⟩ := ha
  have hne : ∀ {l : List Header} {h : Header}, Path cfg.hash (cfg.hash g) (l ++ [h]) (cfg.hash g) →
      (∀ x ∈ l ++ [h], U x) → False := by
    intro l h hp hu
    have h1 := (path_rank hp (fun x hx => hr x (hu x hx))).1 h (by simp)
    omega
  intro l
  induction l using List.reverseRecOn with
  | nil =>
    intro l' t hp _ hp' hu'
    have : cfg.hash g = t := hp
    subst this
    rcases List.eq_nil_or_concat l' with h | ⟨M, x, h⟩
    · exact h.symm
    · rw [List.concat_eq_append] at h
      subst h
      exact (hne hp' hu').elim
  | append_singleton l x ih =>
    intro l' t hp hu hp' hu'
    obtain ⟨b, h1, h2, h3⟩ := path_append.1 hp
    have h3 : cfg.hash x = t := h3
    rcases List.eq_nil_or_concat l' with h | ⟨M, y, h⟩
    · subst h
      have : cfg.hash g = t := hp'
      subst this
      exact (hne hp hu).elim
    · rw [List.concat_eq_append] at h
      subst h
      obtain ⟨b', h1', h2', h3'⟩ := path_append.1 hp'
      have h3' : cfg.hash y = t := h3'
      have hxy : x = y := cf x y (hu x (by simp)) (hu' y (by simp)) (h3.trans h3'.symm)
      subst hxy
      have hb : b = b' := h2.symm.trans h2'
      subst hb
      rw [ih h1 (fun z hz => hu z (by simp [hz])) h1' (fun z hz => hu' z (by simp [hz]))]

/-- `h` is at height `n` of some chain of presented headers from genesis. -/
def AtHeight (cfg : Cfg) (U : Header → Prop) (g h : Header) (n : Nat) : Prop :=
  ∃ l, (∀ x ∈ l, U x) ∧ Path cfg.hash (cfg.hash g) l (cfg.hash h) ∧ l.length = n ∧ (g :: l)[n]? = some h

theorem path_take {hash : Header → Nat} : ∀ {l : List Header} {b : Nat} {x : Header} (n : Nat),
    Path hash (hash x) l b → ∀ h, (x :: l)[n]? = some h → Path hash (hash x) (l.take n) (hash h)
  | _, _, x, 0, _, h, hh => by
    simp at hh; subst hh
    show hash x = hash x; rfl
  | [], _, x, n + 1, _, h, hh => by simp at hh
  | y :: l, b, x, n + 1, hp, h, hh => by
    have hh : (y :: l)[n]? = some h := by simpa using hh
    exact ⟨hp.1, path_take n hp.2 h hh⟩

theorem atHeight_active (hi : TreeInv cfg U g s) {n : Nat} {h : Header} (hn : s.getByHeight n = some h) :
    AtHeight cfg U g h n := by
  rw [getByHeight_headers, hi.headers_eq] at hn
  have hlt := (List.getElem?_eq_some_iff.1 hn).1
  refine ⟨s.above.take n, fun x hx => hi.tailU x (List.mem_of_mem_take hx), path_take n hi.path h hn, ?_, ?_⟩
  · simp at hlt ⊢; omega
  · cases n with
    | zero => simpa using hn
    | succ n => simpa [List.getElem?_take] using hn

theorem AtHeight.unique (ha : Acyclic cfg U) (cf : CollisionFree cfg U) {h h' : Header} {n n' : Nat}
    (h1 : AtHeight cfg U g h n) (h2 : AtHeight cfg U g h' n') (he : cfg.hash h = cfg.hash h') : n = n' ∧ h = h' := by
  obtain ⟨l, u1, p1, l1, g1⟩ := h1
  obtain ⟨l', u2, p2, l2, g2⟩ := h2
  rw [he] at p1
  have := gpath_unique ha cf p1 u1 p2 u2
  subst this
  have : n = n' := by omega
  subst this
  rw [g1] at g2
  exact ⟨rfl, Option.some.inj g2⟩

/-- Membership in a suffix of `iter()`. -/
theorem mem_iter_drop (hv : ConsistentView cfg g s) (n : Nat) (p : Nat × Header) :
    p ∈ s.iter.drop n ↔ n ≤ p.1 ∧ s.getByHeight p.1 = some p.2 := by
  rw [List.mem_iff_getElem?]
  simp only [List.getElem?_drop, hv.iter]
  constructor
  · rintro ⟨i, hi⟩
    cases hg : s.getByHeight (n + i) with
    | none => simp [hg] at hi
    | some h =>
      simp only [hg, Option.map_some, Option.some.injEq] at hi
      subst hi
      exact ⟨by simp, hg⟩
  · rintro ⟨h1, h2⟩
    refine ⟨p.1 - n, ?_⟩
    have : n + (p.1 - n) = p.1 := by omega
    rw [this, h2]; rfl

theorem mem_iter (hv : ConsistentView cfg g s) (p : Nat × Header) :
    p ∈ s.iter ↔ s.getByHeight p.1 = some p.2 := by
  have := mem_iter_drop hv 0 p
  simpa using this

theorem iter_sorted (s : State) : SSorted (fun a b : Nat => decide (a < b)) s.iter := by
  unfold SSorted
  rw [List.pairwise_iff_getElem]
  intro i j hi hj hij
  simp [State.iter, hij]

theorem iter_drop_sorted (s : State) (n : Nat) : SSorted (fun a b : Nat => decide (a < b)) (s.iter.drop n) :=
  List.Pairwise.sublist (List.drop_sublist _ _) (iter_sorted s)

theorem keys_nodup {K V : Type} {lt : K → K → Bool} (ht : StrictTotal lt) {m : List (K × V)} (h : SSorted lt m) :
    (m.map (·.1)).Nodup := by
  unfold List.Nodup
  rw [List.pairwise_map]
  refine List.Pairwise.imp ?_ h
  intro a b hab heq
  rw [heq, ht.irrefl] at hab; simp at hab

theorem pairLt_total : StrictTotal pairLt := by
  refine ⟨?_, ?_, ?_⟩
  · intro a; simp [pairLt]
  · intro a b c; simp [pairLt]; omega
  · rintro ⟨a1, a2⟩ ⟨b1, b2⟩; simp [pairLt]; omega

/-- No header of `base` that left the active chain is activated again during the rest of the batch. -/
def NeverReconnects (cfg : Cfg) (base : State) : State → List (Header × Env) → Prop
  | _, [] => True
  | s, (h, e) :: hs =>
    (∀ x ∈ base.headers, x ∈ (importBlock cfg e s h).1.headers → x ∈ s.headers) ∧
    NeverReconnects cfg base (importBlock cfg e s h).1 hs

instance (cfg : Cfg) (base : State) : ∀ (hs : List (Header × Env)) (s : State), Decidable (NeverReconnects cfg base s hs)
  | [], _ => inferInstanceAs (Decidable True)
  | (h, e) :: hs, s => by
    have := instDecidableNeverReconnects cfg base hs (importBlock cfg e s h).1
    exact inferInstanceAs (Decidable (_ ∧ _))

/-- Invariant of the loop of `import_blocks`: `s0` is the state before the batch, `s` the current one, `a` the accumulators,
`m` the lowest fork height so far.  `ex` is the proposition under which the report is exact. -/
structure BatchInv (cfg : Cfg) (U : Header → Prop) (g : Header) (ex : Prop) (s0 s : State) (a : Acc) (m : Nat) : Prop where
  le0 : m ≤ s0.height
  le : m ≤ s.height
  agree : ∀ n, n ≤ m → s.getByHeight n = s0.getByHeight n
  conSorted : SSorted (fun a b : Nat => decide (a < b)) a.connected
  conMem : ∀ p ∈ a.connected, m < p.1 ∧ AtHeight cfg U g p.2 p.1
  con : ∀ n h, m < n → s.getByHeight n = some h → (n, h) ∈ a.connected
  empty : a.connected = [] → s.headers = s0.headers
  strict : a.connected ≠ [] → m < s.height
  tip : a.bestHeight = s.height ∧ a.bestHash = cfg.hash s.last.header ∧ a.bestHeader = s.last.header
  revSorted : SSorted pairLt a.reverted
  revMem : ∀ q ∈ a.reverted, q.1.2 = cfg.hash q.2 ∧ AtHeight cfg U g q.2 q.1.1 ∧
    (q.1.2 ∈ a.seen ∨ s0.getByHeight q.1.1 = some q.2)
  act : ∀ n h, s.getByHeight n = some h → cfg.hash h ∈ a.seen ∨ s0.getByHeight n = some h
  left : ∀ n h, s0.getByHeight n = some h → s.getByHeight n = some h ∨ ((n, cfg.hash h), h) ∈ a.reverted
  seenNew : ex → ∀ k ∈ a.seen, ∀ n x, s0.getByHeight n = some x → cfg.hash x ≠ k
  gone : ex → ∀ n x, m < n → s0.getByHeight n = some x → s.getByHeight n ≠ some x

theorem mem_headers {h : Header} : h ∈ s.headers ↔ ∃ n, s.getByHeight n = some h := by
  rw [List.mem_iff_getElem?]
  simp only [getByHeight_headers]

theorem batch_init (hi : TreeInv cfg U g s) (ex : Prop) :
    BatchInv cfg U g ex s s ⟨[], [], [], s.height, cfg.hash s.last.header, s.last.header⟩ s.height where
  le0 := Nat.le_refl _
  le := Nat.le_refl _
  agree := fun _ _ => rfl
  conSorted := List.Pairwise.nil
  conMem := by simp
  con := by
    intro n h hn hg
    have := ((view_of_inv hi).defined n).1 (by rw [hg]; rfl)
    omega
  empty := fun _ => rfl
  strict := by simp
  tip := ⟨rfl, rfl, rfl⟩
  revSorted := List.Pairwise.nil
  revMem := by simp
  act := fun _ _ h => .inr h
  left := fun _ _ h => .inl h
  seenNew := by simp
  gone := by
    intro _ n x hn hg
    have := ((view_of_inv hi).defined n).1 (by rw [hg]; rfl)
    omega

/-- A step that does not change the active chain keeps the invariant. -/
theorem batch_same {ex : Prop} {s0 s' : State} {a : Acc} {m : Nat} (hb : BatchInv cfg U g ex s0 s a m)
    (hi : TreeInv cfg U g s) (hi' : TreeInv cfg U g s') (he : s'.headers = s.headers) :
    BatchInv cfg U g ex s0 s' a m := by
  have hg : ∀ n, s'.getByHeight n = s.getByHeight n := by
    intro n; rw [getByHeight_headers, getByHeight_headers, he]
  have hh : s'.height = s.height := by
    have h1 : s'.headers.length = s.headers.length := by rw [he]
    rw [hi.height_eq, hi'.height_eq]
    simp only [State.headers, State.chain, List.length_map, List.length_cons] at h1
    omega
  have hl : s'.last.header = s.last.header := by
    obtain ⟨h, h1, h2⟩ := (view_of_inv hi).tip
    obtain ⟨h', h1', h2'⟩ := (view_of_inv hi').tip
    rw [hg, hh, h1] at h1'
    have := Option.some.inj h1'
    subst this
    have e1 := congrArg Prod.snd h2
    have e2 := congrArg Prod.snd h2'
    exact e2.trans e1.symm
  exact ⟨hb.le0, by rw [hh]; exact hb.le, fun n hn => by rw [hg]; exact hb.agree n hn, hb.conSorted, hb.conMem,
    fun n h hn h1 => hb.con n h hn (by rw [← hg]; exact h1), fun h => by rw [he]; exact hb.empty h,
    fun h => by rw [hh]; exact hb.strict h, by rw [hh, hl]; exact hb.tip, hb.revSorted, hb.revMem,
    fun n h h1 => hb.act n h (by rw [← hg]; exact h1), fun n h h1 => by rw [hg]; exact hb.left n h h1,
    hb.seenNew, fun hx n x hn h1 => by rw [hg]; exact hb.gone hx n x hn h1⟩

theorem not_contains (hi : TreeInv cfg U g s) {k : Nat} (h : s.contains k = false) {n : Nat} {x : Header}
    (hg : s.getByHeight n = some x) : cfg.hash x ≠ k := by
  intro he
  have := ((view_of_inv hi).contains k).2 ⟨n, x, hg, he⟩
  rw [h] at this; simp at this

/-- A step that changes the tip keeps the invariant, with a possibly lower fork height. -/
theorem batch_changed (ha : Acyclic cfg U) (cf : CollisionFree cfg U) {ex : Prop} {s0 s' : State} {a : Acc} {m : Nat}
    (hb : BatchInv cfg U g ex s0 s a m)
    (hi0 : TreeInv cfg U g s0) (hi : TreeInv cfg U g s) (hi' : TreeInv cfg U g s')
    {header : Header} {hash height : Nat} {r c : List (Nat × Header)} {f : Nat}
    (hf' : f < s'.height) (ht : s'.iter.take (f + 1) = s.iter.take (f + 1))
    (hr : r = s.iter.drop (f + 1)) (hc : c = s'.iter.drop (f + 1))
    (hcn : ∀ p ∈ c, s.contains (cfg.hash p.2) = false)
    (htip : s'.tip cfg = (hash, header)) (hhe : s'.height = height)
    (hex : ex → ∀ x ∈ s0.headers, x ∈ s'.headers → x ∈ s.headers) :
    BatchInv cfg U g ex s0 s' (a.add cfg header hash height r c) (min m f) := by
  have hv := view_of_inv hi
  have hv' := view_of_inv hi'
  have hv0 := view_of_inv hi0
  have hag : ∀ n, n ≤ f → s'.getByHeight n = s.getByHeight n := by
    intro n hn
    have h1 := congrArg (fun l => l[n]?) ht
    have hlt : n < f + 1 := by omega
    simp only [List.getElem?_take, hlt, ite_true, hv.iter, hv'.iter] at h1
    cases h2 : s'.getByHeight n <;> cases h3 : s.getByHeight n <;> simp_all
  have memc : ∀ p, p ∈ c ↔ f + 1 ≤ p.1 ∧ s'.getByHeight p.1 = some p.2 := by
    intro p; rw [hc]; exact mem_iter_drop hv' _ _
  have memr : ∀ p, p ∈ r ↔ f + 1 ≤ p.1 ∧ s.getByHeight p.1 = some p.2 := by
    intro p; rw [hr]; exact mem_iter_drop hv _ _
  have hcs : SSorted (fun a b : Nat => decide (a < b)) c := by rw [hc]; exact iter_drop_sorted _ _
  have hrs : SSorted (fun a b : Nat => decide (a < b)) r := by rw [hr]; exact iter_drop_sorted _ _
  have econ : (a.add cfg header hash height r c).connected =
      sextend (fun a b : Nat => decide (a < b)) a.connected c := rfl
  have erev : (a.add cfg header hash height r c).reverted =
      sextend pairLt a.reverted (r.map (fun p => ((p.1, cfg.hash p.2), p.2))) := by
    simp only [Acc.add, sextend, List.foldl_map]
  have eseen : (a.add cfg header hash height r c).seen = a.seen ++ c.map (fun p => cfg.hash p.2) := rfl
  have mcon : ∀ p, p ∈ (a.add cfg header hash height r c).connected ↔
      p ∈ c ∨ (p.1 ∉ c.map (·.1) ∧ p ∈ a.connected) := by
    intro p; rw [econ]; exact mem_sextend natLt_total c hb.conSorted (keys_nodup natLt_total hcs) p
  have hrk : ((r.map (fun p => ((p.1, cfg.hash p.2), p.2))).map (·.1)).Nodup := by
    have h1 := keys_nodup natLt_total hrs
    rw [List.map_map]
    unfold List.Nodup at h1 ⊢
    rw [List.pairwise_map] at h1 ⊢
    refine List.Pairwise.imp ?_ h1
    intro x y hxy heq
    simp at heq; exact hxy heq.1
  have mrev : ∀ q, q ∈ (a.add cfg header hash height r c).reverted ↔
      q ∈ (r.map (fun p => ((p.1, cfg.hash p.2), p.2))) ∨
      (q.1 ∉ (r.map (fun p => ((p.1, cfg.hash p.2), p.2))).map (·.1) ∧ q ∈ a.reverted) := by
    intro q; rw [erev]; exact mem_sextend pairLt_total _ hb.revSorted hrk q
  have hlt : min m f < s'.height := by omega
  constructor
  · have := hb.le0; omega
  · omega
  · intro n hn
    rw [hag n (by omega)]
    exact hb.agree n (by omega)
  · rw [econ]; exact sorted_sextend natLt_total c hb.conSorted
  · intro p hp
    rcases (mcon p).1 hp with h | ⟨_, h⟩
    · have h1 := (memc p).1 h
      exact ⟨by omega, atHeight_active hi' h1.2⟩
    · have := hb.conMem p h
      exact ⟨by omega, this.2⟩
  · intro n h hn hg
    rw [mcon]
    by_cases hnf : f + 1 ≤ n
    · exact .inl ((memc (n, h)).2 ⟨hnf, hg⟩)
    · right
      constructor
      · intro hm
        obtain ⟨q, hq, hqe⟩ := List.mem_map.1 hm
        have := ((memc q).1 hq).1
        simp only at hqe
        omega
      · rw [hag n (by omega)] at hg
        exact hb.con n h (by omega) hg
  · intro h
    obtain ⟨x, hx, -⟩ := hv'.tip
    have : (s'.height, x) ∈ (a.add cfg header hash height r c).connected :=
      (mcon _).2 (.inl ((memc _).2 ⟨hf', hx⟩))
    rw [h] at this; simp at this
  · intro _; exact hlt
  · refine ⟨hhe.symm, ?_, ?_⟩
    · exact (congrArg Prod.fst htip).symm
    · exact (congrArg Prod.snd htip).symm
  · rw [erev]; exact sorted_sextend pairLt_total _ hb.revSorted
  · intro q hq
    rw [eseen]
    rcases (mrev q).1 hq with h | ⟨_, h⟩
    · obtain ⟨p, hp, rfl⟩ := List.mem_map.1 h
      have h1 := (memr p).1 hp
      refine ⟨rfl, atHeight_active hi h1.2, ?_⟩
      rcases hb.act p.1 p.2 h1.2 with h2 | h2
      · exact .inl (List.mem_append_left _ h2)
      · exact .inr h2
    · obtain ⟨h1, h2, h3⟩ := hb.revMem q h
      refine ⟨h1, h2, ?_⟩
      rcases h3 with h3 | h3
      · exact .inl (List.mem_append_left _ h3)
      · exact .inr h3
  · intro n h hg
    rw [eseen]
    by_cases hnf : f + 1 ≤ n
    · left
      refine List.mem_append_right _ (List.mem_map.2 ⟨(n, h), (memc _).2 ⟨hnf, hg⟩, rfl⟩)
    · rw [hag n (by omega)] at hg
      rcases hb.act n h hg with h2 | h2
      · exact .inl (List.mem_append_left _ h2)
      · exact .inr h2
  · intro n h hg0
    rcases hb.left n h hg0 with hg | hq
    · by_cases hnf : f + 1 ≤ n
      · right
        rw [mrev]
        exact .inl (List.mem_map.2 ⟨(n, h), (memr _).2 ⟨hnf, hg⟩, rfl⟩)
      · left; rw [hag n (by omega)]; exact hg
    · right
      rw [mrev]
      by_cases hk : ((n, cfg.hash h), h).1 ∈ (r.map (fun p => ((p.1, cfg.hash p.2), p.2))).map (·.1)
      · left
        obtain ⟨q, hq', hqe⟩ := List.mem_map.1 hk
        obtain ⟨p, hp, rfl⟩ := List.mem_map.1 hq'
        simp only [Prod.mk.injEq] at hqe
        have h1 := atHeight_active hi ((memr p).1 hp).2
        have h2 := AtHeight.unique ha cf h1 (atHeight_active hi0 hg0) hqe.2
        refine List.mem_map.2 ⟨p, hp, ?_⟩
        rw [h2.1, h2.2]
      · exact .inr ⟨hk, hq⟩
  · intro hx k hk n x hg0
    rw [eseen] at hk
    rcases List.mem_append.1 hk with hk | hk
    · exact hb.seenNew hx k hk n x hg0
    · obtain ⟨p, hp, rfl⟩ := List.mem_map.1 hk
      intro he
      have h1 := (memc p).1 hp
      have h2 := AtHeight.unique ha cf (atHeight_active hi0 hg0) (atHeight_active hi' h1.2) he
      have h3 : x ∈ s.headers := hex hx x (mem_headers.2 ⟨n, hg0⟩) (mem_headers.2 ⟨p.1, by rw [h2.2]; exact h1.2⟩)
      obtain ⟨j, hj⟩ := mem_headers.1 h3
      exact not_contains hi (hcn p hp) hj he
  · intro hx n x hn hg0 hg'
    have h3 : x ∈ s.headers := hex hx x (mem_headers.2 ⟨n, hg0⟩) (mem_headers.2 ⟨n, hg'⟩)
    obtain ⟨j, hj⟩ := mem_headers.1 h3
    have h2 := AtHeight.unique ha cf (atHeight_active hi0 hg0) (atHeight_active hi hj) rfl
    rw [← h2.1] at hj
    by_cases hnm : m < n
    · exact hb.gone hx n x hnm hg0 hj
    · exact not_contains hi (hcn (n, x) ((memc _).2 ⟨by simp only; omega, hg'⟩)) hj rfl

/-- The loop of `import_blocks` keeps the invariant. -/
theorem batch_loop (ha : Acyclic cfg U) (cf : CollisionFree cfg U) {ex : Prop} {s0 : State} (hi0 : TreeInv cfg U g s0) :
    ∀ (hs : List (Header × Env)) {s : State} {a : Acc} {m i : Nat}, TreeInv cfg U g s → BatchInv cfg U g ex s0 s a m →
      (∀ p ∈ hs, U p.1 ∧ p.2.Fair) → (ex → NeverReconnects cfg s0 s hs) →
      ∀ {s' : State} {a' : Acc}, importLoop cfg s a i hs = (s', .ok a') →
      TreeInv cfg U g s' ∧ ∃ m', BatchInv cfg U g ex s0 s' a' m'
  | [], s, a, m, i, hi, hb, _, _, s', a', h => by
    simp only [importLoop, Prod.mk.injEq, Res.ok.injEq] at h
    obtain ⟨rfl, rfl⟩ := h
    exact ⟨hi, m, hb⟩
  | (x, e) :: hs, s, a, m, i, hi, hb, hu, hex, s', a', h => by
    have hue := hu _ List.mem_cons_self
    have hu' : ∀ p ∈ hs, U p.1 ∧ p.2.Fair := fun p hp => hu p (List.mem_cons_of_mem _ hp)
    obtain ⟨s1, r, e1, i1, o1⟩ := importBlock_spec ha hi hue.2 hue.1
    have hex1 : ex → ∀ y ∈ s0.headers, y ∈ s1.headers → y ∈ s.headers := by
      intro he; have := (hex he).1; rw [e1] at this; exact this
    have hex2 : ex → NeverReconnects cfg s0 s1 hs := by
      intro he; have := (hex he).2; rw [e1] at this; exact this
    simp only [importLoop, e1] at h
    have hsame : s1.headers = s.headers → BatchInv cfg U g ex s0 s1 a m := batch_same hb hi i1
    cases r with
    | panic => simp at h
    | ok y =>
      have hrep := import_report ha hi hue.2 hue.1 e1
      cases y with
      | tipUnchanged =>
        have hh : s1.headers = s.headers := by
          have := congrArg (List.map Prod.snd) hrep
          rw [iter_eq i1, iter_eq hi, List.map_map, List.map_map] at this
          exact this
        exact batch_loop ha cf hi0 hs i1 (hsame hh) hu' hex2 h
      | tipChanged header hash height rv cn =>
        obtain ⟨⟨f, _, hf', ht, hr, hc⟩, hcn, _, htip, hhe⟩ := hrep
        exact batch_loop ha cf hi0 hs i1 (batch_changed ha cf hb hi0 hi i1 hf' ht hr hc hcn htip hhe hex1) hu' hex2 h
    | err er =>
      have hhd : ∀ {k}, er = .duplicate k ∨ er = .missing k → s1.headers = s.headers := by
        intro k hk
        cases o1 with
        | duplicate => rfl
        | invalid => rfl
        | height => rfl
        | missing => rfl
        | selected _ _ _ _ _ o => cases o; simp at hk
      cases er with
      | duplicate k => exact batch_loop ha cf hi0 hs i1 (hsame (hhd (.inl rfl))) hu' hex2 h
      | missing k => exact batch_loop ha cf hi0 hs i1 (hsame (hhd (.inr rfl))) hu' hex2 h
      | _ => simp at h

end Verif.Chain
