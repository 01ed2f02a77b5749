import Mathlib.Data.List.Induction
import Verif.Chain.Spec

/-!
# Helper lemmas about the header tree: the representation invariant and its preservation
-/

set_option autoImplicit false

namespace Verif.Chain
open AMap

/-! ## Paths -/

theorem path_append {hash : Header → Nat} : ∀ {l₁ l₂ : List Header} {a c : Nat},
    Path hash a (l₁ ++ l₂) c ↔ ∃ b, Path hash a l₁ b ∧ Path hash b l₂ c
  | [], l₂, a, c => by simp [Path]
  | h :: l₁, l₂, a, c => by
    simp only [List.cons_append, Path, path_append (l₁ := l₁) (l₂ := l₂)]
    constructor
    · rintro ⟨h1, b, h2, h3⟩; exact ⟨b, ⟨h1, h2⟩, h3⟩
    · rintro ⟨b, ⟨h1, h2⟩, h3⟩; exact ⟨h1, b, h2, h3⟩

theorem path_end {hash : Header → Nat} : ∀ {l : List Header} {a b c : Nat},
    Path hash a l b → Path hash a l c → b = c
  | [], _, _, _, h1, h2 => h1.symm.trans h2
  | _ :: _, _, _, _, h1, h2 => path_end h1.2 h2.2

theorem path_last {hash : Header → Nat} : ∀ {l : List Header} {a b : Nat} {h : Header},
    Path hash a l b → l.getLast? = some h → hash h = b
  | [x], _, _, h, hp, hl => by
    simp only [List.getLast?_singleton, Option.some.injEq] at hl
    exact hl ▸ hp.2
  | x :: y :: l, _, _, h, hp, hl => by
    rw [List.getLast?_cons_cons] at hl
    exact path_last hp.2 hl

theorem path_snoc {hash : Header → Nat} {l : List Header} {a b : Nat} {h : Header}
    (hp : Path hash a l b) (he : h.prev = b) : Path hash a (l ++ [h]) (hash h) :=
  path_append.2 ⟨b, hp, he, rfl⟩

/-- Ranks grow strictly along a path. -/
theorem path_rank {hash : Header → Nat} {rank : Nat → Nat} : ∀ {l : List Header} {a b : Nat},
    Path hash a l b → (∀ h ∈ l, rank h.prev < rank (hash h)) →
    (∀ h ∈ l, rank a < rank (hash h) ∧ rank (hash h) ≤ rank b) ∧ rank a ≤ rank b
  | [], a, b, hp, _ => by
    have : a = b := hp
    simp [this]
  | x :: l, a, b, hp, hr => by
    have ih := path_rank hp.2 (fun h hh => hr h (List.mem_cons_of_mem _ hh))
    have hx := hr x List.mem_cons_self
    rw [hp.1] at hx
    refine ⟨?_, by omega⟩
    intro h hh
    rcases List.mem_cons.1 hh with rfl | hh
    · exact ⟨hx, ih.2⟩
    · have := ih.1 h hh
      exact ⟨by omega, this.2⟩

/-- Hashes along a path are pairwise distinct. -/
theorem path_nodup {hash : Header → Nat} {rank : Nat → Nat} : ∀ {l : List Header} {a b : Nat},
    Path hash a l b → (∀ h ∈ l, rank h.prev < rank (hash h)) → (a :: l.map hash).Nodup
  | [], _, _, _, _ => by simp
  | x :: l, a, b, hp, hr => by
    have ih := path_nodup hp.2 (fun h hh => hr h (List.mem_cons_of_mem _ hh))
    have h1 := (path_rank hp hr).1
    rw [List.map_cons, List.nodup_cons]
    refine ⟨?_, ih⟩
    intro hm
    rcases List.mem_cons.1 hm with hm | hm
    · have := (h1 x List.mem_cons_self).1
      rw [hm] at this; omega
    · obtain ⟨y, hy, he⟩ := List.mem_map.1 hm
      have := (h1 y (List.mem_cons_of_mem _ hy)).1
      rw [he] at this; omega

/-! ## The representation invariant -/

/-- Representation invariant of the header tree. -/
structure TreeInv (cfg : Cfg) (U : Header → Prop) (g : Header) (s : State) : Prop where
  head : s.head = ⟨0, g⟩
  heights : ∀ (i : Nat) (b : Blk), s.chain[i]? = some b → b.height = i
  path : Path cfg.hash (cfg.hash g) s.above (cfg.hash s.last.header)
  tailU : ∀ h ∈ s.above, U h
  index : ∀ (k n : Nat), s.index.get k = some n ↔ ∃ b, s.chain[n]? = some b ∧ cfg.hash b.header = k
  indexNodup : s.index.keys.Nodup
  orphans : ∀ (k : Nat) (h : Header), s.orphans.get k = some h → cfg.hash h = k ∧ U h ∧ s.index.get k = none
  orphansNodup : s.orphans.keys.Nodup
  work : s.chainwork = totalWork cfg s.headers

theorem totalWork_append (cfg : Cfg) (a b : List Header) :
    totalWork cfg (a ++ b) = totalWork cfg a + totalWork cfg b := by
  simp [totalWork]

theorem branchWork_eq (cfg : Cfg) (a : List Header) : branchWork cfg a = totalWork cfg a := rfl

theorem last_eq_of_nil {s : State} (h : s.tail = []) : s.last = s.head := by
  simp [State.last, h]

theorem last_append {s : State} {b : Blk} {l : List Blk} (h : s.tail = l ++ [b]) : s.last = b := by
  simp [State.last, List.getLastD_eq_getLast?, h]

theorem chain_last (s : State) : s.chain.getLast? = some s.last := by
  unfold State.chain State.last
  cases h : s.tail with
  | nil => rfl
  | cons x xs => simp [List.getLastD_eq_getLast?, List.getLast?_cons]

theorem chain_last_get (s : State) : s.chain[s.tail.length]? = some s.last := by
  have := chain_last s
  rw [List.getLast?_eq_getElem?] at this
  simpa [State.chain] using this

variable {cfg : Cfg} {U : Header → Prop} {g : Header} {s : State}

theorem TreeInv.height_eq (hi : TreeInv cfg U g s) : s.height = s.tail.length :=
  hi.heights _ _ (chain_last_get s)

theorem TreeInv.headers_eq (hi : TreeInv cfg U g s) : s.headers = g :: s.above := by
  simp [State.headers, State.chain, State.above, hi.head]

/-- Hashes on the active chain are distinct. -/
theorem TreeInv.nodup (ha : Acyclic cfg U) (hi : TreeInv cfg U g s) : (s.headers.map cfg.hash).Nodup := by
  obtain ⟨rank, hr⟩ := ha
  rw [hi.headers_eq]
  exact path_nodup hi.path (fun h hh => hr h (hi.tailU h hh))

theorem TreeInv.contains_iff (hi : TreeInv cfg U g s) (k : Nat) :
    s.index.get k = none ↔ ∀ h ∈ s.headers, cfg.hash h ≠ k := by
  constructor
  · intro h x hx he
    obtain ⟨b, hb, rfl⟩ := List.mem_map.1 hx
    obtain ⟨n, hn, hbn⟩ := List.mem_iff_getElem.1 hb
    have := (hi.index k n).2 ⟨b, by rw [List.getElem?_eq_getElem hn, hbn], he⟩
    rw [h] at this; simp at this
  · intro h
    cases hg : s.index.get k with
    | none => rfl
    | some n =>
      obtain ⟨b, hb, he⟩ := (hi.index k n).1 hg
      exact absurd he (h _ (List.mem_map.2 ⟨b, List.mem_of_getElem? hb, rfl⟩))

theorem TreeInv.getBlock (hi : TreeInv cfg U g s) {k n : Nat} {h : Header}
    (hg : s.getBlock k = some (n, h)) :
    cfg.hash h = k ∧ s.index.get k = some n ∧ s.chain[n]? = some ⟨n, h⟩ := by
  unfold State.getBlock at hg
  cases hx : s.index.get k with
  | none => simp [hx] at hg
  | some m =>
    obtain ⟨b, hb, he⟩ := (hi.index k m).1 hx
    have hh := hi.heights m b hb
    simp only [hx, hb, Option.map_some, Option.some.injEq, Prod.mk.injEq] at hg
    obtain ⟨h1, h2⟩ := hg
    subst h2
    rw [hh] at h1
    subst h1
    exact ⟨he, rfl, by rw [hb]; cases b; simp_all⟩

theorem TreeInv.getBlock_none (hi : TreeInv cfg U g s) {k : Nat} (hg : s.getBlock k = none) :
    s.index.get k = none := by
  unfold State.getBlock at hg
  cases hx : s.index.get k with
  | none => rfl
  | some m =>
    obtain ⟨b, hb, -⟩ := (hi.index k m).1 hx
    simp [hx, hb] at hg

/-! ## Initial state -/

theorem inv_new (cfg : Cfg) (U : Header → Prop) (g : Header) (st : List Header) :
    TreeInv cfg U g (new cfg g st) where
  head := rfl
  heights := by
    intro i b h
    cases i with
    | zero => simp [new, State.chain] at h; simp [← h]
    | succ i => simp [new, State.chain] at h
  path := rfl
  tailU := by simp [new, State.above]
  index := by
    intro k n
    simp only [new, State.chain, AMap.get_cons, AMap.get_nil]
    constructor
    · intro h
      by_cases hk : cfg.hash g = k
      · simp only [hk, ite_true, Option.some.injEq] at h
        subst h
        exact ⟨_, rfl, hk⟩
      · simp [hk] at h
    · rintro ⟨b, hb, he⟩
      cases n with
      | zero => simp at hb; subst hb; simp [he]
      | succ n => simp at hb
  indexNodup := by simp [new, AMap.keys]
  orphans := by simp [new]
  orphansNodup := by simp [new, AMap.keys]
  work := by simp [new, totalWork, State.headers, State.chain]

/-! ## Extending the chain -/

theorem inv_extend (ha : Acyclic cfg U) (hi : TreeInv cfg U g s) {h : Header} {n : Nat}
    (hu : U h) (hp : h.prev = cfg.hash s.last.header) (hn : n = s.height + 1) :
    ∃ s', extendChain cfg s n (cfg.hash h) h = .ok s' ∧ TreeInv cfg U g s' ∧
      s'.tail = s.tail ++ [⟨n, h⟩] ∧ s'.store = s.store ∧ s'.head = s.head ∧
      s'.orphans = s.orphans.erase (cfg.hash h) := by
  refine ⟨{ s with
      index := s.index.insert (cfg.hash h) n
      orphans := s.orphans.erase (cfg.hash h)
      tail := s.tail ++ [⟨n, h⟩]
      chainwork := s.chainwork + cfg.work h.bits },
    by rw [extendChain, if_pos hp], ?_, rfl, rfl, rfl, rfl⟩
  have hlen := hi.height_eq
  have hnew : s.index.get (cfg.hash h) = none := by
    rw [hi.contains_iff]
    intro x hx he
    obtain ⟨rank, hr⟩ := ha
    have h1 := hr h hu
    have h2 := path_rank hi.path (fun y hy => hr y (hi.tailU y hy))
    rw [hi.headers_eq] at hx
    rw [hp] at h1
    rcases List.mem_cons.1 hx with rfl | hx
    · rw [he] at h2; omega
    · have := (h2.1 x hx).2
      rw [he] at this; omega
  constructor
  · exact hi.head
  · intro i b hb
    simp only [State.chain, ← List.cons_append] at hb
    by_cases hlt : i < s.chain.length
    · rw [List.getElem?_append_left (by simpa [State.chain] using hlt)] at hb
      exact hi.heights i b hb
    · rw [List.getElem?_append_right (by simpa [State.chain] using hlt)] at hb
      have hz : i - (s.head :: s.tail).length = 0 := by
        by_contra hne
        obtain ⟨m, hm⟩ := Nat.exists_eq_succ_of_ne_zero hne
        rw [hm] at hb; simp at hb
      rw [hz] at hb
      simp at hb
      subst hb
      simp [State.chain] at hlt hz
      simp; omega
  · rw [last_append rfl]
    simp only [State.above, List.map_append, List.map_cons, List.map_nil]
    exact path_snoc hi.path hp
  · intro x hx
    simp only [State.above, List.map_append, List.map_cons, List.map_nil, List.mem_append,
      List.mem_singleton] at hx
    rcases hx with hx | rfl
    · exact hi.tailU x hx
    · exact hu
  · intro k m
    simp only [AMap.get_insert, State.chain, ← List.cons_append]
    by_cases hk : cfg.hash h = k
    · simp only [hk, ite_true, Option.some.injEq]
      constructor
      · rintro rfl
        refine ⟨⟨n, h⟩, ?_, hk⟩
        rw [List.getElem?_append_right (by simp; omega)]
        have h0 : n - (s.head :: s.tail).length = 0 := by simp; omega
        rw [h0]; rfl
      · rintro ⟨b, hb, he⟩
        by_cases hlt : m < (s.head :: s.tail).length
        · rw [List.getElem?_append_left hlt] at hb
          have := (hi.index k m).2 ⟨b, hb, he⟩
          rw [hk] at hnew; rw [hnew] at this; simp at this
        · rw [List.getElem?_append_right (by omega)] at hb
          have := (List.getElem?_eq_some_iff.1 hb).1
          simp at this hlt
          omega
    · simp only [hk, ite_false]
      rw [hi.index]
      constructor
      · rintro ⟨b, hb, he⟩
        refine ⟨b, ?_, he⟩
        have hlt := (List.getElem?_eq_some_iff.1 hb).1
        rw [List.getElem?_append_left (by simpa [State.chain] using hlt)]
        exact hb
      · rintro ⟨b, hb, he⟩
        by_cases hlt : m < (s.head :: s.tail).length
        · rw [List.getElem?_append_left hlt] at hb
          exact ⟨b, hb, he⟩
        · rw [List.getElem?_append_right (by omega)] at hb
          have := List.mem_of_getElem? hb
          simp at this
          subst this
          exact absurd he hk
  · exact AMap.nodup_insert hi.indexNodup _ _
  · intro k x hx
    simp only at hx ⊢
    rw [AMap.get_erase] at hx
    by_cases hk : cfg.hash h = k
    · simp [hk] at hx
    · simp only [hk, ite_false] at hx
      have := hi.orphans k x hx
      exact ⟨this.1, this.2.1, by rw [AMap.get_insert_ne _ _ hk]; exact this.2.2⟩
  · exact AMap.nodup_erase hi.orphansNodup _
  · simp only [State.headers, State.chain, ← List.cons_append, List.map_append, totalWork_append]
    rw [hi.work]
    simp [totalWork, State.headers, State.chain]

/-! ## Rolling back -/

theorem path_lastD {hash : Header → Nat} : ∀ {l : List Blk} {x : Blk} {b : Nat},
    Path hash (hash x.header) (l.map (·.header)) b → b = hash (l.getLastD x).header
  | [], _, _, h => Eq.symm h
  | y :: l, x, b, h => by
    have := path_lastD (l := l) (x := y) h.2
    rw [this, List.getLastD_cons]

theorem rollbackLoop_fields (cfg : Cfg) : ∀ (bs : List Blk) (s : State) (n : Nat),
    (rollbackLoop cfg s n bs).head = s.head ∧ (rollbackLoop cfg s n bs).tail = s.tail ∧
    (rollbackLoop cfg s n bs).store = s.store ∧
    (rollbackLoop cfg s n bs).chainwork = s.chainwork - totalWork cfg (bs.map (·.header))
  | [], s, n => by simp [rollbackLoop, totalWork]
  | b :: bs, s, n => by
    have := rollbackLoop_fields cfg bs { s with
        chainwork := s.chainwork - cfg.work b.header.bits
        index := s.index.erase (cfg.hash b.header)
        orphans := s.orphans.insert (cfg.hash b.header) b.header } (n + 1)
    simp only [rollbackLoop]
    refine ⟨this.1, this.2.1, this.2.2.1, ?_⟩
    rw [this.2.2.2]
    simp [totalWork, Nat.sub_sub]

theorem rollbackLoop_index (cfg : Cfg) : ∀ (bs : List Blk) (s : State) (n k : Nat),
    (rollbackLoop cfg s n bs).index.get k =
      if k ∈ bs.map (fun b => cfg.hash b.header) then none else s.index.get k
  | [], s, n, k => by simp [rollbackLoop]
  | b :: bs, s, n, k => by
    simp only [rollbackLoop]
    rw [rollbackLoop_index cfg bs]
    simp only [List.map_cons, List.mem_cons, AMap.get_erase]
    by_cases h : k ∈ bs.map (fun b => cfg.hash b.header)
    · simp [h]
    · by_cases h2 : k = cfg.hash b.header
      · simp [h2]
      · simp [h, h2, Ne.symm h2]

theorem rollbackLoop_indexNodup (cfg : Cfg) : ∀ (bs : List Blk) (s : State) (n : Nat),
    s.index.keys.Nodup → s.orphans.keys.Nodup →
    (rollbackLoop cfg s n bs).index.keys.Nodup ∧ (rollbackLoop cfg s n bs).orphans.keys.Nodup
  | [], s, n, h, h2 => ⟨h, h2⟩
  | b :: bs, s, n, h, h2 => by
    simp only [rollbackLoop]
    exact rollbackLoop_indexNodup cfg bs _ _ (AMap.nodup_erase h _) (AMap.nodup_insert h2 _ _)

theorem rollbackLoop_orphans (cfg : Cfg) : ∀ (bs : List Blk) (s : State) (n k : Nat) (x : Header),
    (bs.map (fun b => cfg.hash b.header)).Nodup →
    ((rollbackLoop cfg s n bs).orphans.get k = some x ↔
      (∃ b ∈ bs, cfg.hash b.header = k ∧ b.header = x) ∨
      (k ∉ bs.map (fun b => cfg.hash b.header) ∧ s.orphans.get k = some x))
  | [], s, n, k, x, _ => by simp [rollbackLoop]
  | b :: bs, s, n, k, x, hn => by
    simp only [List.map_cons, List.nodup_cons] at hn
    simp only [rollbackLoop]
    rw [rollbackLoop_orphans cfg bs _ _ _ _ hn.2]
    simp only [AMap.get_insert, List.mem_cons, List.map_cons]
    by_cases hk : cfg.hash b.header = k
    · subst hk
      constructor
      · rintro (⟨y, hy, h1, h2⟩ | ⟨_, h2⟩)
        · exact absurd (List.mem_map.2 ⟨y, hy, h1⟩) hn.1
        · left; simp at h2; exact ⟨b, .inl rfl, rfl, h2⟩
      · rintro (⟨y, hy | hy, h1, h2⟩ | ⟨h1, h2⟩)
        · subst hy; right; exact ⟨hn.1, by simp [h2]⟩
        · exact absurd (List.mem_map.2 ⟨y, hy, h1⟩) hn.1
        · simp at h1
    · constructor
      · rintro (⟨y, hy, h1, h2⟩ | ⟨h1, h2⟩)
        · exact .inl ⟨y, .inr hy, h1, h2⟩
        · simp only [hk, ite_false] at h2
          refine .inr ⟨?_, h2⟩
          rintro (h | h)
          · exact hk h.symm
          · exact h1 h
      · rintro (⟨y, hy | hy, h1, h2⟩ | ⟨h1, h2⟩)
        · subst hy; exact absurd h1 hk
        · exact .inl ⟨y, hy, h1, h2⟩
        · refine .inr ⟨fun h => h1 (.inr h), ?_⟩
          simp only [hk, ite_false]; exact h2

theorem chain_take (s : State) (n : Nat) : s.head :: s.tail.take n = s.chain.take (n + 1) := by
  simp [State.chain]

theorem TreeInv.nodup_chain (ha : Acyclic cfg U) (hi : TreeInv cfg U g s) :
    (s.chain.map (fun b => cfg.hash b.header)).Nodup := by
  have := hi.nodup ha
  simpa [State.headers, List.map_map, Function.comp_def] using this

/-- Rolling back the cache (before touching the store) to height `n`. -/
theorem inv_rollbackLoop (ha : Acyclic cfg U) (hi : TreeInv cfg U g s) (n : Nat) :
    ∃ s1, s1 = rollbackLoop cfg { s with tail := s.tail.take n } (n + 1) (s.tail.drop n) ∧
      TreeInv cfg U g s1 ∧ s1.head = s.head ∧ s1.tail = s.tail.take n ∧ s1.store = s.store ∧
      (∀ k x, s1.orphans.get k = some x ↔
        (∃ b ∈ s.tail.drop n, cfg.hash b.header = k ∧ b.header = x) ∨ s.orphans.get k = some x) := by
  refine ⟨_, rfl, ?_⟩
  obtain ⟨f1, f2, f3, f4⟩ := rollbackLoop_fields cfg (s.tail.drop n) { s with tail := s.tail.take n } (n + 1)
  have fi := rollbackLoop_index cfg (s.tail.drop n) { s with tail := s.tail.take n } (n + 1)
  have fo := rollbackLoop_orphans cfg (s.tail.drop n) { s with tail := s.tail.take n } (n + 1)
  have fn := rollbackLoop_indexNodup cfg (s.tail.drop n) { s with tail := s.tail.take n } (n + 1)
    hi.indexNodup hi.orphansNodup
  generalize rollbackLoop cfg { s with tail := s.tail.take n } (n + 1) (s.tail.drop n) = s1 at *
  simp only at f1 f2 f3 f4 fi fo
  have hc : s1.chain = s.chain.take (n + 1) := by
    rw [State.chain, f1, f2, chain_take]
  have hd : s.tail.drop n = s.chain.drop (n + 1) := by simp [State.chain]
  have hnd := hi.nodup_chain ha
  have hsplit : s.chain.take (n + 1) ++ s.chain.drop (n + 1) = s.chain := List.take_append_drop _ _
  have hnd2 : ((s.tail.drop n).map (fun b => cfg.hash b.header)).Nodup := by
    rw [hd]
    rw [← hsplit, List.map_append] at hnd
    exact (List.nodup_append.1 hnd).2.1
  have hdisj : ∀ a ∈ s.chain.take (n + 1), ∀ b ∈ s.tail.drop n, cfg.hash a.header ≠ cfg.hash b.header := by
    intro a ha b hb
    rw [hd] at hb
    rw [← hsplit, List.map_append] at hnd
    exact (List.nodup_append.1 hnd).2.2 _ (List.mem_map.2 ⟨a, ha, rfl⟩) _ (List.mem_map.2 ⟨b, hb, rfl⟩)
  have hmem : ∀ b ∈ s.tail.drop n, s.orphans.get (cfg.hash b.header) = none := by
    intro b hb
    cases ho : s.orphans.get (cfg.hash b.header) with
    | none => rfl
    | some x =>
      have h1 := (hi.orphans _ _ ho).2.2
      rw [hi.contains_iff] at h1
      refine absurd rfl (h1 b.header ?_)
      rw [hd] at hb
      exact List.mem_map.2 ⟨b, List.mem_of_mem_drop hb, rfl⟩
  refine ⟨?_, f1, f2, f3, ?_⟩
  · constructor
    · rw [f1]; exact hi.head
    · intro i b hb
      rw [hc, List.getElem?_take] at hb
      split at hb
      · exact hi.heights i b hb
      · simp at hb
    · have hp := hi.path
      have : s.above = (s.tail.take n).map (·.header) ++ (s.tail.drop n).map (·.header) := by
        rw [← List.map_append, List.take_append_drop]; rfl
      rw [this, path_append] at hp
      obtain ⟨b, h1, -⟩ := hp
      have h2 := path_lastD (x := ⟨0, g⟩) h1
      simp only [State.above, State.last, f1, f2, hi.head]
      rw [h2] at h1
      exact h1
    · intro h hh
      simp only [State.above, f2] at hh
      obtain ⟨b, hb, rfl⟩ := List.mem_map.1 hh
      exact hi.tailU _ (List.mem_map.2 ⟨b, List.mem_of_mem_take hb, rfl⟩)
    · intro k m
      rw [fi, hc]
      constructor
      · intro h
        split at h
        · simp at h
        · rename_i hk
          obtain ⟨b, hb, he⟩ := (hi.index k m).1 h
          refine ⟨b, ?_, he⟩
          rw [List.getElem?_take]
          split
          · exact hb
          · exfalso
            apply hk
            rename_i hlt
            refine List.mem_map.2 ⟨b, ?_, he⟩
            rw [hd]
            refine List.mem_of_getElem? (i := m - (n + 1)) ?_
            rw [List.getElem?_drop]
            rw [← hb]; congr 1; omega
      · rintro ⟨b, hb, he⟩
        have hm := List.mem_of_getElem? hb
        rw [if_neg]
        · rw [List.getElem?_take] at hb
          split at hb
          · exact (hi.index k m).2 ⟨b, hb, he⟩
          · simp at hb
        · intro hk
          obtain ⟨y, hy, hye⟩ := List.mem_map.1 hk
          exact hdisj b hm y hy (by rw [he, hye])
    · exact fn.1
    · intro k h hh
      rw [fo _ _ hnd2] at hh
      rw [fi]
      rcases hh with ⟨b, hb, h1, h2⟩ | ⟨h1, h2⟩
      · subst h2
        refine ⟨h1, hi.tailU _ (List.mem_map.2 ⟨b, List.mem_of_mem_drop hb, rfl⟩), ?_⟩
        rw [if_pos (List.mem_map.2 ⟨b, hb, h1⟩)]
      · have := hi.orphans k h h2
        rw [if_neg h1]; exact this
    · exact fn.2
    · rw [f4, hi.work]
      have : s.headers = s1.headers ++ (s.tail.drop n).map (·.header) := by
        simp only [State.headers]
        rw [hc, hd, ← List.map_append, hsplit]
      rw [this, totalWork_append]; omega
  · intro k x
    rw [fo _ _ hnd2]
    constructor
    · rintro (h | ⟨_, h⟩)
      · exact .inl h
      · exact .inr h
    · rintro (h | h)
      · exact .inl h
      · refine .inr ⟨?_, h⟩
        intro hk
        obtain ⟨b, hb, he⟩ := List.mem_map.1 hk
        have := hmem b hb
        rw [he, h] at this; simp at this

/-! ## Extending by a branch -/

theorem TreeInv.last_eq (hi : TreeInv cfg U g s) {b : Nat} (h : Path cfg.hash (cfg.hash g) s.above b) :
    b = cfg.hash s.last.header := path_end h hi.path

theorem inv_extendLoop (ha : Acyclic cfg U) : ∀ (hs : List Header) {s : State} {n t : Nat},
    TreeInv cfg U g s → (∀ h ∈ hs, U h) → Path cfg.hash (cfg.hash s.last.header) hs t → n = s.height + 1 →
    ∃ s', extendLoop cfg s n hs = .ok s' ∧ TreeInv cfg U g s' ∧ s'.above = s.above ++ hs ∧
      s'.store = s.store ∧ s'.head = s.head ∧
      (∀ k, s'.orphans.get k = if k ∈ hs.map cfg.hash then none else s.orphans.get k)
  | [], s, n, t, hi, _, _, _ => ⟨s, rfl, hi, by simp, rfl, rfl, by simp⟩
  | h :: hs, s, n, t, hi, hu, hp, hn => by
    obtain ⟨s1, e1, i1, t1, st1, hd1, o1⟩ := inv_extend ha hi (hu h List.mem_cons_self) hp.1 hn
    have hl1 : s1.last = ⟨n, h⟩ := last_append t1
    have hp1 : Path cfg.hash (cfg.hash s1.last.header) hs t := by rw [hl1]; exact hp.2
    have hn1 : n + 1 = s1.height + 1 := by simp [State.height, hl1]
    obtain ⟨s2, e2, i2, t2, st2, hd2, o2⟩ :=
      inv_extendLoop ha hs i1 (fun x hx => hu x (List.mem_cons_of_mem _ hx)) hp1 hn1
    refine ⟨s2, ?_, i2, ?_, st2.trans st1, hd2.trans hd1, ?_⟩
    · simp only [extendLoop, e1, Res.ok_bind]; exact e2
    · rw [t2]; simp [State.above, t1]
    · intro k
      rw [o2, o1, AMap.get_erase]
      simp only [List.map_cons, List.mem_cons]
      by_cases h1 : k ∈ hs.map cfg.hash
      · simp [h1]
      · by_cases h2 : k = cfg.hash h
        · simp [h2]
        · simp [h1, h2, Ne.symm h2]

/-! ## Walking back through the orphans -/

theorem walk_ok {hash : Header → Nat} {rank : Nat → Nat} {o : AMap Nat Header}
    (ho : ∀ k h, o.get k = some h → hash h = k ∧ rank h.prev < rank (hash h)) :
    ∀ (n c : Nat) (acc : List Header), (acc.map hash).Nodup → (∀ h ∈ acc, o.get (hash h) = some h) →
      (∀ h ∈ acc, rank c < rank (hash h)) → n + acc.length = o.length + 1 →
      ∃ c' L, walk o n c acc = .ok (c', L ++ acc) ∧ Path hash c' L c ∧
        (∀ h ∈ L, o.get (hash h) = some h) ∧ o.get c' = none
  | 0, c, acc, hnd, hin, hr, hl => by
    exfalso
    have hsub : acc.map hash ⊆ o.keys := by
      intro k hk
      obtain ⟨h, hh, rfl⟩ := List.mem_map.1 hk
      rw [← AMap.get_isSome_iff, hin h hh]; rfl
    have := (List.subperm_of_subset hnd hsub).length_le
    simp [AMap.keys] at this
    omega
  | n + 1, c, acc, hnd, hin, hr, hl => by
    rw [walk]
    cases hc : o.get c with
    | none => exact ⟨c, [], rfl, rfl, by simp, hc⟩
    | some h =>
      obtain ⟨hh, hrk⟩ := ho c h hc
      obtain ⟨c', L, e, hp, hL, hn⟩ := walk_ok ho n h.prev (h :: acc)
        (by
          rw [List.map_cons, List.nodup_cons]
          refine ⟨?_, hnd⟩
          intro hm
          obtain ⟨x, hx, hxe⟩ := List.mem_map.1 hm
          have := hr x hx
          rw [hxe, hh] at this; omega)
        (by
          intro x hx
          rcases List.mem_cons.1 hx with rfl | hx
          · rw [hh]; exact hc
          · exact hin x hx)
        (by
          intro x hx
          rcases List.mem_cons.1 hx with rfl | hx
          · exact hrk
          · have := hr x hx
            rw [hh] at hrk; omega)
        (by simp; omega)
      refine ⟨c', L ++ [h], ?_, ?_, ?_, hn⟩
      · rw [List.append_assoc]; exact e
      · rw [← hh]; exact path_snoc hp rfl
      · intro x hx
        rcases List.mem_append.1 hx with hx | hx
        · exact hL x hx
        · rw [List.mem_singleton.1 hx, hh]; exact hc

/-- A path through the orphans ending at a block that is not an orphan is unique. -/
theorem orphan_path_unique {hash : Header → Nat} {o : AMap Nat Header} {t : Nat} {L : List Header} {a : Nat}
    (h1 : Path hash a L t) (h2 : ∀ h ∈ L, o.get (hash h) = some h) (h3 : o.get a = none) :
    ∀ {L' : List Header} {a' : Nat}, Path hash a' L' t → (∀ h ∈ L', o.get (hash h) = some h) → o.get a' = none →
      a = a' ∧ L = L' := by
  induction L using List.reverseRecOn generalizing t with
  | nil =>
    intro L' a' h1' h2' h3'
    have : a = t := h1
    subst this
    rcases List.eq_nil_or_concat L' with rfl | ⟨M, x, rfl⟩
    · exact ⟨Eq.symm h1', rfl⟩
    · exfalso
      rw [List.concat_eq_append] at h1' h2'
      have hx := path_last h1' (List.getLast?_concat)
      have := h2' x (by simp)
      rw [hx, h3] at this; simp at this
  | append_singleton M x ih =>
    intro L' a' h1' h2' h3'
    have hx := path_last h1 (List.getLast?_concat)
    have hox := h2 x (by simp)
    rw [hx] at hox
    rcases List.eq_nil_or_concat L' with rfl | ⟨M', x', rfl⟩
    · have : a' = t := h1'
      subst this
      rw [h3'] at hox; simp at hox
    · simp only [List.concat_eq_append] at h1' h2' ⊢
      have hx' := path_last h1' (List.getLast?_concat)
      have hox' := h2' x' (by simp)
      rw [hx', hox] at hox'
      obtain rfl : x = x' := by simpa using hox'
      obtain ⟨b, p1, p2⟩ := path_append.1 h1
      obtain ⟨b', p1', p2'⟩ := path_append.1 h1'
      have e1 : x.prev = b := p2.1
      have e2 : x.prev = b' := p2'.1
      subst e1
      rw [← e2] at p1'
      obtain ⟨ea, eM⟩ := ih p1 (fun h hh => h2 h (by simp [hh])) p1' (fun h hh => h2' h (by simp [hh])) h3'
      exact ⟨ea, by rw [eM]⟩

/-- What it means for `c` to be a branch of known stale headers off the active chain, ending in `tip`. -/
structure IsBranch (cfg : Cfg) (s : State) (tip : Nat) (c : Candidate) : Prop where
  tip_eq : c.tip = tip
  nonempty : c.headers ≠ []
  forkBlk : s.chain[c.forkHeight]? = some ⟨c.forkHeight, c.forkHeader⟩
  path : Path cfg.hash (cfg.hash c.forkHeader) c.headers tip
  stale : ∀ h ∈ c.headers, s.orphans.get (cfg.hash h) = some h

theorem fork_spec (ha : Acyclic cfg U) (hi : TreeInv cfg U g s) {tip : Nat} (ht : s.index.get tip = none) :
    (∃ c, fork s tip = .ok (some c) ∧ IsBranch cfg s tip c) ∨
    (fork s tip = .ok none ∧ ∀ c, ¬ IsBranch cfg s tip c) := by
  obtain ⟨rank, hr⟩ := ha
  obtain ⟨c', L, e, hp, hL, hn⟩ := walk_ok (hash := cfg.hash) (rank := rank) (o := s.orphans)
    (fun k h hk => ⟨(hi.orphans k h hk).1, hr h (hi.orphans k h hk).2.1⟩)
    (s.orphans.length + 1) tip [] (by simp) (by simp) (by simp) (by simp)
  have hcont : s.index.contains tip = false := by rw [AMap.contains_eq_false_iff]; exact ht
  simp only [fork, hcont, Bool.not_false, Res.assert_true, Res.ok_bind, e]
  cases hg : s.getBlock c' with
  | some p =>
    left
    obtain ⟨fh, fhdr⟩ := p
    obtain ⟨g1, g2, g3⟩ := hi.getBlock hg
    have hne : L ≠ [] := by
      rintro rfl
      have : c' = tip := hp
      rw [this, ht] at g2; simp at g2
    have hne' : L.isEmpty = false := by simp [hne]
    refine ⟨⟨tip, L ++ [], fh, fhdr⟩, by simp [hne', Res.assert_true], rfl, by simpa using hne, g3, ?_, by simpa using hL⟩
    simpa [g1] using hp
  | none =>
    right
    refine ⟨rfl, ?_⟩
    intro c hc
    have hforkidx : s.index.get (cfg.hash c.forkHeader) = some c.forkHeight :=
      (hi.index _ _).2 ⟨_, hc.forkBlk, rfl⟩
    have hfo : s.orphans.get (cfg.hash c.forkHeader) = none := by
      cases h : s.orphans.get (cfg.hash c.forkHeader) with
      | none => rfl
      | some x => have := (hi.orphans _ _ h).2.2; rw [hforkidx] at this; simp at this
    obtain ⟨e1, -⟩ := orphan_path_unique hp hL hn hc.path hc.stale hfo
    have := hi.getBlock_none hg
    rw [e1, hforkidx] at this; simp at this

theorem branch_unique (hi : TreeInv cfg U g s) {tip : Nat} {c c' : Candidate}
    (h : IsBranch cfg s tip c) (h' : IsBranch cfg s tip c') : c = c' := by
  have key : ∀ {c : Candidate}, IsBranch cfg s tip c →
      s.index.get (cfg.hash c.forkHeader) = some c.forkHeight ∧ s.orphans.get (cfg.hash c.forkHeader) = none := by
    intro c hc
    have h1 : s.index.get (cfg.hash c.forkHeader) = some c.forkHeight := (hi.index _ _).2 ⟨_, hc.forkBlk, rfl⟩
    refine ⟨h1, ?_⟩
    cases h : s.orphans.get (cfg.hash c.forkHeader) with
    | none => rfl
    | some x => have := (hi.orphans _ _ h).2.2; rw [h1] at this; simp at this
  obtain ⟨k1, k2⟩ := key h
  obtain ⟨k1', k2'⟩ := key h'
  obtain ⟨e1, e2⟩ := orphan_path_unique h.path h.stale k2 h'.path h'.stale k2'
  have e3 : c.forkHeight = c'.forkHeight := by
    rw [e1, k1'] at k1; simpa using k1.symm
  have e4 : c.forkHeader = c'.forkHeader := by
    have a := h.forkBlk
    have b := h'.forkBlk
    rw [e3, b] at a; simp at a; exact a.symm
  cases c; cases c'
  simp only at e2 e3 e4
  have := h.tip_eq; have := h'.tip_eq
  simp_all

end Verif.Chain
