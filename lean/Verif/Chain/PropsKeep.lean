import Verif.Chain.PropsValid

/-!
# C129: what the header tree keeps

Headers are kept on the active chain or, off it, as candidates for a re-organization.
-/

set_option autoImplicit false

namespace Verif.Chain

/-! ## Specification -/

/-- The headers that are kept: those of the active chain above genesis, and those off it. -/
def State.kept (s : State) : List Header := s.above ++ s.orphans.map (·.2)

section
variable {cfg : Cfg} {U : Header → Prop} {g : Header} {fail : Bool} {s : State}

/-! ## Theorems -/

theorem mem_kept (hi : TreeInv cfg U g s) {x : Header} (hx : x ∈ s.kept) : x ∈ s.above ∨ ∃ k, s.orphans.get k = some x := by
  rcases List.mem_append.1 hx with hx | hx
  · exact .inl hx
  · obtain ⟨⟨k, y⟩, hm, rfl⟩ := List.mem_map.1 hx
    exact .inr ⟨k, AMap.get_of_mem hi.orphansNodup hm⟩

/-- **C129.** Every header that is kept was received, and it was worked for: it hashes to at most the target it names. -/
theorem C129_headers_worked (ha : Acyclic cfg U) (hg : cfg.genesisHash = cfg.hash g) (hr : Reach cfg U g fail s) {x : Header} (hx : x ∈ s.kept) :
    U x ∧ cfg.hashInt (cfg.hash x) ≤ cfg.target x.bits := by
  have hi := (reach_inv ha hg hr).1
  have hk := mem_kept hi hx
  refine ⟨?_, pow_inv ha hg hr x hk⟩
  rcases hk with h | ⟨k, h⟩
  · exact hi.tailU x h
  · exact (hi.orphans k x h).2.1

/-- **C129.** The target it names is within the limit of the network, so that a header that is kept costs no less than one at the lowest difficulty.  (The compact form never decodes to more than what was encoded, and genesis
and the bits of the lowest difficulty are within the limit.) -/
theorem C129_headers_limit (ha : Acyclic cfg U) (hg : cfg.genesisHash = cfg.hash g) (hgl : cfg.target g.bits ≤ cfg.powLimit) (hmin : cfg.target cfg.powLimitBits ≤ cfg.powLimit)
    (hcompact : ∀ x, cfg.target (cfg.compact x) ≤ x) (hr : Reach cfg U g fail s) {x : Header} (hx : x ∈ s.kept) : cfg.hashInt (cfg.hash x) ≤ cfg.powLimit := by
  refine ((C129_headers_worked ha hg hr hx).2).trans (limit_inv ha hg hgl hmin hcompact hr x ?_)
  rcases mem_kept (reach_inv ha hg hr).1 hx with h | h
  · exact .inl (List.mem_cons_of_mem _ h)
  · exact .inr h

/-- **C129.** No header is kept twice, however often it is received. -/
theorem C129_headers_once (ha : Acyclic cfg U) (hg : cfg.genesisHash = cfg.hash g) (hr : Reach cfg U g fail s) : (s.kept.map cfg.hash).Nodup := by
  have hi := (reach_inv ha hg hr).1
  have h1 := hi.nodup ha
  rw [hi.headers_eq, List.map_cons, List.nodup_cons] at h1
  have h2 : (s.orphans.map (·.2)).map cfg.hash = s.orphans.keys := by
    rw [AMap.keys, List.map_map]
    refine List.map_congr_left fun p hp => ?_
    exact (hi.orphans p.1 p.2 (AMap.get_of_mem hi.orphansNodup hp)).1
  rw [State.kept, List.map_append, h2]
  refine List.nodup_append.2 ⟨h1.2, hi.orphansNodup, ?_⟩
  rintro a hx b hy rfl
  obtain ⟨x, hm, rfl⟩ := List.mem_map.1 hx
  obtain ⟨p, hp, hpk⟩ := List.mem_map.1 hy
  have h3 := (hi.orphans p.1 p.2 (AMap.get_of_mem hi.orphansNodup hp)).2.2
  rw [hpk] at h3
  exact (hi.contains_iff _).1 h3 x (by rw [hi.headers_eq]; exact List.mem_cons_of_mem _ hm) rfl

/-- **C129.** As many headers are kept as there are different headers with proof of work among those received, at most. -/
theorem C129_headers_count (ha : Acyclic cfg U) (hg : cfg.genesisHash = cfg.hash g) (hr : Reach cfg U g fail s) (l : List Header)
    (hl : ∀ x, U x → cfg.hashInt (cfg.hash x) ≤ cfg.target x.bits → x ∈ l) : s.kept.length ≤ l.length := by
  have h1 : s.kept.Nodup := List.Nodup.of_map _ (C129_headers_once ha hg hr)
  refine (List.subperm_of_subset h1 ?_).length_le
  intro x hx
  obtain ⟨h2, h3⟩ := C129_headers_worked ha hg hr hx
  exact hl x h2 h3

end

/-! ## A concrete case -/

namespace Scenario

/-- A hash is worth its number, and the target is 1000, unless the bits are zero. -/
def cfgWork : Cfg := { cfg with hashInt := id, target := fun b => if b = 0 then 0 else 1000, compact := fun x => if x < 1000 then 0 else 1 }

/-- A header without proof of work. -/
def cheap : Header := mk 1001 1 202 10

/-- Two branches, with headers repeated. -/
def sWork : State := (importBlocks cfgWork (new cfgWork g [g]) [(a1, e), (a2, e), (a1, e), (b1, e), (b1, eRev), (b2, eRev)]).1

theorem acyclicWork : Acyclic cfgWork U := ⟨id, fun _ h => h⟩

theorem reachWork (fail : Bool) : Reach cfgWork U g fail sWork := by
  refine Reach.importBlocks _ .init ?_ (by decide)
  intro p hp
  simp only [List.mem_cons, List.not_mem_nil, or_false] at hp
  rcases hp with rfl | rfl | rfl | rfl | rfl | rfl <;> first | exact ⟨by decide, eOk _⟩ | exact ⟨by decide, eRevOk _⟩

/-- Four headers are kept, two of them off the active chain, each once; they meet the limit.  A header without proof of work is not kept. -/
example : sWork.kept.map cfgWork.hash = [11, 12, 22, 21] ∧ (sWork.kept.map cfgWork.hash).Nodup ∧ (∀ x ∈ sWork.kept, cfgWork.hashInt (cfgWork.hash x) ≤ cfgWork.powLimit) ∧
    (∀ l : List Header, (∀ x, U x → cfgWork.hashInt (cfgWork.hash x) ≤ cfgWork.target x.bits → x ∈ l) → sWork.kept.length ≤ l.length) ∧
    (importBlock cfgWork e sWork cheap).1.kept = sWork.kept ∧ (importBlock cfgWork e sWork cheap).2 = .err .invalidPoW := by
  refine ⟨by decide, C129_headers_once acyclicWork rfl (reachWork false), fun x hx => ?_, fun l hl => C129_headers_count acyclicWork rfl (reachWork false) l hl, by decide, by decide⟩
  refine C129_headers_limit acyclicWork rfl (by decide) (by decide) (fun x => ?_) (reachWork false) hx
  show (if (if x < 1000 then 0 else 1) = 0 then 0 else 1000) ≤ x
  split <;> split <;> omega

end Scenario

end Verif.Chain
