import Verif.Addr.Inv

/-!
# What the address book remembers of an address: attempts and successes
-/

set_option autoImplicit false

namespace Verif.Addr

/-- A handshake with that IP address was completed. -/
def Negotiates (x : Ip) : Op → Prop
  | .negotiated _ a _ _ _ => a.ip = x
  | _ => False

/-- A peer announced that IP address. -/
def Announces (x : Ip) : Op → Prop
  | .message _ _ _ (.addr l) => ∃ t na s, (t, na) ∈ l ∧ na.sock = some s ∧ s.ip = x
  | _ => False

/-- The record of an address after a call that is not the completion of a handshake with it. -/
def Kept (ka ka' : Known) : Prop :=
  (ka.lastAttempt.isSome → ka'.lastAttempt.isSome) ∧ ka'.lastSuccess = ka.lastSuccess

theorem Kept.refl (ka : Known) : Kept ka ka := ⟨id, rfl⟩

theorem update_kept {m : Mgr} {ip : Ip} {f : Known → Known} {x : Ip} {ka' : Known} (h : (m.update ip f).peers.get x = some ka') :
    ∃ ka, m.peers.get x = some ka ∧ (ka' = ka ∨ (x = ip ∧ ka' = f ka)) := by
  unfold Mgr.update at h
  cases hg : m.peers.get ip with
  | none => rw [hg] at h; exact ⟨ka', h, .inl rfl⟩
  | some k0 =>
    rw [hg] at h
    simp only [AMap.get_insert] at h
    by_cases hx : ip = x
    · rw [if_pos hx] at h; injection h with h; subst h; subst hx
      exact ⟨k0, hg, .inr ⟨rfl, rfl⟩⟩
    · rw [if_neg hx] at h; exact ⟨ka', h, .inl rfl⟩

theorem update_kept' {m : Mgr} {ip : Ip} {f : Known → Known} (hf : ∀ k, Kept k (f k)) {x : Ip} {ka' : Known}
    (h : (m.update ip f).peers.get x = some ka') : ∃ ka, m.peers.get x = some ka ∧ Kept ka ka' := by
  obtain ⟨ka, h1, h2 | ⟨-, h2⟩⟩ := update_kept h
  · exact ⟨ka, h1, h2 ▸ Kept.refl _⟩
  · exact ⟨ka, h1, h2 ▸ hf ka⟩

theorem negotiate_kept {m : Mgr} {now : Nat} {a : Sock} {sv : Nat} {ob : Bool} {rc : Option Sock} {x : Ip} (hx : a.ip ≠ x) {ka' : Known}
    (h : (m.peerNegotiated now a sv ob rc).peers.get x = some ka') : ∃ ka, m.peers.get x = some ka ∧ Kept ka ka' := by
  have h1 : (m.addLocal rc).peers = m.peers := by unfold Mgr.addLocal; split <;> rfl
  unfold Mgr.peerNegotiated at h
  rw [← h1]
  generalize m.addLocal rc = m1 at *
  simp only [Mgr.negotiate] at h
  split at h
  · exact ⟨ka', h, Kept.refl _⟩
  · have h2 : (m1.addSource ob a).peers = m1.peers := by unfold Mgr.addSource; split <;> rfl
    rw [← h2]
    generalize m1.addSource ob a = m2 at *
    split at h
    · exact ⟨ka', h, Kept.refl _⟩
    · rename_i ka hka
      have h3 : (m2.askFirst a ka).peers = m2.peers := by unfold Mgr.askFirst; split <;> rfl
      obtain ⟨k, g1, g2 | ⟨g2, -⟩⟩ := update_kept h
      · exact ⟨k, h3 ▸ g1, g2 ▸ Kept.refl _⟩
      · exact absurd g2.symm hx

theorem disconnected_kept {m m' : Mgr} {a : Sock} {r : Reason} (h : m.peerDisconnected a r = .ok m') {x : Ip} {ka' : Known}
    (hx : m'.peers.get x = some ka') : m.peers.get x = some ka' := by
  have ban : ∀ {m1 m2 : Mgr}, m1.ban a.ip = .ok m2 → m2.peers.get x = some ka' → m1.peers.get x = some ka' := by
    intro m1 m2 hb hx
    unfold Mgr.ban at hb
    split at hb
    · cases hb
    · split at hb
      · cases hb; exact hx
      · cases hb
        simp only [AMap.get_erase] at hx
        split at hx
        · cases hx
        · exact hx
  simp only [Mgr.peerDisconnected] at h
  split at h
  · cases r with
    | permanent => exact (ban h hx :)
    | dial => exact (ban h hx :)
    | transient => cases h; exact hx
    | other => cases h; exact hx
  · cases h; exact hx

/-- The records after a call: those of before, or new ones of announced addresses. -/
theorem step_kept {cfg : Config} {m m' : Mgr} (hi : Inv m) (ht : m.lastIdle.isSome) {op : Op} {res : Option (NetAddr × Source)} (hf : op.Fair)
    (h : m.step cfg op = .ok (res, m')) {x : Ip} (hn : ¬ Negotiates x op) {ka' : Known} (hx : m'.peers.get x = some ka') :
    (∃ ka, m.peers.get x = some ka ∧ Kept ka ka') ∨ (Announces x op ∧ ka'.lastSuccess = none) := by
  obtain ⟨time, hti⟩ := Option.isSome_iff_exists.1 ht
  cases op with
  | importAddresses e l =>
    simp only [Mgr.step, Mgr.importAddresses, Mgr.insert, hti, import_nothing] at h
    cases h
    exact .inl ⟨ka', hx, Kept.refl _⟩
  | attempted now a => cases h; exact .inl (update_kept' (f := fun ka => { ka with lastAttempt := some now }) (fun k => ⟨fun _ => rfl, rfl⟩) hx)
  | connected a =>
    cases h
    unfold Mgr.peerConnected at hx
    split at hx <;> exact .inl ⟨ka', hx, Kept.refl _⟩
  | negotiated now a sv ob rc => cases h; exact .inl (negotiate_kept hn hx)
  | disconnected a r =>
    simp only [Mgr.step] at h
    split at h <;> cases h
    rename_i h1
    exact .inl ⟨ka', disconnected_kept h1 hx, Kept.refl _⟩
  | message e now a msg =>
    simp only [Mgr.step] at h
    cases msg with
    | addr l =>
      obtain ⟨m1, h1, -, -, -, h5⟩ := message_addr_ok hi hti cfg hf now a l
      rw [h1] at h
      cases h
      rcases h5 x ka' hx with h | ⟨_, t, b, s, hm, ha, hs, hk⟩
      · exact .inl (update_kept' (f := fun ka => { ka with lastActive := some now }) (fun k => ⟨id, rfl⟩) h)
      · exact .inr ⟨⟨t, b, s, hm, ha.sock, hs⟩, by rw [hk]; rfl⟩
    | getAddr =>
      split at h <;> cases h
      rename_i h1
      simp only [Mgr.messageReceived, Mgr.receivedGetAddr] at h1
      split at h1 <;> cases h1
      exact .inl (update_kept' (f := fun ka => { ka with lastActive := some now }) (fun k => ⟨id, rfl⟩) hx)
    | other =>
      cases h
      exact .inl (update_kept' (f := fun ka => { ka with lastActive := some now }) (fun k => ⟨id, rfl⟩) hx)
  | timer now saved =>
    obtain ⟨m1, h1, h2, -⟩ := timer_ok ht now saved
    simp only [Mgr.step, h1] at h
    cases h
    exact .inl ⟨ka', h2 ▸ hx, Kept.refl _⟩
  | sample e pred =>
    have h : m.sampleWith cfg e pred = .ok (res, m') := h
    rcases sampleWith_ok hi cfg hf pred hti with ⟨h1, _⟩ | ⟨ip, ka, h1, hg, _⟩
    · rw [h1] at h; cases h; exact .inl ⟨ka', hx, Kept.refl _⟩
    · rw [h1] at h; cases h; exact .inl (update_kept' (f := fun k => { k with lastSampled := some time }) (fun k => ⟨id, rfl⟩) hx)

/-- The addresses under which we are seen are remembered. -/
theorem step_locals {cfg : Config} {m m' : Mgr} (hi : Inv m) (ht : m.lastIdle.isSome) {op : Op} {res : Option (NetAddr × Source)} (hf : op.Fair)
    (h : m.step cfg op = .ok (res, m')) {b : Sock} (hb : b ∈ m.locals ∨ ∃ now a sv ob, op = .negotiated now a sv ob (some b)) : b ∈ m'.locals := by
  obtain ⟨time, hti⟩ := Option.isSome_iff_exists.1 ht
  have upd : ∀ ip f, (m.update ip f).locals = m.locals := by intro ip f; unfold Mgr.update; split <;> rfl
  cases op with
  | negotiated now a sv ob rc =>
    cases h
    have h1 : b ∈ (m.addLocal rc).locals := by
      rcases hb with hb | ⟨_, _, _, _, hb⟩
      · unfold Mgr.addLocal; split
        · exact (mem_sadd _ _ _).2 (.inl hb)
        · exact hb
      · cases hb; exact (mem_sadd _ _ _).2 (.inr rfl)
    unfold Mgr.peerNegotiated
    generalize m.addLocal rc = m1 at *
    simp only [Mgr.negotiate]
    have h2 : (m1.addSource ob a).locals = m1.locals := by unfold Mgr.addSource; split <;> rfl
    split
    · exact h1
    · split
      · exact h2 ▸ h1
      · rename_i ka _
        have h3 : ((m1.addSource ob a).askFirst a ka).locals = m1.locals := by rw [← h2]; unfold Mgr.askFirst; split <;> rfl
        have h4 : ∀ (n : Mgr) ip f, (n.update ip f).locals = n.locals := by intro n ip f; unfold Mgr.update; split <;> rfl
        rw [h4, h3]; exact h1
  | _ =>
    replace hb : b ∈ m.locals := by
      rcases hb with hb | ⟨_, _, _, _, hb⟩
      · exact hb
      · cases hb
    first
    | (rename_i e l; simp only [Mgr.step, Mgr.importAddresses, Mgr.insert, hti, import_nothing] at h; cases h; exact hb)
    | (rename_i now a; cases h; exact (upd _ _).symm ▸ hb)
    | (rename_i a; cases h; unfold Mgr.peerConnected; split <;> exact hb)
    | (rename_i a r
       simp only [Mgr.step] at h
       split at h <;> cases h
       rename_i h1
       have ban : ∀ {m1 m2 : Mgr}, m1.ban a.ip = .ok m2 → m2.locals = m1.locals := by
         intro m1 m2 hb
         unfold Mgr.ban at hb
         split at hb
         · cases hb
         · split at hb <;> (cases hb; rfl)
       unfold Mgr.peerDisconnected at h1
       split at h1
       · cases r with
         | permanent => rw [ban h1]; exact hb
         | dial => rw [ban h1]; exact hb
         | transient => cases h1; exact hb
         | other => cases h1; exact hb
       · cases h1; exact hb)
    | (rename_i now saved
       obtain ⟨m1, h1, -, -, -, -, -, h2, -⟩ := timer_ok ht now saved
       simp only [Mgr.step, h1] at h
       cases h
       rw [h2]; exact hb)
    | (rename_i e pred
       have h : m.sampleWith cfg e pred = .ok (res, m') := h
       rcases sampleWith_ok hi cfg hf pred hti with ⟨h1, _⟩ | ⟨ip, ka, h1, hg, _⟩
       · rw [h1] at h; cases h; exact hb
       · rw [h1] at h; cases h; rw [upd]; exact hb)
    | (rename_i e now a msg
       simp only [Mgr.step] at h
       cases msg with
       | addr l =>
         obtain ⟨m1, h1, -, h3, -⟩ := message_addr_ok hi hti cfg hf now a l
         rw [h1] at h
         cases h
         rw [h3.locals]; exact hb
       | getAddr =>
         split at h <;> cases h
         rename_i h1
         simp only [Mgr.messageReceived, Mgr.receivedGetAddr] at h1
         split at h1 <;> cases h1
         exact (upd _ _).symm ▸ hb
       | other => cases h; exact (upd _ _).symm ▸ hb)

end Verif.Addr
