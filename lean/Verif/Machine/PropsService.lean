import Verif.Machine.Service
import Verif.Machine.ReactorInv
import Verif.Machine.NoCrash
import Verif.Machine.PropsOutputs
import Verif.Io.PropsStream

/-!
# From bytes to the whole client: C139
-/

set_option autoImplicit false

namespace Verif.Machine
open Verif.Addr (Sock)
open Verif.Chain (Header)
open Verif.Peer (Link Disc)
open Verif.Io (Byte Parse Decoded decodeNext Stable Frames Decodes)
open Relation (ReflTransGen)

/-! ## Specification -/

/-- What happens to the client.  `other`: commands, ticks, timers, outputs taken, dialing. -/
inductive Happens where
  | connected (a loc : Sock) (link : Link)
  | disconnected (a : Sock) (d : Disc)
  | bytes (a : Sock) (bs : List Byte)
  | other (i : Input)

/-- All that the peer sent since it connected, if it is connected (most recent first). -/
def sentBy (a : Sock) : List Happens → Option (List Byte)
  | [] => none
  | .connected b _ _ :: l => if b = a then some [] else sentBy a l
  | .disconnected b _ :: l => if b = a then none else sentBy a l
  | .bytes b bs :: l => if b = a then (sentBy a l).map (· ++ bs) else sentBy a l
  | .other _ :: l => sentBy a l

/-- Inputs that have nothing to do with connections and messages. -/
def Input.isOther : Input → Bool
  | .connected _ _ _ => false
  | .disconnected _ _ => false
  | .message _ _ _ => false
  | _ => true

/-- The messages from a peer that the state machine got since the peer connected (inputs: most recent first), oldest first. -/
def heardFrom (a : Sock) : List Input → List (Bool × Msg)
  | [] => []
  | .connected b _ _ :: l => if b = a then [] else heardFrom a l
  | .message b ok m :: l => if b = a then heardFrom a l ++ [(ok, m)] else heardFrom a l
  | _ :: l => heardFrom a l

/-- The message says what the bytes said. -/
def Means {W E : Type} (c : Codec W E) (w : W) (m : Bool × Msg) : Prop := ∃ f, m = (c.magicOk w, c.msg w f)

/-- What is true of one peer: the bytes it sent are cut into messages, the rest waits, and the state machine heard the messages. -/
def Understood {W E : Type} (c : Codec W E) (bs : List Byte) (inbox : Option (List Byte)) (heard : List (Bool × Msg)) : Prop :=
  ∃ ws rest ms n, Decodes c.parse bs ws rest ∧ inbox = some rest ∧ List.Forall₂ (Means c) ws ms ∧ heard = ms ++ List.replicate n (false, .other) ∧
    (n ≠ 0 ↔ ∃ e, c.parse rest = .bad e)

section
variable {W E : Type} (cfg : Cfg) (c : Codec W E) (U : Header → Prop) (fail : Bool)

/-- The environment behaves while these bytes are handled: whatever the messages in them are. -/
structure FeedOk (es : Feed) (a : Sock) (buf : List Byte) : Prop where
  message : ∀ ws rest, Frames c.parse buf ws rest → ∀ w ∈ ws, ∀ k, Legal U fail (es k).1 (.message a (c.magicOk w) (c.msg w (es k).2))
  garbage : ∀ k, Legal U fail (es k).1 (.message a false .other)

/-- Executions of the client, most recent event first.  Nothing panicked. -/
inductive Service.Run (z : Setup) : List Happens → Service → Prop where
  | start {s : State} {m : Addr.Mgr} (f : Cbf.FilterHeaders) (cacheSize now : Nat) (e : Env) (ea : Addr.Env) (fa : ea.Fair)
      (nd : z.book.keys.Nodup) (hm : Addr.Mgr.new z.book ea = .ok m) (l : Legal U fail e .timer)
      (hs : (State.new (Node.Fsm.new z.tree f cacheSize) m z.trusted z.pingTimeout).init cfg e now = .ok s) : Run z [] ⟨[], s⟩
  | connected {l : List Happens} {v v' : Service} (r : Run z l v) (e : Env) (a loc : Sock) (link : Link) (lg : Legal U fail e (.connected a loc link))
      (h : v.connected cfg e a loc link = .ok v') : Run z (.connected a loc link :: l) v'
  | disconnected {l : List Happens} {v v' : Service} (r : Run z l v) (e : Env) (a : Sock) (d : Disc) (lg : Legal U fail e (.disconnected a d))
      (h : v.disconnected cfg e a d = .ok v') : Run z (.disconnected a d :: l) v'
  | bytes {l : List Happens} {v v' : Service} {k k' : Nat} (r : Run z l v) (es : Feed) (a : Sock) (bs : List Byte)
      (ok : ∀ inbox, v.inboxes.get a = some inbox → FeedOk c U fail es a (inbox ++ bs)) (h : v.receive cfg c es a k bs = .ok (k', v')) :
      Run z (.bytes a bs :: l) v'
  | other {l : List Happens} {v v' : Service} (r : Run z l v) (e : Env) (i : Input) (hi : i.isOther = true) (lg : Legal U fail e i)
      (h : v.pass cfg e i = .ok v') : Run z (.other i :: l) v'

end

/-- The bytes of one peer arrive in these pieces, one after the other. -/
def Service.feed {W E : Type} (cfg : Cfg) (c : Codec W E) (es : Feed) (a : Sock) : List (List Byte) → Nat → Service → Res Unit (Nat × Service)
  | [], k, v => .ok (k, v)
  | bs :: l, k, v => do
    let r ← v.receive cfg c es a k bs
    Service.feed cfg c es a l r.1 r.2

section
variable {W E : Type} {cfg : Cfg} {c : Codec W E} {U : Header → Prop} {fail : Bool} {z : Setup}

/-! ## Helpers -/

theorem undecodable_eq (e : Env) (s : State) (a : Sock) : s.undecodable cfg e a = .ok { s with peer := s.peer.disconnect a .magic } := by
  simp [State.undecodable, State.step, State.message, State.callPeer, Peer.Mgr.step, Peer.Mgr.messageReceived]

theorem not_connected_disconnect (m : Peer.Mgr) (a : Sock) (r : Peer.Reason) : (m.disconnect a r).isConnected a = false := by
  unfold Peer.Mgr.disconnect
  by_cases h : m.isConnected a = true
  · rw [if_pos h]; simp [Peer.Mgr.isConnected, Peer.Mgr.drop]
  · rw [if_neg h]; simpa using h

theorem disconnect_twice (m : Peer.Mgr) (a : Sock) (r r' : Peer.Reason) : (m.disconnect a r).disconnect a r' = m.disconnect a r := by
  have h := not_connected_disconnect m a r
  generalize m.disconnect a r = m' at h
  unfold Peer.Mgr.disconnect
  rw [if_neg (by rw [h]; simp)]

theorem undecodable_twice {e e' : Env} {s s' : State} {a : Sock} (h : s.undecodable cfg e a = .ok s') : s'.undecodable cfg e' a = .ok s' := by
  rw [undecodable_eq] at h ⊢
  cases h
  simp only [disconnect_twice]

/-- How many rounds are allowed does not matter. -/
theorem loop_fuel (st : Stable c.parse) (a : Sock) (es : Feed) : ∀ (f f' k : Nat) (b : List Byte) (s : State), b.length < f → b.length < f' →
    Service.loop cfg c a es f k b s = Service.loop cfg c a es f' k b s
  | 0, _, _, _, _, h, _ => absurd h (Nat.not_lt_zero _)
  | _, 0, _, _, _, _, h => absurd h (Nat.not_lt_zero _)
  | f + 1, f' + 1, k, b, s, h, h' => by
    unfold Service.loop decodeNext
    cases hp : c.parse b with
    | eof => rfl
    | bad e => rfl
    | done w n =>
      obtain ⟨hn, hl, -⟩ := st.done hp
      simp only
      congr 1
      funext s1
      exact loop_fuel st a es f f' (k + 1) _ s1 (by rw [List.length_drop]; omega) (by rw [List.length_drop]; omega)

/-- The loop can be interrupted anywhere. -/
theorem loop_cut (st : Stable c.parse) (a : Sock) (es : Feed) (ys : List Byte) : ∀ (f f' : Nat) (k : Nat) (b : List Byte) (s : State), b.length < f → b.length + ys.length < f' →
    Service.loop cfg c a es f' k (b ++ ys) s =
      (Service.loop cfg c a es f k b s >>= fun r => Service.loop cfg c a es ((r.2.1 ++ ys).length + 1) r.1 (r.2.1 ++ ys) r.2.2)
  | 0, _, _, _, _, h, _ => absurd h (Nat.not_lt_zero _)
  | _, 0, _, _, _, _, h => absurd h (Nat.not_lt_zero _)
  | f + 1, f' + 1, k, b, s, h, h' => by
    cases hp : c.parse b with
    | eof =>
      have : Service.loop cfg c a es (f + 1) k b s = .ok (k, b, s) := by unfold Service.loop decodeNext; rw [hp]
      rw [this]
      simp only [Res.ok_bind]
      exact loop_fuel st a es _ _ _ _ _ (by rw [List.length_append]; omega) (Nat.lt_succ_self _)
    | bad e =>
      have hp' := st.bad hp ys
      have h1 : ∀ (f k : Nat) (s : State), Service.loop cfg c a es (f + 1) k (b ++ ys) s = .ok (k, b ++ ys, { s with peer := s.peer.disconnect a .magic }) := by
        intro f k s; unfold Service.loop decodeNext; rw [hp']; simp only [undecodable_eq, Res.ok_bind]
      have h2 : Service.loop cfg c a es (f + 1) k b s = .ok (k, b, { s with peer := s.peer.disconnect a .magic }) := by
        unfold Service.loop decodeNext; rw [hp]; simp only [undecodable_eq, Res.ok_bind]
      rw [h1, h2]
      simp only [Res.ok_bind, h1, disconnect_twice]
    | done w n =>
      obtain ⟨hn, hl, hst⟩ := st.done hp
      have h1 : Service.loop cfg c a es (f' + 1) k (b ++ ys) s =
          (s.step cfg (es k).1 (.message a (c.magicOk w) (c.msg w (es k).2)) >>= fun s => Service.loop cfg c a es f' (k + 1) (b.drop n ++ ys) s) := by
        conv_lhs => unfold Service.loop decodeNext
        rw [hst ys]
        simp only [List.drop_append_of_le_length hl]
      have h2 : Service.loop cfg c a es (f + 1) k b s =
          (s.step cfg (es k).1 (.message a (c.magicOk w) (c.msg w (es k).2)) >>= fun s => Service.loop cfg c a es f (k + 1) (b.drop n) s) := by
        conv_lhs => unfold Service.loop decodeNext
        rw [hp]
      rw [h1, h2]
      cases s.step cfg (es k).1 (.message a (c.magicOk w) (c.msg w (es k).2)) with
      | err x => rfl
      | panic => rfl
      | ok s1 =>
        simp only [Res.ok_bind]
        exact loop_cut st a es ys f f' (k + 1) (b.drop n) s1 (by rw [List.length_drop]; omega) (by rw [List.length_drop]; omega)

/-- The loop ends. -/
theorem loop_ends (st : Stable c.parse) (a : Sock) (es : Feed) : ∀ (f k : Nat) (b : List Byte) (s : State), b.length < f →
    (∀ e ok m (s : State), s.step cfg e (.message a ok m) ≠ .err ()) → Service.loop cfg c a es f k b s ≠ .err ()
  | 0, _, _, _, h, _ => absurd h (Nat.not_lt_zero _)
  | f + 1, k, b, s, h, hne => by
    unfold Service.loop decodeNext
    cases hp : c.parse b with
    | eof => simp
    | bad e => simp [undecodable_eq]
    | done w n =>
      obtain ⟨hn, hl, -⟩ := st.done hp
      simp only
      cases hs : s.step cfg (es k).1 (.message a (c.magicOk w) (c.msg w (es k).2)) with
      | err x => exact absurd hs (hne _ _ _ _)
      | panic => simp
      | ok s1 => simp only [Res.ok_bind]; exact loop_ends st a es f (k + 1) _ s1 (by rw [List.length_drop]; omega) hne

theorem call_ne_err (s : State) (e : Env) : (∀ op, s.callPeer cfg op ≠ .err ()) ∧ (∀ op, s.callAddr cfg op ≠ .err ()) ∧ (∀ i, s.callNode cfg e i ≠ .err ()) ∧
    ∀ op, s.callDraw cfg e op ≠ .err () := by
  have h1 : ∀ (s : State) op, s.callPeer cfg op ≠ .err () := by intro s op; unfold State.callPeer; split <;> simp
  refine ⟨h1 s, ?_, ?_, ?_⟩
  · intro op; unfold State.callAddr; split <;> simp
  · intro op; unfold State.callNode; split <;> simp
  · intro op
    unfold State.callDraw
    split
    · exact h1 _ _
    · simp

theorem bind_ne_err {α β : Type} {x : Res Unit α} {f : α → Res Unit β} (h : x ≠ .err ()) (hf : ∀ a, f a ≠ .err ()) : (x >>= f) ≠ .err () := by
  cases x with
  | ok a => exact hf a
  | err u => exact absurd rfl h
  | panic => simp

/-- Messages are handled or make the state machine panic. -/
theorem message_ne_err (e : Env) (s : State) (a : Sock) (ok : Bool) (m : Msg) : s.step cfg e (.message a ok m) ≠ .err () := by
  show s.message cfg e a ok m ≠ .err ()
  unfold State.message
  split
  · exact (call_ne_err s e).1 _
  · split
    · simp
    · refine bind_ne_err ?_ fun s1 => bind_ne_err ((call_ne_err _ e).2.1 _) fun s2 => ?_
      · unfold State.messageNode; split
        · exact (call_ne_err s e).2.2.1 _
        · simp
      · unfold State.messagePeer; split
        · exact (call_ne_err s2 e).1 _
        · simp

/-- A message of the peer manager's run: the inputs so far are kept. -/
theorem run_extend {i : Input} {is : List Input} {h : Node.Hist} {e : Env} {s s' : State} (inj : Function.Injective cfg.id) (r : Run cfg U fail anyStep z is h s)
    (l : Legal U fail e i) (hs : s.step cfg e i = .ok s') : ∃ h, Run cfg U fail anyStep z (i :: is) h s' := by
  cases hj : nodeInput cfg s i with
  | none => exact ⟨_, .silent e r l hs hj⟩
  | some j =>
    obtain ⟨hp, rp⟩ := run_peer r
    obtain ⟨lp, rg⟩ := run_ping r
    obtain ⟨-, d, hd, -⟩ := agrees_step inj (run_agrees inj r) rp rg l hs
    exact ⟨_, .step e r l hs hj hd trivial⟩

theorem FeedOk.tail {es : Feed} {a : Sock} {b : List Byte} {w : W} {n : Nat} (ok : FeedOk c U fail es a b) (hp : c.parse b = .done w n) : FeedOk c U fail es a (b.drop n) :=
  ⟨fun ws rest hf v hv k => ok.message (w :: ws) rest (.cons hp hf) v (List.mem_cons_of_mem _ hv) k, ok.garbage⟩

/-- The inputs made of the bytes of a peer. -/
def inputsFrom (a : Sock) (ms : List (Bool × Msg)) : List Input := (ms.map fun m => Input.message a m.1 m.2).reverse

theorem loop_run (inj : Function.Injective cfg.id) (st : Stable c.parse) (a : Sock) (es : Feed) : ∀ (f k : Nat) (b : List Byte) (s : State) (is : List Input) (h : Node.Hist)
    (k' : Nat) (rest : List Byte) (s' : State), Run cfg U fail anyStep z is h s → FeedOk c U fail es a b → Service.loop cfg c a es f k b s = .ok (k', rest, s') →
    ∃ ws ms n h', Decodes c.parse b ws rest ∧ List.Forall₂ (Means c) ws ms ∧ (n ≠ 0 ↔ ∃ e, c.parse rest = .bad e) ∧
      Run cfg U fail anyStep z (inputsFrom a (ms ++ List.replicate n (false, .other)) ++ is) h' s'
  | 0, _, _, _, _, _, _, _, _, _, _, hl => by cases hl
  | f + 1, k, b, s, is, h, k', rest, s', r, ok, hl => by
    unfold Service.loop decodeNext at hl
    cases hp : c.parse b with
    | eof =>
      rw [hp] at hl
      cases hl
      exact ⟨[], [], 0, h, ⟨.nil _, by rw [hp]; intro m n; exact nofun⟩, .nil, by simp [hp], r⟩
    | bad e =>
      rw [hp] at hl
      obtain ⟨s1, h1, h2⟩ := Res.bind_eq_ok.1 hl
      cases h2
      obtain ⟨h', r'⟩ := run_extend inj r (ok.garbage k) h1
      exact ⟨[], [], 1, h', ⟨.nil _, by rw [hp]; intro m n; exact nofun⟩, .nil, by simp [hp], r'⟩
    | done w n =>
      rw [hp] at hl
      obtain ⟨s1, h1, h2⟩ := Res.bind_eq_ok.1 hl
      have lg := ok.message [w] (b.drop n) (.cons hp (.nil _)) w (by simp) k
      obtain ⟨h', r'⟩ := run_extend inj r lg h1
      obtain ⟨ws, ms, x, h'', g1, g2, g3, g4⟩ := loop_run inj st a es f (k + 1) _ s1 _ _ k' rest s' r' (ok.tail hp) h2
      refine ⟨w :: ws, (c.magicOk w, c.msg w (es k).2) :: ms, x, h'', ⟨.cons hp g1.1, g1.2⟩, .cons ⟨_, rfl⟩ g2, g3, ?_⟩
      simpa [inputsFrom] using g4

theorem heard_append (a b : Sock) (ms : List (Bool × Msg)) (is : List Input) :
    heardFrom b (inputsFrom a ms ++ is) = if a = b then heardFrom b is ++ ms else heardFrom b is := by
  induction ms using List.reverseRecOn with
  | nil => simp [inputsFrom]
  | append_singleton ms m ih =>
    have : inputsFrom a (ms ++ [m]) ++ is = .message a m.1 m.2 :: (inputsFrom a ms ++ is) := by simp [inputsFrom]
    rw [this]
    simp only [heardFrom, ih]
    by_cases e : a = b
    · simp [e]
    · simp [e]

theorem forall₂_append {α β : Type} {R : α → β → Prop} {l1 l2 : List α} {m1 m2 : List β} (h1 : List.Forall₂ R l1 m1) (h2 : List.Forall₂ R l2 m2) :
    List.Forall₂ R (l1 ++ l2) (m1 ++ m2) := by
  induction h1 with
  | nil => exact h2
  | cons h _ ih => exact .cons h ih

/-- More bytes. -/
theorem Understood.more (st : Stable c.parse) {old bs inbox rest : List Byte} {heard : List (Bool × Msg)} {ws : List W} {ms : List (Bool × Msg)} {n : Nat}
    (h : Understood c old (some inbox) heard) (g1 : Decodes c.parse (inbox ++ bs) ws rest) (g2 : List.Forall₂ (Means c) ws ms)
    (g3 : n ≠ 0 ↔ ∃ e, c.parse rest = .bad e) : Understood c (old ++ bs) (some rest) (heard ++ (ms ++ List.replicate n (false, .other))) := by
  obtain ⟨ws0, rest0, ms0, n0, d0, hi, f0, hh, b0⟩ := h
  cases hi
  refine ⟨ws0 ++ ws, rest, ms0 ++ ms, n0 + n, ⟨(d0.1.append st bs).trans g1.1, g1.2⟩, rfl, forall₂_append f0 g2, ?_, ?_⟩
  · by_cases e : n0 = 0
    · subst e; simp [hh]
    · obtain ⟨x, hx⟩ := b0.1 e
      have hx' := st.bad hx bs
      have : Decodes c.parse (inbox ++ bs) [] (inbox ++ bs) := ⟨.nil _, by rw [hx']; intro m n; exact nofun⟩
      obtain ⟨e1, -⟩ := g1.unique this
      subst e1
      cases g2
      rw [hh, List.nil_append, List.append_nil, List.append_assoc, List.replicate_append_replicate]
  · constructor
    · intro e
      by_cases e' : n = 0
      · have : n0 ≠ 0 := by omega
        obtain ⟨x, hx⟩ := b0.1 this
        have hx' := st.bad hx bs
        have : Decodes c.parse (inbox ++ bs) [] (inbox ++ bs) := ⟨.nil _, by rw [hx']; intro m n; exact nofun⟩
        obtain ⟨-, e2⟩ := g1.unique this
        exact ⟨x, e2 ▸ hx'⟩
      · exact g3.1 e'
    · intro e
      have := g3.2 e
      omega

/-! ## C139 -/

/-- **C139.** The state machine hears exactly what peers say, whatever bytes they send in whatever pieces.  In every execution of the client: it is an execution of the state machine
(so that what is proved of those holds); and of every connected peer the state machine got the messages that the bytes sent since it connected begin with, one after the other, all of them, once, in
order; after them it was told to drop the peer if and only if the bytes that follow cannot be read. -/
theorem C139_heard (inj : Function.Injective cfg.id) (st : Stable c.parse) (empty : c.parse [] = .eof) {l : List Happens} {v : Service} (r : Service.Run cfg c U fail z l v) :
    ∃ is h, Run cfg U fail anyStep z is h v.machine ∧ (∀ a, (v.inboxes.get a).isSome = (sentBy a l).isSome) ∧
      ∀ a bs, sentBy a l = some bs → Understood c bs (v.inboxes.get a) (heardFrom a is) := by
  induction r with
  | @start s m f cacheSize now e ea fa nd hm l hs =>
    exact ⟨_, _, .start f cacheSize now e ea fa nd hm l hs rfl trivial, fun _ => rfl, fun a bs hb => by simp [sentBy] at hb⟩
  | @connected l v v' _ e a loc link lg h ih =>
    obtain ⟨is, hist, r, h1, h2⟩ := ih
    obtain ⟨s1, hs, hv⟩ := Res.bind_eq_ok.1 h
    cases hv
    obtain ⟨hist', r'⟩ := run_extend inj r lg hs
    refine ⟨_, _, r', fun b => ?_, fun b bs hb => ?_⟩
    · show ((v.inboxes.insert a []).get b).isSome = _
      rw [AMap.get_insert]
      by_cases e : a = b
      · simp [sentBy, e]
      · simp only [sentBy, if_neg e]; exact h1 b
    · show Understood c bs ((v.inboxes.insert a []).get b) _
      rw [AMap.get_insert]
      by_cases e : a = b
      · simp only [sentBy, if_pos e, Option.some.injEq] at hb
        subst hb
        rw [if_pos e]
        refine ⟨[], [], [], 0, ⟨.nil _, by rw [empty]; intro m n; exact nofun⟩, rfl, .nil, ?_, by simp [empty]⟩
        simp [heardFrom, e]
      · simp only [sentBy, if_neg e] at hb
        rw [if_neg e]
        simp only [heardFrom, if_neg e]
        exact h2 b bs hb
  | @disconnected l v v' _ e a d lg h ih =>
    obtain ⟨is, hist, r, h1, h2⟩ := ih
    obtain ⟨s1, hs, hv⟩ := Res.bind_eq_ok.1 h
    cases hv
    obtain ⟨hist', r'⟩ := run_extend inj r lg hs
    refine ⟨_, _, r', fun b => ?_, fun b bs hb => ?_⟩
    · show ((v.inboxes.erase a).get b).isSome = _
      rw [AMap.get_erase]
      by_cases e : a = b
      · simp [sentBy, e]
      · simp only [sentBy, if_neg e]; exact h1 b
    · by_cases e : a = b
      · simp [sentBy, e] at hb
      · simp only [sentBy, if_neg e] at hb
        show Understood c bs ((v.inboxes.erase a).get b) _
        rw [AMap.get_erase, if_neg e]
        exact h2 b bs hb
  | @bytes l v v' k k' _ es a bs ok h ih =>
    obtain ⟨is, hist, r, h1, h2⟩ := ih
    unfold Service.receive at h
    cases hin : v.inboxes.get a with
    | none =>
      rw [hin] at h
      cases h
      have hsa : sentBy a l = none := by
        have := h1 a
        rw [hin] at this
        cases h : sentBy a l with
        | none => rfl
        | some _ => rw [h] at this; simp at this
      refine ⟨_, _, r, fun b => ?_, fun b bs' hb => ?_⟩
      · by_cases e : a = b
        · subst e; simp [sentBy, hsa, hin]
        · simp only [sentBy, if_neg e]; exact h1 b
      · by_cases e : a = b
        · subst e; simp [sentBy, hsa] at hb
        · simp only [sentBy, if_neg e] at hb; exact h2 b bs' hb
    | some inbox =>
      rw [hin] at h
      obtain ⟨⟨k1, rest, s1⟩, hl, hv⟩ := Res.bind_eq_ok.1 h
      cases hv
      obtain ⟨ws, ms, n, hist', g1, g2, g3, g4⟩ := loop_run inj st a es _ _ _ _ _ _ _ _ _ r (ok inbox hin) hl
      refine ⟨_, _, g4, fun b => ?_, fun b bs' hb => ?_⟩
      · show ((v.inboxes.insert a rest).get b).isSome = _
        rw [AMap.get_insert]
        by_cases e : a = b
        · subst e
          have := h1 a
          rw [hin] at this
          simp only [sentBy, if_true, Option.isSome_map]
          rw [← this]; rfl
        · simp only [sentBy, if_neg e]; exact h1 b
      · show Understood c bs' ((v.inboxes.insert a rest).get b) _
        rw [AMap.get_insert, heard_append]
        by_cases e : a = b
        · subst e
          simp only [sentBy, if_true, Option.map_eq_some_iff] at hb
          obtain ⟨old, ho, hb⟩ := hb
          subst hb
          rw [if_pos rfl, if_pos rfl]
          have := h2 a old ho
          rw [hin] at this
          exact this.more st g1 g2 g3
        · simp only [sentBy, if_neg e] at hb
          rw [if_neg e, if_neg e]
          exact h2 b bs' hb
  | @other l v v' _ e i hi lg h ih =>
    obtain ⟨is, hist, r, h1, h2⟩ := ih
    obtain ⟨s1, hs, hv⟩ := Res.bind_eq_ok.1 h
    cases hv
    obtain ⟨hist', r'⟩ := run_extend inj r lg hs
    refine ⟨_, _, r', h1, fun b bs hb => ?_⟩
    have : heardFrom b (i :: is) = heardFrom b is := by
      cases i <;> first | rfl | simp [Input.isOther] at hi
    rw [this]
    exact h2 b bs hb

theorem insert_twice {K V : Type} [DecidableEq K] (m : AMap K V) (k : K) (x y : V) : (m.insert k x).insert k y = m.insert k y := by
  simp [AMap.insert, AMap.erase]

theorem feed_flatten (st : Stable c.parse) (es : Feed) (a : Sock) : ∀ (l : List (List Byte)) (bs : List Byte) (k : Nat) (v : Service),
    Service.feed cfg c es a (bs :: l) k v = v.receive cfg c es a k (bs ++ l.flatten)
  | [], bs, k, v => by
    show (v.receive cfg c es a k bs >>= fun r => .ok (r.1, r.2)) = _
    simp only [List.flatten_nil, List.append_nil]
    cases v.receive cfg c es a k bs <;> rfl
  | bs' :: l, bs, k, v => by
    show (v.receive cfg c es a k bs >>= fun r => Service.feed cfg c es a (bs' :: l) r.1 r.2) = _
    simp only [feed_flatten st es a l bs', List.flatten_cons]
    generalize hy : bs' ++ l.flatten = ys
    unfold Service.receive
    cases hin : v.inboxes.get a with
    | none => simp [hin]
    | some inbox =>
      simp only
      have hc := loop_cut (cfg := cfg) st a es ys ((inbox ++ bs).length + 1) ((inbox ++ (bs ++ ys)).length + 1) k (inbox ++ bs) v.machine (Nat.lt_succ_self _)
        (by simp only [List.length_append]; omega)
      rw [List.append_assoc] at hc
      rw [hc]
      cases Service.loop cfg c a es ((inbox ++ bs).length + 1) k (inbox ++ bs) v.machine with
      | err x => rfl
      | panic => rfl
      | ok r =>
        obtain ⟨k1, rest, s1⟩ := r
        simp only [Res.ok_bind, AMap.get_insert_self]
        cases Service.loop cfg c a es ((rest ++ ys).length + 1) k1 (rest ++ ys) s1 with
        | err x => rfl
        | panic => rfl
        | ok r => simp only [Res.ok_bind, insert_twice]

/-- **C139.** Where the network cuts the bytes of a peer does not matter: the same bytes, received in other pieces, with the same decisions of the environment for each message, give the same client
(or the same panic). -/
theorem C139_cut (st : Stable c.parse) (es : Feed) (a : Sock) (k : Nat) (v : Service) {l l' : List (List Byte)} (hl : l ≠ []) (hl' : l' ≠ []) (h : l.flatten = l'.flatten) :
    Service.feed cfg c es a l k v = Service.feed cfg c es a l' k v := by
  cases l with
  | nil => exact absurd rfl hl
  | cons b l =>
    cases l' with
    | nil => exact absurd rfl hl'
    | cons b' l' =>
      rw [List.flatten_cons, List.flatten_cons] at h
      rw [feed_flatten st, feed_flatten st, h]

/-- What is left of the bytes, and what became of the machine. -/
theorem receive_ok {es : Feed} {a : Sock} {k k' : Nat} {bs inbox : List Byte} {v v' : Service} (hin : v.inboxes.get a = some inbox) (h : v.receive cfg c es a k bs = .ok (k', v')) :
    ∃ rest, Service.loop cfg c a es ((inbox ++ bs).length + 1) k (inbox ++ bs) v.machine = .ok (k', rest, v'.machine) ∧ v'.inboxes = v.inboxes.insert a rest := by
  unfold Service.receive at h
  rw [hin] at h
  obtain ⟨⟨k1, rest, s1⟩, hl, hv⟩ := Res.bind_eq_ok.1 h
  cases hv
  exact ⟨rest, hl, rfl⟩

/-- The peer is connected, or has been asked to go. -/
def Held (a : Sock) (s : State) : Prop := s.peer.isConnected a = true ∨ ∃ x, s.Waits (.peer (.disconnect a x))

theorem held_message {is : List Input} {h : Node.Hist} {e : Env} {s s' : State} {a b : Sock} {ok : Bool} {m : Msg} (inj : Function.Injective cfg.id) (r : Run cfg U fail anyStep z is h s)
    (l : Legal U fail e (.message b ok m)) (hs : s.step cfg e (.message b ok m) = .ok s') (hh : Held a s) : Held a s' := by
  rcases hh with hc | ⟨x, hw⟩
  · obtain ⟨⟨d, hd, hwait⟩, -, -⟩ := C113_put inj r l hs
    obtain ⟨hp, rp⟩ := run_peer r
    have ef := (step_effect hs).peer
    have key : ∀ {op : Peer.Op}, s.peer.step cfg.peer op = .ok s'.peer → (∃ a mg height hook msg, op = .message a mg height hook msg) → Held a s' := by
      rintro op h1 ⟨a', mg, height, hook, msg, rfl⟩
      obtain ⟨l', h2, h3⟩ := Peer.message_tr (Peer.run_inv rp) h1
      have e : d = l' := List.append_cancel_left (hd.symm.trans h2)
      subst e
      have hk := (Peer.isConnected_kind s.peer a).1 hc
      rcases (h3 a).1 with ⟨h4, -⟩ | ⟨-, -, h4⟩
      · exact .inl ((Peer.isConnected_kind s'.peer a).2 (h4.trans hk))
      · have : false ∈ Peer.reqs a d := by rw [h4]; simp
        obtain ⟨o, ho, hr⟩ := List.mem_filterMap.1 this
        cases o with
        | disconnect b x =>
          simp only [Peer.req] at hr
          by_cases eb : b = a
          · subst eb; exact .inr ⟨x, hwait _ ho⟩
          · simp [eb] at hr
        | connect b => simp only [Peer.req] at hr; by_cases eb : b = a <;> simp [eb] at hr
        | _ => simp [Peer.req] at hr
    have same : s'.peer = s.peer → Held a s' := fun e => .inl (by rw [e]; exact hc)
    cases ok with
    | false =>
      simp only [peerInput] at ef
      obtain ⟨src, h1⟩ := ef
      exact key h1 ⟨_, _, _, _, _, rfl⟩
    | true =>
      simp only [peerInput] at ef
      by_cases hb : s.peer.isConnected b = true
      · rw [if_pos hb] at ef
        cases hm : m.peer with
        | none => rw [hm] at ef; exact same ef
        | some pm => rw [hm] at ef; obtain ⟨src, h1⟩ := ef; exact key h1 ⟨_, _, _, _, _, rfl⟩
      · rw [if_neg hb] at ef; exact same ef
  · rcases run_keeps r l hs _ hw with h1 | ⟨h1, -⟩
    · exact .inr ⟨x, h1⟩
    · cases h1

theorem loop_held (inj : Function.Injective cfg.id) (a : Sock) (es : Feed) : ∀ (f k : Nat) (b : List Byte) (s : State) (is : List Input) (h : Node.Hist)
    (k' : Nat) (rest : List Byte) (s' : State), Run cfg U fail anyStep z is h s → FeedOk c U fail es a b → Service.loop cfg c a es f k b s = .ok (k', rest, s') →
    Held a s → Held a s' ∧ ((∃ e, c.parse rest = .bad e) → s'.peer.isConnected a = false)
  | 0, _, _, _, _, _, _, _, _, _, _, hl, _ => by cases hl
  | f + 1, k, b, s, is, h, k', rest, s', r, ok, hl, hh => by
    unfold Service.loop decodeNext at hl
    cases hp : c.parse b with
    | eof =>
      rw [hp] at hl
      cases hl
      exact ⟨hh, by rintro ⟨e, he⟩; rw [hp] at he; cases he⟩
    | bad e =>
      rw [hp] at hl
      obtain ⟨s1, h1, h2⟩ := Res.bind_eq_ok.1 hl
      cases h2
      refine ⟨held_message inj r (ok.garbage k) h1 hh, fun _ => ?_⟩
      rw [undecodable_eq] at h1
      cases h1
      exact not_connected_disconnect _ _ _
    | done w n =>
      rw [hp] at hl
      obtain ⟨s1, h1, h2⟩ := Res.bind_eq_ok.1 hl
      have lg := ok.message [w] (b.drop n) (.cons hp (.nil _)) w (by simp) k
      obtain ⟨h', r'⟩ := run_extend inj r lg h1
      exact loop_held inj a es f (k + 1) _ s1 _ _ k' rest s' r' (ok.tail hp) h2 (held_message inj r lg h1 hh)

/-- **C139.** Bytes that cannot be read get the peer that sent them disconnected: when the client has received them it no longer treats the peer as connected, and the request to close the
connection waits to be processed. -/
theorem C139_garbage (inj : Function.Injective cfg.id) {is : List Input} {h : Node.Hist} {es : Feed} {a : Sock} {k k' : Nat} {bs inbox rest : List Byte} {v v' : Service}
    (r : Run cfg U fail anyStep z is h v.machine) (hin : v.inboxes.get a = some inbox) (ok : FeedOk c U fail es a (inbox ++ bs)) (hr : v.receive cfg c es a k bs = .ok (k', v'))
    (hc : v.machine.peer.isConnected a = true) (hrest : v'.inboxes.get a = some rest) (hb : ∃ e, c.parse rest = .bad e) :
    v'.machine.peer.isConnected a = false ∧ ∃ x, v'.machine.Waits (.peer (.disconnect a x)) := by
  obtain ⟨rest', hl, hi⟩ := receive_ok hin hr
  rw [hi, AMap.get_insert_self] at hrest
  cases hrest
  obtain ⟨h1, h2⟩ := loop_held inj a es _ _ _ _ _ _ _ _ _ r ok hl (.inl hc)
  have h2 := h2 hb
  rcases h1 with h1 | h1
  · rw [h2] at h1; cases h1
  · exact ⟨h2, h1⟩

/-- The reactor delivers what the bytes say. -/
theorem loop_steps (a : Sock) (es : Feed) : ∀ (f k : Nat) (b : List Byte) (y : Sys) (k' : Nat) (rest : List Byte) (s' : State), y.polling = true → FeedOk c U fail es a b →
    Service.loop cfg c a es f k b y.s = .ok (k', rest, s') → ReflTransGen (Sys.Step cfg U fail) y { y with s := s' }
  | 0, _, _, _, _, _, _, _, _, hl => by cases hl
  | f + 1, k, b, y, k', rest, s', p, ok, hl => by
    unfold Service.loop decodeNext at hl
    cases hp : c.parse b with
    | eof =>
      rw [hp] at hl
      cases hl
      exact .refl
    | bad e =>
      rw [hp] at hl
      obtain ⟨s1, h1, h2⟩ := Res.bind_eq_ok.1 hl
      cases h2
      exact .single (.input _ p rfl (ok.garbage k) h1)
    | done w n =>
      rw [hp] at hl
      obtain ⟨s1, h1, h2⟩ := Res.bind_eq_ok.1 hl
      have lg := ok.message [w] (b.drop n) (.cons hp (.nil _)) w (by simp) k
      exact .head (.input _ p rfl lg h1) (loop_steps a es f (k + 1) _ { y with s := s1 } k' rest s' p (ok.tail hp) h2)

/-- **C139.** To the client with its reactor, receiving bytes is a number of its steps: what is proved of all its executions holds of those in which peers send bytes. -/
theorem C139_steps {es : Feed} {a : Sock} {k k' : Nat} {bs inbox : List Byte} {v v' : Service} {y : Sys} (p : y.polling = true) (hy : y.s = v.machine)
    (hin : v.inboxes.get a = some inbox) (ok : FeedOk c U fail es a (inbox ++ bs)) (hr : v.receive cfg c es a k bs = .ok (k', v')) :
    ReflTransGen (Sys.Step cfg U fail) y { y with s := v'.machine } := by
  obtain ⟨rest, hl, -⟩ := receive_ok hin hr
  exact loop_steps a es _ _ _ y _ _ _ p ok (hy ▸ hl)

/-- **C139.** Bytes that cannot be read get the connection closed: at the latest when the client has processed all that it has to do. -/
theorem C139_closed (inj : Function.Injective cfg.id) {es : Feed} {a : Sock} {k k' : Nat} {bs inbox rest : List Byte} {v v' : Service} {y y2 : Sys} (r : Sys.Reach cfg U fail z y)
    (p : y.polling = true) (hy : y.s = v.machine) (hin : v.inboxes.get a = some inbox) (ok : FeedOk c U fail es a (inbox ++ bs)) (hr : v.receive cfg c es a k bs = .ok (k', v'))
    (hc : v.machine.peer.isConnected a = true) (hrest : v'.inboxes.get a = some rest) (hb : ∃ e, c.parse rest = .bad e)
    (h2 : ReflTransGen (Sys.Step cfg U fail) { y with s := v'.machine } y2) (hd : y2.s.head = none) :
    ∃ y1, ReflTransGen (Sys.Step cfg U fail) { y with s := v'.machine } y1 ∧ ReflTransGen (Sys.Step cfg U fail) y1 y2 ∧ y1.reg.contains a = false := by
  obtain ⟨is, h, rr⟩ := sys_run inj r
  obtain ⟨-, x, hw⟩ := C139_garbage inj (hy ▸ rr) hin ok hr hc hrest hb
  have reach : ∀ {y' : Sys}, ReflTransGen (Sys.Step cfg U fail) y y' → Sys.Reach cfg U fail z y' := by
    intro y' hp
    induction hp with
    | refl => exact r
    | tail _ hs ih => exact .step ih hs
  exact C114_closed (fun _ _ h => h) inj (reach (C139_steps p hy hin ok hr)) hw (a := a) (x := x) rfl h2 hd

theorem loop_panics (inj : Function.Injective cfg.id) (rel : cfg.peer.Release) (st : Stable c.parse) (a : Sock) (es : Feed) : ∀ (f k : Nat) (b : List Byte) (s : State) (is : List Input)
    (h : Node.Hist), Run cfg U fail anyStep z is h s → FeedOk c U fail es a b → b.length < f → (∀ r, Service.loop cfg c a es f k b s ≠ .ok r) →
    ∃ ws w rest is' h' s' j i, Frames c.parse b (ws ++ [w]) rest ∧ Run cfg U fail anyStep z (is' ++ is) h' s' ∧ is'.length = ws.length ∧
      nodeInput cfg s' (.message a (c.magicOk w) (c.msg w (es j).2)) = some i ∧ ∀ n, s'.node.step cfg.node ((es j).1.at s'.now) i ≠ .ok n
  | 0, _, _, _, _, _, _, _, hf, _ => absurd hf (Nat.not_lt_zero _)
  | f + 1, k, b, s, is, h, r, ok, hf, hl => by
    unfold Service.loop decodeNext at hl
    cases hp : c.parse b with
    | eof => rw [hp] at hl; exact absurd rfl (hl _)
    | bad e => rw [hp] at hl; simp only [undecodable_eq, Res.ok_bind] at hl; exact absurd rfl (hl _)
    | done w n =>
      rw [hp] at hl
      obtain ⟨hn, hle, -⟩ := st.done hp
      have lg := ok.message [w] (b.drop n) (.cons hp (.nil _)) w (by simp) k
      by_cases hx : ∀ j, nodeInput cfg s (.message a (c.magicOk w) (c.msg w (es k).2)) = some j → ∃ n, s.node.step cfg.node ((es k).1.at s.now) j = .ok n
      · obtain ⟨s1, h1⟩ := step_total rel r lg hx
        obtain ⟨h', r'⟩ := run_extend inj r lg h1
        obtain ⟨ws, w', rest, is', h'', s', j, i, g1, g2, g3, g4, g5⟩ := loop_panics inj rel st a es f (k + 1) (b.drop n) s1 _ _ r' (ok.tail hp)
          (by rw [List.length_drop]; omega) (by simpa only [h1, Res.ok_bind] using hl)
        exact ⟨w :: ws, w', rest, is' ++ [.message a (c.magicOk w) (c.msg w (es k).2)], h'', s', j, i, .cons hp g1, by simpa using g2, by simp [g3], g4, g5⟩
      · push Not at hx
        obtain ⟨j, h1, h2⟩ := hx
        exact ⟨[], w, b.drop n, [], h, s, k, j, .cons hp (.nil _), r, rfl, h1, h2⟩

/-- **C139.** In a release build, bytes make the client panic only where a message would: there are messages at the front of the bytes such that the last of them, coming after the others, makes the sync
manager, the inventory manager or the filter manager panic.  Bytes that are not messages never do.  (When those managers do not panic: C112.) -/
theorem C139_who (inj : Function.Injective cfg.id) (rel : cfg.peer.Release) (st : Stable c.parse) {is : List Input} {h : Node.Hist} {es : Feed} {a : Sock} {k : Nat}
    {bs inbox : List Byte} {v : Service} (r : Run cfg U fail anyStep z is h v.machine) (hin : v.inboxes.get a = some inbox) (ok : FeedOk c U fail es a (inbox ++ bs))
    (hr : ∀ x, v.receive cfg c es a k bs ≠ .ok x) :
    ∃ ws w rest is' h' s' j i, Frames c.parse (inbox ++ bs) (ws ++ [w]) rest ∧ Run cfg U fail anyStep z (is' ++ is) h' s' ∧ is'.length = ws.length ∧
      nodeInput cfg s' (.message a (c.magicOk w) (c.msg w (es j).2)) = some i ∧ ∀ n, s'.node.step cfg.node ((es j).1.at s'.now) i ≠ .ok n := by
  refine loop_panics inj rel st a es _ k _ _ _ _ r ok (Nat.lt_succ_self _) fun x hx => ?_
  refine hr (x.1, { v with inboxes := v.inboxes.insert a x.2.1, machine := x.2.2 }) ?_
  unfold Service.receive
  rw [hin]
  simp only [hx, Res.ok_bind]

/-- **C139.** Receiving bytes ends: with the messages handled, or with a panic. -/
theorem C139_ends (st : Stable c.parse) (es : Feed) (a : Sock) (k : Nat) (bs : List Byte) (v : Service) : v.receive cfg c es a k bs ≠ .err () := by
  unfold Service.receive
  cases hin : v.inboxes.get a with
  | none => simp
  | some inbox => exact bind_ne_err (loop_ends st a es _ _ _ _ (Nat.lt_succ_self _) fun e ok m s => message_ne_err e s a ok m) fun _ => by simp

/-- **C139.** Bytes of a peer that is not connected are ignored. -/
theorem C139_unknown {es : Feed} {a : Sock} {k : Nat} {bs : List Byte} {v : Service} (h : v.inboxes.get a = none) : v.receive cfg c es a k bs = .ok (k, v) := by
  unfold Service.receive
  rw [h]

end

end Verif.Machine
