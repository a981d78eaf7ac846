import Verif.Tcp.StatesTheorems
import Verif.Tcp.StatesCalls
import Verif.Tcp.StatesPoll
import Verif.Tcp.StreamExamples

/-!
# Runs of TCP sockets: examples that meet the hypotheses, and counterexamples
-/
namespace Shadow.Tcp

open Shadow.Base
open Shadow.Tcp.Stream (addrA addrB)

/-- The operations of a run. -/
inductive SOp where
  | connect (a la : Addr)
  | listen (b : Nat)
  | close (order : List Nat)
  | shutdown (how : How)
  | send (src : List Byte)
  | recv (n : Nat)
  | accept
  | push (h : Header) (p : Payload)
  | pop
  | timeout (key : Nat) (k : Kind)

/-- Executes one operation; its result is left out. -/
def SOp.run (s : Sock) : SOp → R Sock
  | .connect a la => do
    let r ← s.connect a (some la)
    return r.1
  | .listen b => .ok (s.listen b true).1
  | .close order => s.close order
  | .shutdown how => do
    let r ← s.shutdown how
    return r.1
  | .send src => do
    let r ← s.send src src.length
    return r.1
  | .recv n => do
    let r ← s.recv n n
    return r.1
  | .accept => do
    let r ← s.accept
    return r.1
  | .push h p => do
    R.assert (decide (h.windowSize < 65536) && decide (p.flatten.length < 2147483648))
    let r ← s.push h p
    return r.1
  | .pop => do
    let r ← s.pop
    return r.1
  | .timeout key k => match s with
    | .conn t => do
      let t ← t.timeout k
      return .conn t
    | .listening l => do
      let l ← l.timeout key k
      return .listening l
    | .init _ => .ok s

def runOps : Sock → List SOp → R Sock
  | s, [] => .ok s
  | s, o :: l => do
    let s' ← o.run s
    runOps s' l

theorem SOp.reach {s s' : Sock} {o : SOp} (h : SReach s) (hx : o.run s = .ok s') : SReach s' := by
  cases o with
  | connect a la =>
    simp only [SOp.run, R.bind_eq_ok] at hx
    obtain ⟨⟨x, r⟩, h1, hx⟩ := hx
    cases hx
    exact .step h (.connect h1)
  | listen b =>
    cases hx
    exact .step h (.listen (b := b) (ok := true) (r := (s.listen b true).2) rfl)
  | close order => exact .step h (.close hx)
  | shutdown how =>
    simp only [SOp.run, R.bind_eq_ok] at hx
    obtain ⟨⟨x, r⟩, h1, hx⟩ := hx
    cases hx
    by_cases hr : how = .read
    · subst hr; exact .step h (.shutdownRead h1)
    · exact .step h (.shutdownWrite hr h1)
  | send src =>
    simp only [SOp.run, R.bind_eq_ok] at hx
    obtain ⟨⟨x, r⟩, h1, hx⟩ := hx
    cases hx
    exact .step h (.send h1)
  | recv n =>
    simp only [SOp.run, R.bind_eq_ok] at hx
    obtain ⟨⟨x, r⟩, h1, hx⟩ := hx
    cases hx
    exact .step h (.recv h1)
  | accept =>
    simp only [SOp.run, R.bind_eq_ok] at hx
    obtain ⟨⟨x, r⟩, h1, hx⟩ := hx
    cases hx
    exact .step h (.accept h1)
  | push hd p =>
    simp only [SOp.run, R.bind_eq_ok, R.assert_eq_ok, Bool.and_eq_true, decide_eq_true_eq] at hx
    obtain ⟨_, ⟨hw, hp⟩, ⟨x, r⟩, h1, hx⟩ := hx
    cases hx
    exact .step h (.push hw hp h1)
  | pop =>
    simp only [SOp.run, R.bind_eq_ok] at hx
    obtain ⟨⟨x, r⟩, h1, hx⟩ := hx
    cases hx
    exact .step h (.pop h1)
  | timeout key k =>
    cases s with
    | init sc => cases hx; exact h
    | listening l =>
      simp only [SOp.run, R.bind_eq_ok] at hx
      obtain ⟨x, h1, hx⟩ := hx
      cases hx
      exact .step h (.childTimeout h1)
    | conn t =>
      simp only [SOp.run, R.bind_eq_ok] at hx
      obtain ⟨x, h1, hx⟩ := hx
      cases hx
      exact .step h (.timeout h1)

theorem runOps_reach {s s' : Sock} {l : List SOp} (h : SReach s) (hx : runOps s l = .ok s') : SReach s' := by
  induction l generalizing s with
  | nil => cases hx; exact h
  | cons o l ih =>
    simp only [runOps, R.bind_eq_ok] at hx
    obtain ⟨x, h1, hx⟩ := hx
    exact ih (SOp.reach h h1) hx

/-- A summary of a socket that can be compared. -/
structure View where
  name : Name
  queue : List Nat := []
  sending : List Nat := []
  kids : List (Nat × Name) := []
deriving DecidableEq, Repr

def Sock.view (s : Sock) : View :=
  match s with
  | .listening l => ⟨.listen, l.acceptQueue, l.toSend, l.children.map (fun c => (c.key, c.tcp.name))⟩
  | _ => ⟨s.name, [], [], []⟩

def views (sc : Bool) (l : List SOp) : Option View :=
  match runOps (.init sc) l with
  | .ok s => some s.view
  | .panic => none

theorem views_some {sc : Bool} {l : List SOp} {v : View} (h : views sc l = some v) :
    ∃ s, SReach s ∧ runOps (.init sc) l = .ok s ∧ s.view = v := by
  unfold views at h
  split at h
  · rename_i s hs
    exact ⟨s, runOps_reach (.init sc) hs, hs, Option.some.inj h⟩
  · cases h

theorem views_none {sc : Bool} {l : List SOp} (h : views sc l = none) : runOps (.init sc) l = .panic := by
  unfold views at h
  split at h
  · cases h
  · assumption

/-- A segment from client number `i` to the server. -/
def fromClient (i : Nat) (f : Flags) (seq ack : Nat) : Header :=
  { src := ⟨1, 100 + i⟩, dst := addrB, flags := f, seq := seq, ack := ack, windowSize := 1000, windowScale := if f.syn then some 0 else none }

def synOf (i : Nat) : SOp := .push (fromClient i { syn := true } 500 0) []
def ackOf (i : Nat) : SOp := .push (fromClient i { ack := true } 501 1) []
def rstOf (i : Nat) : SOp := .push (fromClient i { rst := true } 501 0) []

/-- Three clients connect; the third completes its handshake first. -/
def threeClients : List SOp :=
  [.listen 5, synOf 0, synOf 1, synOf 2, .pop, .pop, .pop, ackOf 2, ackOf 0, ackOf 1]

example : views true threeClients =
    some ⟨.listen, [2, 0, 1], [0, 1, 2], [(0, .established), (1, .established), (2, .established)]⟩ := by decide +kernel

example : views true (threeClients ++ [.accept]) =
    some ⟨.listen, [0, 1], [0, 1], [(0, .established), (1, .established)]⟩ := by decide +kernel

/-- The hypotheses of `C34_accept` and the others can be met: a reachable listening socket with three
    connections to accept. -/
example : ∃ l, SReach (.listening l) ∧ l.acceptQueue = [2, 0, 1] ∧ l.children.length = 3 := by
  obtain ⟨s, h1, -, h3⟩ := views_some (sc := true) (l := threeClients) (v := ⟨.listen, [2, 0, 1], [0, 1, 2],
    [(0, .established), (1, .established), (2, .established)]⟩) (by decide +kernel)
  cases s with
  | listening l =>
    refine ⟨l, h1, congrArg View.queue h3, ?_⟩
    have := congrArg (List.length ∘ View.kids) h3
    simpa [Sock.view] using this
  | init sc => exact absurd (congrArg View.name h3) (by simp [Sock.view, Sock.name])
  | conn t => exact absurd (congrArg View.queue h3) (by simp [Sock.view])

/-- With a backlog of one (a limit of two), the third SYN is ignored, and so is the acknowledgement
    that would make a third connection. -/
example : views true [.listen 1, synOf 0, synOf 1, synOf 2] =
    some ⟨.listen, [], [0, 1], [(0, .synReceived), (1, .synReceived)]⟩ := by decide +kernel

example : views true [.listen 1, synOf 0, synOf 1, .pop, .pop, ackOf 0, synOf 2, .pop, ackOf 1, ackOf 2] =
    some ⟨.listen, [0, 1], [1, 2], [(0, .established), (1, .established), (2, .synReceived)]⟩ := by decide +kernel

/-- A whole life of a client: three-way handshake, FIN in both directions, time-wait, closed. -/
def clientLife : List SOp :=
  [.connect addrB addrA, .pop,
   .push { src := addrB, dst := addrA, flags := { syn := true, ack := true }, seq := 700, ack := 1, windowSize := 1000, windowScale := some 0 } [],
   .pop, .shutdown .write, .pop,
   .push { src := addrB, dst := addrA, flags := { ack := true }, seq := 701, ack := 2, windowSize := 1000, windowScale := none } [],
   .push { src := addrB, dst := addrA, flags := { ack := true, fin := true }, seq := 701, ack := 2, windowSize := 1000, windowScale := none } [],
   .pop, .timeout 0 .timeWait]

example : (List.range 11).map (fun i => (views true (clientLife.take i)).map View.name) =
    [some .init, some .synSent, some .synSent, some .established, some .established, some .finWaitOne, some .finWaitOne,
     some .finWaitTwo, some .timeWait, some .timeWait, some .closed] := by decide +kernel

def configured : Sock → Bool
  | .conn ⟨.on _ c, _⟩ => c.scaling.isConfigured
  | _ => false

def configuredEst : R Sock → Bool
  | .ok s => (s.name == .established) && configured s
  | .panic => false

theorem configuredEst_some {x : R Sock} (h : configuredEst x = true) (hr : ∀ s, x = .ok s → SReach s) :
    ∃ k c err, SReach (.conn ⟨.on k c, err⟩) ∧ k = .established ∧ c.scaling.isConfigured = true := by
  cases x with
  | panic => cases h
  | ok s =>
    simp only [configuredEst, Bool.and_eq_true, beq_iff_eq] at h
    have hreach := hr s rfl
    cases s with
    | init sc => cases h.2
    | listening l => cases h.2
    | conn t =>
      obtain ⟨st, err⟩ := t
      cases st with
      | on k c =>
        refine ⟨k, c, err, hreach, ?_, h.2⟩
        have h1 := h.1
        simp only [Sock.name, Tcp.name] at h1
        cases k <;> simp [Kind.name] at h1
        rfl
      | rst b w => cases h.2
      | closed b w => cases h.2

/-- The hypotheses of `C35_after_handshake`: after the three-way handshake scaling is settled. -/
example : ∃ k c err, SReach (.conn ⟨.on k c, err⟩) ∧ k = .established ∧ c.scaling.isConfigured = true :=
  configuredEst_some (x := runOps (.init true) (clientLife.take 4)) (by decide +kernel)
    (fun _ h => runOps_reach (.init true) h)

/-! ### Packets that make a listening socket panic (C35) -/

/-- The three kinds of packets of `C35_listener_syn`, sent to a fresh listening socket. -/
theorem C35_listener_panics :
    runOps (.init true) [.listen 5, .push (fromClient 0 { syn := true, rst := true } 500 0) []] = .panic ∧
    runOps (.init true) [.listen 5, .push { fromClient 0 { syn := true } 500 0 with windowSize := 0 } []] = .panic ∧
    runOps (.init true) [.listen 5, .push (fromClient 0 { syn := true, ack := true } 500 1) []] = .panic :=
  ⟨views_none (by decide +kernel), views_none (by decide +kernel), views_none (by decide +kernel)⟩

/-- Closing a listening socket panics while a child has not sent its SYN-ACK, and while a child still
    has a RST to send. -/
theorem C35_close_panics :
    runOps (.init true) [.listen 5, synOf 0, .close [0]] = .panic ∧
    runOps (.init true) [.listen 5, synOf 0, .pop, .timeout 0 .synReceived, .close [0]] = .panic :=
  ⟨views_none (by decide +kernel), views_none (by decide +kernel)⟩

/-- After its SYN-ACK was sent, a child is reset without trouble. -/
example : views true [.listen 5, synOf 0, .pop, .close [0]] = some ⟨.reset, [], [], []⟩ := by decide +kernel

/-- A timeout of a half-open child before its SYN-ACK was sent panics. -/
theorem C35_timeout_panics : runOps (.init true) [.listen 5, synOf 0, .timeout 0 .synReceived] = .panic :=
  views_none (by decide +kernel)

/-! ### The limit of the accept queue without window scaling (C34) -/

/-- Without window scaling, a SYN that also acknowledges sequence number one makes a half-open child
    that any later packet establishes; the limit of the accept queue is not checked for it. -/
def synAckOf (i : Nat) : SOp := .push (fromClient i { syn := true, ack := true } 500 1) []
def plainOf (i : Nat) : SOp := .push (fromClient i {} 501 0) []

theorem C34_bound_needs_scaling :
    views false [.listen 0, synAckOf 0, plainOf 0] = some ⟨.listen, [0], [0], [(0, .established)]⟩ ∧
    views false [.listen 1, synAckOf 0, synAckOf 1, plainOf 0, synAckOf 2, plainOf 1, plainOf 2] =
      some ⟨.listen, [0, 1, 2], [0, 1, 2], [(0, .established), (1, .established), (2, .established)]⟩ ∧
    (Listener.new false 1).maxBacklog = 2 := by
  refine ⟨by decide +kernel, by decide +kernel, by decide +kernel⟩

/-! ### A FIN that is not noticed (C36) -/

/-- A FIN that arrives together with the acknowledgement of the SYN-ACK: the socket is "established",
    although the FIN was received, and a read reports "empty", not end of stream. -/
def finWithAck : List SOp :=
  [.listen 5, synOf 0, .pop, .push (fromClient 0 { ack := true, fin := true } 501 1) []]

def acceptAndRead (s : Sock) : Option (Name × Res Nat × Bool) :=
  match s.accept with
  | .ok (_, .ok t) => match t.recv 10 10 with
    | .ok (t', _, r) => some (t'.name, r, match t'.st with | .on _ c => c.receivedFin | _ => false)
    | .panic => none
  | _ => none

theorem C36_fin_with_ack_unnoticed :
    (match runOps (.init true) finWithAck with
      | .ok s => acceptAndRead s
      | .panic => none) = some (.established, .err .empty, true) := by decide +kernel

/-! ### The order of acceptance -/

/-- One packet step of a listening socket, as in `LRun`. -/
theorem LRun.push {sc b l en ac hd pl r} {l' : Listener} (h : LRun sc b l en ac) (hw : hd.windowSize < 65536)
    (hp : pl.flatten.length < 2147483648) (hx : l.push hd pl = .ok (l', r)) :
    LRun sc b l' (en ++ l'.acceptQueue.filter (fun k => !l.acceptQueue.contains k)) ac :=
  .other h (.push (r := r) hw hp (by simp only [Sock.push, hx, R.bind_ok]; rfl)) (by simp) (by simp)

theorem LRun.pop {sc b l en ac r} {l' : Listener} (h : LRun sc b l en ac) (hx : l.pop = .ok (l', r)) :
    LRun sc b l' (en ++ l'.acceptQueue.filter (fun k => !l.acceptQueue.contains k)) ac :=
  .other h (.pop (r := r) (by simp only [Sock.pop, hx, R.bind_ok]; rfl)) (by simp) (by simp)

/-- The run of `LRun` computed: `none` for a packet, "accept" for `some ()`. -/
inductive LOp where
  | push (h : Header)
  | pop
  | accept

def lrun : List LOp → Listener → List Nat → List Nat → Option (List Nat × List Nat × List Nat)
  | [], l, en, ac => some (l.acceptQueue, en, ac)
  | .push h :: o, l, en, ac => match l.push h [] with
    | .ok (l', _) => lrun o l' (en ++ l'.acceptQueue.filter (fun k => !l.acceptQueue.contains k)) ac
    | .panic => none
  | .pop :: o, l, en, ac => match l.pop with
    | .ok (l', _) => lrun o l' (en ++ l'.acceptQueue.filter (fun k => !l.acceptQueue.contains k)) ac
    | .panic => none
  | .accept :: o, l, en, ac => match l.acceptQueue with
    | [] => none
    | k :: _ => match l.accept with
      | .ok (l', .ok _) => lrun o l' en (ac ++ [k])
      | _ => none

theorem lrun_sound {sc b} {o : List LOp} {l : Listener} {en ac q en' ac' : List Nat} (h : LRun sc b l en ac)
    (hh : ∀ hd, LOp.push hd ∈ o → hd.windowSize < 65536)
    (hx : lrun o l en ac = some (q, en', ac')) : ∃ l', LRun sc b l' en' ac' ∧ l'.acceptQueue = q := by
  induction o generalizing l en ac with
  | nil =>
    simp only [lrun, Option.some.injEq, Prod.mk.injEq] at hx
    obtain ⟨rfl, rfl, rfl⟩ := hx
    exact ⟨l, h, rfl⟩
  | cons a o ih =>
    have hh' : ∀ hd, LOp.push hd ∈ o → hd.windowSize < 65536 := fun hd hm => hh hd (List.mem_cons_of_mem _ hm)
    cases a with
    | push hd =>
      simp only [lrun] at hx
      split at hx
      · rename_i l' r e
        exact ih (h.push (hh hd List.mem_cons_self) (by decide) e) hh' hx
      · cases hx
    | pop =>
      simp only [lrun] at hx
      split at hx
      · rename_i l' r e
        exact ih (h.pop e) hh' hx
      · cases hx
    | accept =>
      simp only [lrun] at hx
      split at hx
      · cases hx
      · rename_i k rest e
        split at hx
        · rename_i l' t e2
          exact ih (.accept h e2 e) hh' hx
        · cases hx

/-- The third client is established first and accepted first. -/
example : ∃ l', LRun true 5 l' [2, 0, 1] [2, 0] ∧ l'.acceptQueue = [1] :=
  lrun_sound (o := [.push (fromClient 0 { syn := true } 500 0), .push (fromClient 1 { syn := true } 500 0),
    .push (fromClient 2 { syn := true } 500 0), .pop, .pop, .pop, .push (fromClient 2 { ack := true } 501 1),
    .push (fromClient 0 { ack := true } 501 1), .accept, .push (fromClient 1 { ack := true } 501 1), .accept])
    (.new) (by
      intro hd hm
      simp only [List.mem_cons, LOp.push.injEq, reduceCtorEq, List.not_mem_nil, or_false, false_or] at hm
      rcases hm with rfl | rfl | rfl | rfl | rfl | rfl <;> decide) (by decide +kernel)

/-! ### Readiness and pending errors -/

/-- readable, writable, receiving closed, sending closed, connecting, error; and the pending error. -/
def readiness (l : List SOp) : Option (List Bool × Option TcpErr) :=
  match runOps (.init true) l with
  | .ok (.conn t) => some ([t.poll.readable, t.poll.writable, t.poll.recvClosed, t.poll.sendClosed, t.poll.connecting,
      t.poll.error], t.error)
  | _ => none

/-- C47: connecting, connected and writable, after shutdown, after the FIN of the peer. -/
example : [1, 3, 5, 8].map (fun i => readiness (clientLife.take i)) =
    [some ([false, false, false, false, true, false], none), some ([false, true, false, false, false, false], none),
     some ([false, false, false, true, false, false], none), some ([false, false, true, true, false, false], none)] := by
  decide +kernel

/-- C48: a close while connecting leaves an error, as does a timeout while connecting; a timer that was
    started in an earlier state does nothing. -/
example : readiness (clientLife.take 2 ++ [.close []]) =
      some ([false, false, true, true, false, true], some .closedWhileConnecting) ∧
    readiness (clientLife.take 2 ++ [.timeout 0 .synSent]) =
      some ([false, false, true, true, false, true], some .timedOut) ∧
    readiness (clientLife.take 4 ++ [.timeout 0 .synSent]) =
      some ([false, true, false, false, false, false], none) := by
  decide +kernel

end Shadow.Tcp
