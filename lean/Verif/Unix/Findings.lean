import Verif.Unix.Props

/-!
# Unix-domain sockets: calls that go wrong, and examples
-/

namespace Shadow.Unix

open Shadow.Base Spec

variable {α : Type}

theorem sock_of {w : World α} {i : Nat} {k : Sk α} (h : (abs w).sock i = some k) :
    ∃ s, w.socks i = some s ∧ skOf s = k := by
  simpa [abs, Option.map_eq_some_iff] using h

/-- A datagram socket that sends to itself makes the simulator panic: the code borrows the receiver
while the sender is borrowed (unix.rs:2197-2206). -/
theorem F55_self_send {w : World α} {i : Nat} {b q : Option Nat} {l : List (Msg α)} {dst : Option Addr}
    {data : List α} {dw : Bool} {fault : Option Nat}
    (hs : (abs w).sock i = some ⟨.dgram, .dgram b q l, true⟩) (hd : Dest (abs w) q dst i) :
    step w (.send i dst data dw fault) = some .panic := by
  obtain ⟨s, h1, h2⟩ := sock_of hs
  simp only [skOf, Sk.mk.injEq] at h2
  obtain ⟨hk, hst, hh⟩ := h2
  have hp : ∃ r, s.proto = .dgram b q r := by
    cases hp : s.proto <;> simp only [hp] at hst <;> first | (simp only [St.dgram.injEq] at hst) | cases hst
    obtain ⟨rfl, rfl, _⟩ := hst
    exact ⟨_, rfl⟩
  obtain ⟨r, hp⟩ := hp
  have hres : resolve w .dgram q dst = .ok i := by
    cases hd with
    | default p e => subst e; rfl
    | name n p e =>
      have e : w.ns .dgram n = some i := e
      simp [resolve, lookup, e]
  simp [step, on, World.open_, h1, hh, send, hp, hk, hres, sendDgram, commonSend, finish]

/-- A socket that connects to the address it is bound to makes the simulator panic
(unix.rs:1155-1163). -/
theorem F55_self_connect {w : World α} {i n : Nat} {k : Kind} {b : Option Nat}
    (hs : (abs w).sock i = some ⟨k, .idle b, true⟩) (hn : (abs w).names k n = some i) :
    step w (.connect i (.name n)) = some .panic := by
  obtain ⟨s, h1, h2⟩ := sock_of hs
  simp only [skOf, Sk.mk.injEq] at h2
  obtain ⟨hk, hst, hh⟩ := h2
  have hp : s.proto = .init b := by
    cases hp : s.proto <;> simp only [hp] at hst <;> first | (simp only [St.idle.injEq] at hst) | cases hst
    rw [hst]
  have hn : w.ns s.kind n = some i := by rw [hk]; exact hn
  simp [step, on, World.open_, h1, hh, connect, hp, connectInit, lookup, hn, finish]

/-- The results of some calls from the start; `none` if one of them panics. -/
def results (limit : Nat) (as : List (Act Nat)) : Option (Option (List (Ret Nat))) :=
  match exec (World.empty limit) as with
  | none => none
  | some .panic => some none
  | some (.ok (_, rs)) => some (some rs)

/-- The state bits of socket `i` after some calls from the start. -/
def bitsAfter (limit : Nat) (as : List (Act Nat)) (i : Nat) : Option Flags :=
  match exec (World.empty limit) as with
  | some (.ok (w, _)) => some (w.flags i)
  | _ => none

/-- The counter of bytes in flight of socket `i` after some calls from the start. -/
def sentAfter (limit : Nat) (as : List (Act Nat)) (i : Nat) : Option Nat :=
  match exec (World.empty limit) as with
  | some (.ok (w, _)) => some (w.sent i)
  | _ => none

/-- Three bytes are sent from memory of which only two bytes can be read.  The call fails, but two
bytes are in the peer's buffer and not in the sender's counter; when the peer reads, the counter
underflows and the simulator panics. -/
theorem F55_half_send : results 212992 [.pair .stream true, .send 0 none [1, 2, 3] false (some 2)] =
      some (some [.two 0 1, .err .fault]) ∧
    results 212992 [.pair .stream true, .send 0 none [1, 2, 3] false (some 2), .recv 1 2 false false none] =
      some none := by
  constructor <;> decide +kernel

/-- A datagram is received into bad memory.  The packet is gone but its note is not: the next
datagram, of another length, makes the simulator panic; -/
theorem F55_lost_note : results 212992 [.pair .dgram true, .send 0 none [1, 2, 3] false none,
      .send 0 none [1] false none, .recv 1 2 false false (some 0), .recv 1 2 false false none] =
      some none := by
  decide +kernel

/-- and the sender of a lost packet has lost its room for good. -/
theorem F55_lost_room :
    sentAfter 4 [.pair .seq true, .send 0 none [1, 2, 3, 4] false none, .recv 1 4 false false (some 0)] 0 = some 4 ∧
    results 4 [.pair .seq true, .send 0 none [1, 2, 3, 4] false none, .recv 1 4 false false (some 0),
      .recv 1 4 false false none, .send 0 none [5] false none] =
      some (some [.two 0 1, .sent 4, .err .fault, .err .again, .err .again]) := by
  constructor <;> decide +kernel

/-- A packet that is longer than the room that is left has to wait until the socket is writable — which
it is: the call is tried again at once, for ever, unless the peer reads. -/
theorem F55_busy : results 4 [.pair .seq false, .send 0 none [1, 2, 3] false none, .send 0 none [4, 5] false none] =
      some (some [.two 0 1, .sent 3, .wait (.writable 0)]) ∧
    (bitsAfter 4 [.pair .seq false, .send 0 none [1, 2, 3] false none, .send 0 none [4, 5] false none] 0).map
      Flags.writable = some true := by
  constructor <;> decide +kernel

/-- A new datagram socket is not writable, although a send on it would succeed (unix.rs:43-74 does
not refresh the state). -/
theorem F55_not_writable : bitsAfter 212992 [.socket .dgram true, .bind 0 (.name 7) none, .socket .dgram true] 1 =
      some { active := true } ∧
    results 212992 [.socket .dgram true, .bind 0 (.name 7) none, .socket .dgram true,
      .send 1 (some (.name 7)) [1] true none] = some (some [.socket 0, .done, .socket 1, .sent 1]) := by
  constructor <;> decide +kernel

/-- A datagram socket that is connected to one peer still receives the datagrams of others; Linux
refuses them. -/
theorem F55_stranger : results 212992 [.socket .dgram true, .bind 0 (.name 5) none, .socket .dgram true,
      .bind 1 (.name 6) none, .connect 0 (.name 6), .socket .dgram true, .send 2 (some (.name 5)) [9] false none,
      .recv 0 9 false false none] =
    some (some [.socket 0, .done, .socket 1, .done, .done, .socket 2, .sent 1, .got [9] 1 false none]) := by
  decide +kernel

/-! ## Examples -/

/-- Two clients connect, one waits for room in the queue, bytes pass in both directions, and an end is
closed. -/
example : results 6 [.socket .stream false, .bind 0 (.name 5) none, .listen 0 0, .socket .stream false,
      .connect 1 (.name 5), .socket .stream false, .connect 3 (.name 5), .accept 0, .connect 3 (.name 5),
      .send 1 none [1, 2, 3, 4, 5, 6, 7] false none, .recv 2 4 false false none, .send 1 none [7] false none,
      .close 1, .recv 2 9 false false none, .recv 2 9 false false none, .send 2 none [8] false none,
      .accept 0, .close 0, .socket .stream false, .connect 5 (.name 5)] =
    some (some [.socket 0, .done, .done, .socket 1, .done, .socket 3, .wait (.allowing 0), .socket 2, .done,
      .sent 6, .got [1, 2, 3, 4] 4 false (none), .sent 1,
      .done, .got [5, 6, 7] 3 false none, .got [] 0 false none, .err .pipe,
      .socket 4, .done, .socket 5, .err .refused]) := by
  decide +kernel

/-- A run of the kind that the theorems are about: a packet is sent and read. -/
example : ∃ (w : World Nat) (tr : List (Event Nat)), Run 10 w tr ∧
    about delivered 1 tr = [⟨0, none, [1, 2, 3]⟩] ∧ about received 1 tr = [(2, [1, 2], none)] ∧
    (abs w).sock 1 = some ⟨.seq, .linked none none 0 (.packets []), true⟩ := by
  have h0 : Run (α := Nat) 10 (.empty 10) [] := .start
  have h1 := Run.call _ _ _ (.pair .seq true) _ h0 (by intro h; cases h) rfl
  have h2 := Run.call _ _ _ (.send 0 none [1, 2, 3] false none) _ h1 (by intro h; cases h with
    | selfSend _ _ _ _ _ _ _ _ _ _ e => cases e) rfl
  have h3 := Run.call _ _ _ (.recv 1 2 false false none) _ h2 (by intro h; cases h) rfl
  exact ⟨_, _, h3, rfl, rfl, rfl⟩

end Shadow.Unix
