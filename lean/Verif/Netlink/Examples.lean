import Verif.Netlink.Props
/-!
# Netlink sockets: concrete cases
-/
namespace Shadow.Netlink

open Shadow.Base
open Shadow.SockAddr (Byte le ofLe be EFAULT EINVAL)

def padTo4 (l : List Byte) : List Byte := l ++ List.replicate ((4 - l.length % 4) % 4) 0

def encAttr (a : Nat × List Byte) : List Byte := padTo4 (le (a.2.length + 4) 2 ++ le a.1 2 ++ a.2)

def encPayload : Payload → List Byte
  | .addr f p g s i as => le f 1 ++ le p 1 ++ le g 1 ++ le s 1 ++ le i 4 ++ as.flatMap encAttr
  | .link f t i g c as => le f 1 ++ [0] ++ le t 2 ++ le i 4 ++ le g 4 ++ le c 4 ++ as.flatMap encAttr
  | .errno n => le n 4
  | .empty => []

/-- A library that lays messages out as Linux does. -/
def lib0 : Lib where
  decAddr p := if p.length < 24 then none else
    some (seqField p, some ⟨ofLe ((p.drop 16).take 1), ofLe ((p.drop 17).take 1), ofLe ((p.drop 18).take 1), ofLe ((p.drop 20).take 4), ofLe ((p.drop 19).take 1)⟩)
  decLink p := if p.length < 32 then none else
    some (seqField p, some ⟨ofLe ((p.drop 16).take 1), ofLe ((p.drop 18).take 2), ofLe ((p.drop 20).take 4), ofLe ((p.drop 24).take 4)⟩)
  enc m := le (16 + (encPayload m.payload).length) 4 ++ le m.type 2 ++ le m.flags 2 ++ le m.seq 4 ++ le 0 4 ++ encPayload m.payload

theorem lib0_faithful : lib0.Faithful := by
  constructor
  · intro p n r h hl
    simp only [lib0] at h
    split at h
    · cases h
    · cases h; exact (seqField_iff hl _).mpr rfl
  · intro p n r h hl
    simp only [lib0] at h
    split at h
    · cases h
    · cases h; exact (seqField_iff hl _).mpr rfl

/-- The request of the C library for all addresses: 20 bytes, filled up by the simulator. -/
def req (t : Nat) (seq : Nat) : Pkt := le 20 4 ++ le t 2 ++ le 0x301 2 ++ le seq 4 ++ le 0 4 ++ [0, 0, 0, 0]

def sendOf (p : Pkt) : Op := .send ⟨false, .nl ⟨0, 0⟩, 0, p.length, some p⟩
def recvOf (room : Nat) : Op := .recv ⟨false, 0, room, none⟩

def host : Nat := 11 * 2 ^ 24 + 7

/-- 11.0.0.7 with a prefix of 24 bits: the broadcast address is 11.0.0.255. -/
theorem ex_broadcast : octets (lastOf host 24) = [11, 0, 0, 255] ∧ octets (lastOf LOCALHOST 8) = [127, 255, 255, 255] := by decide +kernel

/-- Three requests, answered in their order, each with its sequence number; the second is not supported, the third finds too little room. -/
theorem ex_run :
    ((run lib0 (Sock.new true host) [sendOf (req 22 5), sendOf (req 99 6), sendOf (req 18 7), recvOf 1000, recvOf 1000, recvOf 20, recvOf 1000]).2.map (·.2)) =
      [.sent 20, .sent 20, .sent 20,
       .got ((lib0.enc (addrMsg 5 ((interfaces host)[0]'(by decide))) ++ lib0.enc (addrMsg 5 ((interfaces host)[1]'(by decide))) ++ lib0.enc (doneMsg 5))) 136 0,
       .got [16, 0, 0, 0, 2, 0, 0, 0, 6, 0, 0, 0, 0, 0, 0, 0] 16 0,
       .got [56, 0, 0, 0, 16, 0, 2, 0, 7, 0, 0, 0, 0, 0, 0, 0, 2, 0, 4, 3] 20 0,
       .err 11] := by decide +kernel

/-- The request really asks for addresses. -/
theorem ex_asks : AsksAddrs lib0 (req 22 5) ∧ AsksLinks lib0 (req 18 7) ∧ ¬ AsksAddrs lib0 (req 99 6) := by
  refine ⟨⟨(typeField_iff (by decide) _).mpr (by decide +kernel), pad 24 (req 22 5), 5, ⟨0, 0, 0, 0, 0⟩, pad_filled _ _ (by decide), by decide +kernel, .inl rfl, rfl, rfl, rfl, rfl⟩,
    ⟨(typeField_iff (by decide) _).mpr (by decide +kernel), pad 32 (req 18 7), 7, ⟨0, 0, 0, 0⟩, pad_filled _ _ (by decide), by decide +kernel, .inl rfl, rfl, rfl, rfl⟩, ?_⟩
  rintro ⟨h, -⟩
  exact absurd ((typeField_iff (by decide) _).mp h) (by decide +kernel)

/-- Runs are executions. -/
theorem reach_run {lib : Lib} {nb : Bool} {ip : Nat} {s : Sock} {tr : List (Op × Out)} (h : Reach lib nb ip s tr) (ops : List Op) (hp : ∀ op ∈ ops, op.Proper) :
    Reach lib nb ip (run lib s ops).1 (tr ++ (run lib s ops).2) := by
  induction ops generalizing s tr with
  | nil => simpa [run] using h
  | cons op ops ih =>
    have := ih (h.step op (hp op (by simp))) fun o ho => hp o (by simp [ho])
    simpa [run] using this

theorem ex_reach : Reach lib0 true host (run lib0 (Sock.new true host) [sendOf (req 22 5), sendOf (req 99 6), recvOf 1000]).1
    ([] ++ (run lib0 (Sock.new true host) [sendOf (req 22 5), sendOf (req 99 6), recvOf 1000]).2) := by
  refine reach_run .new _ ?_
  intro op hop
  simp only [List.mem_cons, List.not_mem_nil, or_false] at hop
  rcases hop with rfl | rfl | rfl
  · intro p h; cases h; rfl
  · intro p h; cases h; rfl
  · trivial

/-- A socket after requests of 212992 bytes, say 10650 of the 20 bytes that the C library sends, which have all been answered. -/
def worn : Sock := { Sock.new true host with sentLen := 212992, state := ⟨true, false, false, false⟩ }

/-- It is what is left when one long packet was sent and received. -/
theorem ex_worn (p : Pkt) (hp : p.length = 212992) :
    (run lib0 (Sock.new true host) [sendOf p, recvOf 0]).1.sentLen = worn.sentLen ∧ (run lib0 (Sock.new true host) [sendOf p, recvOf 0]).1.sendLimit = worn.sendLimit ∧
    (run lib0 (Sock.new true host) [sendOf p, recvOf 0]).1.buf = worn.buf := by
  have hlim : (Sock.new true host).sendLimit = 212992 := rfl
  have hsent : (Sock.new true host).sentLen = 0 := rfl
  have h : ((Sock.new true host).send ⟨false, .nl ⟨0, 0⟩, 0, p.length, some p⟩).2 = .sent p.length :=
    (C83_send _ _ _).mpr ⟨rfl, rfl, .inr ⟨_, rfl, rfl, rfl⟩, BitVec.zero_and, by rw [hlim, hsent]; omega, by rw [hlim, hsent]; simp only; omega, rfl, _, rfl⟩
  have e := C83_send_effect _ _ _ p h rfl
  have f := refresh_fields ({ Sock.new true host with buf := (Sock.new true host).buf ++ [p], sentLen := (Sock.new true host).sentLen + p.length } : Sock)
  simp only [run, sendOf, recvOf, step]
  rw [e]
  generalize ({ Sock.new true host with buf := (Sock.new true host).buf ++ [p], sentLen := (Sock.new true host).sentLen + p.length } : Sock).refresh = t at f
  obtain ⟨f1, f2, f3, f4, -⟩ := f
  rw [show (Sock.new true host).buf = [] from rfl, List.nil_append] at f1
  have g := refresh_fields ({ t with buf := [] } : Sock)
  have er : Sock.recv lib0 t ⟨false, 0, 0, none⟩ = (({ t with buf := [] } : Sock).refresh, respond lib0 t.ifs p ⟨false, 0, 0, none⟩) := by
    simp only [Sock.recv, f4, f1]; rfl
  rw [er, g.1, g.2.1, g.2.2.1, f2, f3]
  exact ⟨by simp only [hsent, hp, worn], rfl, rfl⟩

/-- Nothing can be sent any more, although nothing waits; `poll` waits for ever as well. -/
theorem ex_stuck (ops : List Op) (hops : ∀ op ∈ ops, op.KeepsLimit) (a : SendArgs) : ∀ n, ((run lib0 worn ops).1.send a).2 ≠ .sent n :=
  C83_stuck lib0 worn (by decide) ops hops a

theorem ex_stuck_errors : (step lib0 worn (sendOf (req 22 5))).2 = .err 11 ∧ (run lib0 worn [.setNonblock false, sendOf (req 22 5)]).2.map (·.2) = [.ok, .blocked] ∧
    worn.buf = [] ∧ worn.state.writable = false := by decide +kernel

/-- After the limit was raised sending works, but the socket still counts as not writable; after it was lowered to what was sent, it still counts as writable. -/
theorem ex_sndbuf_state :
    (run lib0 worn [.setsockopt (.sndbuf 4 (some 200000))]).1.state.writable = false ∧
    ((run lib0 worn [.setsockopt (.sndbuf 4 (some 200000)), sendOf (req 22 5)]).2.map (·.2)) = [.ok, .sent 20] ∧
    (let s := (run lib0 { Sock.new true host with sentLen := 5000 } [.setsockopt (.sndbuf 4 (some 0))]).1
     s.state.writable = true ∧ (step lib0 s (sendOf (req 22 5))).2 = .err 11) := by decide +kernel

/-- `bind` with groups that are not supported fails and binds. -/
theorem ex_bind : ((run lib0 (Sock.new true host) [.bind (.nl ⟨0, 1⟩), .getsockname, .bind (.nl ⟨0, 0⟩)]).2.map (·.2)) = [.err 22, .name (some ⟨0, 1⟩), .err 22] ∧
    ((run lib0 (Sock.new true host) [.bind .null, .bind .other, .bind (.nl ⟨0, 0x110⟩), .getsockname]).2.map (·.2)) = [.err 14, .err 22, .ok, .name (some ⟨0, 0x110⟩)] := by decide +kernel

/-- A look at a request, then the request; one that is too short is lost with an error. -/
theorem ex_peek : ((run lib0 (Sock.new true host) [sendOf (req 99 6), .recv ⟨false, 0x22, 4, none⟩, recvOf 4, sendOf [1, 2, 3], recvOf 100, recvOf 100, .close, recvOf 1]).2.map (·.2)) =
    [.sent 20, .got [16, 0, 0, 0] 16 0, .got [16, 0, 0, 0] 4 0, .sent 3, .err 22, .err 11, .ok, .err 95] := by decide +kernel

end Shadow.Netlink
