import Verif.Pipe.Props

/-!
# Pipes: executions

Concrete executions, and proofs that the parts of C23 that do not hold are false of the code.
-/
namespace Shadow.Pipe

open Shadow.Base
open Shadow.ByteQueue

inductive Op where
  | read (dst : List (List Bool))
  | write (src : List (Src Nat))
  | direct (d : Bool)
  | close (side : Side)

/-- What a call returned: the bytes read, and the return value or the error. -/
structure Ret where
  out : List Nat
  ok : Option Nat
  err : Option Errno
deriving DecidableEq

def Ret.of (out : List Nat) : Except Errno Nat → Ret
  | .ok n => ⟨out, some n, none⟩
  | .error z => ⟨out, none, some z⟩

def exec (x : World Nat) : List Op → R (World Nat × List Ret)
  | [] => .ok (x, [])
  | .read dst :: ops => do
    let r ← x.readv .r false dst
    let s ← exec r.1 ops
    return (s.1, Ret.of r.2.1 r.2.2 :: s.2)
  | .write src :: ops => do
    let r ← x.writev .w false src (fun _ => true)
    let s ← exec r.1 ops
    return (s.1, Ret.of [] r.2 :: s.2)
  | .direct d :: ops => exec (x.setDirect .w d) ops
  | .close side :: ops => do
    let y ← x.close side
    exec y ops

def Op.clean : Op → Bool
  | .read dst => dst.all (·.all id)
  | .write src => src.all (·.all Option.isSome)
  | _ => true

theorem exec_reach {maxLen : Nat} (ops : List Op) : ∀ {x y : World Nat} {l}, Reach maxLen x → exec x ops = .ok (y, l) → Reach maxLen y := by
  induction ops with
  | nil => intro x y l h e; cases e; exact h
  | cons o ops ih =>
    intro x y l h e
    cases o with
    | read dst =>
      unfold exec at e
      rw [R.bind_eq_ok] at e
      obtain ⟨⟨x1, out, res⟩, e1, e⟩ := e
      rw [R.bind_eq_ok] at e
      obtain ⟨⟨y2, l2⟩, e2, e⟩ := e
      cases e
      exact ih (h.read e1) e2
    | write src =>
      unfold exec at e
      rw [R.bind_eq_ok] at e
      obtain ⟨⟨x1, res⟩, e1, e⟩ := e
      rw [R.bind_eq_ok] at e
      obtain ⟨⟨y2, l2⟩, e2, e⟩ := e
      cases e
      exact ih (h.write e1) e2
    | direct d => exact ih (h.direct .w d) e
    | close side =>
      unfold exec at e
      rw [R.bind_eq_ok] at e
      obtain ⟨x1, e1, e⟩ := e
      exact ih (h.close e1) e

theorem exec_run {maxLen : Nat} (ops : List Op) : ∀ {x y : World Nat} {l sent got}, Run maxLen x sent got → ops.all Op.clean = true →
    exec x ops = .ok (y, l) → ∃ sent got, Run maxLen y sent got := by
  induction ops with
  | nil => intro x y l sent got h _ e; cases e; exact ⟨_, _, h⟩
  | cons o ops ih =>
    intro x y l sent got h hc e
    rw [List.all_cons, Bool.and_eq_true] at hc
    cases o with
    | read dst =>
      unfold exec at e
      rw [R.bind_eq_ok] at e
      obtain ⟨⟨x1, out, res⟩, e1, e⟩ := e
      rw [R.bind_eq_ok] at e
      obtain ⟨⟨y2, l2⟩, e2, e⟩ := e
      cases e
      refine ih (h.read ?_ e1) hc.2 e2
      simpa [Op.clean, Writable] using hc.1
    | write src =>
      unfold exec at e
      rw [R.bind_eq_ok] at e
      obtain ⟨⟨x1, res⟩, e1, e⟩ := e
      rw [R.bind_eq_ok] at e
      obtain ⟨⟨y2, l2⟩, e2, e⟩ := e
      cases e
      refine ih (h.write ?_ e1) hc.2 e2
      simpa [Op.clean, Mapped] using hc.1
    | direct d => exact ih (h.direct .w d) hc.2 e
    | close side =>
      unfold exec at e
      rw [R.bind_eq_ok] at e
      obtain ⟨x1, e1, e⟩ := e
      exact ih (h.close e1) hc.2 e

def run (maxLen : Nat) (direct : Bool) (ops : List Op) : R (World Nat × List Ret) := do
  let x ← World.new maxLen direct
  exec x ops

structure View where
  toks : List (Tok Nat)
  readable : Bool
  writable : Bool
  rets : List Ret
deriving DecidableEq

def view : R (World Nat × List Ret) → Option View
  | .ok (x, l) => some ⟨x.toks, x.r.readable, x.w.writable, l⟩
  | .panic => none

theorem view_some {maxLen : Nat} (h0 : 0 < maxLen) {direct ops v} (h : view (run maxLen direct ops) = some v) :
    ∃ x : World Nat, Reach maxLen x ∧ run maxLen direct ops = .ok (x, v.rets) ∧ x.toks = v.toks ∧ x.r.readable = v.readable ∧
      x.w.writable = v.writable := by
  cases e : run maxLen direct ops with
  | panic => rw [e] at h; cases h
  | ok p =>
    obtain ⟨x, l⟩ := p
    rw [e] at h
    obtain rfl := Option.some.inj h
    refine ⟨x, ?_, rfl, rfl, rfl, rfl⟩
    unfold run at e
    rw [R.bind_eq_ok] at e
    obtain ⟨x0, e0, e⟩ := e
    exact exec_reach ops (.new h0 e0) e

def ok (bs : List Nat) : Src Nat := bs.map some

/-! A stream: two writes, of which the second is cut by the capacity, reads across them, end of stream. -/
example : view (run 4 false [.write [ok [1, 2], ok [3]], .write [ok [4, 5, 6]], .read [[true], [true, true]], .close .w,
      .read [[true, true]], .read [[true]]]) =
    some ⟨[], true, false, [⟨[], some 3, none⟩, ⟨[], some 1, none⟩, ⟨[1, 2, 3], some 3, none⟩, ⟨[4], some 1, none⟩, ⟨[], some 0, none⟩]⟩ := by
  decide +kernel

/-! A full pipe is not writable, an empty one is not readable, and both report `EAGAIN`. -/
example : view (run 2 false [.read [[true]], .write [ok [1, 2]], .write [ok [3]]]) =
    some ⟨[.byte 1, .byte 2], true, false, [⟨[], none, some .eagain⟩, ⟨[], some 2, none⟩, ⟨[], none, some .eagain⟩]⟩ := by decide +kernel

/-! Broken pipe. -/
example : view (run 2 false [.close .r, .write [ok [1, 2]]]) = some ⟨[], false, true, [⟨[], none, some .epipe⟩]⟩ := by decide +kernel

/-! Packets: a short read drops the rest of the packet, the next read gets the next packet. -/
example : view (run 9 true [.write [ok [1, 2, 3]], .write [ok [4, 5]], .read [[true, true]], .read [[true, true, true]]]) =
    some ⟨[], false, true, [⟨[], some 3, none⟩, ⟨[], some 2, none⟩, ⟨[1, 2], some 2, none⟩, ⟨[4, 5], some 2, none⟩]⟩ := by decide +kernel

/-- These executions are among those that `C23_history` and the theorems after it are about. -/
theorem run_clean {maxLen : Nat} (h0 : 0 < maxLen) {direct ops x l} (hc : ops.all Op.clean = true) (e : run maxLen direct ops = .ok (x, l)) :
    ∃ sent got, Run maxLen x sent got := by
  unfold run at e
  rw [R.bind_eq_ok] at e
  obtain ⟨x0, e0, e⟩ := e
  exact exec_run ops (.new h0 e0) hc e

/-- **C23**, what does not hold (a failed read). A read whose memory is only partly writable fails with `EFAULT`
    although it removed bytes: those bytes reach nobody. -/
theorem C23_read_fault_loses : ∃ x : World Nat, Reach 8 x ∧
    run 8 false [.write [ok [1, 2, 3, 4]], .read [[true, true], [false]], .read [[true, true, true, true]]] =
      .ok (x, [⟨[], some 4, none⟩, ⟨[1, 2], none, some .efault⟩, ⟨[3, 4], some 2, none⟩]) := by
  obtain ⟨x, h, e, _⟩ := view_some (maxLen := 8) (by decide) (v := ⟨_, _, _, _⟩)
    (show view (run 8 false [.write [ok [1, 2, 3, 4]], .read [[true, true], [false]], .read [[true, true, true, true]]]) =
      some ⟨[], false, true, [⟨[], some 4, none⟩, ⟨[1, 2], none, some .efault⟩, ⟨[3, 4], some 2, none⟩]⟩ by decide +kernel)
  exact ⟨x, h, e⟩

/-- **C23**, what does not hold (a failed write). A write whose memory is only partly readable fails with `EFAULT`
    although it stored bytes, and the read end is not flagged readable although they can be read. -/
theorem C23_write_fault_stores : ∃ x : World Nat, Reach 8 x ∧
    run 8 false [.write [ok [1, 2], [none]]] = .ok (x, [⟨[], none, some .efault⟩]) ∧
    x.toks = [.byte 1, .byte 2] ∧ x.r.readable = false := by
  obtain ⟨x, h, e, h1, h2, _⟩ := view_some (maxLen := 8) (by decide) (v := ⟨_, _, _, _⟩)
    (show view (run 8 false [.write [ok [1, 2], [none]]]) =
      some ⟨[.byte 1, .byte 2], false, true, [⟨[], none, some .efault⟩]⟩ by decide +kernel)
  exact ⟨x, h, e, h1, h2⟩

/-- **C23**, what does not hold (a failed read of a packet). The packet is gone, and the read end stays flagged
    readable although nothing is stored: the next read reports `EAGAIN`. -/
theorem C23_packet_fault_stale : ∃ x y : World Nat, Reach 8 x ∧
    run 8 true [.write [ok [1, 2]], .read [[false, false]]] = .ok (x, [⟨[], some 2, none⟩, ⟨[], none, some .efault⟩]) ∧
    x.toks = [] ∧ x.r.readable = true ∧
    run 8 true [.write [ok [1, 2]], .read [[false, false]], .read [[true, true]]] =
      .ok (y, [⟨[], some 2, none⟩, ⟨[], none, some .efault⟩, ⟨[], none, some .eagain⟩]) := by
  obtain ⟨x, h, e, h1, h2, _⟩ := view_some (maxLen := 8) (by decide) (v := ⟨_, _, _, _⟩)
    (show view (run 8 true [.write [ok [1, 2]], .read [[false, false]]]) =
      some ⟨[], true, true, [⟨[], some 2, none⟩, ⟨[], none, some .efault⟩]⟩ by decide +kernel)
  obtain ⟨y, _, e', _⟩ := view_some (maxLen := 8) (by decide) (v := ⟨_, _, _, _⟩)
    (show view (run 8 true [.write [ok [1, 2]], .read [[false, false]], .read [[true, true]]]) =
      some ⟨[], false, true, [⟨[], some 2, none⟩, ⟨[], none, some .efault⟩, ⟨[], none, some .eagain⟩]⟩ by decide +kernel)
  exact ⟨x, y, h, e, h1, h2, e'⟩

/-- **C23**, what does not hold (a read of no bytes). In packet mode it removes a packet. -/
theorem C23_empty_read_loses : ∃ x : World Nat, Reach 8 x ∧
    run 8 true [.write [ok [1, 2]], .write [ok [3]], .read [[]]] = .ok (x, [⟨[], some 2, none⟩, ⟨[], some 1, none⟩, ⟨[], some 0, none⟩]) ∧
    x.toks = [.pkt [3]] := by
  obtain ⟨x, h, e, h1, _⟩ := view_some (maxLen := 8) (by decide) (v := ⟨_, _, _, _⟩)
    (show view (run 8 true [.write [ok [1, 2]], .write [ok [3]], .read [[]]]) =
      some ⟨[.pkt [3]], true, true, [⟨[], some 2, none⟩, ⟨[], some 1, none⟩, ⟨[], some 0, none⟩]⟩ by decide +kernel)
  exact ⟨x, h, e, h1⟩

/-- **C23**, what does not hold (atomic writes). A write of two bytes, far below `PIPE_BUF`, with space for one
    stores one byte; POSIX and Linux store all or nothing. -/
theorem C23_small_write_split : ∃ x : World Nat, Reach 4 x ∧
    run 4 false [.write [ok [1, 2, 3]], .write [ok [4, 5]]] = .ok (x, [⟨[], some 3, none⟩, ⟨[], some 1, none⟩]) ∧
    x.toks = [.byte 1, .byte 2, .byte 3, .byte 4] := by
  obtain ⟨x, h, e, h1, _⟩ := view_some (maxLen := 4) (by decide) (v := ⟨_, _, _, _⟩)
    (show view (run 4 false [.write [ok [1, 2, 3]], .write [ok [4, 5]]]) =
      some ⟨[.byte 1, .byte 2, .byte 3, .byte 4], true, false, [⟨[], some 3, none⟩, ⟨[], some 1, none⟩]⟩ by decide +kernel)
  exact ⟨x, h, e, h1⟩

/-- **C23**, what does not hold (writable in packet mode). The write end is flagged writable although the packet
    does not fit. -/
theorem C23_packet_writable : ∃ x : World Nat, Reach 4 x ∧
    run 4 true [.write [ok [1, 2, 3]], .write [ok [4, 5]]] = .ok (x, [⟨[], some 3, none⟩, ⟨[], none, some .eagain⟩]) ∧
    x.w.writable = true := by
  obtain ⟨x, h, e, _, _, h1⟩ := view_some (maxLen := 4) (by decide) (v := ⟨_, _, _, _⟩)
    (show view (run 4 true [.write [ok [1, 2, 3]], .write [ok [4, 5]]]) =
      some ⟨[.pkt [1, 2, 3]], true, true, [⟨[], some 3, none⟩, ⟨[], none, some .eagain⟩]⟩ by decide +kernel)
  exact ⟨x, h, e, h1⟩

end Shadow.Pipe
