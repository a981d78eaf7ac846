import Verif.EventFd.Model

/-!
# C22: eventfd
-/
namespace Shadow.EventFd

/-- Values copied from memory are 64-bit. -/
def Op.Valid : Op → Prop
  | .write _ _ _ (some v) => v ≤ u64Max
  | _ => True

/-- The readiness the file should report. -/
def Ready (e : EventFd) : Prop :=
  e.flags.closed = false ∧ (e.flags.readable = true ↔ e.counter > 0) ∧
  (e.flags.writable = true ↔ e.counter < u64Max - 1)

theorem refresh_counter (e : EventFd) (g : Bool) :
    (refresh e g).1.counter = e.counter ∧ (refresh e g).1.sem = e.sem ∧
    (refresh e g).1.flags.closed = e.flags.closed := by
  unfold refresh setFlags; split <;> simp_all

theorem refresh_ready (e : EventFd) (g : Bool) (h : e.flags.closed = false) :
    Ready (refresh e g).1 := by
  unfold refresh setFlags Ready; simp [h]

/-- **C22 (read).** With an 8-byte buffer and a working copy, a read blocks exactly if the counter
    is zero; otherwise it returns 1 and decrements in semaphore mode, and returns and clears the
    whole counter otherwise. -/
theorem C22_read (e : EventFd) (len : Nat) (hl : 8 ≤ len) :
    let r := readv e false len true
    (r.2.res = .err .ewouldblock ↔ e.counter = 0) ∧
    (e.counter = 0 → r.1 = e) ∧
    (e.counter ≠ 0 → e.sem = true → r.2.res = .ok 1 ∧ r.1.counter = e.counter - 1) ∧
    (e.counter ≠ 0 → e.sem = false → r.2.res = .ok e.counter ∧ r.1.counter = 0) := by
  have h8 : ¬ len < 8 := by omega
  simp only [readv, Bool.false_eq_true, if_false, h8, not_true, if_false]
  by_cases hc : e.counter = 0
  · simp [hc]
  · by_cases hs : e.sem = true
    · simp [hc, hs, (refresh_counter _ _).1]
    · simp [hc, hs, (refresh_counter _ _).1]

/-- **C22 (write).** With one 8-byte buffer holding `v`, a write is refused with EINVAL exactly for
    2^64-1, blocks exactly if the sum would exceed 2^64-2, and otherwise adds exactly `v`. -/
theorem C22_write (e : EventFd) (len v : Nat) (hl : 8 ≤ len) (hc : e.counter ≤ u64Max - 1) :
    let r := writev e false len 1 (some v)
    (r.2.res = .err .einval ↔ v = u64Max) ∧
    (r.2.res = .err .ewouldblock ↔ v ≠ u64Max ∧ e.counter + v > u64Max - 1) ∧
    (v ≠ u64Max → e.counter + v ≤ u64Max - 1 → r.2.res = .ok v ∧ r.1.counter = e.counter + v) ∧
    (e.counter + v > u64Max - 1 → r.1 = e) := by
  have h8 : ¬ len < 8 := by omega
  simp only [writev, Bool.false_eq_true, if_false, h8, Nat.lt_irrefl]
  by_cases h1 : v = u64Max
  · subst h1; simp
  · by_cases h2 : v > u64Max - 1 - e.counter
    · have : e.counter + v > u64Max - 1 := by omega
      simp [h1, h2, this]
    · have : ¬ e.counter + v > u64Max - 1 := by omega
      simp [h1, h2, this, (refresh_counter _ _).1]

/-- **C22 (errors).** A seek offset, a short buffer or several buffers are refused with the
    documented error and no effect. -/
theorem C22_errors (e : EventFd) (len niov : Nat) (m : Bool) (v : Option Nat) :
    readv e true len m = (e, ⟨.err .espipe, none⟩) ∧
    writev e true len niov v = (e, ⟨.err .espipe, none⟩) ∧
    (len < 8 → readv e false len m = (e, ⟨.err .einval, none⟩) ∧
      writev e false len niov v = (e, ⟨.err .einval, none⟩)) ∧
    (niov > 1 → (writev e false len niov v).2.res = .err .einval ∧
      (writev e false len niov v).1 = e) := by
  refine ⟨by simp [readv], by simp [writev], fun h => by simp [readv, writev, h], fun h => ?_⟩
  simp only [writev, Bool.false_eq_true, if_false, if_pos h]
  split <;> simp

/-- **C22 (failed calls have no effect).** -/
theorem C22_failed_no_effect (e : EventFd) (offset : Bool) (len niov : Nat) (m : Bool)
    (v : Option Nat) (err : Errno) :
    ((readv e offset len m).2.res = .err err → (readv e offset len m).1 = e ∧
      (readv e offset len m).2.notify = none) ∧
    ((writev e offset len niov v).2.res = .err err → (writev e offset len niov v).1 = e ∧
      (writev e offset len niov v).2.notify = none) := by
  constructor
  · unfold readv
    repeat' split
    all_goals simp
  · unfold writev
    repeat' split
    all_goals simp

theorem step_conserve (e : EventFd) (o : Op) :
    (step e o).1.counter + (step e o).2.rd = e.counter + (step e o).2.wr := by
  cases o with
  | read off l m =>
    simp only [step, readv]
    repeat' split
    all_goals simp_all [moved, (refresh_counter _ _).1]
    all_goals omega
  | write off l n v =>
    simp only [step, writev]
    repeat' split
    all_goals simp_all [moved, (refresh_counter _ _).1]
  | close => simp [step, close, setFlags]

/-- **C22 (conservation).** For every history: values read plus the counter equal the initial
    counter plus the values written. -/
theorem C22_conservation (e : EventFd) (ops : List Op) :
    (run e ops).1.counter + (run e ops).2.rd = e.counter + (run e ops).2.wr := by
  induction ops generalizing e with
  | nil => simp [run]
  | cons o os ih =>
    have h1 := step_conserve e o
    have h2 := ih (step e o).1
    simp only [run]
    omega

theorem step_bound (e : EventFd) (o : Op) (h : e.counter ≤ u64Max - 1) :
    (step e o).1.counter ≤ u64Max - 1 := by
  cases o with
  | read off l m =>
    simp only [step, readv]
    repeat' split
    all_goals simp_all [(refresh_counter _ _).1]
    all_goals omega
  | write off l n v =>
    simp only [step, writev]
    repeat' split
    all_goals simp_all [(refresh_counter _ _).1]
    all_goals omega
  | close => simp [step, close, setFlags, h]

/-- **C22 (range).** The counter never exceeds 2^64-2, so no addition overflows. -/
theorem C22_range (e : EventFd) (ops : List Op) (h : e.counter ≤ u64Max - 1) :
    (run e ops).1.counter ≤ u64Max - 1 := by
  induction ops generalizing e with
  | nil => exact h
  | cons o os ih => exact ih _ (step_bound e o h)

theorem step_ready (e : EventFd) (o : Op) (hr : Ready e) :
    (o = .close ∧ (step e o).1.flags = ⟨false, false, false, true⟩) ∨ Ready (step e o).1 := by
  cases o with
  | read off l m =>
    right
    simp only [step, readv]
    repeat' split
    all_goals first | exact hr | exact refresh_ready _ _ hr.1
  | write off l n v =>
    right
    simp only [step, writev]
    repeat' split
    all_goals first | exact hr | exact refresh_ready _ _ hr.1
  | close => left; simp [step, close, setFlags]

theorem step_closed (e : EventFd) (o : Op) (h : e.flags = ⟨false, false, false, true⟩) :
    (step e o).1.flags = ⟨false, false, false, true⟩ := by
  cases o with
  | read off l m =>
    simp only [step, readv]
    repeat' split
    all_goals simp_all [refresh]
  | write off l n v =>
    simp only [step, writev]
    repeat' split
    all_goals simp_all [refresh]
  | close => simp [step, close, setFlags]

/-- The state after a history: as long as it is not closed, readiness is exact; once closed it is
    neither readable nor writable for ever. -/
theorem run_ready (e : EventFd) (ops : List Op)
    (h : Ready e ∨ e.flags = ⟨false, false, false, true⟩) :
    Ready (run e ops).1 ∨ (run e ops).1.flags = ⟨false, false, false, true⟩ := by
  induction ops generalizing e with
  | nil => exact h
  | cons o os ih =>
    apply ih
    rcases h with h | h
    · rcases step_ready e o h with h1 | h1
      · exact .inr h1.2
      · exact .inl h1
    · exact .inr (step_closed e o h)

/-- **C22 (readiness, partial).** An eventfd created with counter 0 is, after every history and
    until it is closed, readable exactly if a read would not block and writable exactly if a write
    of at least 1 would not block; after closing it is neither.  (Missing: initial counters above
    0, for which it is false until the first successful call, see
    `C22_initial_value_not_readable`.) -/
theorem C22_readiness_partial (sem : Bool) (ops : List Op) :
    let e := (run (.new 0 sem) ops).1
    (e.flags.closed = false ∧
      (e.flags.readable = true ↔ ∀ len, 8 ≤ len → (readv e false len true).2.res ≠ .err .ewouldblock) ∧
      (e.flags.writable = true ↔
        ∀ len, 8 ≤ len → (writev e false len 1 (some 1)).2.res ≠ .err .ewouldblock)) ∨
    (e.flags.closed = true ∧ e.flags.readable = false ∧ e.flags.writable = false) := by
  intro e
  have hr := run_ready (.new 0 sem) ops (.inl (by simp [Ready, EventFd.new, u64Max]))
  have hb : e.counter ≤ u64Max - 1 := C22_range _ ops (by simp [EventFd.new])
  rcases hr with ⟨h1, h2, h3⟩ | h
  · refine .inl ⟨h1, ?_, ?_⟩
    · rw [h2]
      constructor
      · intro hc len hl heq
        have := (C22_read e len hl).1.mp heq
        have h4 : e.counter > 0 := hc
        omega
      · intro h
        have := h 8 (Nat.le_refl _)
        apply Nat.pos_of_ne_zero
        intro h0
        exact this ((C22_read e 8 (Nat.le_refl _)).1.mpr h0)
    · rw [h3]
      constructor
      · intro hc len hl heq
        have h4 : e.counter < u64Max - 1 := hc
        have := (C22_write e len 1 hl hb).2.1.mp heq
        omega
      · intro h
        have h5 := h 8 (Nat.le_refl _)
        apply Classical.byContradiction
        intro hn
        have h6 : ¬ e.counter < u64Max - 1 := hn
        exact h5 ((C22_write e 8 1 (Nat.le_refl _) hb).2.1.mpr ⟨by decide, by omega⟩)
  · have h' : e.flags = ⟨false, false, false, true⟩ := h
    exact .inr (by rw [h']; exact ⟨rfl, rfl, rfl⟩)

/-- **C22 (finding).** `eventfd(v)` with `v > 0` starts out not readable although a read succeeds at
    once: `new` sets only ACTIVE and WRITABLE whatever the initial value, and nothing refreshes the
    state before the first successful call. -/
theorem C22_initial_value_not_readable (v : Nat) (hv : 0 < v) (sem : Bool) :
    (EventFd.new v sem).flags.readable = false ∧
    (readv (.new v sem) false 8 true).2.res ≠ .err .ewouldblock ∧
    ∃ x, (readv (.new v sem) false 8 true).2.res = .ok x := by
  refine ⟨rfl, ?_, ?_⟩
  · intro h
    have := (C22_read (.new v sem) 8 (Nat.le_refl _)).1.mp h
    simp [EventFd.new] at this; omega
  · have h := C22_read (.new v sem) 8 (Nat.le_refl _)
    have hv' : (EventFd.new v sem).counter ≠ 0 := by simp [EventFd.new]; omega
    cases sem with
    | true => exact ⟨_, (h.2.2.1 hv' rfl).1⟩
    | false => exact ⟨_, (h.2.2.2 hv' rfl).1⟩

/-- **C22 (repaired).** From the first successful call on, readiness is exact for every initial
    value. -/
theorem C22_readiness_after_success (e : EventFd) (o : Op) (h : e.flags.closed = false)
    (hs : (∃ off l m v, o = .read off l m ∧ (readv e off l m).2.res = .ok v) ∨
          (∃ off l n x v, o = .write off l n x ∧ (writev e off l n x).2.res = .ok v)) :
    Ready (step e o).1 := by
  rcases hs with ⟨off, l, m, v, rfl, h1⟩ | ⟨off, l, n, x, v, rfl, h1⟩
  · simp only [step]
    unfold readv at h1 ⊢
    revert h1
    repeat' split
    all_goals intro h1
    all_goals first | (simp at h1; done) | exact refresh_ready _ _ h
  · simp only [step]
    unfold writev at h1 ⊢
    revert h1
    repeat' split
    all_goals intro h1
    all_goals first | (simp at h1; done) | exact refresh_ready _ _ h

/-- **C22 (edge).** Every successful write that leaves the counter positive notifies listeners with
    `READ_BUFFER_GREW`, unless the file is closed. -/
theorem C22_write_notifies (e : EventFd) (len v : Nat) (hl : 8 ≤ len)
    (hc : e.flags.closed = false) (hv : v ≠ u64Max) (hs : e.counter + v ≤ u64Max - 1)
    (hp : e.counter + v > 0) :
    ∃ nt, (writev e false len 1 (some v)).2.notify = some nt ∧ nt.grew = true ∧
      nt.after.readable = true := by
  have h8 : ¬ len < 8 := by omega
  have h2 : ¬ v > u64Max - 1 - e.counter := by omega
  simp [writev, h8, hv, h2, refresh, setFlags, hc, hp]

/-! ## Examples -/

example : (run (.new 0 false) [.write false 8 1 (some 5), .write false 8 1 (some 7),
    .read false 8 true, .read false 8 true]).1 = ⟨0, false, ⟨true, false, true, false⟩⟩ := by
  decide
example : (run (.new 0 false) [.write false 8 1 (some 5), .write false 8 1 (some 7),
    .read false 8 true]).2.rd = 12 := by decide
example : (run (.new 0 true) [.write false 8 1 (some 5), .read false 8 true]).1.counter = 4 := by
  decide
example : (writev ⟨u64Max - 1, false, ⟨true, true, false, false⟩⟩ false 8 1 (some 1)).2.res =
    .err .ewouldblock := by decide

end Shadow.EventFd
