import Verif.Procs.Life

/-!
# Processes of a host: addresses, findings, examples (C54)
-/
namespace Shadow.Procs
open Shadow.Base

/-- **C54 (addresses)**: pages of different processes, or different pages of one, have different
"physical" addresses; the function panics exactly for pids from 2^16 on or pointers from 2^48 on. -/
theorem C54_physical {p v q w a : Nat} (h1 : physicalAddress p v = .ok a) (h2 : physicalAddress q w = .ok a) :
    p = q ∧ v = w := by
  have key : ∀ {p v a : Nat}, physicalAddress p v = .ok a → v < 2 ^ 48 ∧ a = p * 2 ^ 48 + v := by
    intro p v a h
    unfold physicalAddress at h
    obtain ⟨_, k1, h⟩ := (R.bind_eq_ok ..).1 h
    obtain ⟨_, k2, h⟩ := (R.bind_eq_ok ..).1 h
    have h1 := of_decide_eq_true (R.assert_eq_ok.1 k1)
    have h2 := of_decide_eq_true (R.assert_eq_ok.1 k2)
    have hv : v < 2 ^ 48 := by omega
    have hp : p * 2 ^ 48 % 2 ^ 64 = 2 ^ 48 * p := by omega
    have h := R.ok.inj h
    rw [hp, ← Nat.two_pow_add_eq_or_of_lt hv] at h
    exact ⟨hv, by omega⟩
  obtain ⟨h3, h4⟩ := key h1
  obtain ⟨h5, h6⟩ := key h2
  omega

theorem C54_physical_ok {p v : Nat} : (∃ a, physicalAddress p v = .ok a) ↔ p < 2 ^ 16 ∧ v < 2 ^ 48 := by
  unfold physicalAddress
  constructor
  · rintro ⟨a, h⟩
    obtain ⟨_, k1, h⟩ := (R.bind_eq_ok ..).1 h
    obtain ⟨_, k2, h⟩ := (R.bind_eq_ok ..).1 h
    have h1 := of_decide_eq_true (R.assert_eq_ok.1 k1)
    have h2 := of_decide_eq_true (R.assert_eq_ok.1 k2)
    omega
  · rintro ⟨h1, h2⟩
    refine ⟨(p * 2 ^ 48) % 2 ^ 64 ||| v, ?_⟩
    simp only
    rw [decide_eq_true (show p * 2 ^ 48 % 2 ^ 64 / 2 ^ 48 = p by omega),
      decide_eq_true (show v / 2 ^ 48 = 0 by omega)]
    rfl

/-! ## Executing -/

/-- The state after some steps. -/
def exec (s : St) : List Act → Option St
  | [] => some s
  | a :: as =>
    match step s a with
    | some (.ok (s', _, _)) => exec s' as
    | _ => none

theorem later_trans {s s1 s2 : St} (h : Later s s1) (h' : Later s1 s2) : Later s s2 := by
  induction h' with
  | refl => exact h
  | step _ hs ih => exact .step ih hs

theorem exec_later {s s' : St} {as : List Act} (h : exec s as = some s') : Later s s' := by
  induction as generalizing s with
  | nil => cases h; exact .refl
  | cons a as ih =>
    unfold exec at h
    split at h
    · rename_i s1 r evs hs
      exact later_trans (.step .refl hs) (ih h)
    · cases h

/-- A wait for any child; a wait with `__WALL`. -/
def anyChild : Call := .wait4 (-1) .good {} .null
def allKinds : Call := .wait4 (-1) .good { all := true } .null

/-! ## Findings -/

/-- `wait4` with the pid `INT_MIN` panics in every process (the negation overflows `i32`; the release
profile sets no overflow checks, then the group is `INT_MIN` and converting it to a pid fails). -/
theorem C54_finding_int_min : ∃ s, exec {} [.spawn] = some s ∧
    step s (.wait 1000 (.wait4 (-2 ^ 31) .good {} .null)) = some .panic := by
  refine ⟨_, rfl, ?_⟩
  decide +kernel

/-- `waitid(P_PIDFD)` with a child panics (`unimplemented!`). -/
theorem C54_finding_pidfd : ∃ s, exec {} [.spawn, .fork 1000 false (some 17) []] = some s ∧
    step s (.wait 1000 (.waitid 3 5 .good { exited := true } .null)) = some .panic := by
  refine ⟨_, rfl, ?_⟩
  decide +kernel

/-- A child without an exit signal ends, its parent waits for children of all kinds: the parent sleeps
on, although a second call would return at once. -/
theorem C54_finding_lost_wakeup : ∃ s,
    exec {} [.spawn, .fork 1000 false none [], .wait 1000 allKinds, .exit 1001 (.normal 3)] = some s ∧
    s.waiters = [⟨1000, allKinds, false⟩] ∧
    ∃ me ∈ s.procs, ∃ z ∈ s.procs, me.pid = 1000 ∧ Asks 1000 1 allKinds z ∧ z.zombie = some (.normal 3) ∧
      waitCall s me allKinds = .ok (⟨.ok 1001, some 768, none⟩, some z) := by
  refine ⟨_, rfl, rfl, _, List.mem_cons_self .., _, List.mem_cons_of_mem _ (List.mem_cons_self ..), rfl, ?_, rfl, rfl⟩
  exact ⟨rfl, .inl rfl, .inl rfl⟩

/-- A process that is in no group of its own asks for one by its pid and is refused; with 0 instead,
which means the same (setpgid(2)), it is not. -/
theorem C54_finding_setpgid : ∃ s, exec {} [.spawn] = some s ∧ ∃ me ∈ s.procs, me.pid = 1000 ∧
    (setpgid s me 0 1000).1 = some .EPERM ∧ (setpgid s me 0 0).1 = none := by
  refine ⟨_, rfl, _, List.mem_cons_self .., rfl, rfl, rfl⟩

/-- `waitid` without any of the event flags blocks for good, also with a child that ended (Linux:
`EINVAL`). -/
theorem C54_finding_waitid_no_event : ∃ s,
    exec {} [.spawn, .fork 1000 false (some 17) [], .exit 1001 (.normal 3)] = some s ∧
    ∃ me ∈ s.procs, me.pid = 1000 ∧
      waitCall s me (.waitid 0 0 .good {} .null) = .ok (⟨.blocked, none, none⟩, none) := by
  refine ⟨_, rfl, _, List.mem_cons_self .., rfl, ?_⟩
  rfl

/-- An event of a process that has already ended looks at its exit again: if the parent ignores SIGCHLD
by now, the zombie and its status are lost. -/
theorem C54_finding_late : ∃ s s',
    exec {} [.spawn, .fork 1000 false (some 17) [], .exit 1001 (.normal 3), .ignore 1000 [17]] = some s ∧
    (∃ z ∈ s.procs, z.pid = 1001 ∧ z.zombie = some (.normal 3)) ∧
    exec s [.late 1001] = some s' ∧ (∀ z ∈ s'.procs, z.pid ≠ 1001) := by
  refine ⟨_, _, rfl, ⟨_, List.mem_cons_of_mem _ (List.mem_cons_self ..), rfl, rfl⟩, rfl, ?_⟩
  decide

/-- A wait for a group sleeps on when the last child leaves the group (Linux: as well; the theorem on
wake-ups therefore excludes groups). -/
theorem C54_group_waits_go_stale : ∃ s,
    exec {} [.spawn, .fork 1000 false (some 17) [], .wait 1000 (.wait4 0 .good {} .null), .setpgid 1001 0 0] = some s ∧
    s.waiters = [⟨1000, .wait4 0 .good {} .null, false⟩] ∧
    ∀ c ∈ s.procs, ¬ Asks 1000 1 (.wait4 0 .good {} .null) c := by
  refine ⟨_, rfl, rfl, ?_⟩
  intro c hc ha
  have h : c.group ≠ 1 ∨ c.parent ≠ 1000 := by
    clear ha
    revert c
    decide
  obtain ⟨h1, h2, -⟩ := ha
  simp only [Named] at h2
  rcases h with h | h
  · rcases h2 with h2 | h2 | h2 | h2
    · omega
    · omega
    · exact h h2.2
    · omega
  · exact h h1

/-! ## Examples -/

/-- Two children, one collected by a sleeping wait, then the parent ends and the other goes to init. -/
def story : List Act :=
  [.spawn, .fork 1000 false (some 17) [], .thread, .fork 1000 false (some 17) [], .deathSignal 1003 (some 15),
   .wait 1000 anyChild, .exit 1001 (.signaled 9), .again 0]

example : ∃ s, exec {} story = some s ∧ s.procs.map (·.pid) = [1000, 1003] ∧ s.next = 1004 ∧ s.waiters = [] := by
  refine ⟨_, rfl, rfl, rfl, rfl⟩

example : ∃ s, exec {} (story ++ [.exit 1000 (.normal 0)]) = some s ∧ s.procs.map (fun p => (p.pid, p.parent)) = [(1003, 1)] := by
  refine ⟨_, rfl, rfl⟩

example : ∃ s, exec {} story = some s ∧ ∃ s', step s (.exit 1000 (.normal 0)) =
    some (.ok (s', .none, [.signal 1003 15 ⟨15, 1000, 0, 0⟩])) := by
  refine ⟨_, rfl, _, rfl⟩

/-- The hypotheses of `C54_zombie` and `C54_status_kept`: a zombie that stays, then is collected. -/
example : ∃ s, Reach s ∧ ∃ c ∈ s.procs, c.zombie = some (.signaled 9) ∧ Reapable s c := by
  refine ⟨_, exec_later (as := story.take 7) rfl, _, List.mem_cons_of_mem _ (List.mem_cons_self ..), rfl, ?_⟩
  exact ⟨by decide, _, List.mem_cons_self .., rfl, by decide⟩

/-- The hypotheses of `C54_wake`: a wait that sleeps. -/
example : ∃ s, Reach s ∧ ∃ w ∈ s.waiters, w.woken = false ∧ Certain w.call := by
  refine ⟨_, exec_later (as := story.take 6) rfl, _, List.mem_cons_self .., rfl, ?_⟩
  exact ⟨.inl rfl, rfl, rfl⟩

/-- The hypotheses of `C54_once`. -/
example : ∃ s s1 r evs me out z, Reach s ∧ step s (.wait 1000 anyChild) = some (.ok (s1, r, evs)) ∧ me ∈ s.procs ∧
    me.pid = 1000 ∧ waitCall s me anyChild = .ok (out, some z) ∧ out.ret = .ok 1001 ∧ out.status = some 9 := by
  refine ⟨_, _, _, _, _, _, _, exec_later (as := [.spawn, .fork 1000 false (some 17) [], .exit 1001 (.signaled 9)]) rfl,
    rfl, List.mem_cons_self .., rfl, rfl, rfl, rfl⟩

/-- A session of one's own, and a child moved to a group in it. -/
example : ∃ s, exec {} [.spawn, .setsid 1000, .fork 1000 false (some 17) [], .setpgid 1000 1001 0,
    .fork 1000 false (some 17) [], .setpgid 1000 1002 1001] = some s ∧
    s.procs.map (fun p => (p.pid, p.group, p.session)) = [(1000, 1000, 1000), (1001, 1001, 1000), (1002, 1001, 1000)] := by
  refine ⟨_, rfl, rfl⟩

example : physicalAddress 1000 0x7f0012345678 = .ok (1000 * 2 ^ 48 + 0x7f0012345678) ∧
    physicalAddress 65536 16 = .panic := by decide +kernel

end Shadow.Procs
