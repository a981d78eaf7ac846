import Verif.Procs.Model

/-!
# The results of `wait4` and `waitid`
-/
namespace Shadow.Procs
open Shadow.Base

/-! ## Specification -/

def Call.opts : Call → Opts
  | .wait4 _ _ o _ => o
  | .waitid _ _ _ o _ => o

/-- The kind of child: `__WALL` asks for all, `__WCLONE` for those that do not send SIGCHLD. -/
def KindOk (o : Opts) (p : Proc) : Prop :=
  o.all = true ∨ (o.clone = true ∧ p.exitSignal ≠ some 17) ∨ (o.clone = false ∧ p.exitSignal = some 17)

/-- The arguments name the process (waitpid(2), waitid(2)); `grp` is the group of the caller. -/
def Named (grp : Nat) (p : Proc) : Call → Prop
  | .wait4 pid _ _ _ =>
    pid = -1 ∨ (0 < pid ∧ (p.pid : Int) = pid) ∨ (pid = 0 ∧ p.group = grp) ∨ (pid < -1 ∧ (p.group : Int) = -pid)
  | .waitid which id _ _ _ =>
    which = 0 ∨ (which = 1 ∧ (p.pid : Int) = id) ∨
      (which = 2 ∧ ((id = 0 ∧ p.group = grp) ∨ (id ≠ 0 ∧ (p.group : Int) = id)))

/-- The call of the process with the given pid and group asks for this process. -/
def Asks (me grp : Nat) (c : Call) (p : Proc) : Prop :=
  p.parent = me ∧ Named grp p c ∧ KindOk c.opts p

/-- The call asks for processes that ended. -/
def Call.ended : Call → Bool
  | .wait4 .. => true
  | .waitid _ _ _ o _ => o.exited

/-- The status word of waitpid(2). -/
inductive Word : Exit → Nat → Prop
  | normal (code) : Word (.normal code) (code * 256)
  | signaled (sig) : Word (.signaled sig) sig

/-- The `siginfo_t` of waitid(2) (code 1: exited, 2: killed). -/
inductive ChildInfo (z : Proc) : Exit → Info → Prop
  | normal (code) : ChildInfo z (.normal code) ⟨17, z.pid, 1, code⟩
  | signaled (sig) : ChildInfo z (.signaled sig) ⟨17, z.pid, 2, sig⟩

/-- What is reported about the zombie `z` that ended with `x`, and whether it is removed. -/
inductive Report (z : Proc) (x : Exit) : Call → Out → Option Proc → Prop
  | wait4 {pid st o us w} : Word x w → st ≠ .fault → us ≠ .fault →
      Report z x (.wait4 pid st o us) ⟨.ok z.pid, if st = .good then some w else none, none⟩ (some z)
  | wait4Fault {pid o us} : Report z x (.wait4 pid .fault o us) ⟨.err .EFAULT, none, none⟩ none
  | wait4Usage {pid st o w} : Word x w → st ≠ .fault →
      Report z x (.wait4 pid st o .fault) ⟨.err .EFAULT, if st = .good then some w else none, none⟩ none
  | waitid {which id inf o us i} : ChildInfo z x i → inf ≠ .fault → us ≠ .fault →
      Report z x (.waitid which id inf o us) ⟨.ok 0, none, if inf = .good then some i else none⟩
        (if o.nowait = true then none else some z)
  | waitidFault {which id o us} : Report z x (.waitid which id .fault o us) ⟨.err .EFAULT, none, none⟩ none
  | waitidUsage {which id inf o i} : ChildInfo z x i → inf ≠ .fault →
      Report z x (.waitid which id inf o .fault) ⟨.err .EFAULT, none, if inf = .good then some i else none⟩ none

/-- Accepted arguments. -/
def Valid : Call → Prop
  | .wait4 _ _ o _ => o.unknown = false ∧ o.exited = false ∧ o.nowait = false
  | .waitid which _ _ _ _ => 0 ≤ which ∧ which ≤ 3

/-- The result of a wait: what it returns and writes, and the zombie it removes. -/
inductive WaitSpec (s : St) (me : Proc) (c : Call) : Out → Option Proc → Prop
  | invalid : ¬ Valid c → WaitSpec s me c ⟨.err .EINVAL, none, none⟩ none
  | noChild : Valid c → (∀ p ∈ s.procs, ¬ Asks me.pid me.group c p) →
      WaitSpec s me c ⟨.err .ECHILD, none, none⟩ none
  | nothing : Valid c → (∃ p ∈ s.procs, Asks me.pid me.group c p) →
      (c.ended = false ∨ ∀ p ∈ s.procs, Asks me.pid me.group c p → p.zombie = none) →
      WaitSpec s me c ⟨if c.opts.nohang = true then .ok 0 else .blocked, none, none⟩ none
  | found {z x out rem} : Valid c → c.ended = true → z ∈ s.procs → Asks me.pid me.group c z →
      z.zombie = some x →
      (∀ z' ∈ s.procs, Asks me.pid me.group c z' → z'.zombie ≠ none → z.pid ≤ z'.pid) →
      Report z x c out rem → WaitSpec s me c out rem

/-! ## Proofs -/

theorem kind_iff (o : Opts) (p : Proc) : kind o p = true ↔ KindOk o p := by
  unfold kind KindOk sigchld
  cases o.all <;> cases o.clone <;> simp

theorem waitpid_named {me : Proc} {pid : Int} {t : Target} (h : fromWaitpid me pid = .ok t) (p : Proc)
    (st : Ptr) (o : Opts) (us : Ptr) :
    t ≠ .pidFd ∧ (t.has p = true ↔ Named me.group p (.wait4 pid st o us)) := by
  unfold fromWaitpid at h
  unfold Named
  split at h
  · split at h
    · cases h; simp [Target.has]; omega
    · split at h
      · cases h
      · cases h
        refine ⟨by simp, ?_⟩
        simp only [Target.has, decide_eq_true_eq]
        omega
  · split at h
    · cases h
      refine ⟨by simp, ?_⟩
      simp only [Target.has, decide_eq_true_eq]
      omega
    · cases h
      refine ⟨by simp, ?_⟩
      simp only [Target.has, decide_eq_true_eq]
      omega

theorem waitid_named {me : Proc} {which id : Int} {t : Target} (h : fromWaitid me which id = some (some t))
    (p : Proc) (inf : Ptr) (o : Opts) (us : Ptr) :
    (t = .pidFd ↔ which = 3) ∧ (t.has p = true ↔ Named me.group p (.waitid which id inf o us)) := by
  unfold fromWaitid at h
  unfold Named
  split at h
  · cases h; simp only [Target.has]; refine ⟨by simp; omega, by simp; omega⟩
  · split at h
    · split at h
      · cases h
      · cases h
        simp only [Target.has, decide_eq_true_eq]
        refine ⟨by simp; omega, by omega⟩
    · split at h
      · split at h
        · cases h
          simp only [Target.has, decide_eq_true_eq]
          refine ⟨by simp; omega, by omega⟩
        · split at h
          · cases h
          · cases h
            simp only [Target.has, decide_eq_true_eq]
            refine ⟨by simp; omega, by omega⟩
      · split at h
        · cases h
          simp only [Target.has]
          refine ⟨by simp; omega, by simp; omega⟩
        · cases h

theorem waitid_none {me : Proc} {which id : Int} (h : fromWaitid me which id = some none) (p : Proc)
    (inf : Ptr) (o : Opts) (us : Ptr) :
    0 ≤ which ∧ which ≤ 3 ∧ ¬ Named me.group p (.waitid which id inf o us) := by
  unfold fromWaitid at h
  unfold Named
  repeat' split at h
  all_goals first | (cases h; done) | (exfalso; injection h with h; cases h; done) | omega

theorem waitid_invalid {me : Proc} {which id : Int} :
    fromWaitid me which id = none ↔ ¬ (0 ≤ which ∧ which ≤ 3) := by
  unfold fromWaitid
  repeat' split
  all_goals simp only [reduceCtorEq, false_iff, true_iff]
  all_goals omega

theorem word_of (x : Exit) : Word x (statusWord x) := by
  cases x with
  | normal c =>
    have : statusWord (.normal c) = c * 256 := by simp [statusWord, Nat.shiftLeft_eq]
    rw [this]; exact .normal c
  | signaled s => exact .signaled s

theorem info_of (z : Proc) (x : Exit) : ChildInfo z x (exitInfo z.pid x sigchld) := by
  cases x with
  | normal c => exact .normal c
  | signaled s => exact .signaled s

theorem find_first {l : List Proc} (hs : l.Pairwise (·.pid < ·.pid)) {P : Proc → Bool} {z : Proc}
    (h : l.find? P = some z) : ∀ z' ∈ l, P z' = true → z.pid ≤ z'.pid := by
  induction l with
  | nil => cases h
  | cons a l ih =>
    rw [List.pairwise_cons] at hs
    rw [List.find?_cons] at h
    split at h
    · cases h
      intro z' hz _
      rcases List.mem_cons.1 hz with rfl | hz
      · exact Nat.le_refl _
      · exact Nat.le_of_lt (hs.1 z' hz)
    · rename_i ha
      intro z' hz hp
      rcases List.mem_cons.1 hz with rfl | hz
      · rw [ha] at hp; cases hp
      · exact ih hs.2 h z' hz hp

/-- The reports of the two calls about a zombie. -/
theorem internal_spec {s : St} (hs : s.procs.Pairwise (·.pid < ·.pid)) {me : Proc} {t : Target}
    {st inf us : Ptr} {o : Opts} {A : Proc → Prop} (hA : ∀ p ∈ s.procs, (p.parent = me.pid ∧ t.has p = true ∧ KindOk o p) ↔ A p)
    {out rem} (h : waitInternal s me t st inf o us = .ok (out, rem)) :
    ((∀ p ∈ s.procs, ¬ A p) ∧ out = ⟨.err .ECHILD, none, none⟩ ∧ rem = none) ∨
    ((∃ p ∈ s.procs, A p) ∧ (o.exited = false ∨ ∀ p ∈ s.procs, A p → p.zombie = none) ∧
      out = ⟨if o.nohang = true then .ok 0 else .blocked, none, none⟩ ∧ rem = none) ∨
    (o.exited = true ∧ ∃ z ∈ s.procs, A z ∧ ∃ x, z.zombie = some x ∧
      (∀ z' ∈ s.procs, A z' → z'.zombie ≠ none → z.pid ≤ z'.pid) ∧
      ((st = .fault ∧ out = ⟨.err .EFAULT, none, none⟩ ∧ rem = none) ∨
       (st ≠ .fault ∧ inf = .fault ∧
          out = ⟨.err .EFAULT, if st = .good then some (statusWord x) else none, none⟩ ∧ rem = none) ∨
       (st ≠ .fault ∧ inf ≠ .fault ∧
          out = ⟨if us = .fault then .err .EFAULT else .ok z.pid,
            if st = .good then some (statusWord x) else none,
            if inf = .good then some (exitInfo z.pid x sigchld) else none⟩ ∧
          rem = if us = .fault ∨ o.nowait = true then none else some z))) := by
  unfold waitInternal at h
  obtain ⟨-, -, h⟩ := (R.bind_eq_ok ..).1 h
  simp only at h
  have hmem : ∀ p, p ∈ s.procs.filter (fun p => decide (p.parent = me.pid) && t.has p && kind o p) ↔
      p ∈ s.procs ∧ A p := by
    intro p
    rw [List.mem_filter]
    simp only [Bool.and_eq_true, decide_eq_true_eq, kind_iff]
    constructor
    · rintro ⟨h1, ⟨h2, h3⟩, h4⟩; exact ⟨h1, (hA p h1).1 ⟨h2, h3, h4⟩⟩
    · rintro ⟨h1, h2⟩
      obtain ⟨h2, h3, h4⟩ := (hA p h1).2 h2
      exact ⟨h1, ⟨h2, h3⟩, h4⟩
  generalize hc : s.procs.filter (fun p => decide (p.parent = me.pid) && t.has p && kind o p) = cs at h hmem
  have hcs : cs.Pairwise (·.pid < ·.pid) := by rw [← hc]; exact hs.filter _
  by_cases he : cs.isEmpty = true
  · rw [if_pos he] at h
    cases h
    left
    refine ⟨fun p hp ha => ?_, rfl, rfl⟩
    have : p ∈ cs := (hmem p).2 ⟨hp, ha⟩
    rw [List.isEmpty_iff.1 he] at this; cases this
  · right
    rw [if_neg he] at h
    have hex : ∃ p ∈ s.procs, A p := by
      cases cs with
      | nil => exact absurd rfl he
      | cons a l => exact ⟨a, (hmem a).1 (List.mem_cons_self ..)⟩
    by_cases hx : (!o.exited) = true
    · rw [if_pos hx] at h
      cases h
      left
      exact ⟨hex, .inl (by simpa using hx), rfl, rfl⟩
    · rw [if_neg hx] at h
      have hx : o.exited = true := by simpa using hx
      cases hf : cs.find? (fun p => p.zombie.isSome) with
      | none =>
        rw [hf] at h
        cases h
        left
        refine ⟨hex, .inr fun p hp ha => ?_, rfl, rfl⟩
        have := List.find?_eq_none.1 hf p ((hmem p).2 ⟨hp, ha⟩)
        simpa using this
      | some z =>
        rw [hf] at h
        right
        have hz := (hmem z).1 (List.mem_of_find?_eq_some hf)
        have hfirst := find_first hcs hf
        simp only at h
        cases hzx : z.zombie with
        | none =>
          have := List.find?_some hf
          simp [hzx] at this
        | some x =>
          rw [hzx] at h
          refine ⟨hx, z, hz.1, hz.2, x, hzx, ?_, ?_⟩
          · intro z' hz' ha hn
            refine hfirst z' ((hmem z').2 ⟨hz', ha⟩) ?_
            rw [Option.isSome_iff_ne_none]; exact hn
          · cases st <;> cases inf <;> cases us <;> cases hnw : o.nowait <;>
              simp only [hnw, reduceCtorEq, if_true, if_false, Bool.false_eq_true] at h <;> cases h <;> simp

/-- **C54 (wait)**: `wait4` and `waitid` return exactly what is documented. -/
theorem C54_wait {s : St} (hs : s.procs.Pairwise (·.pid < ·.pid)) {me : Proc} {c : Call} {out rem}
    (h : waitCall s me c = .ok (out, rem)) : WaitSpec s me c out rem := by
  cases c with
  | wait4 pid st o us =>
    simp only [waitCall] at h
    by_cases h1 : o.unknown = true
    · rw [if_pos h1] at h; cases h
      exact .invalid (by simp [Valid, h1])
    rw [if_neg h1] at h
    by_cases h2 : (o.exited || o.nowait) = true
    · rw [if_pos h2] at h; cases h
      refine .invalid ?_
      simp only [Valid]
      rw [Bool.or_eq_true] at h2
      rintro ⟨-, h3, h4⟩
      rw [h3, h4] at h2
      simp at h2
    rw [if_neg h2] at h
    have hv : Valid (.wait4 pid st o us) := by
      simp only [Valid]
      simp only [Bool.not_eq_true, Bool.or_eq_false_iff] at h1 h2
      exact ⟨h1, h2⟩
    obtain ⟨t, ht, h⟩ := (R.bind_eq_ok ..).1 h
    have key := internal_spec hs (A := Asks me.pid me.group (.wait4 pid st o us)) (by
      intro p _
      unfold Asks
      rw [(waitpid_named ht p st o us).2]
      exact Iff.rfl) h
    rcases key with ⟨k1, rfl, rfl⟩ | ⟨k1, k2, rfl, rfl⟩ | ⟨-, z, k1, k2, x, k3, k4, k5⟩
    · exact .noChild hv k1
    · refine .nothing hv k1 ?_
      rcases k2 with k2 | k2
      · cases k2
      · exact .inr k2
    · refine .found hv rfl k1 k2 k3 k4 ?_
      have hnw : o.nowait = false := hv.2.2
      rcases k5 with ⟨rfl, rfl, rfl⟩ | ⟨k5, k6, -⟩ | ⟨k5, -, rfl, rfl⟩
      · exact .wait4Fault
      · cases k6
      · simp only [hnw, reduceCtorEq, if_false, Bool.false_eq_true, or_false]
        cases us with
        | fault => exact .wait4Usage (word_of x) k5
        | null => exact .wait4 (word_of x) k5 (by simp)
        | good => exact .wait4 (word_of x) k5 (by simp)
  | waitid which id inf o us =>
    simp only [waitCall] at h
    cases ht : fromWaitid me which id with
    | none =>
      rw [ht] at h; cases h
      exact .invalid (waitid_invalid.1 ht)
    | some t? =>
      rw [ht] at h
      have hv : Valid (.waitid which id inf o us) := by
        simp only [Valid]
        apply Classical.byContradiction
        intro hn
        rw [waitid_invalid.2 hn] at ht; cases ht
      cases t? with
      | none =>
        cases h
        exact .noChild hv fun p _ ha => (waitid_none ht p inf o us).2.2 ha.2.1
      | some t =>
        obtain ⟨⟨out', rem'⟩, hw, h'⟩ := (R.bind_eq_ok ..).1 h
        simp only [zeroRet, R.ok.injEq, Prod.mk.injEq] at h'
        obtain ⟨rfl, rfl⟩ := h'
        have key := internal_spec hs (A := Asks me.pid me.group (.waitid which id inf o us)) (by
          intro p _
          unfold Asks
          rw [(waitid_named ht p inf o us).2]
          exact Iff.rfl) hw
        rcases key with ⟨k1, rfl, rfl⟩ | ⟨k1, k2, rfl, rfl⟩ | ⟨k0, z, k1, k2, x, k3, k4, k5⟩
        · exact .noChild hv k1
        · have := WaitSpec.nothing (s := s) (me := me) hv k1 k2
          simp only [Call.opts] at this
          cases hh : o.nohang <;> simpa [hh] using this
        · refine .found hv k0 k1 k2 k3 k4 ?_
          rcases k5 with ⟨k5, -⟩ | ⟨-, rfl, rfl, rfl⟩ | ⟨-, k5, rfl, rfl⟩
          · cases k5
          · exact .waitidFault
          · simp only [reduceCtorEq, if_false]
            cases us with
            | fault => simpa using Report.waitidUsage (info_of z x) k5
            | null => simpa using Report.waitid (us := .null) (info_of z x) k5 (by simp)
            | good => simpa using Report.waitid (us := .good) (info_of z x) k5 (by simp)

/-- **C54 (when a wait panics)**: for the pid `-2³¹`, and for a pidfd if the caller has a child. -/
theorem C54_wait_panics (s : St) (me : Proc) (c : Call) :
    waitCall s me c = .panic ↔
      (∃ st o us, c = .wait4 (-2147483648) st o us ∧ Valid c) ∨
      (∃ id inf o us, c = .waitid 3 id inf o us ∧ ∃ p ∈ s.procs, p.parent = me.pid) := by
  have hint : ∀ t st inf o us, waitInternal s me t st inf o us = .panic ↔
      t = .pidFd ∧ ∃ p ∈ s.procs, p.parent = me.pid := by
    intro t st inf o us
    unfold waitInternal
    by_cases hb : (t = .pidFd ∧ ∃ p ∈ s.procs, p.parent = me.pid)
    · have : (!(decide (t = .pidFd) && s.procs.any (·.parent = me.pid))) = false := by
        obtain ⟨h1, p, h2, h3⟩ := hb
        simp only [h1, Bool.not_eq_false', Bool.and_eq_true, decide_true, true_and, List.any_eq_true,
          decide_eq_true_eq]
        exact ⟨p, h2, h3⟩
      rw [this]
      exact ⟨fun _ => hb, fun _ => rfl⟩
    · have : (!(decide (t = .pidFd) && s.procs.any (·.parent = me.pid))) = true := by
        simp only [Bool.not_eq_true', ← Bool.not_eq_true, Bool.and_eq_true, decide_eq_true_eq,
          List.any_eq_true]
        exact hb
      rw [this]
      simp only [R.assert_true, R.bind_ok, hb, iff_false]
      split
      · simp
      · split
        · simp
        · split
          · simp
          · rename_i z hz
            have hzs := List.find?_some hz
            cases hzx : z.zombie with
            | none => simp [hzx] at hzs
            | some x =>
              cases st <;> cases inf <;> cases us <;> simp
  cases c with
  | wait4 pid st o us =>
    simp only [waitCall]
    by_cases h1 : o.unknown = true
    · simp [h1, Valid]
    rw [if_neg h1]
    by_cases h2 : (o.exited || o.nowait) = true
    · rw [if_pos h2]
      simp only [reduceCtorEq, false_iff, Valid]
      rw [Bool.or_eq_true] at h2
      rintro (⟨st', o', us', he, -, h3, h4⟩ | ⟨_, _, _, _, he, -⟩)
      · cases he
        rcases h2 with h2 | h2 <;> simp_all
      · cases he
    rw [if_neg h2]
    have hv : Valid (.wait4 pid st o us) := by
      simp only [Valid]
      simp only [Bool.not_eq_true, Bool.or_eq_false_iff] at h1 h2
      exact ⟨h1, h2⟩
    cases ht : fromWaitpid me pid with
    | panic =>
      have hp : pid = -2147483648 := by
        unfold fromWaitpid at ht
        repeat' split at ht
        all_goals first | (cases ht; done) | assumption
      subst hp
      exact ⟨fun _ => .inl ⟨st, o, us, rfl, hv⟩, fun _ => rfl⟩
    | ok t =>
      simp only [R.bind_ok, hint]
      have hn := (waitpid_named ht me st o us).1
      constructor
      · rintro ⟨h, -⟩; exact absurd h hn
      · rintro (⟨st', o', us', he, -⟩ | ⟨_, _, _, _, he, -⟩)
        · cases he
          exfalso
          unfold fromWaitpid at ht
          simp at ht
        · cases he
  | waitid which id inf o us =>
    simp only [waitCall]
    cases ht : fromWaitid me which id with
    | none =>
      have hw := waitid_invalid.1 ht
      simp only [reduceCtorEq, false_iff]
      rintro (⟨_, _, _, he, -⟩ | ⟨_, _, _, _, he, -⟩)
      · cases he
      · cases he; exact hw (by omega)
    | some t? =>
      cases t? with
      | none =>
        simp only [reduceCtorEq, false_iff]
        rintro (⟨_, _, _, he, -⟩ | ⟨_, _, _, _, he, -⟩)
        · cases he
        · cases he
          unfold fromWaitid at ht
          simp at ht
      | some t =>
        have h1 := (waitid_named ht me inf o us).1
        have h2 := hint t .null inf o us
        have h3 : ((do
            let r ← waitInternal s me t .null inf o us
            R.ok (zeroRet r)) = .panic) ↔
            waitInternal s me t .null inf o us = .panic := by
          cases waitInternal s me t .null inf o us with
          | ok a => simp
          | panic => simp only [iff_true]; rfl
        simp only
        rw [h3, h2, h1]
        constructor
        · rintro ⟨rfl, h⟩; exact .inr ⟨id, inf, o, us, rfl, h⟩
        · rintro (⟨_, _, _, he, -⟩ | ⟨_, _, _, _, he, h⟩)
          · cases he
          · cases he; exact ⟨rfl, h⟩

/-- **C54 (status)**: the macros of wait(2) recover the exit code, or the signal. -/
theorem C54_status {x : Exit} {w : Nat} (h : Word x w) :
    (∀ code, x = .normal code → w % 128 = 0 ∧ w / 256 = code) ∧
    (∀ sig, x = .signaled sig → 0 < sig → sig < 127 → w % 128 = sig ∧ w % 128 ≠ 0 ∧ w % 128 ≠ 127 ∧ w / 128 % 2 = 0) := by
  cases h with
  | normal c =>
    refine ⟨?_, fun _ h => (by cases h)⟩
    rintro code h; cases h; omega
  | signaled sg =>
    refine ⟨fun _ h => (by cases h), ?_⟩
    rintro sig h h1 h2; cases h; omega

end Shadow.Procs
