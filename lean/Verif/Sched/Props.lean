import Verif.Sched.Model
import Verif.SockAddr.Props
/-!
# C84: scheduling settings read back as they were last set
-/
namespace Shadow.Sched

open Shadow.Base
open Shadow.IoVec (Mem load store)
open Shadow.SockAddr (Byte le ofLe EFAULT EINVAL Holds Mapped Patched load_some load_isSome load_none store_patched le_length le_get)

/-! ## The specification -/

/-- The `int` in memory at an address: little-endian, two's complement. -/
def intAt (m : Mem Byte) (p : Nat) : Int :=
  let b := fun i => ((m (p + i)).getD 0).toNat
  let n := b 0 + 256 * b 1 + 65536 * b 2 + 16777216 * b 3
  if n < 2147483648 then n else (n : Int) - 4294967296

/-- Policy numbers and the priorities that go with them: ordinary, batch and idle with priority 0, the two real-time policies with 1 to 99. -/
def Allowed (policy : Nat) (prio : Int) : Prop :=
  ((policy = 0 ∨ policy = 3 ∨ policy = 5) ∧ prio = 0) ∨ ((policy = 1 ∨ policy = 2) ∧ 1 ≤ prio ∧ prio ≤ 99)

/-- A policy argument: a policy number, to which 2^30 may be added to ask that children do not get it. -/
def Argument (policy : BitVec 32) (prio : Int) : Prop := ∃ n, Allowed n prio ∧ (policy.toNat = n ∨ policy.toNat = n + 1073741824)

/-- The thread that an argument means. -/
def who (self : Nat) (tid : Int) : Nat := if tid = 0 then self else tid.toNat

/-- What can be read back of a thread. -/
structure Setting where
  policy : Nat
  prio : Int
deriving DecidableEq, Repr

/-- What happened. -/
inductive Ev where
  | born (k : Nat)
  | died (k : Nat)
  | set (k : Nat) (policy : Nat) (prio : Int)
  | prio (k : Nat) (prio : Int)
deriving DecidableEq, Repr

/-- The setting of a thread after events, the last of which is first: what was last set; a new thread has policy 0 and priority 0. -/
def replay (k : Nat) : List Ev → Option Setting
  | [] => none
  | .born j :: l => if j = k then some ⟨0, 0⟩ else replay k l
  | .died j :: l => if j = k then none else replay k l
  | .set j policy p :: l => if j = k then some ⟨policy, p⟩ else replay k l
  | .prio j p :: l => if j = k then (replay k l).map fun x => { x with prio := p } else replay k l

/-- What a call tells: only the calls that set something and succeed count. -/
def events (self : Nat) (m : Mem Byte) (op : Op) (o : Out) : List Ev :=
  match op, o with
  | .setScheduler tid policy ptr, .ret _ => [.set (who self tid) policy.toNat (intAt m ptr)]
  | .setParam tid ptr, .ret _ => [.prio (who self tid) (intAt m ptr)]
  | .clone tid _, .ret _ => [.born tid]
  | .exit, .ret _ => [.died self]
  | _, _ => []

/-- Executions: from no threads at all, threads come into being with new numbers (the first ones without a parent), and existing threads do what they like. -/
inductive Run (m0 : Nat → Mem Byte) : List Ev → St → Prop
  | start : Run m0 [] ⟨fun _ => none, m0⟩
  | first (tr : List Ev) (s : St) (k proc : Nat) (hr : Run m0 tr s) (h0 : k ≠ 0) (hk : s.threads k = none) :
      Run m0 (.born k :: tr) { s with threads := upd s.threads k (some (Th.new proc)) }
  | step (tr : List Ev) (s : St) (self : Nat) (t : Th) (op : Op) (hr : Run m0 tr s) (ht : s.threads self = some t)
      (hc : ∀ k proc, op = .clone k proc → k ≠ 0 ∧ s.threads k = none) :
      Run m0 (events self (s.mem t.proc) op (Shadow.Sched.step s self op).2 ++ tr) (Shadow.Sched.step s self op).1

/-- What is kept of a thread, as it can be read back. -/
def view (t : Th) : Setting := ⟨t.policy.num + (if t.reset then 1073741824 else 0), t.attrPriority⟩

/-! ## Lemmas -/

theorem load4 {m : Mem Byte} {p : Nat} {bs : List Byte} (h : load m p 4 = some bs) : (BitVec.ofNat 32 (ofLe bs)).toInt = intAt m p := by
  obtain ⟨h1, h2⟩ := load_some.mp h
  match bs, h1 with
  | [a, b, c, d], _ =>
    have e0 := h2 0 (by simp); have e1 := h2 1 (by simp); have e2 := h2 2 (by simp); have e3 := h2 3 (by simp)
    simp at e0 e1 e2 e3
    have la := a.isLt; have lb := b.isLt; have lc := c.isLt; have ld := d.isLt
    simp only [intAt, Nat.add_zero, e0, e1, e2, e3, Option.getD_some, ofLe, BitVec.toInt_eq_toNat_cond, BitVec.toNat_ofNat]
    rw [Nat.mod_eq_of_lt (by omega)]
    split <;> split <;> omega

theorem readInt_eq (m : Mem Byte) (p : Nat) : (Mapped m p 4 → readInt m p = some (intAt m p)) ∧ (¬ Mapped m p 4 → readInt m p = none) := by
  refine ⟨fun h => ?_, fun h => by rw [readInt, load_none h]; rfl⟩
  obtain ⟨bs, hb⟩ := load_isSome.mpr h
  rw [readInt, hb]
  exact congrArg some (load4 hb)

theorem flag_eq (x : BitVec 32) : (x &&& RESET ≠ 0) ↔ x.getLsbD 30 = true := by
  have : RESET = BitVec.twoPow 32 30 := by decide
  rw [this, BitVec.and_twoPow]
  by_cases h : x.getLsbD 30
  · rw [if_pos h]; exact ⟨fun _ => h, fun _ => by decide⟩
  · rw [if_neg h]; exact ⟨fun e => absurd rfl e, fun e => absurd e h⟩

theorem split_eq (x : BitVec 32) : x = (x &&& ~~~RESET) ||| (if x.getLsbD 30 then RESET else 0) := by
  have hr : RESET = BitVec.twoPow 32 30 := by decide
  rw [hr]
  refine BitVec.eq_of_getLsbD_eq fun i hi => ?_
  by_cases h : x.getLsbD 30
  · rw [if_pos h]
    simp only [BitVec.getLsbD_or, BitVec.getLsbD_and, BitVec.getLsbD_not, BitVec.getLsbD_twoPow, hi, decide_true, Bool.true_and]
    by_cases hi30 : i = 30
    · subst hi30; simpa using h
    · simp; grind
  · rw [if_neg h]
    simp only [BitVec.getLsbD_or, BitVec.getLsbD_and, BitVec.getLsbD_not, BitVec.getLsbD_twoPow, hi, decide_true, Bool.true_and]
    by_cases hi30 : i = 30
    · subst hi30; simpa using h
    · simp; grind

theorem ofNum_num {n : BitVec 32} {p : Policy} (h : Policy.ofNum n = some p) : n = BitVec.ofNat 32 p.num := by
  unfold Policy.ofNum at h
  repeat' split at h
  all_goals first | (cases h; assumption) | cases h

theorem ofNum_of (p : Policy) : Policy.ofNum (BitVec.ofNat 32 p.num) = some p := by cases p <;> decide

/-- What an accepted policy argument is. -/
theorem policy_iff (x : BitVec 32) (p : Policy) :
    Policy.ofNum (x &&& ~~~RESET) = some p ↔ x.toNat = p.num + (if x.getLsbD 30 then 1073741824 else 0) := by
  constructor
  · intro h
    have e := split_eq x
    rw [ofNum_num h] at e
    by_cases hb : x.getLsbD 30
    · simp only [hb, if_true] at e ⊢
      rw [e]; cases p <;> decide
    · simp only [hb, Bool.false_eq_true] at e ⊢
      rw [e]; cases p <;> decide
  · intro h
    by_cases hb : x.getLsbD 30
    · simp only [hb, if_true] at h
      have e : x = BitVec.ofNat 32 (p.num + 1073741824) := by
        apply BitVec.eq_of_toNat_eq; rw [h]; cases p <;> decide
      rw [e]; cases p <;> decide
    · simp only [hb, Bool.false_eq_true] at h
      have e : x = BitVec.ofNat 32 p.num := by
        apply BitVec.eq_of_toNat_eq; rw [h]; cases p <;> decide
      rw [e]; cases p <;> decide

theorem valid_iff (p : Policy) (prio : Int) : valid p prio = true ↔ Allowed p.num prio := by
  cases p <;> simp [valid, Allowed, Policy.num]

/-- The tests of the policy and the priority in `sched_setscheduler`. -/
theorem argument_iff (x : BitVec 32) (prio : Int) : Argument x prio ↔ ∃ p, Policy.ofNum (x &&& ~~~RESET) = some p ∧ valid p prio = true := by
  constructor
  · rintro ⟨n, hn, h⟩
    have hp : ∃ p : Policy, p.num = n := by
      rcases hn with ⟨h1 | h1 | h1, _⟩ | ⟨h1 | h1, _⟩ <;> subst h1
      · exact ⟨.normal, rfl⟩
      · exact ⟨.batch, rfl⟩
      · exact ⟨.idle, rfl⟩
      · exact ⟨.fifo, rfl⟩
      · exact ⟨.rr, rfl⟩
    obtain ⟨p, rfl⟩ := hp
    refine ⟨p, ?_, (valid_iff _ _).mpr hn⟩
    rcases h with h | h
    · have e : x = BitVec.ofNat 32 p.num := by apply BitVec.eq_of_toNat_eq; rw [h]; cases p <;> decide
      rw [e]; cases p <;> decide
    · have e : x = BitVec.ofNat 32 (p.num + 1073741824) := by apply BitVec.eq_of_toNat_eq; rw [h]; cases p <;> decide
      rw [e]; cases p <;> decide
  · rintro ⟨p, h, hv⟩
    refine ⟨p.num, (valid_iff _ _).mp hv, ?_⟩
    have := (policy_iff x p).mp h
    split at this <;> omega

/-- Which thread is meant. -/
theorem target_eq {s : St} {self : Nat} {t : Th} (ht : s.threads self = some t) (_h0 : s.threads 0 = none) (tid : Int) :
    s.target self tid = if 0 ≤ tid ∧ (s.threads (who self tid)).isSome then some (who self tid) else none := by
  unfold St.target who
  grind

/-- What always holds of the settings. -/
def Good (t : Th) : Prop := t.attrPolicy = t.policy.num ∧ t.attrFlags ≤ 1 ∧ Allowed t.policy.num t.attrPriority

theorem Good.lt {t : Th} (h : Good t) : t.attrPriority < 2147483648 := by
  have := h.2.2; unfold Allowed at this; omega

theorem good_new (proc : Nat) : Good (Th.new proc) := by simp [Good, Th.new, Policy.num, Allowed]

theorem view_new (proc : Nat) : view (Th.new proc) = ⟨0, 0⟩ := rfl

/-- `set_sched_attrs` with values that were tested. -/
theorem set_ok {t : Th} {p : Policy} {r : Bool} {prio : Int} (h : Allowed p.num prio) :
    ∃ t', t.set p r prio = .ok t' ∧ Good t' ∧ t'.proc = t.proc ∧ t'.policy = p ∧ t'.reset = r ∧ view t' = ⟨p.num + (if r then 1073741824 else 0), prio⟩ := by
  have h0 : 0 ≤ prio := by unfold Allowed at h; omega
  refine ⟨{ t with policy := p, attrPolicy := p.num, attrFlags := if r then 1 else 0, attrPriority := prio.toNat }, ?_, ?_, rfl, rfl, ?_, ?_⟩
  · unfold Th.set; rw [decide_eq_true h0]; rfl
  · refine ⟨rfl, ?_, ?_⟩
    · dsimp only; split <;> omega
    · dsimp only; rw [Int.toNat_of_nonneg h0]; exact h
  · cases r <;> rfl
  · have e : ((prio.toNat : Nat) : Int) = prio := Int.toNat_of_nonneg h0
    cases r <;> simp [view, Th.reset, e]

/-- The threads of a host are in order. -/
def Inv (s : St) : Prop := s.threads 0 = none ∧ ∀ k t, s.threads k = some t → Good t

/-! ## The calls one by one -/

/-- `sched_setscheduler` succeeds exactly if the priority can be read, the policy is known and fits the priority, and the thread exists; the errors come in this order. Then just this thread's setting
is what was asked for; otherwise nothing changes. -/
theorem C84_setscheduler {s : St} {self : Nat} {t : Th} (hi : Inv s) (ht : s.threads self = some t) (tid : Int) (policy : BitVec 32) (ptr : Nat) :
    let r := step s self (.setScheduler tid policy ptr)
    let m := s.mem t.proc
    (¬ Mapped m ptr 4 → r = (s, .err 14)) ∧
    (Mapped m ptr 4 → ¬ Argument policy (intAt m ptr) → r = (s, .err 22)) ∧
    (Mapped m ptr 4 → Argument policy (intAt m ptr) → (tid < 0 ∨ s.threads (who self tid) = none) → r = (s, .err 3)) ∧
    (Mapped m ptr 4 → Argument policy (intAt m ptr) → 0 ≤ tid → ∀ u, s.threads (who self tid) = some u →
      r.2 = .ret 0 ∧ r.1.mem = s.mem ∧ (∀ j, j ≠ who self tid → r.1.threads j = s.threads j) ∧
      ∃ u', r.1.threads (who self tid) = some u' ∧ u'.proc = u.proc ∧ Good u' ∧ view u' = ⟨policy.toNat, intAt m ptr⟩) := by
  intro r m
  have hr : r = s.setScheduler self t.proc tid policy ptr := by show step _ _ _ = _; unfold step; rw [ht]
  obtain ⟨e1, e2⟩ := readInt_eq m ptr
  refine ⟨fun h => ?_, fun h hn => ?_, fun h ha hx => ?_, fun h ha htid u hu => ?_⟩
  · rw [hr]; unfold St.setScheduler; rw [show readInt (s.mem t.proc) ptr = none from e2 h]; rfl
  · rw [hr]; unfold St.setScheduler; rw [show readInt (s.mem t.proc) ptr = some _ from e1 h]
    dsimp only
    split
    · rfl
    · rename_i p hp
      have : valid p (intAt m ptr) = false := by
        cases hv : valid p (intAt m ptr)
        · rfl
        · exact absurd ((argument_iff _ _).mpr ⟨p, hp, hv⟩) hn
      rw [if_pos this]; split <;> rfl
  · obtain ⟨p, hp, hv⟩ := (argument_iff _ _).mp ha
    rw [hr]; unfold St.setScheduler; rw [show readInt (s.mem t.proc) ptr = some _ from e1 h]
    dsimp only
    rw [hp]; dsimp only
    rw [if_neg (by rintro (rfl | rfl) <;> simp [valid] at hv), if_neg (by rw [hv]; simp), target_eq ht hi.1]
    rw [if_neg (by grind)]; rfl
  · obtain ⟨p, hp, hv⟩ := (argument_iff _ _).mp ha
    obtain ⟨u', h1, h2, h3, h4, h5, h6⟩ := set_ok (t := u) (r := decide (policy &&& RESET ≠ 0)) ((valid_iff _ _).mp hv)
    have hr' : r = ({ s with threads := upd s.threads (who self tid) (some u') }, .ret 0) := by
      rw [hr]; unfold St.setScheduler; rw [show readInt (s.mem t.proc) ptr = some _ from e1 h]
      dsimp only
      rw [hp]; dsimp only
      rw [if_neg (by rintro (rfl | rfl) <;> simp [valid] at hv), if_neg (by rw [hv]; simp), target_eq ht hi.1]
      rw [if_pos ⟨htid, by rw [hu]; rfl⟩]; dsimp only
      rw [hu]; dsimp only
      rw [St.setAttrs, h1]; rfl
    rw [hr']
    refine ⟨rfl, rfl, fun j hj => by simp [upd, hj], u', by simp [upd], h3, h2, ?_⟩
    rw [h6, (policy_iff _ _).mp hp]
    congr 2
    by_cases hb : policy.getLsbD 30
    · rw [decide_eq_true ((flag_eq _).mpr hb), hb]
    · rw [decide_eq_false (mt (flag_eq _).mp hb), Bool.not_eq_true _ |>.mp hb]

/-- `sched_setparam` the same with the policy the thread has. -/
theorem C84_setparam {s : St} {self : Nat} {t : Th} (hi : Inv s) (ht : s.threads self = some t) (tid : Int) (ptr : Nat) :
    let r := step s self (.setParam tid ptr)
    let m := s.mem t.proc
    (¬ Mapped m ptr 4 → r = (s, .err 14)) ∧
    (Mapped m ptr 4 → (tid < 0 ∨ s.threads (who self tid) = none) → r = (s, .err 3)) ∧
    (Mapped m ptr 4 → 0 ≤ tid → ∀ u, s.threads (who self tid) = some u →
      (¬ Allowed ((view u).policy % 1073741824) (intAt m ptr) → r = (s, .err 22)) ∧
      (Allowed ((view u).policy % 1073741824) (intAt m ptr) →
        r.2 = .ret 0 ∧ r.1.mem = s.mem ∧ (∀ j, j ≠ who self tid → r.1.threads j = s.threads j) ∧
        ∃ u', r.1.threads (who self tid) = some u' ∧ u'.proc = u.proc ∧ Good u' ∧ view u' = ⟨(view u).policy, intAt m ptr⟩)) := by
  intro r m
  have hr : r = s.setParam self t.proc tid ptr := by show step _ _ _ = _; unfold step; rw [ht]
  obtain ⟨e1, e2⟩ := readInt_eq m ptr
  refine ⟨fun h => ?_, fun h hx => ?_, fun h htid u hu => ?_⟩
  · rw [hr]; unfold St.setParam; rw [show readInt (s.mem t.proc) ptr = none from e2 h]; rfl
  · rw [hr]; unfold St.setParam; rw [show readInt (s.mem t.proc) ptr = some _ from e1 h]
    dsimp only
    rw [target_eq ht hi.1, if_neg (by grind)]; rfl
  · have hm : (view u).policy % 1073741824 = u.policy.num := by
      show (u.policy.num + _) % _ = _
      have : u.policy.num < 1073741824 := by cases u.policy <;> decide
      split <;> omega
    rw [hm]
    have hr0 : r = if valid u.policy (intAt m ptr) then s.setAttrs (who self tid) u u.policy u.reset (intAt m ptr) else (s, .err EINVAL) := by
      rw [hr]; unfold St.setParam; rw [show readInt (s.mem t.proc) ptr = some _ from e1 h]
      dsimp only
      rw [target_eq ht hi.1, if_pos ⟨htid, by rw [hu]; rfl⟩]; dsimp only
      rw [hu]
    refine ⟨fun hn => ?_, fun ha => ?_⟩
    · rw [hr0, if_neg (mt (valid_iff _ _).mp hn)]; rfl
    · obtain ⟨u', h1, h2, h3, h4, h5, h6⟩ := set_ok (t := u) (r := u.reset) ha
      have hr' : r = ({ s with threads := upd s.threads (who self tid) (some u') }, .ret 0) := by
        rw [hr0, if_pos ((valid_iff _ _).mpr ha), St.setAttrs, h1]; rfl
      rw [hr']
      exact ⟨rfl, rfl, fun j hj => by simp [upd, hj], u', by simp [upd], h3, h2, h6⟩

/-- Reading back gives what is kept and changes nothing but the four bytes of the answer. -/
theorem C84_get {s : St} {self : Nat} {t : Th} (hi : Inv s) (ht : s.threads self = some t) (tid : Int) (ptr : Nat) :
    ((tid < 0 ∨ s.threads (who self tid) = none) → step s self (.getScheduler tid) = (s, .err 3) ∧ step s self (.getParam tid ptr) = (s, .err 3)) ∧
    (0 ≤ tid → ∀ u, s.threads (who self tid) = some u →
      step s self (.getScheduler tid) = (s, .ret (view u).policy) ∧
      (¬ Mapped (s.mem t.proc) ptr 4 → step s self (.getParam tid ptr) = (s, .err 14)) ∧
      (Mapped (s.mem t.proc) ptr 4 → ∃ m', step s self (.getParam tid ptr) = ({ s with mem := upd s.mem t.proc m' }, .ret 0) ∧
        intAt m' ptr = (view u).prio ∧ ∀ x, x < ptr ∨ ptr + 4 ≤ x → m' x = s.mem t.proc x)) := by
  have hg : ∀ tid, step s self (.getScheduler tid) = s.getScheduler self tid := fun tid => by unfold step; rw [ht]
  have hp : step s self (.getParam tid ptr) = s.getParam self t.proc tid ptr := by unfold step; rw [ht]
  rw [hg, hp]
  unfold St.getScheduler St.getParam
  rw [target_eq ht hi.1]
  refine ⟨fun hx => ?_, fun htid u hu => ?_⟩
  · rw [if_neg (by grind)]; exact ⟨rfl, rfl⟩
  · rw [if_pos ⟨htid, by rw [hu]; rfl⟩]
    simp only [Option.bind_some, hu]
    have hl := (hi.2 _ _ hu).lt
    have hpr : u.priority = .ok u.attrPriority := by unfold Th.priority; rw [decide_eq_true (by omega)]; rfl
    refine ⟨?_, fun hn => ?_, fun hm => ?_⟩
    · cases hb : u.reset <;> simp [view, hb]
    · rw [hpr]
      simp only [ofR, write, le_length, load_none hn]; rfl
    · obtain ⟨bs, hb⟩ := load_isSome.mpr hm
      refine ⟨store (s.mem t.proc) ptr (le u.attrPriority 4), ?_, ?_, ?_⟩
      · rw [hpr]
        simp only [ofR, write, le_length, hb]; rfl
      · have hq := store_patched (s.mem t.proc) ptr (le u.attrPriority 4)
        rw [Shadow.SockAddr.Patched, le_length] at hq
        have g : ∀ i, i < 4 → store (s.mem t.proc) ptr (le u.attrPriority 4) (ptr + i) = some (BitVec.ofNat 8 (u.attrPriority / 256 ^ i)) := fun i hi => by
          rw [hq, if_pos (by omega), show ptr + i - ptr = i by omega, le_get _ _ _ hi]
        have g0 := g 0 (by omega); have g1 := g 1 (by omega); have g2 := g 2 (by omega); have g3 := g 3 (by omega)
        simp only [intAt, g0, g1, g2, g3, Option.getD_some, BitVec.toNat_ofNat, view]
        split <;> omega
      · intro x hx
        have hq := store_patched (s.mem t.proc) ptr (le u.attrPriority 4)
        rw [hq, le_length, if_neg (by omega)]

/-! ## Processors -/

/-- The calls about processors know just one, the first: asking sets the first byte of the mask to 1 and answers 1; setting succeeds exactly if the mask includes it. Neither changes a thread. -/
theorem C84_affinity {s : St} {self : Nat} {t : Th} (hi : Inv s) (ht : s.threads self = some t) (tid : Int) (size ptr : Nat) :
    let m := s.mem t.proc
    let Bad := tid < 0 ∨ s.threads (who self tid) = none
    (Bad → step s self (.getAffinity tid size ptr) = (s, .err 3) ∧ step s self (.setAffinity tid size ptr) = (s, .err 3)) ∧
    (¬ Bad → size = 0 → step s self (.getAffinity tid size ptr) = (s, .err 22) ∧ step s self (.setAffinity tid size ptr) = (s, .err 22)) ∧
    (¬ Bad → 0 < size → ¬ Mapped m ptr size → step s self (.getAffinity tid size ptr) = (s, .err 14) ∧ step s self (.setAffinity tid size ptr) = (s, .err 14)) ∧
    (¬ Bad → 0 < size → Mapped m ptr size →
      (∃ m', step s self (.getAffinity tid size ptr) = ({ s with mem := upd s.mem t.proc m' }, .ret 1) ∧ ∀ x, m' x = if x = ptr then some 1 else m x) ∧
      (∀ b, m ptr = some b → step s self (.setAffinity tid size ptr) = (s, if b.toNat % 2 = 1 then .ret 0 else .err 22))) := by
  intro m Bad
  have hg : step s self (.getAffinity tid size ptr) = s.getAffinity t.proc tid size ptr := by unfold step; rw [ht]
  have hp : step s self (.setAffinity tid size ptr) = s.setAffinity t.proc tid size ptr := by unfold step; rw [ht]
  have hex : s.exists? tid = true ↔ ¬ Bad := by
    have h0 := hi.1
    show _ ↔ ¬ (tid < 0 ∨ _)
    unfold St.exists? who
    by_cases h : tid = 0
    · subst h; simp [ht]
    · simp only [h, if_false, decide_false, Bool.or_false, Bool.and_eq_true, decide_eq_true_eq]
      cases s.threads tid.toNat <;> simp
  rw [hg, hp]
  unfold St.getAffinity St.setAffinity
  refine ⟨fun h => ?_, fun h hs => ?_, fun h hs hm => ?_, fun h hs hm => ?_⟩
  · have : s.exists? tid = false := by cases e : s.exists? tid; rfl; exact absurd h (hex.mp e)
    rw [if_pos this, if_pos this]; exact ⟨rfl, rfl⟩
  · rw [hex.mpr h]; simp [hs]; rfl
  · rw [hex.mpr h, load_none hm]; simp [Nat.ne_of_gt hs]; rfl
  · obtain ⟨bs, hb⟩ := load_isSome.mpr hm
    rw [hex.mpr h, hb]
    simp only [Bool.true_eq_false, if_false, Nat.ne_of_gt hs]
    obtain ⟨hl, hh⟩ := load_some.mp hb
    cases bs with
    | nil => simp at hl; omega
    | cons b0 bs =>
      have hb0 : m ptr = some b0 := by simpa using hh 0 (by simp)
      refine ⟨⟨_, rfl, fun x => ?_⟩, fun b hbb => ?_⟩
      · have hq := store_patched (s.mem t.proc) ptr (1 :: bs) x
        rw [List.length_cons] at hq
        show store (s.mem t.proc) ptr (1 :: bs) x = _
        rw [hq]
        by_cases hx : x = ptr
        · subst hx; simp
        · rw [if_neg hx]
          by_cases hr : ptr ≤ x ∧ x < ptr + (bs.length + 1)
          · rw [if_pos hr]
            have := hh (x - ptr) (by simp; omega)
            rw [show ptr + (x - ptr) = x by omega] at this
            rw [show m x = _ from this]
            obtain ⟨k, hk⟩ : ∃ k, x - ptr = k + 1 := ⟨x - ptr - 1, by omega⟩
            rw [hk]; simp
          · rw [if_neg hr]
      · have : b0 = b := by rw [hb0] at hbb; exact Option.some.inj hbb
        subst this
        show (if b0.getLsbD 0 = true then (s, Out.ret 0) else (s, Out.err EINVAL)) = _
        have hbit : b0.getLsbD 0 = decide (b0.toNat % 2 = 1) := by
          simp [BitVec.getLsbD, Nat.testBit_zero]
        by_cases hc : b0.toNat % 2 = 1
        · rw [if_pos (by rw [hbit]; exact decide_eq_true hc), if_pos hc]
        · rw [if_neg (by rw [hbit]; simp [hc]), if_neg hc]; rfl

/-- Registering a restartable sequence: the processor numbers in the first eight bytes become 0, and nothing else changes. -/
theorem C84_rseq {s : St} {self : Nat} {t : Th} (ht : s.threads self = some t) (aligned : Bool) (ptr len : Nat) (flags : BitVec 32) :
    let m := s.mem t.proc
    let r := step s self (.rseq aligned ptr len flags)
    (4 ≤ flags.toNat → r = (s, .err 22)) ∧ (flags.toNat = 1 ∨ flags.toNat = 3 → r = (s, .ret 0)) ∧
    (flags.toNat = 0 ∨ flags.toNat = 2 →
      (¬ Mapped m ptr (min len 64) → r = (s, .err 14)) ∧
      (Mapped m ptr (min len 64) → (len < 8 ∨ aligned = false) → r = (s, .err 22)) ∧
      (Mapped m ptr (min len 64) → 8 ≤ len → aligned = true →
        ∃ m', r = ({ s with mem := upd s.mem t.proc m' }, .ret 0) ∧ ∀ x, m' x = if ptr ≤ x ∧ x < ptr + 8 then some 0 else m x)) := by
  intro m r
  have hr : r = s.rseq t.proc aligned ptr len flags := by show step _ _ _ = _; unfold step; rw [ht]
  have hfl : ∀ n, flags.toNat = n → flags = BitVec.ofNat 32 n := fun n h => by
    apply BitVec.eq_of_toNat_eq; have := flags.isLt; rw [← h, BitVec.toNat_ofNat, Nat.mod_eq_of_lt this]
  refine ⟨fun h => ?_, fun h => ?_, fun h => ?_⟩
  · rw [hr]; unfold St.rseq; rw [if_pos]; rfl
    intro e
    have e3 : flags = flags &&& 3#32 := by
      refine BitVec.eq_of_getLsbD_eq fun i hi => ?_
      have := congrArg (fun z => BitVec.getLsbD z i) e
      simp only [BitVec.getLsbD_and, BitVec.getLsbD_not, hi, decide_true, Bool.true_and] at this ⊢
      grind
    have : flags.toNat ≤ 3 := by
      rw [e3, BitVec.toNat_and]; exact Nat.and_le_right
    omega
  · rw [hr]
    rcases h with h | h <;> rw [hfl _ h] <;> rfl
  · have hr2 : r = match load (s.mem t.proc) ptr (min len 64) with
      | none => (s, .err EFAULT)
      | some bs =>
        if bs.length < 8 ∨ aligned = false then (s, .err EINVAL)
        else ({ s with mem := upd s.mem t.proc (store (s.mem t.proc) ptr (List.replicate 8 0 ++ bs.drop 8)) }, .ret 0) := by
      rw [hr]
      rcases h with h | h <;> rw [hfl _ h] <;> rfl
    rw [hr2]
    refine ⟨fun hm => by rw [load_none hm]; rfl, fun hm hx => ?_, fun hm hl ha => ?_⟩
    · obtain ⟨bs, hb⟩ := load_isSome.mpr hm
      have hl := (load_some.mp hb).1
      rw [hb]; dsimp only
      rw [if_pos (by rcases hx with hx | hx; left; omega; exact .inr hx)]; rfl
    · obtain ⟨bs, hb⟩ := load_isSome.mpr hm
      obtain ⟨hl', hh⟩ := load_some.mp hb
      rw [hb]; dsimp only
      rw [if_neg (by rw [ha]; simp; omega)]
      refine ⟨_, rfl, fun x => ?_⟩
      rw [store_patched _ _ _ x]
      simp only [List.length_append, List.length_replicate, List.length_drop]
      by_cases h8 : ptr ≤ x ∧ x < ptr + 8
      · rw [if_pos h8, if_pos (by omega), List.getElem?_append_left (by simp; omega), List.getElem?_replicate, if_pos (by omega)]
      · rw [if_neg h8]
        by_cases hr : ptr ≤ x ∧ x < ptr + bs.length
        · rw [if_pos (by omega), List.getElem?_append_right (by simp; omega)]
          have := hh (x - ptr) (by omega)
          rw [show ptr + (x - ptr) = x by omega] at this
          rw [show m x = _ from this, List.getElem?_drop, List.length_replicate, show 8 + (x - ptr - 8) = x - ptr by omega]
        · rw [if_neg (by omega)]

/-! ## Histories -/

theorem replay_other {k : Nat} {e : Ev} (tr : List Ev) (h : match e with | .born j | .died j | .set j _ _ | .prio j _ => j ≠ k) : replay k (e :: tr) = replay k tr := by
  cases e <;> simp_all [replay]

/-- In every execution the settings that are kept are those that the history of calls tells, and they are in order. -/
theorem C84_history {m0 : Nat → Mem Byte} {tr : List Ev} {s : St} (hr : Run m0 tr s) : Inv s ∧ ∀ k, (s.threads k).map view = replay k tr := by
  induction hr with
  | start => exact ⟨⟨rfl, by simp⟩, fun k => rfl⟩
  | first tr s k proc _ h0 hk ih =>
    obtain ⟨⟨i1, i2⟩, ih⟩ := ih
    refine ⟨⟨by simp [upd, Ne.symm h0, i1], fun j u hu => ?_⟩, fun j => ?_⟩
    · simp only [upd] at hu
      split at hu
      · cases hu; exact good_new _
      · exact i2 _ _ hu
    · by_cases hj : j = k
      · subst hj; simp [upd, replay, view_new]
      · rw [replay_other _ (Ne.symm hj), ← ih j]; simp [upd, hj]
  | step tr s self t op _ ht hc ih =>
    obtain ⟨hi, ih⟩ := ih
    have keep : ∀ (s' : St), s'.threads = s.threads → Inv s' ∧ ∀ k, (s'.threads k).map view = replay k tr := fun s' e => by
      refine ⟨?_, by rw [e]; exact ih⟩
      unfold Inv; rw [e]; exact hi
    cases op with
    | getAffinity tid size ptr =>
      obtain ⟨h1, h2, h3, h4⟩ := C84_affinity hi ht tid size ptr
      apply keep
      by_cases hb : tid < 0 ∨ s.threads (who self tid) = none
      · rw [(h1 hb).1]
      · by_cases hs : size = 0
        · rw [(h2 hb hs).1]
        · by_cases hm : Mapped (s.mem t.proc) ptr size
          · obtain ⟨m', e, _⟩ := (h4 hb (by omega) hm).1
            rw [e]
          · rw [(h3 hb (by omega) hm).1]
    | setAffinity tid size ptr =>
      apply keep
      unfold Shadow.Sched.step; rw [ht]; dsimp only
      unfold St.setAffinity
      repeat' split
      all_goals rfl
    | getParam tid ptr =>
      obtain ⟨h1, h2⟩ := C84_get hi ht tid ptr
      apply keep
      by_cases hb : tid < 0 ∨ s.threads (who self tid) = none
      · rw [(h1 hb).2]
      · obtain ⟨u, hu⟩ : ∃ u, s.threads (who self tid) = some u := by
          cases e : s.threads (who self tid) with
          | none => exact absurd (.inr e) hb
          | some u => exact ⟨u, rfl⟩
        obtain ⟨_, h3, h4⟩ := h2 (by omega) u hu
        by_cases hm : Mapped (s.mem t.proc) ptr 4
        · obtain ⟨m', e, _⟩ := h4 hm
          rw [e]
        · rw [h3 hm]
    | getScheduler tid =>
      apply keep
      unfold Shadow.Sched.step; rw [ht]; dsimp only
      unfold St.getScheduler
      repeat' split
      all_goals rfl
    | setParam tid ptr =>
      obtain ⟨h1, h2, h3⟩ := C84_setparam hi ht tid ptr
      by_cases hm : Mapped (s.mem t.proc) ptr 4
      · by_cases hb : tid < 0 ∨ s.threads (who self tid) = none
        · rw [h2 hm hb]; exact keep _ rfl
        · obtain ⟨u, hu⟩ : ∃ u, s.threads (who self tid) = some u := by
            cases e : s.threads (who self tid) with
            | none => exact absurd (.inr e) hb
            | some u => exact ⟨u, rfl⟩
          obtain ⟨h4, h5⟩ := h3 hm (by omega) u hu
          by_cases ha : Allowed ((view u).policy % 1073741824) (intAt (s.mem t.proc) ptr)
          · obtain ⟨e1, e2, e3, u', e4, e5, e6, e7⟩ := h5 ha
            rw [e1]
            refine ⟨⟨?_, fun j v hv => ?_⟩, fun j => ?_⟩
            · rw [e3 0 (fun e => by rw [← e, hi.1] at hu; cases hu)]; exact hi.1
            · by_cases hj : j = who self tid
              · subst hj; rw [e4] at hv; cases hv; exact e6
              · rw [e3 j hj] at hv; exact hi.2 _ _ hv
            · by_cases hj : j = who self tid
              · subst hj
                have := ih (who self tid)
                rw [hu] at this
                simp only [events, List.cons_append, List.nil_append, replay, if_true, e4, ← this, Option.map_some, e7]
              · rw [e3 j hj, ih j]
                exact (replay_other tr (Ne.symm hj)).symm
          · rw [h4 ha]; exact keep _ rfl
      · rw [h1 hm]; exact keep _ rfl
    | setScheduler tid policy ptr =>
      obtain ⟨h1, h2, h3, h4⟩ := C84_setscheduler hi ht tid policy ptr
      by_cases hm : Mapped (s.mem t.proc) ptr 4
      · by_cases ha : Argument policy (intAt (s.mem t.proc) ptr)
        · by_cases hb : tid < 0 ∨ s.threads (who self tid) = none
          · rw [h3 hm ha hb]; exact keep _ rfl
          · obtain ⟨u, hu⟩ : ∃ u, s.threads (who self tid) = some u := by
              cases e : s.threads (who self tid) with
              | none => exact absurd (.inr e) hb
              | some u => exact ⟨u, rfl⟩
            obtain ⟨e1, e2, e3, u', e4, e5, e6, e7⟩ := h4 hm ha (by omega) u hu
            rw [e1]
            refine ⟨⟨?_, fun j v hv => ?_⟩, fun j => ?_⟩
            · rw [e3 0 (fun e => by rw [← e, hi.1] at hu; cases hu)]; exact hi.1
            · by_cases hj : j = who self tid
              · subst hj; rw [e4] at hv; cases hv; exact e6
              · rw [e3 j hj] at hv; exact hi.2 _ _ hv
            · by_cases hj : j = who self tid
              · subst hj
                simp only [events, List.cons_append, List.nil_append, replay, if_true, e4, Option.map_some, e7]
              · rw [e3 j hj, ih j]
                exact (replay_other tr (Ne.symm hj)).symm
        · rw [h2 hm ha]; exact keep _ rfl
      · rw [h1 hm]; exact keep _ rfl
    | rseq aligned ptr len flags =>
      apply keep
      unfold Shadow.Sched.step; rw [ht]; dsimp only
      unfold St.rseq
      repeat' split
      all_goals rfl
    | clone k proc =>
      obtain ⟨h0, hk⟩ := hc k proc rfl
      have e : Shadow.Sched.step s self (.clone k proc) = ({ s with threads := upd s.threads k (some (Th.new proc)) }, .ret k) := by
        unfold Shadow.Sched.step; rw [ht]
      rw [e]
      refine ⟨⟨by simp [upd, Ne.symm h0, hi.1], fun j u hu => ?_⟩, fun j => ?_⟩
      · simp only [upd] at hu
        split at hu
        · cases hu; exact good_new _
        · exact hi.2 _ _ hu
      · by_cases hj : j = k
        · subst hj; simp [upd, replay, view_new, events]
        · simp only [events, List.cons_append, List.nil_append]
          rw [replay_other _ (Ne.symm hj), ← ih j]; simp [upd, hj]
    | exit =>
      have e : Shadow.Sched.step s self .exit = ({ s with threads := upd s.threads self none }, .ret 0) := by
        unfold Shadow.Sched.step; rw [ht]
      rw [e]
      refine ⟨⟨by simp [upd, hi.1], fun j u hu => ?_⟩, fun j => ?_⟩
      · simp only [upd] at hu
        split at hu
        · cases hu
        · exact hi.2 _ _ hu
      · by_cases hj : j = self
        · subst hj; simp [upd, replay, events]
        · simp only [events, List.cons_append, List.nil_append]
          rw [replay_other _ (Ne.symm hj), ← ih j]; simp [upd, hj]
    | poke m =>
      apply keep
      unfold Shadow.Sched.step; rw [ht]

/-- What a thread reads back in an execution is what was last set of the thread it asks about, by whichever thread: the policy argument itself, and the priority. -/
theorem C84_readback {m0 : Nat → Mem Byte} {tr : List Ev} {s : St} (hr : Run m0 tr s) {self : Nat} {t : Th} (ht : s.threads self = some t) (tid : Int) (ptr : Nat)
    (hm : Mapped (s.mem t.proc) ptr 4) :
    (∀ x, 0 ≤ tid → replay (who self tid) tr = some x →
      step s self (.getScheduler tid) = (s, .ret x.policy) ∧ (step s self (.getParam tid ptr)).2 = .ret 0 ∧ intAt ((step s self (.getParam tid ptr)).1.mem t.proc) ptr = x.prio) ∧
    ((tid < 0 ∨ replay (who self tid) tr = none) → step s self (.getScheduler tid) = (s, .err 3) ∧ step s self (.getParam tid ptr) = (s, .err 3)) := by
  obtain ⟨hi, hv⟩ := C84_history hr
  obtain ⟨g1, g2⟩ := C84_get hi ht tid ptr
  refine ⟨fun x h0 hx => ?_, fun hb => g1 ?_⟩
  · rw [← hv] at hx
    obtain ⟨u, hu, rfl⟩ := Option.map_eq_some_iff.mp hx
    obtain ⟨e1, _, e2⟩ := g2 h0 u hu
    obtain ⟨m', e3, e4, _⟩ := e2 hm
    refine ⟨e1, by rw [e3], ?_⟩
    rw [e3]; simpa [upd] using e4
  · rcases hb with hb | hb
    · exact .inl hb
    · right
      rw [← hv] at hb
      exact Option.map_eq_none_iff.mp hb

/-- In every execution every thread has a policy and a priority that go together, and no call fails in the simulator itself. -/
theorem C84_total {m0 : Nat → Mem Byte} {tr : List Ev} {s : St} (hr : Run m0 tr s) :
    (∀ k x, replay k tr = some x → Allowed (x.policy % 1073741824) x.prio) ∧ ∀ self op, (step s self op).2 ≠ .panic := by
  obtain ⟨hi, hv⟩ := C84_history hr
  refine ⟨fun k x hx => ?_, fun self op => ?_⟩
  · rw [← hv] at hx
    obtain ⟨u, hu, rfl⟩ := Option.map_eq_some_iff.mp hx
    have hm : (view u).policy % 1073741824 = u.policy.num := by
      show (u.policy.num + _) % _ = _
      have : u.policy.num < 1073741824 := by cases u.policy <;> decide
      split <;> omega
    rw [hm]; exact (hi.2 _ _ hu).2.2
  · cases ht : s.threads self with
    | none => unfold step; rw [ht]; simp
    | some t =>
      cases op with
      | getParam tid ptr =>
        unfold step; rw [ht]; dsimp only; unfold St.getParam
        split
        · simp
        · rename_i u hu
          obtain ⟨k, _, hk⟩ := Option.bind_eq_some_iff.mp hu
          have hl := (hi.2 _ _ hk).lt
          have hpr : u.priority = .ok u.attrPriority := by unfold Th.priority; rw [decide_eq_true (by omega)]; rfl
          rw [hpr]; simp only [ofR]; split <;> simp
      | setParam tid ptr =>
        unfold step; rw [ht]; dsimp only; unfold St.setParam
        repeat' split
        all_goals try simp
        rename_i hva
        obtain ⟨u', h1, _⟩ := set_ok (t := _) (r := _) ((valid_iff _ _).mp hva)
        rw [St.setAttrs, h1]; simp [ofR]
      | setScheduler tid policy ptr =>
        unfold step; rw [ht]; dsimp only; unfold St.setScheduler
        repeat' split
        all_goals try simp
        rename_i hva _ _ _ _ _ _
        obtain ⟨u', h1, _⟩ := set_ok (t := _) (r := _) ((valid_iff _ _).mp (by simpa using hva))
        rw [St.setAttrs, h1]; simp [ofR]
      | getAffinity => unfold step; rw [ht]; dsimp only; unfold St.getAffinity; repeat' split
                       all_goals simp
      | setAffinity => unfold step; rw [ht]; dsimp only; unfold St.setAffinity; repeat' split
                       all_goals simp
      | getScheduler => unfold step; rw [ht]; dsimp only; unfold St.getScheduler; repeat' split
                        all_goals simp
      | rseq => unfold step; rw [ht]; dsimp only; unfold St.rseq; repeat' split
                all_goals simp
      | clone => unfold step; rw [ht]; simp
      | exit => unfold step; rw [ht]; simp
      | poke => unfold step; rw [ht]; simp

end Shadow.Sched
