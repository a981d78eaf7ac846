import Verif.Signal.Model

/-!
# Emulated signals: what holds (C50)
-/
namespace Shadow.Signal
open Shadow.Base

/-! ## Vocabulary of the statements -/

/-- Membership of a signal in a set, bit by bit. -/
def Mem (s : Sigset) (sig : Nat) : Prop := s.getLsbD (sig - 1) = true

instance (s : Sigset) (sig : Nat) : Decidable (Mem s sig) := inferInstanceAs (Decidable (_ = true))

/-- The numbers of signals. -/
def IsSig (sig : Nat) : Prop := 1 ≤ sig ∧ sig ≤ 64

instance (sig : Nat) : Decidable (IsSig sig) := inferInstanceAs (Decidable (_ ∧ _))

/-- The pending instance of a signal, if there is one. -/
def Pend.at (p : Pend) (sig : Nat) : Option Info :=
  if Mem p.set sig then some (p.infos sig) else none

/-- The instance of `sig` that is pending at a queue. -/
def St.pending (s : St) (q : Queue) (sig : Nat) : Option Info :=
  match q with
  | .process => s.pend.at sig
  | .thread k => (s.threads[k]?).bind fun t => t.pend.at sig

/-- The instances of `sig` that became pending at `q`, in order. -/
def sentTo (q : Queue) (sig : Nat) (es : List Ev) : List Info :=
  es.filterMap fun e => match e with
    | .sent q' n i => if q' = q ∧ n = sig then some i else none
    | _ => none

/-- The instances of `sig` that were taken from `q`, in order. -/
def tookFrom (q : Queue) (sig : Nat) (es : List Ev) : List Info :=
  es.filterMap fun e => match e with
    | .took _ q' n i => if q' = q ∧ n = sig then some i else none
    | _ => none

/-! ## Sets -/

theorem single_getLsbD {sig : Nat} (j : Nat) (h : IsSig sig) :
    (single sig).getLsbD j = decide (j = sig - 1) := by
  obtain ⟨h1, h2⟩ := h
  unfold single
  rw [BitVec.getLsbD_shiftLeft, BitVec.getLsbD_one]
  by_cases hj : j = sig - 1
  · subst hj
    have : sig - 1 < 64 := by omega
    simp [this]
  · simp only [hj, decide_false, Bool.and_eq_false_iff, decide_eq_false_iff_not, Nat.not_lt,
      Bool.not_eq_eq_eq_not]
    by_cases h64 : j < 64
    · by_cases hl : j < sig - 1
      · left; right; simpa using hl
      · right; right; omega
    · left; left; omega

theorem has_iff {s : Sigset} {sig : Nat} (h : IsSig sig) : has s sig = true ↔ Mem s sig := by
  unfold has Mem
  rw [bne_iff_ne, ne_eq, ← BitVec.toNat_inj, ← ne_eq]
  constructor
  · intro hne
    cases hb : s.getLsbD (sig - 1)
    · exfalso
      apply hne
      congr 1
      apply BitVec.eq_of_getLsbD_eq
      intro i hi
      rw [BitVec.getLsbD_and, single_getLsbD i h]
      by_cases hij : i = sig - 1
      · subst hij; simp [hb]
      · simp [hij]
    · rfl
  · intro hb heq
    have : (s &&& single sig).getLsbD (sig - 1) = (0#64).getLsbD (sig - 1) := by
      rw [BitVec.toNat_inj.1 heq]
    rw [BitVec.getLsbD_and, single_getLsbD _ h, hb] at this
    simp at this

theorem has_false {s : Sigset} {sig : Nat} (h : IsSig sig) : has s sig = false ↔ ¬ Mem s sig := by
  rw [← has_iff h]; simp

theorem mem_add {s : Sigset} {sig n : Nat} (h : IsSig sig) (hn : IsSig n) :
    Mem (add s sig) n ↔ n = sig ∨ Mem s n := by
  unfold Mem add
  rw [BitVec.getLsbD_or, single_getLsbD _ h]
  simp only [Bool.or_eq_true, decide_eq_true_eq]
  obtain ⟨h1, _⟩ := h; obtain ⟨h2, _⟩ := hn
  constructor
  · rintro (hh | hh)
    · exact .inr hh
    · exact .inl (by omega)
  · rintro (hh | hh)
    · exact .inr (by omega)
    · exact .inl hh

theorem mem_del {s : Sigset} {sig n : Nat} (h : IsSig sig) (hn : IsSig n) :
    Mem (del s sig) n ↔ n ≠ sig ∧ Mem s n := by
  unfold Mem del
  have hlt : n - 1 < 64 := by have := hn.2; omega
  rw [BitVec.getLsbD_and, BitVec.getLsbD_not, single_getLsbD _ h]
  obtain ⟨h1, _⟩ := h; obtain ⟨h2, _⟩ := hn
  simp only [Bool.and_eq_true, hlt, decide_true, Bool.true_and, Bool.not_eq_true',
    decide_eq_false_iff_not, ne_eq]
  constructor
  · rintro ⟨hm, hne⟩; exact ⟨by omega, hm⟩
  · rintro ⟨hne, hm⟩; exact ⟨hm, by omega⟩

theorem mem_diff {s b : Sigset} {n : Nat} (hn : IsSig n) :
    Mem (s &&& ~~~ b) n ↔ Mem s n ∧ ¬ Mem b n := by
  unfold Mem
  have hlt : n - 1 < 64 := by have := hn.1; have := hn.2; omega
  rw [BitVec.getLsbD_and, BitVec.getLsbD_not]
  simp [hlt]

theorem mem_or {s b : Sigset} {n : Nat} : Mem (s ||| b) n ↔ Mem s n ∨ Mem b n := by
  unfold Mem; rw [BitVec.getLsbD_or]; simp

theorem eq_zero_iff {s : Sigset} : s = 0#64 ↔ ∀ n, IsSig n → ¬ Mem s n := by
  constructor
  · rintro rfl n _ h
    simp [Mem] at h
  · intro h
    apply BitVec.eq_of_getLsbD_eq
    intro i hi
    have := h (i + 1) ⟨by omega, by omega⟩
    simp only [Mem, Nat.add_sub_cancel, Bool.not_eq_true] at this
    simp [this]

theorem find?_map_succ (f : Nat → Bool) : ∀ (n : Nat) (base : Nat),
    (((List.range' base n).map (· + 1)).find? f = none ∧ ∀ i, base < i → i ≤ base + n → f i = false) ∨
    (∃ k, ((List.range' base n).map (· + 1)).find? f = some k ∧ base < k ∧ k ≤ base + n ∧
      f k = true ∧ ∀ i, base < i → i < k → f i = false)
  | 0, base => .inl ⟨by simp, fun i h1 h2 => by omega⟩
  | n+1, base => by
    rw [List.range'_succ, List.map_cons, List.find?_cons]
    cases hf : f (base + 1)
    · rcases find?_map_succ f n (base + 1) with ⟨h1, h2⟩ | ⟨k, h1, h2, h3, h4, h5⟩
      · refine .inl ⟨h1, fun i hi hi' => ?_⟩
        by_cases he : i = base + 1
        · rw [he, hf]
        · exact h2 i (by omega) (by omega)
      · refine .inr ⟨k, h1, by omega, by omega, h4, fun i hi hi' => ?_⟩
        by_cases he : i = base + 1
        · rw [he, hf]
        · exact h5 i (by omega) hi'
    · exact .inr ⟨base + 1, rfl, by omega, by omega, hf, fun i hi hi' => by omega⟩

/-- `lowest` finds the smallest member of a set, and fails on the empty set only. -/
theorem C50_lowest (s : Sigset) :
    (s = 0#64 ∧ lowest s = none) ∨
    (∃ sig, lowest s = some sig ∧ IsSig sig ∧ Mem s sig ∧ ∀ n, IsSig n → Mem s n → sig ≤ n) := by
  unfold lowest
  by_cases h0 : s = 0#64
  · exact .inl ⟨h0, by rw [if_pos h0]⟩
  · right
    rw [if_neg h0, List.range_eq_range']
    rcases find?_map_succ (fun i => has s i) 64 0 with ⟨_, h2⟩ | ⟨k, h1, h2, h3, h4, h5⟩
    · exfalso
      apply h0
      rw [eq_zero_iff]
      intro n hn hm
      have := h2 n (by have := hn.1; omega) (by have := hn.2; omega)
      rw [(has_iff hn).2 hm] at this
      cases this
    · have hk : IsSig k := ⟨by omega, by omega⟩
      refine ⟨k, h1, hk, (has_iff hk).1 h4, fun n hn hm => ?_⟩
      apply Nat.le_of_not_lt
      intro hlt
      have := h5 n (by have := hn.1; omega) hlt
      rw [(has_iff hn).2 hm] at this
      cases this

example : lowest 0b1010000#64 = some 5 := by decide

/-! ## Pending sets -/

theorem ofInt_some {v : Int} {sig : Nat} (h : ofInt v = some sig) : IsSig sig ∧ v = sig := by
  unfold ofInt at h
  split at h
  · rename_i hv
    cases h
    exact ⟨⟨by omega, by omega⟩, by omega⟩
  · cases h

theorem at_none {p : Pend} {sig : Nat} : p.at sig = none ↔ ¬ Mem p.set sig := by
  unfold Pend.at; split <;> simp_all

theorem at_some {p : Pend} {sig : Nat} {i : Info} :
    p.at sig = some i ↔ Mem p.set sig ∧ p.infos sig = i := by
  unfold Pend.at; split <;> simp_all

theorem push_ok {p p' : Pend} {sig : Nat} {i : Info} (hs : IsSig sig)
    (h : p.push sig i = .ok p') :
    sig ≤ 31 ∧ ∀ n, IsSig n → p'.at n = if n = sig then some i else p.at n := by
  unfold Pend.push Pend.setInfo at h
  obtain ⟨_, h1, h⟩ := (R.bind_eq_ok ..).1 h
  obtain ⟨_, h2, h⟩ := (R.bind_eq_ok ..).1 h
  rw [R.assert_eq_ok] at h2
  simp only [decide_eq_true_eq] at h2
  cases h
  refine ⟨by have := hs.1; omega, fun n hn => ?_⟩
  unfold Pend.at
  simp only
  by_cases hns : n = sig
  · subst hns
    rw [if_pos ((mem_add hs hn).2 (.inl rfl)), if_pos rfl, if_pos rfl]
  · rw [if_neg hns, if_neg hns]
    by_cases hm : Mem p.set n
    · rw [if_pos hm, if_pos ((mem_add hs hn).2 (.inr hm))]
    · rw [if_neg hm, if_neg]
      rw [mem_add hs hn]
      rintro (h | h)
      · exact hns h
      · exact hm h

theorem push_ne_panic {p : Pend} {sig : Nat} {i : Info} (hs : IsSig sig) (h : sig ≤ 31) :
    ∃ p', p.push sig i = .ok p' := by
  unfold Pend.push Pend.setInfo
  have h1 : has (add p.set sig) sig = true := (has_iff hs).2 ((mem_add hs hs).2 (.inl rfl))
  have h2 : decide (sig - 1 < 31) = true := by rw [decide_eq_true_eq]; have := hs.1; omega
  simp only [h1, h2]
  exact ⟨_, rfl⟩

/-- Only standard signals are pending. -/
def Pend.Std (p : Pend) : Prop := ∀ n, IsSig n → Mem p.set n → n ≤ 31

theorem take_none {p : Pend} {b : Sigset} (h : p.take b = .ok none) :
    ∀ n, IsSig n → Mem p.set n → Mem b n := by
  unfold Pend.take at h
  split at h
  · rename_i h0
    intro n hn hm
    have := eq_zero_iff.1 h0 n hn
    rw [mem_diff hn] at this
    exact Classical.byContradiction fun hb => this ⟨hm, hb⟩
  · obtain ⟨_, _, h⟩ := (R.bind_eq_ok ..).1 h
    obtain ⟨_, _, h⟩ := (R.bind_eq_ok ..).1 h
    obtain ⟨_, _, h⟩ := (R.bind_eq_ok ..).1 h
    cases h

theorem take_some {p p' : Pend} {b : Sigset} {sig : Nat} {i : Info}
    (h : p.take b = .ok (some ((sig, i), p'))) :
    IsSig sig ∧ p.at sig = some i ∧ ¬ Mem b sig ∧
      (∀ n, IsSig n → n < sig → Mem p.set n → Mem b n) ∧
      (∀ n, IsSig n → p'.at n = if n = sig then none else p.at n) := by
  unfold Pend.take at h
  split at h
  · cases h
  · rename_i h0
    obtain ⟨sig', h1, h⟩ := (R.bind_eq_ok ..).1 h
    obtain ⟨oi, h2, h⟩ := (R.bind_eq_ok ..).1 h
    obtain ⟨i', h3, h⟩ := (R.bind_eq_ok ..).1 h
    rcases C50_lowest (p.set &&& ~~~ b) with ⟨hz, _⟩ | ⟨k, hk, hks, hkm, hmin⟩
    · exact absurd hz h0
    · rw [hk] at h1
      cases h1
      cases h
      rw [mem_diff hks] at hkm
      unfold Pend.info at h2
      rw [if_pos ((has_iff hks).2 hkm.1)] at h2
      obtain ⟨_, _, h2⟩ := (R.bind_eq_ok ..).1 h2
      cases h2
      cases h3
      refine ⟨hks, at_some.2 ⟨hkm.1, rfl⟩, hkm.2, fun n hn hlt hm => ?_, fun n hn => ?_⟩
      · refine Classical.byContradiction fun hb => ?_
        have := hmin n hn ((mem_diff hn).2 ⟨hm, hb⟩)
        omega
      · unfold Pend.at
        simp only
        by_cases hns : n = sig
        · subst hns
          rw [if_pos rfl, if_neg]
          rw [mem_del hn hn]; exact fun h => h.1 rfl
        · rw [if_neg hns]
          by_cases hm : Mem p.set n
          · rw [if_pos hm, if_pos ((mem_del hks hn).2 ⟨hns, hm⟩)]
          · rw [if_neg hm, if_neg]
            rw [mem_del hks hn]; exact fun h => hm h.2

theorem take_ne_panic {p : Pend} {b : Sigset} (hs : p.Std) : ∃ o, p.take b = .ok o := by
  unfold Pend.take
  split
  · exact ⟨_, rfl⟩
  · rename_i h0
    rcases C50_lowest (p.set &&& ~~~ b) with ⟨hz, _⟩ | ⟨k, hk, hks, hkm, _⟩
    · exact absurd hz h0
    · rw [mem_diff hks] at hkm
      have h31 := hs k hks hkm.1
      have h2 : decide (k - 1 < 31) = true := by rw [decide_eq_true_eq]; have := hks.1; omega
      simp only [hk, R.unwrap_some, R.bind_ok, Pend.info, if_pos ((has_iff hks).2 hkm.1), h2,
        R.assert_true]
      exact ⟨_, rfl⟩

/-! ## Reading the state -/

theorem pending_set {s : St} {k : Nat} {t t' : Thread} (ht : s.threads[k]? = some t)
    (q : Queue) (n : Nat) (p : Pend) (acts : Nat → Action) (d : Option Nat) :
    St.pending ⟨p, acts, s.threads.set k t', d⟩ q n =
      if q = .thread k then t'.pend.at n
      else if q = .process then p.at n else s.pending q n := by
  cases q with
  | process => simp [St.pending]
  | thread j =>
    have hk : k < s.threads.length := (List.getElem?_eq_some_iff.1 ht).1
    by_cases hj : j = k
    · subst hj
      simp [St.pending, hk]
    · have hj' : ¬ k = j := fun h => hj h.symm
      simp [St.pending, hj, hj']

theorem running_some {s : St} {k : Nat} {t : Thread} (h : s.running k = some t) :
    s.threads[k]? = some t ∧ t.status = .running := by
  unfold St.running at h
  split at h
  · rename_i t' ht
    split at h
    · rename_i hr
      cases h
      exact ⟨ht, hr⟩
    · cases h
  · cases h

theorem interrupt_length (sig : Nat) : ∀ ts : List Thread, (interrupt sig ts).length = ts.length
  | [] => rfl
  | t :: ts => by
    unfold interrupt
    split
    · simp [interrupt_length sig ts]
    · split
      · simp
      · simp [interrupt_length sig ts]

/-- `interrupt` changes at most the status of one thread, from asleep to asleep with a scheduled
wake-up. -/
theorem interrupt_get (sig : Nat) : ∀ (ts : List Thread) (k : Nat),
    (interrupt sig ts)[k]? = ts[k]? ∨
    (∃ t b, ts[k]? = some t ∧ t.status = .asleep b ∧ has t.blocked sig = false ∧
      (interrupt sig ts)[k]? = some { t with status := .asleep true })
  | [], k => .inl rfl
  | t :: ts, k => by
    unfold interrupt
    split
    · cases k with
      | zero => exact .inl rfl
      | succ k => simpa using interrupt_get sig ts k
    · rename_i hb
      have hb : has t.blocked sig = false := by simpa using hb
      split
      · rename_i b hst
        cases k with
        | zero =>
          right
          exact ⟨t, b, rfl, hst, hb, by simp [wakeupForSignal, hb]⟩
        | succ k => exact .inl rfl
      · cases k with
        | zero => exact .inl rfl
        | succ k => simpa using interrupt_get sig ts k

theorem pending_interrupt {s : St} (sig : Nat) (q : Queue) (n : Nat) :
    St.pending { s with threads := interrupt sig s.threads } q n = s.pending q n := by
  cases q with
  | process => rfl
  | thread k =>
    simp only [St.pending]
    rcases interrupt_get sig s.threads k with h | ⟨t, b, h1, _, _, h2⟩
    · rw [h]
    · rw [h1, h2]; rfl

/-! ## What a step does to the pending signals -/

/-- Nothing about the pending signals changes. -/
def Quiet (s s' : St) (e : List Ev) : Prop :=
  e = [] ∧ ∀ q n, IsSig n → s'.pending q n = s.pending q n

/-- A signal that was not pending becomes pending. -/
def Sends (s s' : St) (e : List Ev) : Prop :=
  ∃ q sig i, e = [.sent q sig i] ∧ IsSig sig ∧ sig ≤ 31 ∧ s.pending q sig = none ∧
    ∀ q' n, IsSig n → s'.pending q' n = if q' = q ∧ n = sig then some i else s.pending q' n

/-- Thread `k` takes a signal that it does not block, with the instance that was pending. -/
def Takes (s s' : St) (e : List Ev) : Prop :=
  ∃ k t q sig i, e = [.took k q sig i] ∧ s.threads[k]? = some t ∧ t.status = .running ∧ IsSig sig ∧
    (q = .process ∨ q = .thread k) ∧ ¬ Mem t.blocked sig ∧ s.pending q sig = some i ∧
    ∀ q' n, IsSig n → s'.pending q' n = if q' = q ∧ n = sig then none else s.pending q' n

theorem procSignal_ok {s s' : St} {cur : Option Nat} {i : Info} {e : List Ev}
    (h : procSignal s cur i = .ok (s', e)) : Quiet s s' e ∨ Sends s s' e := by
  unfold procSignal at h
  split at h
  · split at h
    · cases h; exact .inl ⟨rfl, fun _ _ _ => rfl⟩
    · cases h
  · rename_i sig hsig
    obtain ⟨hs, _⟩ := ofInt_some hsig
    split at h
    · cases h; exact .inl ⟨rfl, fun _ _ _ => rfl⟩
    · split at h
      · cases h; exact .inl ⟨rfl, fun _ _ _ => rfl⟩
      · rename_i hig hp
        obtain ⟨p, h1, h⟩ := (R.bind_eq_ok ..).1 h
        obtain ⟨h31, hat⟩ := push_ok hs h1
        have hnone : s.pending .process sig = none := at_none.2 (by
          rw [← has_iff hs]; exact hp)
        have hp' : ∀ q' n, IsSig n → St.pending { s with pend := p } q' n =
            if q' = .process ∧ n = sig then some i else s.pending q' n := by
          intro q' n hn
          cases q' with
          | process => simp only [St.pending, hat n hn, true_and]
          | thread k => simp [St.pending]
        right
        have key : ∀ s' : St,
            (∀ q n, s'.pending q n = St.pending { s with pend := p } q n) →
            Sends s s' [.sent .process sig i] := fun s' hq =>
          ⟨.process, sig, i, rfl, hs, h31, hnone,
            fun q' n hn => by rw [hq, hp' q' n hn]⟩
        simp only at h
        split at h
        · split at h
          · cases h; exact key _ fun q n => pending_interrupt (s := { s with pend := p }) sig q n
          · cases h; exact key _ fun q n => rfl
        · cases h; exact key _ fun q n => pending_interrupt (s := { s with pend := p }) sig q n

theorem push_thread {s : St} {k : Nat} {t t' : Thread} {p : Pend} {sig : Nat} {i : Info}
    (ht : s.threads[k]? = some t) (hs : IsSig sig) (hp : ¬ Mem t.pend.set sig)
    (h1 : t.pend.push sig i = .ok p) (hpt : t'.pend = p) :
    Sends s { s with threads := s.threads.set k t' } [.sent (.thread k) sig i] := by
  obtain ⟨h31, hat⟩ := push_ok hs h1
  refine ⟨.thread k, sig, i, rfl, hs, h31, ?_, ?_⟩
  · simp only [St.pending, ht, Option.bind_some]; exact at_none.2 hp
  · intro q' n hn
    rw [pending_set ht, hpt, hat n hn]
    by_cases hq : q' = .thread k
    · subst hq
      simp only [if_true, true_and]
      split
      · rfl
      · simp [St.pending, ht]
    · simp only [hq, if_false, false_and]
      split
      · rename_i h; subst h; rfl
      · rfl

theorem quiet_put {s : St} {k : Nat} {t t' : Thread} (ht : s.threads[k]? = some t)
    (hp : t'.pend = t.pend) : Quiet s (s.put k t') [] := by
  refine ⟨rfl, fun q n _ => ?_⟩
  unfold St.put
  rw [pending_set ht, hp]
  split
  · rename_i h; subst h; simp [St.pending, ht]
  · split
    · rename_i h; subst h; rfl
    · rfl

theorem signalThread_ok {s s' : St} {cur : Option Nat} {k : Nat} {t : Thread} {signo : Int}
    {tag : Nat} {r : Ret} {e : List Ev} (ht : s.threads[k]? = some t)
    (h : signalThread s cur k t signo tag = .ok (r, s', e)) : Quiet s s' e ∨ Sends s s' e := by
  unfold signalThread at h
  split at h
  · cases h; exact .inl ⟨rfl, fun _ _ _ => rfl⟩
  split at h
  · cases h; exact .inl ⟨rfl, fun _ _ _ => rfl⟩
  rename_i sig hsig
  obtain ⟨hs, _⟩ := ofInt_some hsig
  split at h
  · cases h; exact .inl ⟨rfl, fun _ _ _ => rfl⟩
  split at h
  · cases h; exact .inl ⟨rfl, fun _ _ _ => rfl⟩
  split at h
  · cases h; exact .inl ⟨rfl, fun _ _ _ => rfl⟩
  rename_i hp
  obtain ⟨p, h1, h⟩ := (R.bind_eq_ok ..).1 h
  right
  have hp : ¬ Mem t.pend.set sig := by rw [← has_iff hs]; exact hp
  simp only at h
  split at h
  · cases h; exact push_thread ht hs hp h1 rfl
  split at h
  · cases h; exact push_thread ht hs hp h1 rfl
  split at h
  · obtain ⟨_, _, h⟩ := (R.bind_eq_ok ..).1 h
    cases h
    rw [List.set_set]
    refine push_thread ht hs hp h1 ?_
    unfold wakeupForSignal
    split <;> rfl
  · cases h; exact push_thread ht hs hp h1 rfl

theorem hardwareError_ok {s s' : St} {k : Nat} {t : Thread} {sig tag : Nat} {e : List Ev}
    (ht : s.threads[k]? = some t) (hs : IsSig sig)
    (h : hardwareError s k t sig tag = .ok (s', e)) : Quiet s s' e ∨ Sends s s' e := by
  unfold hardwareError at h
  split at h
  · cases h; exact .inl ⟨rfl, fun _ _ _ => rfl⟩
  · rename_i hp
    obtain ⟨p, h1, h⟩ := (R.bind_eq_ok ..).1 h
    cases h
    exact .inr (push_thread ht hs (by rw [← has_iff hs]; exact hp) h1 rfl)

theorem isHardware_sig {sig : Nat} (h : isHardware sig = true) : IsSig sig ∧ sig ≤ 31 := by
  simp only [isHardware, List.mem_cons, List.not_mem_nil, or_false, decide_eq_true_eq] at h
  unfold IsSig
  omega

/-- `take`: from the thread if it has an unblocked signal, and else from the process. -/
theorem take_cases {p : Pend} {t : Thread} {o : Option ((Nat × Info) × Bool × Pend)}
    (h : take p t = .ok o) :
    (o = none ∧ t.pend.take t.blocked = .ok none ∧ p.take t.blocked = .ok none) ∨
    (∃ x q, o = some (x, true, q) ∧ t.pend.take t.blocked = .ok (some (x, q))) ∨
    (∃ x q, o = some (x, false, q) ∧ t.pend.take t.blocked = .ok none ∧
      p.take t.blocked = .ok (some (x, q))) := by
  unfold take at h
  obtain ⟨o1, h1, h⟩ := (R.bind_eq_ok ..).1 h
  cases o1 with
  | some y =>
    obtain ⟨x, q⟩ := y
    cases h
    exact .inr (.inl ⟨x, q, rfl, h1⟩)
  | none =>
    obtain ⟨o2, h2, h⟩ := (R.bind_eq_ok ..).1 h
    cases o2 with
    | some y =>
      obtain ⟨x, q⟩ := y
      cases h
      exact .inr (.inr ⟨x, q, rfl, h1, h2⟩)
    | none => cases h; exact .inl ⟨rfl, h1, h2⟩

/-- The state after taking a signal, whatever else happens to the thread. -/
theorem taken {s : St} {k : Nat} {t t' : Thread} {sig : Nat} {i : Info} {own : Bool} {q : Pend}
    (ht : s.threads[k]? = some t) (hr : t.status = .running)
    (h : take s.pend t = .ok (some ((sig, i), own, q)))
    (hpt : t'.pend = if own then q else t.pend) (acts : Nat → Action) (d : Option Nat) :
    Takes s ⟨if own then s.pend else q, acts, s.threads.set k t', d⟩
      [.took k (if own then .thread k else .process) sig i] := by
  rcases take_cases h with ⟨h1, _⟩ | ⟨x, q', h1, h2⟩ | ⟨x, q', h1, _, h2⟩
  · cases h1
  · cases h1
    obtain ⟨hs, hat, hb, _, hq⟩ := take_some h2
    refine ⟨k, t, .thread k, sig, i, by simp, ht, hr, hs, .inr rfl, hb, by simpa [St.pending, ht],
      fun q' n hn => ?_⟩
    rw [pending_set ht, hpt]
    simp only [if_true]
    by_cases hk : q' = .thread k
    · subst hk
      simp only [if_true, true_and, hq n hn]
      split
      · rfl
      · simp [St.pending, ht]
    · simp only [hk, if_false, false_and]
      split
      · rename_i hh; subst hh; rfl
      · rfl
  · cases h1
    obtain ⟨hs, hat, hb, _, hq⟩ := take_some h2
    refine ⟨k, t, .process, sig, i, by simp, ht, hr, hs, .inl rfl, hb, by simpa [St.pending],
      fun q' n hn => ?_⟩
    rw [pending_set ht, hpt]
    simp only [Bool.false_eq_true, if_false]
    by_cases hk : q' = .thread k
    · subst hk
      simp [St.pending, ht]
    · simp only [hk, if_false]
      split
      · rename_i hh
        subst hh
        simp only [true_and, hq n hn]
        split
        · rfl
        · rfl
      · rename_i hh; simp [hh]

theorem deliver_ok {s s' : St} {k : Nat} {t : Thread} {a : Activation} {as : List Activation}
    {o : Out} {e : List Ev} (ht : s.threads[k]? = some t) (hr : t.status = .running)
    (h : deliver s k t a as = .ok (o, s', e)) : Quiet s s' e ∨ Takes s s' e := by
  unfold deliver at h
  obtain ⟨o1, h1, h⟩ := (R.bind_eq_ok ..).1 h
  cases o1 with
  | none =>
    cases h
    exact .inl (quiet_put ht rfl)
  | some y =>
    obtain ⟨⟨sig, i⟩, own, q⟩ := y
    right
    simp only at h
    cases own with
    | true =>
      simp only [if_true] at h
      split at h
      · cases h; exact taken ht hr h1 (by rfl) _ _
      · split at h
        · cases h; exact taken ht hr h1 (by rfl) _ _
        · cases h; exact taken ht hr h1 (by rfl) _ _
        · cases h; exact taken ht hr h1 (by rfl) _ _
        · cases h
        · cases h
      · cases h; exact taken ht hr h1 (by rfl) _ _
    | false =>
      simp only [Bool.false_eq_true, if_false] at h
      split at h
      · cases h; exact taken ht hr h1 (by rfl) _ _
      · split at h
        · cases h; exact taken ht hr h1 (by rfl) _ _
        · cases h; exact taken ht hr h1 (by rfl) _ _
        · cases h; exact taken ht hr h1 (by rfl) _ _
        · cases h
        · cases h
      · cases h; exact taken ht hr h1 (by rfl) _ _

theorem sigaction_threads (s : St) (signo : Int) (act : Arg Action) (oact : Arg Unit) (size : Nat) :
    (sigaction s signo act oact size).2.2.threads = s.threads ∧
    (sigaction s signo act oact size).2.2.pend = s.pend := by
  unfold sigaction
  split
  · exact ⟨rfl, rfl⟩
  split
  · exact ⟨rfl, rfl⟩
  split
  · exact ⟨rfl, rfl⟩
  simp only
  split
  · exact ⟨rfl, rfl⟩
  split
  · exact ⟨rfl, rfl⟩
  split <;> exact ⟨rfl, rfl⟩

theorem sigprocmask_pend (t : Thread) (how : Int) (n : Arg Sigset) (o : Arg Unit) (size : Nat) :
    (sigprocmask t how n o size).2.2.pend = t.pend ∧
    (sigprocmask t how n o size).2.2.status = t.status ∧
    (sigprocmask t how n o size).2.2.acts = t.acts := by
  unfold sigprocmask
  split
  · exact ⟨rfl, rfl, rfl⟩
  split
  · exact ⟨rfl, rfl, rfl⟩
  simp only
  split
  · exact ⟨rfl, rfl, rfl⟩
  · exact ⟨rfl, rfl, rfl⟩
  · split
    · exact ⟨rfl, rfl, rfl⟩
    split
    · exact ⟨rfl, rfl, rfl⟩
    split <;> exact ⟨rfl, rfl, rfl⟩

theorem sigaltstack_pend (t : Thread) (u : Arg Stack) (o : Arg Unit) :
    (sigaltstack t u o).2.2.pend = t.pend ∧ (sigaltstack t u o).2.2.status = t.status ∧
    (sigaltstack t u o).2.2.acts = t.acts := by
  unfold sigaltstack
  simp only
  split
  · split <;> exact ⟨rfl, rfl, rfl⟩
  · split
    · exact ⟨rfl, rfl, rfl⟩
    · split
      · rename_i new _
        generalize (if new.disable = true then ({} : Stack) else new) = w
        split
        · exact ⟨rfl, rfl, rfl⟩
        · cases o <;> exact ⟨rfl, rfl, rfl⟩
      · exact ⟨rfl, rfl, rfl⟩

/-- Every step leaves the pending signals alone, makes one pending, or takes one. -/
theorem step_pending {s s' : St} {a : Act} {e : List Ev} (h : step s a = some (.ok (s', e))) :
    Quiet s s' e ∨ Sends s s' e ∨ Takes s s' e := by
  unfold step at h
  split at h
  · cases h
  split at h
  · split at h
    · have := procSignal_ok (Option.some.inj h)
      exact this.elim .inl fun h => .inr (.inl h)
    · cases h
  · split at h
    · obtain ⟨⟨r, s1, e1⟩, h1, h2⟩ := (R.bind_eq_ok ..).1 (Option.some.inj h)
      cases h2
      unfold signalProcess at h1
      split at h1
      · cases h1; exact .inl ⟨rfl, fun _ _ _ => rfl⟩
      split at h1
      · cases h1; exact .inl ⟨rfl, fun _ _ _ => rfl⟩
      split at h1
      · cases h1; exact .inl ⟨rfl, fun _ _ _ => rfl⟩
      obtain ⟨⟨s2, e2⟩, h3, h4⟩ := (R.bind_eq_ok ..).1 h1
      cases h4
      exact (procSignal_ok h3).elim .inl fun h => .inr (.inl h)
    · cases h
  · split at h
    · cases h
    · rename_i t ht
      split at h
      · obtain ⟨⟨r, s1, e1⟩, h1, h2⟩ := (R.bind_eq_ok ..).1 (Option.some.inj h)
        cases h2
        exact (signalThread_ok ht h1).elim .inl fun h => .inr (.inl h)
      · cases h
  · split at h
    · cases h
    · rename_i t ht
      split at h
      · rename_i hw
        exact (hardwareError_ok (running_some ht).1 (isHardware_sig hw).1
          (Option.some.inj h)).elim .inl fun h => .inr (.inl h)
      · cases h
  · obtain ⟨t, ht, h⟩ := Option.map_eq_some_iff.1 h
    cases h
    exact .inl (quiet_put (running_some ht).1 (sigprocmask_pend ..).1)
  · obtain ⟨t, ht, h⟩ := Option.map_eq_some_iff.1 h
    cases h
    refine .inl ⟨rfl, fun q n _ => ?_⟩
    cases q with
    | process => simp only [St.pending, (sigaction_threads ..).2]
    | thread k => simp only [St.pending, (sigaction_threads ..).1]
  · obtain ⟨t, ht, h⟩ := Option.map_eq_some_iff.1 h
    cases h
    exact .inl (quiet_put (running_some ht).1 (sigaltstack_pend ..).1)
  · cases h
    refine .inl ⟨rfl, fun q n hn => ?_⟩
    cases q with
    | process => rfl
    | thread k =>
      simp only [St.pending, List.getElem?_append]
      split
      · rfl
      · rename_i hk
        rw [List.getElem?_eq_none (by omega : s.threads.length ≤ k)]
        rcases Nat.eq_zero_or_pos (k - s.threads.length) with h0 | h0
        · rw [h0]
          simp [Pend.at, Mem]
        · rw [List.getElem?_eq_none (by simp only [List.length_singleton]; omega)]
  · split at h
    · rename_i t ht
      split at h
      · cases h; exact .inl (quiet_put ht rfl)
      · cases h
    · cases h
  · obtain ⟨t, ht, h⟩ := Option.map_eq_some_iff.1 h
    split at h
    · cases h; exact .inl ⟨rfl, fun _ _ _ => rfl⟩
    · cases h; exact .inl (quiet_put (running_some ht).1 rfl)
  · split at h
    · rename_i t ht
      split at h
      · cases h; exact .inl (quiet_put ht rfl)
      · cases h
    · cases h
  · split at h
    · rename_i t ht
      split at h
      · split at h
        · cases h; exact .inl (quiet_put ht rfl)
        · cases h; exact .inl (quiet_put ht rfl)
      · cases h
    · cases h
  · obtain ⟨t, ht, h⟩ := Option.map_eq_some_iff.1 h
    cases h
    exact .inl (quiet_put (running_some ht).1 rfl)
  · split at h
    · rename_i t ht
      split at h
      · split at h
        · obtain ⟨⟨r, s1, e1⟩, h1, h2⟩ := (R.bind_eq_ok ..).1 (Option.some.inj h)
          cases h2
          exact (deliver_ok (running_some ht).1 (running_some ht).2 h1).elim .inl
            fun h => .inr (.inr h)
        · cases h
      · cases h
    · cases h
  · split at h
    · rename_i t ht
      split at h
      · split at h
        · cases h; exact .inl (quiet_put (running_some ht).1 rfl)
        · cases h
      · cases h
    · cases h
  · obtain ⟨t, ht, h⟩ := Option.map_eq_some_iff.1 h
    cases h
    exact .inl (quiet_put (running_some ht).1 rfl)

theorem fresh_pending (actions : Nat → Action) (q : Queue) (n : Nat) :
    (fresh actions).pending q n = none := by
  cases q with
  | process => simp [St.pending, fresh, Pend.at, Mem]
  | thread k =>
    cases k with
    | zero => simp [St.pending, fresh, Pend.at, Mem]
    | succ k => simp [St.pending, fresh]

/-- **Exactly once.**  In every execution and for every signal at every queue, the instances that
became pending are the instances that were taken, in the same order and with the same information,
followed by the one that is still pending, if any.  No instance is lost, doubled or altered. -/
theorem C50_exact {actions : Nat → Action} {es : List Ev} {s : St} (h : Run (fresh actions) es s)
    (q : Queue) (sig : Nat) (hs : IsSig sig) :
    sentTo q sig es = tookFrom q sig es ++ (s.pending q sig).toList := by
  induction h with
  | nil => simp [sentTo, tookFrom, fresh_pending]
  | @step es s1 a s' e hr hst ih =>
    unfold sentTo tookFrom at ih ⊢
    rw [List.filterMap_append, List.filterMap_append]
    rcases step_pending hst with ⟨he, hq⟩ | ⟨q', n, i, he, hn, _, hnone, hq⟩ |
      ⟨k, t, q', n, i, he, _, _, hn, _, _, hsome, hq⟩
    · subst he
      rw [hq q sig hs]
      simpa using ih
    · subst he
      rw [hq q sig hs]
      by_cases hqs : q = q' ∧ sig = n
      · obtain ⟨h1, h2⟩ := hqs
        subst h1; subst h2
        rw [hnone] at ih
        simp only [Option.toList_none, List.append_nil] at ih
        simp [ih]
      · rw [if_neg hqs, List.filterMap_cons, List.filterMap_cons]
        have : ¬ (q' = q ∧ n = sig) := fun hh => hqs ⟨hh.1.symm, hh.2.symm⟩
        simpa [this] using ih
    · subst he
      rw [hq q sig hs]
      by_cases hqs : q = q' ∧ sig = n
      · obtain ⟨h1, h2⟩ := hqs
        subst h1; subst h2
        rw [hsome] at ih
        simp [ih]
      · rw [if_neg hqs, List.filterMap_cons, List.filterMap_cons]
        have : ¬ (q' = q ∧ n = sig) := fun hh => hqs ⟨hh.1.symm, hh.2.symm⟩
        simpa [this] using ih

/-- **A blocked signal is not acted on**: the thread that takes a signal does not block it, and only
takes signals of its own or of the process. -/
theorem C50_unblocked {s s' : St} {a : Act} {e : List Ev} {k : Nat} {q : Queue} {sig : Nat} {i : Info}
    (h : step s a = some (.ok (s', e))) (he : Ev.took k q sig i ∈ e) :
    ∃ t, s.threads[k]? = some t ∧ t.status = .running ∧ ¬ Mem t.blocked sig ∧
      (q = .process ∨ q = .thread k) ∧ s.pending q sig = some i := by
  rcases step_pending h with ⟨h1, _⟩ | ⟨q', n, i', h1, _⟩ |
    ⟨k', t, q', n, i', h1, ht, hr, _, hq, hb, hp, _⟩
  · subst h1; cases he
  · subst h1; simp at he
  · subst h1
    simp only [List.mem_singleton, Ev.took.injEq] at he
    obtain ⟨h1, h2, h3, h4⟩ := he
    subst h1; subst h2; subst h3; subst h4
    exact ⟨t, ht, hr, hb, hq, hp⟩

end Shadow.Signal
