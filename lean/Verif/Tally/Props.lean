import Verif.Tally.Lists
/-!
# C68: the record of lost packets is set arithmetic on the history of calls

The specification keeps plain sets of sequence numbers.  A call adds to them; nothing is ever
removed except when the set of retransmitted packets is cleared.  The theorems say that the range
lists of the tally agree with these sets for every sequence number that is not yet acknowledged,
that no assertion fails, and when the tally reports a loss.
-/

namespace Shadow.Tally
open Shadow.Base

/-- The specification state: the highest acknowledgement, how often it was repeated, and the sets
of packets marked lost, selectively acknowledged, sent again, and to be sent again. -/
structure Hist where
  last : Int
  dups : Nat
  marked : Int → Prop
  sacked : Int → Prop
  again : Int → Prop
  lost : Int → Prop

def Hist.start : Hist := ⟨-1, 0, fun _ => False, fun _ => False, fun _ => False, fun _ => False⟩

/-- What is to be sent again: marked lost, not selectively acknowledged, not sent again already. -/
def Hist.renew (h : Hist) : Hist :=
  { h with lost := fun x => h.marked x ∧ ¬ h.sacked x ∧ ¬ h.again x }

/-- The acknowledgement part of an update: a repetition is counted, a higher one starts afresh. -/
def Hist.ack (h : Hist) (a : Nat) (isDup : Bool) : Hist :=
  if isDup = true ∧ (a : Int) = h.last then { h with dups := h.dups + 1 }
  else if h.last < a then { h with last := a, dups := 0 }
  else h

open Classical in
/-- The effect of one call. -/
noncomputable def Hist.step (h : Hist) : Call → Hist
  | .update a d =>
    let h := h.ack a d
    if 3 ≤ h.dups ∧ ¬ h.again h.last then
      { h with marked := fun x => h.marked x ∨ x = h.last }.renew
    else h
  | .sacked bs => { h with sacked := fun x => h.sacked x ∨ ∃ b ∈ bs, (b.1 : Int) ≤ x ∧ x < b.2 }
  | .lost b e =>
    if b = e + 1 then h
    else { h with marked := fun x => h.marked x ∨ ((b : Int) ≤ x ∧ x < max e (b + 1)) }.renew
  | .retx b e => { h with again := fun x => h.again x ∨ ((b : Int) ≤ x ∧ x < e) }.renew
  | .clear => { h with again := fun _ => False }

noncomputable def history (cs : List Call) : Hist := cs.foldl Hist.step Hist.start

/-- The contract of the callers: blocks are not empty. -/
def Call.Valid : Call → Prop
  | .update _ _ => True
  | .sacked bs => ∀ b ∈ bs, b.1 < b.2
  | .lost b e => b ≤ e + 1
  | .retx b e => b < e
  | .clear => True

/-- The tally `t` represents the specification state `h`. -/
structure Rep (t : Tally) (h : Hist) : Prop where
  last : t.lastAck = h.last
  dups : t.dups = h.dups
  wm : WF t.marked
  ws : WF t.sacked
  wx : WF t.retx
  wl : WF t.lost
  m : ∀ x, h.last ≤ x → (Cov t.marked x ↔ h.marked x)
  s : ∀ x, h.last ≤ x → (Cov t.sacked x ↔ h.sacked x)
  x : ∀ x, h.last ≤ x → (Cov t.retx x ↔ h.again x)
  l : ∀ x, h.last ≤ x → (Cov t.lost x ↔ h.lost x)
  mAll : ∀ x, Cov t.marked x → h.marked x
  lAll : ∀ x, Cov t.lost x → h.marked x

theorem rep_new : Rep new Hist.start := by
  constructor <;> simp [new, Hist.start, wf_nil, cov_nil]

theorem computeLost_spec {t : Tally} (hm : WF t.marked) (hs : WF t.sacked) (hx : WF t.retx) :
    ∃ l, t.computeLost = .ok { t with lost := l } ∧ WF l ∧
      ∀ y, Cov l y ↔ Cov t.marked y ∧ ¬ Cov t.sacked y ∧ ¬ Cov t.retx y := by
  obtain ⟨d, e, w, c⟩ := subtract_spec hm hs
  obtain ⟨d2, e2, w2, c2⟩ := subtract_spec w hx
  refine ⟨d2, by simp [Tally.computeLost, e, e2], w2, fun y => ?_⟩
  rw [c2, c, and_assoc]

/-- Recomputing the losses of a represented tally after a change of its other sets. -/
theorem rep_renew {t : Tally} {h : Hist} (r : Rep t h) {t' : Tally} {h' : Hist}
    (e1 : t'.lastAck = t.lastAck) (e2 : t'.dups = t.dups) (e3 : h'.last = h.last)
    (e4 : h'.dups = h.dups) (hm : WF t'.marked) (hs : WF t'.sacked) (hx : WF t'.retx)
    (m : ∀ x, h.last ≤ x → (Cov t'.marked x ↔ h'.marked x))
    (s : ∀ x, h.last ≤ x → (Cov t'.sacked x ↔ h'.sacked x))
    (x : ∀ x, h.last ≤ x → (Cov t'.retx x ↔ h'.again x))
    (mAll : ∀ x, Cov t'.marked x → h'.marked x) :
    ∃ t'', t'.computeLost = .ok t'' ∧ Rep t'' h'.renew ∧ ∀ y, Cov t''.lost y ↔
      Cov t'.marked y ∧ ¬ Cov t'.sacked y ∧ ¬ Cov t'.retx y := by
  obtain ⟨l, e, w, c⟩ := computeLost_spec hm hs hx
  refine ⟨_, e, ?_, c⟩
  constructor
  · simpa [Hist.renew, e1, e3] using r.last
  · simpa [Hist.renew, e2, e4] using r.dups
  · exact hm
  · exact hs
  · exact hx
  · exact w
  · simpa [Hist.renew, e3] using m
  · simpa [Hist.renew, e3] using s
  · simpa [Hist.renew, e3] using x
  · intro y hy
    simp only [Hist.renew, e3] at hy ⊢
    rw [c, m y hy, s y hy, x y hy]
  · exact mAll
  · intro y hy; exact mAll y ((c y).1 hy).1

theorem rep_ack {t : Tally} {h : Hist} (r : Rep t h) (a : Nat) (d : Bool) :
    ∃ t', t.updateAck a d = R.ok t' ∧ Rep t' (h.ack a d) := by
  unfold Tally.updateAck
  by_cases c1 : d = true ∧ (a : Int) = h.last
  · have c1' : (d && ((a : Int) == t.lastAck)) = true := by simp [c1.1, r.last, c1.2]
    refine ⟨{ t with dups := t.dups + 1 }, by simp [c1'], ?_⟩
    rw [Hist.ack, if_pos c1]
    exact { r with dups := by simp [r.dups] }
  · have c1' : ¬ (d && ((a : Int) == t.lastAck)) = true := by
      simpa [r.last] using c1
    by_cases c2 : (a : Int) > t.lastAck
    · obtain ⟨m, em, wm, sm, im⟩ := tidy_spec r.wm a
      obtain ⟨s, es, ws, ss, is⟩ := tidy_spec r.ws a
      obtain ⟨x, ex, wx, sx, ix⟩ := tidy_spec r.wx a
      have c2' : h.last < a := by rw [← r.last]; exact c2
      refine ⟨{ t with lastAck := a, dups := 0, marked := m, sacked := s, retx := x }, ?_, ?_⟩
      · rw [if_neg c1', if_pos c2]; simp [em, es, ex]
      · rw [Hist.ack, if_neg c1, if_pos c2']
        constructor
        · rfl
        · rfl
        · exact wm
        · exact ws
        · exact wx
        · exact r.wl
        · intro y hy; simp only at hy ⊢; rw [im y hy, r.m y (by omega)]
        · intro y hy; simp only at hy ⊢; rw [is y hy, r.s y (by omega)]
        · intro y hy; simp only at hy ⊢; rw [ix y hy, r.x y (by omega)]
        · intro y hy; simp only at hy ⊢; rw [r.l y (by omega)]
        · intro y hy; exact r.mAll y (sm y hy)
        · exact r.lAll
    · have c2' : ¬ h.last < a := by rw [← r.last]; exact c2
      refine ⟨t, by rw [if_neg c1', if_neg c2]; rfl, ?_⟩
      rw [Hist.ack, if_neg c1, if_neg c2']
      exact r

theorem rep_update {t : Tally} {h : Hist} (r : Rep t h) (a : Nat) (d : Bool) :
    ∃ t' f, t.update a d = .ok (t', f) ∧ Rep t' (h.step (.update a d)) ∧
      (f = true → 3 ≤ (h.ack a d).dups ∧ ¬ h.again (h.ack a d).last) ∧
      (3 ≤ (h.ack a d).dups → ¬ h.again (h.ack a d).last → ¬ h.sacked (h.ack a d).last → f = true) := by
  obtain ⟨t1, e1, r1⟩ := rep_ack r a d
  have ag : (h.ack a d).again = h.again := by unfold Hist.ack; split <;> (try split) <;> rfl
  have sa : (h.ack a d).sacked = h.sacked := by unfold Hist.ack; split <;> (try split) <;> rfl
  have cx : rangesContains t1.retx t1.lastAck = true ↔ h.again (h.ack a d).last := by
    rw [rangesContains_iff, r1.last, r1.x _ (Int.le_refl _), ag]
  simp only [Tally.update]
  rw [e1]
  simp only [R.bind_ok]
  by_cases c : 3 ≤ (h.ack a d).dups ∧ ¬ h.again (h.ack a d).last
  · have c' : (decide (t1.dups ≥ 3) && !rangesContains t1.retx t1.lastAck) = true := by
      rw [r1.dups, Bool.and_eq_true, decide_eq_true_eq]
      refine ⟨c.1, ?_⟩
      have := mt cx.1 c.2
      simpa using this
    rw [if_pos c']
    obtain ⟨m, em, wm, cm⟩ := insert_spec (v := ⟨t1.lastAck, t1.lastAck + 1⟩) r1.wm (by simp only; omega)
    obtain ⟨t2, e2, r2, l2⟩ := rep_renew r1 (t' := { t1 with marked := m })
      (h' := { h.ack a d with marked := fun x => (h.ack a d).marked x ∨ x = (h.ack a d).last })
      rfl rfl rfl rfl wm r1.ws r1.wx
      (by intro x hx; simp only [cm, r1.m x hx, r1.last]
          constructor
          · rintro (q | q)
            · exact .inl q
            · exact .inr (by omega)
          · rintro (q | q)
            · exact .inl q
            · exact .inr (by omega)) r1.s r1.x
      (by intro x hx; simp only [cm, r1.last] at hx ⊢
          rcases hx with q | q
          · exact .inl (r1.mAll x q)
          · exact .inr (by omega))
    refine ⟨t2, !t2.lost.isEmpty, by simp [em, e2], ?_, fun _ => c, fun _ _ hs => ?_⟩
    · simp only [Hist.step]
      have c'' : 3 ≤ (h.ack a d).dups ∧ ¬ (h.ack a d).again (h.ack a d).last := by rw [ag]; exact c
      rw [if_pos c'']
      exact r2
    · have : Cov t2.lost t1.lastAck := by
        rw [l2]
        refine ⟨(cm _).2 (.inr ⟨Int.le_refl _, by simp only; omega⟩), ?_, ?_⟩
        · simp only; rw [r1.last, r1.s _ (Int.le_refl _), sa]; exact hs
        · simp only; rw [r1.last, r1.x _ (Int.le_refl _), ag]; exact c.2
      cases hl : t2.lost with
      | nil => rw [hl] at this; exact absurd this (cov_nil _)
      | cons => rfl
  · have c' : ¬ (decide (t1.dups ≥ 3) && !rangesContains t1.retx t1.lastAck) = true := by
      rw [r1.dups, Bool.and_eq_true, decide_eq_true_eq]
      rintro ⟨q1, q2⟩
      refine c ⟨q1, fun q => ?_⟩
      rw [cx.2 q] at q2
      exact absurd q2 (by simp)
    rw [if_neg c']
    refine ⟨t1, false, rfl, ?_, by simp, fun q1 q2 => absurd ⟨q1, q2⟩ c⟩
    simp only [Hist.step]
    have c'' : ¬ (3 ≤ (h.ack a d).dups ∧ ¬ (h.ack a d).again (h.ack a d).last) := by rw [ag]; exact c
    rw [if_neg c'']
    exact r1

theorem rep_sacked : ∀ (bs : List (Nat × Nat)) {t : Tally} {h : Hist}, Rep t h →
    (∀ b ∈ bs, b.1 < b.2) → ∃ t', t.markSacked bs = .ok t' ∧ Rep t' (h.step (.sacked bs))
  | [], t, h, r, _ => ⟨t, rfl, by simpa [Hist.step] using r⟩
  | (a, b) :: rest, t, h, r, hv => by
    have hab : a < b := hv (a, b) (by simp)
    obtain ⟨s, es, ws, cs⟩ := insert_spec (v := ⟨a, b⟩) r.ws (by simp only; omega)
    have r1 : Rep { t with sacked := s }
        { h with sacked := fun x => h.sacked x ∨ ((a : Int) ≤ x ∧ x < b) } :=
      { r with ws := ws, s := by intro x hx; simp only; rw [cs, r.s x hx] }
    obtain ⟨t', e', r'⟩ := rep_sacked rest r1 (fun b hb => hv b (by simp [hb]))
    refine ⟨t', ?_, ?_⟩
    · simp only [Tally.markSacked]
      have : decide (b > 0) = true := by simp; omega
      simp [this, es, e']
    · simpa [Hist.step, or_assoc] using r'

/-- One valid call. -/
theorem rep_call {t : Tally} {h : Hist} (r : Rep t h) (c : Call) (hv : c.Valid) :
    ∃ t' f, t.call c = .ok (t', f) ∧ Rep t' (h.step c) := by
  cases c with
  | update a d =>
    obtain ⟨t', f, e, r', _⟩ := rep_update r a d
    exact ⟨t', f, e, r'⟩
  | sacked bs =>
    obtain ⟨t', e, r'⟩ := rep_sacked bs r hv
    exact ⟨t', false, by simp [Tally.call, e], r'⟩
  | lost b e =>
    simp only [Call.Valid] at hv
    by_cases c : b = e + 1
    · exact ⟨t, false, by simp [Tally.call, Tally.markLost, c], by simpa [Hist.step, c] using r⟩
    · obtain ⟨m, em, wm, cm⟩ := insert_spec (v := ⟨b, (max e (b + 1) : Nat)⟩) r.wm (by simp only; omega)
      obtain ⟨t2, e2, r2, _⟩ := rep_renew r (t' := { t with marked := m })
        (h' := { h with marked := fun x => h.marked x ∨ ((b : Int) ≤ x ∧ x < max e (b + 1)) })
        rfl rfl rfl rfl wm r.ws r.wx
        (by intro x hx; simp only [cm, r.m x hx]) r.s r.x
        (by intro x hx
            simp only [cm] at hx ⊢
            rcases hx with q | q
            · exact .inl (r.mAll x q)
            · exact .inr (by omega))
      refine ⟨t2, false, ?_, by simpa [Hist.step, c] using r2⟩
      have ee : (if b = e then e + 1 else e) = max e (b + 1) := by split <;> omega
      have lt : decide (b < max e (b + 1)) = true := by simp; omega
      simp only [Tally.call, Tally.markLost, if_neg c, ee, lt, R.assert_true, R.bind_ok, em, e2, R.pure_eq]
  | retx b e =>
    simp only [Call.Valid] at hv
    obtain ⟨m, em, wm, cm⟩ := insert_spec (v := ⟨b, e⟩) r.wx (by simp only; omega)
    obtain ⟨t2, e2, r2, _⟩ := rep_renew r (t' := { t with retx := m })
      (h' := { h with again := fun x => h.again x ∨ ((b : Int) ≤ x ∧ x < e) })
      rfl rfl rfl rfl r.wm r.ws wm r.m r.s (by intro x hx; simp only [cm, r.x x hx]) r.mAll
    exact ⟨t2, false, by simp [Tally.call, Tally.markRetx, em, e2], by simpa [Hist.step] using r2⟩
  | clear =>
    refine ⟨t.clearRetx, false, rfl, ?_⟩
    exact { r with wx := wf_nil, x := by intro x _; simp [Tally.clearRetx, cov_nil, Hist.step] }

theorem rep_run : ∀ (cs : List Call) {t : Tally} {h : Hist}, Rep t h → (∀ c ∈ cs, c.Valid) →
    ∃ t' f, run t cs = .ok (t', f) ∧ Rep t' (cs.foldl Hist.step h)
  | [], t, h, r, _ => ⟨t, false, rfl, r⟩
  | [c], t, h, r, hv => rep_call r c (hv c (by simp))
  | c :: c2 :: cs, t, h, r, hv => by
    obtain ⟨t1, f1, e1, r1⟩ := rep_call r c (hv c (by simp))
    obtain ⟨t2, f2, e2, r2⟩ := rep_run (c2 :: cs) r1 (fun c hc => hv c (by simp [hc]))
    exact ⟨t2, f2, by simp [run, e1, e2], r2⟩

/-- **C68.**  Whatever valid calls are made, no assertion of the tally fails; the ranges it reports
as lost are in order, disjoint and not empty; among the packets not yet acknowledged they contain
exactly those marked lost and neither selectively acknowledged nor sent again when the report was
last computed; and they contain nothing that was not marked lost. -/
theorem C68_tally (cs : List Call) (hv : ∀ c ∈ cs, c.Valid) :
    ∃ t f, run new cs = .ok (t, f) ∧
      t.lastAck = (history cs).last ∧
      ((∀ r ∈ t.lost, r.lo < r.hi) ∧ t.lost.Pairwise (fun a b => a.hi < b.lo)) ∧
      (∀ x : Int, (history cs).last ≤ x →
        ((∃ r ∈ t.lost, r.lo ≤ x ∧ x < r.hi) ↔ (history cs).lost x)) ∧
      (∀ x : Int, (∃ r ∈ t.lost, r.lo ≤ x ∧ x < r.hi) → (history cs).marked x) := by
  obtain ⟨t, f, e, r⟩ := rep_run cs rep_new hv
  exact ⟨t, f, e, r.last, r.wl, r.l, r.lAll⟩

theorem run_snoc (c : Call) : ∀ (cs : List Call) (t : Tally) {t1 : Tally} {f : Bool},
    run t cs = .ok (t1, f) → run t (cs ++ [c]) = t1.call c
  | [], t, t1, f, h => by simp only [run, R.pure_eq, R.ok.injEq, Prod.mk.injEq] at h; simp [run, h.1]
  | [a], t, t1, f, h => by simp only [run] at h; simp [run, h]
  | a :: b :: cs, t, t1, f, h => by
    simp only [run, R.bind_eq_ok] at h
    obtain ⟨x, e1, e2⟩ := h
    have := run_snoc c (b :: cs) x.1 e2
    simp only [List.cons_append, run] at this ⊢
    rw [e1]; simpa using this

/-- **C68.**  An acknowledgement reports a loss only if it was repeated at least three times and the
packet it asks for was not sent again yet; and in that case it does report it, unless that packet
was selectively acknowledged. -/
theorem C68_report (cs : List Call) (hv : ∀ c ∈ cs, c.Valid) (a : Nat) (d : Bool) :
    ∃ t f, run new (cs ++ [.update a d]) = .ok (t, f) ∧
      (f = true → 3 ≤ ((history cs).ack a d).dups ∧ ¬ (history cs).again ((history cs).ack a d).last) ∧
      (3 ≤ ((history cs).ack a d).dups → ¬ (history cs).again ((history cs).ack a d).last →
        ¬ (history cs).sacked ((history cs).ack a d).last → f = true) := by
  obtain ⟨t, f, e, r⟩ := rep_run cs rep_new hv
  obtain ⟨t', f', e', _, p, q⟩ := rep_update r a d
  exact ⟨t', f', by rw [run_snoc _ _ _ e]; exact e', p, q⟩

/-- **C68.**  Fast retransmission: a new highest acknowledgement followed by three repetitions makes
the packet it asks for one to be sent again, unless the peer has it or it was sent again. -/
theorem C68_fast (cs : List Call) (hv : ∀ c ∈ cs, c.Valid) (a : Nat) (d : Bool)
    (new' : (history cs).last < a) (ns : ¬ (history cs).sacked a) (nx : ¬ (history cs).again a) :
    ∃ t, run new (cs ++ [.update a d, .update a true, .update a true, .update a true]) = .ok (t, true) ∧
      ∃ r ∈ t.lost, r.lo ≤ (a : Int) ∧ (a : Int) < r.hi := by
  have hlast : (a : Int) ≠ (history cs).last := by omega
  have e1 : (history (cs ++ [.update a d])).last = a ∧ (history (cs ++ [.update a d])).dups = 0 ∧
      (history (cs ++ [.update a d])).again = (history cs).again ∧
      (history (cs ++ [.update a d])).sacked = (history cs).sacked := by
    simp [history, Hist.step, Hist.ack] at new' hlast ⊢
    simp [hlast, new']
  have v1 : ∀ c ∈ cs ++ [.update a d, .update a true, .update a true], c.Valid := by
    intro c hc; rcases List.mem_append.1 hc with h | h
    · exact hv c h
    · simp at h; rcases h with rfl | rfl <;> trivial
  have e3 : (history (cs ++ [.update a d, .update a true, .update a true])).last = a ∧
      (history (cs ++ [.update a d, .update a true, .update a true])).dups = 2 ∧
      (history (cs ++ [.update a d, .update a true, .update a true])).again = (history cs).again ∧
      (history (cs ++ [.update a d, .update a true, .update a true])).sacked = (history cs).sacked := by
    have : history (cs ++ [.update a d, .update a true, .update a true]) =
        ((history (cs ++ [.update a d])).step (.update a true)).step (.update a true) := by
      simp [history]
    rw [this]
    simp [Hist.step, Hist.ack, e1]
  obtain ⟨h1, h2, h3, h4⟩ := e3
  obtain ⟨t, f, e, p, q⟩ := C68_report _ v1 a true
  have ack : ((history (cs ++ [.update a d, .update a true, .update a true])).ack a true).dups = 3 ∧
      ((history (cs ++ [.update a d, .update a true, .update a true])).ack a true).last = a := by
    simp [Hist.ack, h1, h2]
  rw [ack.1, ack.2, h3, h4] at q
  have hf := q (by omega) nx ns
  subst hf
  have el : cs ++ [.update a d, .update a true, .update a true] ++ [.update a true] =
      cs ++ [.update a d, .update a true, .update a true, .update a true] := by simp
  rw [el] at e
  refine ⟨t, e, ?_⟩
  obtain ⟨t', f', e', hl, _, hi, _⟩ := C68_tally
    (cs ++ [.update a d, .update a true, .update a true, .update a true]) (by
      intro c hc; rcases List.mem_append.1 hc with h | h
      · exact hv c h
      · simp at h; rcases h with rfl | rfl <;> trivial)
  rw [e] at e'
  cases e'
  have hh : history (cs ++ [.update a d, .update a true, .update a true, .update a true]) =
      (history (cs ++ [.update a d, .update a true, .update a true])).step (.update a true) := by
    simp [history]
  have hst : (history (cs ++ [.update a d, .update a true, .update a true, .update a true])).last = a ∧
      (history (cs ++ [.update a d, .update a true, .update a true, .update a true])).lost a := by
    rw [hh]
    simp only [Hist.step]
    have ag : ((history (cs ++ [.update a d, .update a true, .update a true])).ack a true).again =
        (history cs).again := by simp [Hist.ack, h1, h3]
    have sa : ((history (cs ++ [.update a d, .update a true, .update a true])).ack a true).sacked =
        (history cs).sacked := by simp [Hist.ack, h1, h4]
    rw [if_pos (by rw [ack.1, ack.2, ag]; exact ⟨by omega, nx⟩)]
    simp only [Hist.renew, ack.2, ag, sa]
    exact ⟨trivial, .inr trivial, ns, nx⟩
  exact (hi a (by rw [hst.1]; exact Int.le_refl _)).2 hst.2

/-- **C68.**  Timeout: clearing the record of retransmissions and marking everything from the last
acknowledgement up to `e` as lost makes exactly the packets that the peer did not acknowledge
selectively ones to be sent again (besides those marked lost before). -/
theorem C68_timeout (cs : List Call) (hv : ∀ c ∈ cs, c.Valid) (a e : Nat)
    (ha : (history cs).last = a) (he : a < e) :
    ∃ t f, run new (cs ++ [.clear, .lost a e]) = .ok (t, f) ∧
      ∀ x : Int, (a : Int) ≤ x → x < e →
        ((∃ r ∈ t.lost, r.lo ≤ x ∧ x < r.hi) ↔ ¬ (history cs).sacked x) := by
  obtain ⟨t, f, e', _, _, hi, _⟩ := C68_tally (cs ++ [.clear, .lost a e]) (by
      intro c hc; rcases List.mem_append.1 hc with h | h
      · exact hv c h
      · simp at h; rcases h with rfl | rfl
        · trivial
        · simp only [Call.Valid]; omega)
  refine ⟨t, f, e', fun x h1 h2 => ?_⟩
  have hh : history (cs ++ [.clear, .lost a e]) = ((history cs).step .clear).step (.lost a e) := by
    simp [history]
  have ne : ¬ a = e + 1 := by omega
  rw [hi x (by rw [hh]; simp only [Hist.step, if_neg ne, Hist.renew, ha]; exact h1), hh]
  simp only [Hist.step, if_neg ne, Hist.renew]
  constructor
  · exact fun q => q.2.1
  · exact fun q => ⟨.inr ⟨h1, by omega⟩, q, id⟩

/-- **Finding.**  The lists are not trimmed to the acknowledgement: a packet that is already
acknowledged can still be reported as lost, also by a report computed after the acknowledgement. -/
theorem C68_stale : ∃ cs t f, (∀ c ∈ cs, Call.Valid c) ∧ run new cs = .ok (t, f) ∧
    (∃ r ∈ t.lost, ∃ x : Int, r.lo ≤ x ∧ x < r.hi ∧ x < t.lastAck) ∧
    cs = [.lost 2 5, .update 4 false, .retx 8 9] := by
  refine ⟨_, _, _, ?_, rfl, ?_, rfl⟩
  · intro c hc; simp at hc; rcases hc with rfl | rfl | rfl <;> simp [Call.Valid]
  · exact ⟨⟨2, 5⟩, by decide, 2, by decide⟩

/-- **Finding.**  Blocks that the peer acknowledges selectively are not taken out of the report until
the next call that computes it: the packet is still reported as lost. -/
theorem C68_sacked_reported : ∃ cs t f, (∀ c ∈ cs, Call.Valid c) ∧ run new cs = .ok (t, f) ∧
    (history cs).sacked 3 ∧ (∃ r ∈ t.lost, r.lo ≤ 3 ∧ 3 < r.hi) ∧ t.lastAck < 3 ∧
    cs = [.update 2 false, .lost 2 5, .sacked [(3, 4)]] := by
  refine ⟨_, _, _, ?_, rfl, ?_, ⟨⟨2, 5⟩, by decide, by decide⟩, by decide, rfl⟩
  · intro c hc; simp at hc; rcases hc with rfl | rfl | rfl <;> simp [Call.Valid]
  · simp [history, Hist.step, Hist.renew]

/-- A concrete history that meets the hypotheses: packets 2 to 6 were sent, 3 and 5 arrived. -/
theorem C68_example :
    run new [.update 2 false, .sacked [(3, 4)], .update 2 true, .sacked [(3, 4), (5, 6)],
      .update 2 true, .update 2 true] = .ok (⟨2, 3, [⟨2, 3⟩], [⟨3, 4⟩, ⟨5, 6⟩], [], [⟨2, 3⟩]⟩, true) ∧
    run new [.update 2 false, .sacked [(3, 4), (5, 6)], .clear, .lost 2 7] =
      .ok (⟨2, 0, [⟨2, 7⟩], [⟨3, 4⟩, ⟨5, 6⟩], [], [⟨2, 3⟩, ⟨4, 5⟩, ⟨6, 7⟩]⟩, false) ∧
    (∀ c ∈ [Call.update 2 false, .sacked [(3, 4), (5, 6)], .clear, .lost 2 7], c.Valid) := by
  refine ⟨by decide +kernel, by decide +kernel, ?_⟩
  intro c hc; simp at hc; rcases hc with rfl | rfl | rfl | rfl <;> simp [Call.Valid]

end Shadow.Tally
