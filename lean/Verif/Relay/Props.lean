import Verif.Relay.Model
import Verif.TokenBucket.Props

/-!
# C13 (and C11 for relays): the relay forwards everything, in order, once, within its rate
-/
namespace Shadow.Relay

open Shadow.TB Shadow.Time

/-- The invariant. -/
structure Inv (s : State) : Prop where
  /-- forwarded packets, then the cached one, are exactly the packets taken, in order -/
  order : s.fwd.map (·.2.1) ++ s.next.toList = s.popped
  /-- nothing is lost or invented by the source device -/
  conserve : (s.popped ++ s.src).Perm s.arrived
  /-- a wake-up is scheduled exactly in the pending phase, and only one -/
  tasks : s.tasks.length = (if s.phase = .pending then 1 else 0)
  /-- an idle relay has nothing to do -/
  idle : s.phase = .idle → s.next = none ∧ s.src = []
  bucket : ∀ b, s.bucket = some b → WF b ∧ b.last ≤ s.now
  /-- when the scheduled wake-up is due, the cached packet fits (unless it is larger than the bucket) -/
  due : ∀ p b t, s.phase = .pending → s.next = some p → s.bucket = some b → t ∈ s.tasks →
    b.interval * (p.len / b.inc + 2) ≤ simMax →
    p.len ≤ b.capacity → p.len ≤ available b t
  now_le : s.now ≤ emuMax
  next_phase : s.next ≠ none → s.phase ≠ .idle

theorem inv_init (start : Nat) (ob : Option Bucket) (h : start ≤ emuMax)
    (hb : ∀ b, ob = some b → WF b ∧ b.last ≤ start) : Inv (init start ob) := by
  refine ⟨rfl, List.Perm.refl _, rfl, fun _ => ⟨rfl, rfl⟩, hb, ?_, h, ?_⟩
  · intro p b t h; simp [init] at h
  · intro h; simp [init] at h

/-- `available` grows with time. -/
theorem available_mono (b : Bucket) {t t' : Nat} (h : t ≤ t') :
    available b t ≤ available b t' := by
  unfold available refills
  have h1 : (t - b.last) / b.interval ≤ (t' - b.last) / b.interval :=
    Nat.div_le_div_right (by omega)
  have := Nat.mul_le_mul_left b.inc h1
  omega

theorem eraseIdx_perm {α} (l : List α) (i : Nat) (p : α) (h : l[i]? = some p) :
    (p :: l.eraseIdx i).Perm l := by
  induction l generalizing i with
  | nil => simp at h
  | cons a l ih =>
    cases i with
    | zero => simp at h; subst h; simp
    | succ i =>
      simp at h
      simp only [List.eraseIdx_cons_succ]
      exact (List.Perm.swap a p _).trans ((ih i h).cons a)

theorem wait_fits (b : Bucket) (len now : Nat)
    (hfit : b.interval * (len / b.inc + 2) ≤ simMax) :
    b.interval * ((len - available b now - 1) / b.inc + 1) ≤ simMax := by
  have h1 : (len - available b now - 1) / b.inc ≤ len / b.inc := Nat.div_le_div_right (by omega)
  have h2 : b.interval * ((len - available b now - 1) / b.inc + 1) ≤
      b.interval * (len / b.inc + 2) := Nat.mul_le_mul_left _ (by omega)
  omega

/-- The state in which the loop body runs on the packet taken. -/
theorem iter_inv (s s' : State) (boot : Bool) (i : Nat) (hi : Inv s)
    (hp : s.phase = .forwarding boot) (h : iter s boot i = .ok s') : Inv s' := by
  obtain ⟨h1, h2, h3, h4, h5, h6, h7, h8⟩ := hi
  have hnp : ∀ q : State, q.phase = .forwarding boot → ∀ p b t, q.phase = .pending →
      q.next = some p → q.bucket = some b → t ∈ q.tasks →
      b.interval * (p.len / b.inc + 2) ≤ simMax →
      p.len ≤ b.capacity → p.len ≤ available b t := by
    intro q hq p b t hh; rw [hq] at hh; cases hh
  unfold iter at h
  -- facts about the state after taking a packet
  have body : ∀ (p : Pkt) (q : State), q.now = s.now → q.bucket = s.bucket →
      q.phase = s.phase → q.tasks = s.tasks → q.next = none → 
      q.fwd.map (·.2.1) ++ [p] = q.popped → (q.popped ++ q.src).Perm q.arrived →
      offer q boot p = Out.ok s' → Inv s' := by
    intro p q e1 e2 e3 e4 e5 e6 e7 hq
    unfold offer at hq
    have hqf : ∀ fl, Inv { q with fwd := q.fwd ++ [(q.now, p, fl)] } := by
      intro fl
      refine ⟨?_, e7, ?_, ?_, ?_, ?_, ?_, ?_⟩
      · simp [e5, ← e6]
      · simp only [e4, e3]; exact h3
      · simp only [e3, hp]; intro hh; cases hh
      · simp only [e2, e1]; exact h5
      · exact hnp _ (by simp only [e3, hp])
      · simp only [e1]; exact h7
      · simp [e5]
    split at hq
    · split at hq
      · simp at hq; subst hq; exact hqf false
      · next b hb =>
        rw [e2] at hb
        obtain ⟨hw, hl⟩ := h5 b hb
        split at hq
        · simp at hq
        · next b' d hr =>
          rw [e1] at hr
          obtain ⟨hw', -, hle, -, -⟩ := remove_wf b p.len s.now hw hl h7 b' _ hr
          simp only [e5, ne_eq, not_true, if_false, forwardLater] at hq
          simp at hq
          subst hq
          refine ⟨?_, e7, ?_, ?_, ?_, ?_, ?_, ?_⟩
          · simpa using e6
          · simp only [e4]; rw [hp] at h3; simp at h3; simp [h3]
          · intro hh; simp at hh
          · intro c hc; simp at hc; subst hc
            exact ⟨hw', by simp only [e1]; exact hle⟩
          · intro p' c t _ hn hc ht hfit hcap
            simp at hn hc; subst hn; subst hc
            have ht' : t = s.now + d := by
              have h3' := h3
              rw [hp] at h3'
              have : s.tasks = [] := by
                cases hts : s.tasks with
                | nil => rfl
                | cons a l => rw [hts] at h3'; simp at h3'
              simp only [e4, this, e1] at ht
              simpa using ht
            subst ht'
            obtain ⟨-, -, -, -, hcc, hii, hvv⟩ := remove_wf b p.len s.now hw hl h7 b' _ hr
            rw [hii, hvv] at hfit
            exact (C12_exact_wait b p.len s.now d hw hl h7 b' hr (by omega)
              (wait_fits b p.len s.now hfit)).2.2.1 _ (Nat.le_refl _)
          · simp only [e1]; exact h7
          · simp
        · next b' bal hr =>
          rw [e1] at hr
          obtain ⟨hw', -, hle, -, -⟩ := remove_wf b p.len s.now hw hl h7 b' _ hr
          simp at hq; subst hq
          obtain ⟨g1, g2, g3, g4, g5, g6, g7, g8⟩ := hqf true
          refine ⟨g1, g2, g3, g4, ?_, hnp _ (by simp only [e3, hp]), g7, g8⟩
          intro c hc; simp at hc; subst hc
          exact ⟨hw', by simp only [e1]; exact hle⟩
    · simp at hq; subst hq; exact hqf false
  split at h
  · next hnone =>
    unfold take at hnone
    split at hnone
    · simp at hnone
    · next hn =>
      split at hnone
      · simp at hnone
      · split at h
        · next hsrc =>
          simp at h; subst h
          refine ⟨h1, h2, ?_, fun _ => ⟨hn, hsrc⟩, h5, ?_, h7, ?_⟩
          · rw [hp] at h3; simpa using h3
          · intro p b t hh; simp at hh
          · simp [hn]
        · simp at h
  · next p q hsome =>
    unfold take at hsome
    split at hsome
    · next p' hn =>
      simp at hsome; obtain ⟨rfl, rfl⟩ := hsome
      refine body _ _ ?_ ?_ ?_ ?_ ?_ ?_ ?_ h
      all_goals first | rfl | exact h2 | (rw [hn] at h1; simpa using h1)
    · next hn =>
      split at hsome
      · next p' hget =>
        simp at hsome; obtain ⟨rfl, rfl⟩ := hsome
        refine body _ _ ?_ ?_ ?_ ?_ ?_ ?_ ?_ h
        · rfl
        · rfl
        · rfl
        · rfl
        · exact hn
        · rw [hn] at h1; simp at h1; simp [h1]
        · refine List.Perm.trans ?_ h2
          simp only [List.append_assoc, List.singleton_append]
          exact (eraseIdx_perm _ _ _ hget).append_left _
      · simp at hsome

theorem step_inv (bootEnd : Nat) (s s' : State) (a : Act) (hi : Inv s)
    (hadv : ∀ t, a = .advance t → t ≤ emuMax)
    (h : step bootEnd s a = .ok s') : Inv s' := by
  cases a with
  | push p =>
    obtain ⟨h1, h2, h3, h4, h5, h6, h7, h8⟩ := hi
    have hperm : (s.popped ++ (s.src ++ [p])).Perm (s.arrived ++ [p]) := by
      rw [← List.append_assoc]; exact h2.append_right _
    simp only [step, notify] at h
    split at h
    · next hph =>
      simp only [forwardLater] at h
      try simp at hph
      simp [hph] at h; subst h
      refine ⟨h1, hperm, ?_, ?_, h5, ?_, h7, ?_⟩
      · simp [hph] at h3; simp [h3]
      · intro hh; simp at hh
      · intro q b t _ hn; simp at hn; have := h4 hph; rw [this.1] at hn; simp at hn
      · simp
    · next hph =>
      simp at hph h; subst h
      refine ⟨h1, hperm, h3, ?_, h5, h6, h7, h8⟩
      intro hh; simp [hph] at hh
    · next boot hph =>
      simp at hph h; subst h
      refine ⟨h1, hperm, h3, ?_, h5, h6, h7, h8⟩
      intro hh; simp [hph] at hh
  | advance t =>
    obtain ⟨h1, h2, h3, h4, h5, h6, h7, h8⟩ := hi
    simp only [step] at h
    split at h
    · simp at h
    · split at h
      · next hle =>
        simp at h; subst h
        refine ⟨h1, h2, h3, h4, ?_, h6, hadv t rfl, h8⟩
        intro b hb
        obtain ⟨hw, hl⟩ := h5 b hb
        exact ⟨hw, by simp; omega⟩
      · simp at h
  | fire =>
    obtain ⟨h1, h2, h3, h4, h5, h6, h7, h8⟩ := hi
    simp only [step] at h
    split at h
    · simp at h
    · split at h
      · simp at h
      next t ts htasks =>
      split at h
      · simp at h; subst h
        refine ⟨h1, h2, ?_, ?_, h5, ?_, h7, ?_⟩
        · simp
          rw [htasks] at h3
          split at h3
          · simpa using h3
          · simp at h3
        · intro hh; simp at hh
        · intro p b t hh; simp at hh
        · simp
      · simp at h
  | iter i =>
    simp only [step] at h
    split at h
    · next boot hph => exact iter_inv s s' boot i hi hph h
    · simp at h

/-- Every time reached is representable. -/
def TimesOk (as : List Act) : Prop := ∀ t, Act.advance t ∈ as → t ≤ emuMax

theorem steps_inv {bootEnd : Nat} {s s' : State} {as : List Act} (hi : Inv s)
    (ht : TimesOk as) (h : Steps bootEnd s as s') : Inv s' := by
  induction h with
  | nil => exact hi
  | cons h _ ih =>
    refine ih (step_inv _ _ _ _ hi (fun t e => ht t ?_) h) (fun t ht' => ht t (by simp [ht']))
    simp [e]

/-- **C13 (exactly once, in order).** In every execution, the packets forwarded so far, followed by
    the one the relay holds back, are the packets taken from the source in the order they were taken;
    together with those still at the source they are exactly the arrived ones. -/
theorem C13_exactly_once (bootEnd start : Nat) (ob : Option Bucket) (hs : start ≤ emuMax)
    (hb : ∀ b, ob = some b → WF b ∧ b.last ≤ start) (as : List Act) (ht : TimesOk as) (s : State)
    (h : Steps bootEnd (init start ob) as s) :
    s.fwd.map (·.2.1) ++ s.next.toList = s.popped ∧
    (s.fwd.map (·.2.1) ++ (s.next.toList ++ s.src)).Perm s.arrived := by
  have hi := steps_inv (inv_init start ob hs hb) ht h
  refine ⟨hi.order, ?_⟩
  rw [← List.append_assoc, hi.order]
  exact hi.conserve

/-- Actions in which the source device always returns its oldest packet. -/
def Fifo (as : List Act) : Prop := ∀ i, Act.iter i ∈ as → i = 0

/-- **C13 (FIFO).** If the source is first-in-first-out, packets leave in arrival order. -/
theorem C13_fifo (bootEnd start : Nat) (ob : Option Bucket) (hs : start ≤ emuMax)
    (hb : ∀ b, ob = some b → WF b ∧ b.last ≤ start) (as : List Act) (ht : TimesOk as)
    (hf : Fifo as) (s : State) (h : Steps bootEnd (init start ob) as s) :
    s.fwd.map (·.2.1) ++ (s.next.toList ++ s.src) = s.arrived := by
  have hi := (C13_exactly_once bootEnd start ob hs hb as ht s h).1
  rw [← List.append_assoc, hi]
  have key : ∀ {s s' : State} {as : List Act}, Steps bootEnd s as s' → Fifo as →
      s.popped ++ s.src = s.arrived → s'.popped ++ s'.src = s'.arrived := by
    intro s s' as h
    induction h with
    | nil => exact fun _ h => h
    | @cons s a s1 as s2 h _ ih =>
      intro hf e
      refine ih (fun i hi => hf i (by simp [hi])) ?_
      cases a with
      | push p =>
        simp only [step, notify, forwardLater] at h
        split at h
        · split at h
          · simp at h
          · simp at h; subst h; simp [← e]
        · simp at h; subst h; simp [← e]
        · simp at h; subst h; simp [← e]
      | advance t =>
        simp only [step] at h
        split at h
        · simp at h
        · split at h <;> simp at h
          subst h; exact e
      | fire =>
        simp only [step] at h
        split at h
        · simp at h
        · split at h
          · simp at h
          · split at h <;> simp at h
            subst h; exact e
      | iter i =>
        have hi0 := hf i (by simp); subst hi0
        simp only [step] at h
        split at h
        · next boot hph =>
          unfold iter at h
          have body : ∀ (p : Pkt) (q : State), q.popped ++ q.src = q.arrived →
              offer q boot p = Out.ok s1 →
              s1.popped ++ s1.src = s1.arrived := by
            intro p q e hq
            unfold offer at hq
            split at hq
            · split at hq
              · simp at hq; subst hq; exact e
              · split at hq
                · simp at hq
                · split at hq
                  · simp at hq
                  · simp [forwardLater] at hq; subst hq; exact e
                · simp at hq; subst hq; exact e
            · simp at hq; subst hq; exact e
          split at h
          · split at h
            · simp at h; subst h; exact e
            · simp at h
          · next p q hsome =>
            unfold take at hsome
            split at hsome
            · simp at hsome; obtain ⟨rfl, rfl⟩ := hsome
              exact body _ _ (by simpa using e) h
            · split at hsome
              · next p' hget =>
                simp at hsome; obtain ⟨rfl, rfl⟩ := hsome
                refine body _ _ ?_ h
                simp only [List.append_assoc]
                rw [← e]
                congr 1
                cases hsrc : s.src with
                | nil => rw [hsrc] at hget; simp at hget
                | cons a l => rw [hsrc] at hget; simp at hget; simp [hget]
              · simp at hsome
        · simp at h
  exact key h hf rfl

/-- **C13 (never stalls).** Whenever packets are waiting, the relay is either in its loop or has
    exactly one wake-up scheduled; in every state it has at most one. -/
theorem C13_no_stall (bootEnd start : Nat) (ob : Option Bucket) (hs : start ≤ emuMax)
    (hb : ∀ b, ob = some b → WF b ∧ b.last ≤ start) (as : List Act) (ht : TimesOk as) (s : State)
    (h : Steps bootEnd (init start ob) as s) :
    s.tasks.length ≤ 1 ∧
    (s.next ≠ none ∨ s.src ≠ [] → (∃ b, s.phase = .forwarding b) ∨ ∃ t, s.tasks = [t]) := by
  have hi := steps_inv (inv_init start ob hs hb) ht h
  constructor
  · rw [hi.tasks]; split <;> omega
  · intro hw
    cases hph : s.phase with
    | idle =>
      obtain ⟨h1, h2⟩ := hi.idle hph
      rcases hw with hw | hw
      · exact absurd h1 hw
      · exact absurd h2 hw
    | pending =>
      right
      have := hi.tasks
      rw [hph] at this; simp at this
      exact List.length_eq_one_iff.mp this
    | forwarding b => exact .inl ⟨b, rfl⟩

/-- **C13 (no panic).** No reachable action panics (neither the relay's own assertions nor the
    limiter's arithmetic), provided packet sizes keep the computed waits representable. -/
theorem C13_no_panic (bootEnd start : Nat) (ob : Option Bucket) (hs : start ≤ emuMax)
    (hb : ∀ b, ob = some b → WF b ∧ b.last ≤ start) (as : List Act) (ht : TimesOk as) (s : State)
    (h : Steps bootEnd (init start ob) as s) (a : Act)
    (hfit : ∀ b p, s.bucket = some b → (s.next = some p ∨ p ∈ s.src) →
      b.interval * (p.len / b.inc + 2) ≤ simMax) :
    step bootEnd s a ≠ .panic := by
  have hi := steps_inv (inv_init start ob hs hb) ht h
  cases a with
  | push p =>
    simp only [step, notify, forwardLater]
    split
    · next hph => simp_all
    · simp
    · simp
  | advance t => simp only [step]; split <;> try simp
                 split <;> simp
  | fire =>
    simp only [step]
    split
    · simp
    · split
      · simp
      · split <;> simp
  | iter i =>
    simp only [step]
    split
    · next boot hph =>
      unfold iter
      have body : ∀ (p : Pkt) (q : State), q.now = s.now → q.bucket = s.bucket → q.next = none →
          (s.next = some p ∨ p ∈ s.src) →
          offer q boot p ≠ Out.panic := by
        intro p q e1 e2 e3 hm
        unfold offer
        split
        · split
          · simp
          · next b hb' =>
            rw [e2] at hb'
            obtain ⟨hw, hl⟩ := hi.bucket b hb'
            obtain ⟨b', r, hr⟩ := remove_no_panic b p.len s.now hw hl hi.now_le (hfit b p hb' hm)
            rw [e1, hr]
            cases r with
            | ok bal => simp
            | wait d => simp [e3, forwardLater]
        · simp
      split
      · split <;> simp
      · next p q hsome =>
        unfold take at hsome
        split at hsome
        · next p' hn =>
          simp at hsome; obtain ⟨rfl, rfl⟩ := hsome
          exact body _ { s with next := none } rfl rfl rfl (.inl hn)
        · next hn =>
          split at hsome
          · next p' hget =>
            simp at hsome; obtain ⟨rfl, rfl⟩ := hsome
            refine body _ _ ?_ ?_ ?_ (.inr (List.mem_of_getElem? hget)) <;> first | rfl | exact hn
          · simp at hsome
    · simp

/-- **C13 (a blocked packet leaves at its wake-up).** If the relay holds back a packet that fits the
    limiter's capacity, then running the scheduled task (when due or later) forwards exactly this
    packet first. -/
theorem C13_blocked_leaves (bootEnd start : Nat) (ob : Option Bucket) (hs : start ≤ emuMax)
    (hb : ∀ b, ob = some b → WF b ∧ b.last ≤ start) (as : List Act) (ht : TimesOk as)
    (s s1 s2 : State) (h : Steps bootEnd (init start ob) as s) (p : Pkt) (i : Nat)
    (hn : s.next = some p) (hf : step bootEnd s .fire = .ok s1)
    (hfit : ∀ b, s.bucket = some b → p.len ≤ b.capacity ∧
      b.interval * (p.len / b.inc + 2) ≤ simMax)
    (h2 : step bootEnd s1 (.iter i) = .ok s2) :
    ∃ fl, s2.fwd = s.fwd ++ [(s.now, p, fl)] ∧ s2.next = none := by
  have hi := steps_inv (inv_init start ob hs hb) ht h
  simp only [step] at hf
  split at hf
  · simp at hf
  · split at hf
    · simp at hf
    next t ts htasks =>
    split at hf
    · next hle =>
      simp at hf; subst hf
      have hpend : s.phase = .pending := by
        have := hi.tasks
        rw [htasks] at this
        split at this
        · assumption
        · simp at this
      simp only [step, iter, take, hn, offer] at h2
      split at h2
      · split at h2
        · simp at h2; subst h2; exact ⟨false, rfl, rfl⟩
        · next b hb' =>
          have hb'' : s.bucket = some b := hb'
          obtain ⟨hcap, hfit'⟩ := hfit b hb''
          obtain ⟨hw, hl⟩ := hi.bucket b hb''
          have hav := hi.due p b t hpend hn hb'' (by rw [htasks]; simp) hfit' hcap
          have hav' := Nat.le_trans hav (available_mono b hle)
          split at h2
          · simp at h2
          · next b' d hr =>
            rcases remove_spec b p.len s.now hw hl hi.now_le b' _ hr with ⟨_, h4, _⟩ | ⟨h4, _, _⟩
            · cases h4
            · omega
          · simp at h2; subst h2; exact ⟨true, rfl, rfl⟩
      · simp at h2; subst h2; exact ⟨false, rfl, rfl⟩
    · simp at hf

/-- **C13 (finding).** A packet larger than the limiter's capacity that the relay holds back after
    bootstrapping is never forwarded: in every continuation the relay still holds it, nothing is
    forwarded any more, and all later packets wait behind it. -/
theorem C13_oversize_blocks_forever (bootEnd : Nat) (s s' : State) (as : List Act) (p : Pkt)
    (b : Bucket) (hi : Inv s) (ht : TimesOk as) (h : Steps bootEnd s as s')
    (hn : s.next = some p) (hbk : s.bucket = some b) (hbig : b.capacity < p.len)
    (hloc : p.isLocal = false) (hboot : bootEnd ≤ s.now) (hph : s.phase ≠ .forwarding true) :
    s'.next = some p ∧ s'.fwd = s.fwd := by
  induction h generalizing b with
  | nil => exact ⟨hn, rfl⟩
  | @cons s a s1 as s2 h _ ih =>
    have hi1 := step_inv bootEnd s s1 a hi (fun t e => ht t (by simp [e])) h
    have ht' : TimesOk as := fun t ht' => ht t (by simp [ht'])
    have key : s1.next = some p ∧ s1.fwd = s.fwd ∧ (∃ b1, s1.bucket = some b1 ∧
        b1.capacity = b.capacity) ∧ s.now ≤ s1.now ∧ s1.phase ≠ .forwarding true := by
      cases a with
      | push q =>
        simp only [step, notify, forwardLater] at h
        split at h
        · split at h
          · simp at h
          · simp at h; subst h; exact ⟨hn, rfl, ⟨b, hbk, rfl⟩, Nat.le_refl _, by simp⟩
        · simp at h; subst h; exact ⟨hn, rfl, ⟨b, hbk, rfl⟩, Nat.le_refl _, hph⟩
        · simp at h; subst h; exact ⟨hn, rfl, ⟨b, hbk, rfl⟩, Nat.le_refl _, hph⟩
      | advance t =>
        simp only [step] at h
        split at h
        · simp at h
        · split at h
          · next hle => simp at h; subst h; exact ⟨hn, rfl, ⟨b, hbk, rfl⟩, hle, hph⟩
          · simp at h
      | fire =>
        simp only [step] at h
        split at h
        · simp at h
        · split at h
          · simp at h
          split at h
          · simp at h; subst h
            refine ⟨hn, rfl, ⟨b, hbk, rfl⟩, Nat.le_refl _, ?_⟩
            simp; omega
          · simp at h
      | iter i =>
        simp only [step] at h
        split at h
        · next boot hp =>
          have hbf : boot = false := by
            cases boot with
            | false => rfl
            | true => exact absurd hp hph
          subst hbf
          simp only [iter, take, hn, offer, hloc, hbk] at h
          simp at h
          obtain ⟨hw, hl⟩ := hi.bucket b hbk
          split at h
          · simp at h
          · next b' d hr =>
            obtain ⟨-, -, -, -, hc, -, -⟩ := remove_wf b p.len s.now hw hl hi.now_le b' _ hr
            simp [forwardLater] at h; subst h
            exact ⟨rfl, rfl, ⟨b', rfl, hc⟩, Nat.le_refl _, by simp⟩
          · next b' bal hr =>
            obtain ⟨w, hw'⟩ := C12_oversize_never b p.len s.now hw hbig hl hi.now_le b' _ hr
            cases hw'
        · simp at h
    obtain ⟨k1, k2, ⟨b1, k3, k4⟩, k5, k6⟩ := key
    obtain ⟨r1, r2⟩ := ih b1 hi1 ht' k1 k3 (by omega) (by omega) k6
    exact ⟨r1, r2.trans k2⟩

/-- Specification: the bytes of rate-limited packets forwarded. -/
def limitedBytes (l : List (Nat × Pkt × Bool)) : Nat :=
  (l.map (fun x => if x.2.2 then x.2.1.len else 0)).sum

/-- Along any execution segment, the limiter sees a time-ordered history of attempts inside the
    segment's time window, and what it granted is what was forwarded under the limit. -/
theorem segment_history (bootEnd : Nat) (s s' : State) (as : List Act) (hi : Inv s)
    (ht : TimesOk as) (h : Steps bootEnd s as s') (b : Bucket) (hb : s.bucket = some b) :
    ∃ ops rs b' new, run b ops = some (rs, b') ∧ s'.bucket = some b' ∧ s'.fwd = s.fwd ++ new ∧
      accepted ops rs = limitedBytes new ∧ (ops.map (·.1)).Pairwise (· ≤ ·) ∧
      (∀ o ∈ ops, s.now ≤ o.1 ∧ o.1 ≤ s'.now) ∧ s.now ≤ s'.now := by
  induction h generalizing b with
  | nil => exact ⟨[], [], b, [], rfl, hb, by simp, rfl, List.Pairwise.nil, by simp, Nat.le_refl _⟩
  | @cons s a s1 as s2 h hst ih =>
    have hi1 := step_inv bootEnd s s1 a hi (fun t e => ht t (by simp [e])) h
    have ht' : TimesOk as := fun t ht' => ht t (by simp [ht'])
    -- each single step makes no attempt, or one attempt at the current time
    have key : (s1.bucket = some b ∧ s.now ≤ s1.now ∧ ∃ new, s1.fwd = s.fwd ++ new ∧
          limitedBytes new = 0) ∨
        (∃ d r b1, remove b d s.now = some (b1, r) ∧ s1.bucket = some b1 ∧ s1.now = s.now ∧
          ∃ new, s1.fwd = s.fwd ++ new ∧ limitedBytes new = (match r with | .ok _ => d | .wait _ => 0)) := by
      cases a with
      | push q =>
        left
        simp only [step, notify, forwardLater] at h
        split at h
        · split at h
          · simp at h
          · simp at h; subst h; exact ⟨hb, Nat.le_refl _, [], by simp, rfl⟩
        · simp at h; subst h; exact ⟨hb, Nat.le_refl _, [], by simp, rfl⟩
        · simp at h; subst h; exact ⟨hb, Nat.le_refl _, [], by simp, rfl⟩
      | advance t =>
        left
        simp only [step] at h
        split at h
        · simp at h
        · split at h
          · next hle => simp at h; subst h; exact ⟨hb, hle, [], by simp, rfl⟩
          · simp at h
      | fire =>
        left
        simp only [step] at h
        split at h
        · simp at h
        · split at h
          · simp at h
          split at h
          · simp at h; subst h; exact ⟨hb, Nat.le_refl _, [], by simp, rfl⟩
          · simp at h
      | iter i =>
        simp only [step] at h
        split at h
        · next boot hp =>
          unfold iter at h
          have body : ∀ (p : Pkt) (q : State), q.now = s.now → q.bucket = s.bucket →
              q.fwd = s.fwd → 
              offer q boot p = Out.ok s1 → 
              (s1.bucket = some b ∧ s.now ≤ s1.now ∧ ∃ new, s1.fwd = s.fwd ++ new ∧
                limitedBytes new = 0) ∨
              (∃ d r b1, remove b d s.now = some (b1, r) ∧ s1.bucket = some b1 ∧ s1.now = s.now ∧
                ∃ new, s1.fwd = s.fwd ++ new ∧
                  limitedBytes new = (match r with | .ok _ => d | .wait _ => 0)) := by
            intro p q e1 e2 e3 hq
            unfold offer at hq
            rw [hb] at e2
            split at hq
            · simp only [e2] at hq
              rw [e1] at hq
              split at hq
              · simp at hq
              · next b' d hr =>
                split at hq
                · simp at hq
                · simp [forwardLater] at hq; subst hq
                  exact .inr ⟨p.len, _, b', hr, rfl, by simp only [e1], [], by simp [e3], rfl⟩
              · next b' bal hr =>
                simp at hq; subst hq
                exact .inr ⟨p.len, _, b', hr, rfl, by simp only [e1], [(s.now, p, true)], by simp [e3],
                  by simp [limitedBytes]⟩
            · simp at hq; subst hq
              exact .inl ⟨e2, by simp [e1], [(s.now, p, false)], by simp [e3, e1],
                by simp [limitedBytes]⟩
          split at h
          · split at h
            · simp at h; subst h; exact .inl ⟨hb, Nat.le_refl _, [], by simp, rfl⟩
            · simp at h
          · next p q hsome =>
            unfold take at hsome
            split at hsome
            · simp at hsome; obtain ⟨rfl, rfl⟩ := hsome
              refine body _ _ ?_ ?_ ?_ h <;> rfl
            · split at hsome
              · simp at hsome; obtain ⟨rfl, rfl⟩ := hsome
                refine body _ _ ?_ ?_ ?_ h <;> rfl
              · simp at hsome
        · simp at h
    have lb_append : ∀ l l', limitedBytes (l ++ l') = limitedBytes l + limitedBytes l' := by
      intro l l'; simp [limitedBytes]
    rcases key with ⟨k1, k2, n1, k3, k4⟩ | ⟨d, r, b1, k1, k2, k3, n1, k4, k5⟩
    · obtain ⟨ops, rs, b', n2, g1, g2, g3, g4, g5, g6, g7⟩ := ih hi1 ht' b k1
      refine ⟨ops, rs, b', n1 ++ n2, g1, g2, by rw [g3, k3, List.append_assoc], ?_, g5, ?_, by omega⟩
      · rw [lb_append, k4, g4]; omega
      · intro o ho; have := g6 o ho; omega
    · obtain ⟨ops, rs, b', n2, g1, g2, g3, g4, g5, g6, g7⟩ := ih hi1 ht' b1 k2
      refine ⟨(s.now, d) :: ops, r :: rs, b', n1 ++ n2, ?_, g2,
        by rw [g3, k4, List.append_assoc], ?_, ?_, ?_, by omega⟩
      · simp [run, k1, g1]
      · rw [lb_append, k5]
        cases r <;> simp [accepted, g4]
      · simp only [List.map_cons, List.pairwise_cons]
        refine ⟨?_, g5⟩
        intro x hx
        simp only [List.mem_map] at hx
        obtain ⟨o, ho, rfl⟩ := hx
        have := g6 o ho; omega
      · intro o ho
        rcases List.mem_cons.mp ho with rfl | ho
        · simp; omega
        · have := g6 o ho; omega

/-- **C11 for the relay.** In every segment of every execution, the rate-limited bytes forwarded are
    at most the capacity plus one increment per elapsed interval (plus one for alignment). -/
theorem C11_relay_segment_bound (bootEnd : Nat) (s s' : State) (as : List Act) (hi : Inv s)
    (ht : TimesOk as) (h : Steps bootEnd s as s') (b : Bucket) (hb : s.bucket = some b) :
    ∃ new, s'.fwd = s.fwd ++ new ∧
      limitedBytes new ≤ b.capacity + b.inc * ((s'.now - s.now) / b.interval + 1) := by
  obtain ⟨ops, rs, b', new, g1, g2, g3, g4, g5, g6, g7⟩ := segment_history bootEnd s s' as hi ht h b hb
  obtain ⟨hw, hl⟩ := hi.bucket b hb
  have hi' := steps_inv hi ht h
  exact ⟨new, g3, g4 ▸ C11_rate_bound b ops s.now s'.now hw hl g5 g6 hi'.now_le rs b' g1⟩

/-- The ghost flag means what it should: the limit applied exactly to remote packets forwarded after
    bootstrapping by a relay that has a limiter. -/
def FlagInv (bootEnd : Nat) (s : State) : Prop :=
  (∀ boot, s.phase = .forwarding boot → boot = decide (s.now < bootEnd)) ∧
  (∀ x ∈ s.fwd, x.2.2 = true ↔ (s.bucket.isSome ∧ bootEnd ≤ x.1 ∧ x.2.1.isLocal = false))

theorem flag_step (bootEnd : Nat) (s s' : State) (a : Act) (hi : FlagInv bootEnd s)
    (h : step bootEnd s a = .ok s') : FlagInv bootEnd s' ∧ s'.bucket.isSome = s.bucket.isSome := by
  obtain ⟨h1, h2⟩ := hi
  cases a with
  | push p =>
    simp only [step, notify, forwardLater] at h
    split at h
    · split at h
      · simp at h
      · simp at h; subst h; exact ⟨⟨by simp, h2⟩, rfl⟩
    · simp at h; subst h; exact ⟨⟨h1, h2⟩, rfl⟩
    · simp at h; subst h; exact ⟨⟨h1, h2⟩, rfl⟩
  | advance t =>
    simp only [step] at h
    split at h
    · simp at h
    · next hph =>
      split at h
      · simp at h; subst h
        exact ⟨⟨fun boot hb => absurd hb (hph boot), h2⟩, rfl⟩
      · simp at h
  | fire =>
    simp only [step] at h
    split at h
    · simp at h
    · split at h
      · simp at h
      · split at h
        · simp at h; subst h
          exact ⟨⟨by simp, h2⟩, rfl⟩
        · simp at h
  | iter i =>
    simp only [step] at h
    split at h
    · next boot hph =>
      have hboot := h1 boot hph
      have body : ∀ (p : Pkt) (q : State), q.now = s.now → q.bucket = s.bucket →
          q.fwd = s.fwd → q.phase = s.phase → offer q boot p = .ok s' →
          FlagInv bootEnd s' ∧ s'.bucket.isSome = s.bucket.isSome := by
        intro p q e1 e2 e3 e4 hq
        unfold offer at hq
        split at hq
        · next hc =>
          have hbe : bootEnd ≤ s.now := by
            have := hc.1; rw [hboot] at this; simpa using this
          split at hq
          · next hb =>
            simp at hq; subst hq
            refine ⟨⟨?_, ?_⟩, by simp [e2]⟩
            · simpa [e4, e1] using h1
            · intro x hx
              simp only [e3, List.mem_append, List.mem_singleton] at hx
              rw [e2] at hb
              rcases hx with hx | rfl
              · simpa [e2] using h2 x hx
              · simp [e2, hb]
          · next b hb =>
            rw [e2] at hb
            split at hq
            · simp at hq
            · split at hq
              · simp at hq
              · simp [forwardLater] at hq; subst hq
                refine ⟨⟨by simp, ?_⟩, by simp [hb]⟩
                intro x hx
                simp only [e3] at hx
                simpa [hb] using h2 x hx
            · simp at hq; subst hq
              refine ⟨⟨?_, ?_⟩, by simp [hb]⟩
              · simpa [e4, e1] using h1
              · intro x hx
                simp only [e3, List.mem_append, List.mem_singleton] at hx
                rcases hx with hx | rfl
                · simpa [hb] using h2 x hx
                · simpa [e1, hbe] using hc.2
        · next hc =>
          simp at hq; subst hq
          refine ⟨⟨?_, ?_⟩, by simp [e2]⟩
          · simpa [e4, e1] using h1
          · intro x hx
            simp only [e3, List.mem_append, List.mem_singleton] at hx
            rcases hx with hx | rfl
            · simpa [e2] using h2 x hx
            · simp only [e1, Bool.false_eq_true, false_iff]
              intro hh
              refine hc ⟨?_, by simp [hh.2.2]⟩
              rw [hboot]; simp; exact hh.2.1
      unfold iter at h
      split at h
      · split at h
        · simp at h; subst h; exact ⟨⟨by simp, h2⟩, rfl⟩
        · simp at h
      · next p q hsome =>
        unfold take at hsome
        split at hsome
        · simp at hsome; obtain ⟨rfl, rfl⟩ := hsome
          refine body _ _ ?_ ?_ ?_ ?_ h <;> rfl
        · split at hsome
          · simp at hsome; obtain ⟨rfl, rfl⟩ := hsome
            refine body _ _ ?_ ?_ ?_ ?_ h <;> rfl
          · simp at hsome
    · simp at h

theorem flag_steps {bootEnd : Nat} {s s' : State} {as : List Act} (h : Steps bootEnd s as s')
    (hi : FlagInv bootEnd s) : FlagInv bootEnd s' ∧ s'.bucket.isSome = s.bucket.isSome := by
  induction h with
  | nil => exact ⟨hi, rfl⟩
  | cons h _ ih =>
    obtain ⟨h1, h2⟩ := flag_step bootEnd _ _ _ hi h
    obtain ⟨h3, h4⟩ := ih h1
    exact ⟨h3, h4.trans h2⟩

/-- Specification: the bytes of remote packets among those forwarded. -/
def remoteBytes (l : List (Nat × Pkt × Bool)) : Nat :=
  (l.map (fun x => if x.2.1.isLocal then 0 else x.2.1.len)).sum

/-- **C11 for the relay, stated on traffic.** Take any two points of any execution of a rate-limited
    relay, the first after bootstrapping.  The remote bytes forwarded in between are at most the
    capacity plus one increment per elapsed interval (plus one for alignment). -/
theorem C11_relay_traffic_bound (bootEnd start : Nat) (b0 : Bucket) (hs : start ≤ emuMax)
    (hb : WF b0 ∧ b0.last ≤ start) (as as' : List Act) (ht : TimesOk as) (ht' : TimesOk as')
    (s s' : State) (h : Steps bootEnd (init start (some b0)) as s) (h' : Steps bootEnd s as' s')
    (hboot : bootEnd ≤ s.now) :
    ∃ new, s'.fwd = s.fwd ++ new ∧
      remoteBytes new ≤ b0.capacity + b0.inc * ((s'.now - s.now) / b0.interval + 1) := by
  have hi0 : Inv (init start (some b0)) :=
    inv_init start (some b0) hs (by intro b e; simp at e; subst e; exact hb)
  have hi := steps_inv (inv_init start (some b0) hs (by intro b e; simp at e; subst e; exact hb)) ht h
  have hf0 : FlagInv bootEnd (init start (some b0)) := by
    constructor
    · intro boot hb; simp [init] at hb
    · intro x hx; simp [init] at hx
  obtain ⟨hf, hsome⟩ := flag_steps h hf0
  obtain ⟨hf', hsome'⟩ := flag_steps h' hf
  have hbs : s.bucket.isSome := by rw [hsome]; rfl
  obtain ⟨b, hbk⟩ := Option.isSome_iff_exists.mp hbs
  obtain ⟨new, hnew, hbound⟩ := C11_relay_segment_bound bootEnd s s' as' hi ht' h' b hbk
  obtain ⟨ops, rs, b', -, q1, q2, -, -, q5, q6, -⟩ :=
    segment_history bootEnd _ s as hi0 ht h b0 rfl
  rw [hbk] at q2; simp at q2; subst q2
  have hsorted : (b0.last :: ops.map (·.1)).Pairwise (· ≤ ·) := by
    refine List.pairwise_cons.mpr ⟨fun x hx => ?_, q5⟩
    obtain ⟨o, ho, rfl⟩ := List.mem_map.mp hx
    have h1 := (q6 o ho).1
    have h2 := hb.2
    simp only [init] at h1
    omega
  obtain ⟨p1, p2, p3⟩ := run_keep b0 ops rs b hb.1 hsorted
    (fun o ho => by have := (q6 o ho).2; have := hi.now_le; omega) q1
  rw [p1, p2, p3] at hbound
  refine ⟨new, hnew, ?_⟩
  have htimes : ∀ x ∈ new, s.now ≤ x.1 := by
    have key : ∀ {s s' : State} {as : List Act}, Steps bootEnd s as s' →
        ∀ T, T ≤ s.now → ∀ old, s.fwd = old → ∀ new, s'.fwd = old ++ new → 
        ∀ x ∈ new, T ≤ x.1 := by
      intro s s' as h
      induction h with
      | nil =>
        intro T _ old ho new hn x hx
        rw [ho] at hn
        have : new = [] := by simpa using hn
        subst this; simp at hx
      | @cons s a s1 as s2 h1 _ ih =>
        intro T hT old ho new hn x hx
        have hone : s.now ≤ s1.now ∧ ∃ n1, s1.fwd = s.fwd ++ n1 ∧ ∀ x ∈ n1, s.now ≤ x.1 := by
          cases a with
          | push p =>
            simp only [step, notify, forwardLater] at h1
            split at h1
            · split at h1
              · simp at h1
              · simp at h1; subst h1; exact ⟨Nat.le_refl _, [], by simp, by simp⟩
            · simp at h1; subst h1; exact ⟨Nat.le_refl _, [], by simp, by simp⟩
            · simp at h1; subst h1; exact ⟨Nat.le_refl _, [], by simp, by simp⟩
          | advance t =>
            simp only [step] at h1
            split at h1
            · simp at h1
            · split at h1
              · next hle => simp at h1; subst h1; exact ⟨hle, [], by simp, by simp⟩
              · simp at h1
          | fire =>
            simp only [step] at h1
            split at h1
            · simp at h1
            · split at h1
              · simp at h1
              · split at h1
                · simp at h1; subst h1; exact ⟨Nat.le_refl _, [], by simp, by simp⟩
                · simp at h1
          | iter i =>
            simp only [step] at h1
            split at h1
            · next boot hph =>
              have body : ∀ (p : Pkt) (q : State), q.now = s.now → q.fwd = s.fwd →
                  offer q boot p = .ok s1 →
                  s.now ≤ s1.now ∧ ∃ n1, s1.fwd = s.fwd ++ n1 ∧ ∀ x ∈ n1, s.now ≤ x.1 := by
                intro p q e1 e3 hq
                unfold offer at hq
                split at hq
                · split at hq
                  · simp at hq; subst hq
                    exact ⟨by simp [e1], [(q.now, p, false)], by simp [e3], by simp [e1]⟩
                  · split at hq
                    · simp at hq
                    · split at hq
                      · simp at hq
                      · simp [forwardLater] at hq; subst hq
                        exact ⟨by simp [e1], [], by simp [e3], by simp⟩
                    · simp at hq; subst hq
                      exact ⟨by simp [e1], [(q.now, p, true)], by simp [e3], by simp [e1]⟩
                · simp at hq; subst hq
                  exact ⟨by simp [e1], [(q.now, p, false)], by simp [e3], by simp [e1]⟩
              unfold iter at h1
              split at h1
              · split at h1
                · simp at h1; subst h1; exact ⟨Nat.le_refl _, [], by simp, by simp⟩
                · simp at h1
              · next p q hsome =>
                unfold take at hsome
                split at hsome
                · simp at hsome; obtain ⟨rfl, rfl⟩ := hsome
                  refine body _ _ ?_ ?_ h1 <;> rfl
                · split at hsome
                  · simp at hsome; obtain ⟨rfl, rfl⟩ := hsome
                    refine body _ _ ?_ ?_ h1 <;> rfl
                  · simp at hsome
            · simp at h1
        obtain ⟨g1, n1, g2, g3⟩ := hone
        -- the rest of the execution extends s1.fwd
        have hext : ∀ {u v : State} {l : List Act}, Steps bootEnd u l v →
            ∃ n, v.fwd = u.fwd ++ n := by
          intro u v l hl
          clear ih hn
          induction hl with
          | nil => exact ⟨[], by simp⟩
          | @cons u a u1 l v hu _ ihl =>
            obtain ⟨n, hn⟩ := ihl
            have : ∃ m, u1.fwd = u.fwd ++ m := by
              cases a with
              | push p =>
                simp only [step, notify, forwardLater] at hu
                split at hu
                · split at hu
                  · simp at hu
                  · simp at hu; subst hu; exact ⟨[], by simp⟩
                · simp at hu; subst hu; exact ⟨[], by simp⟩
                · simp at hu; subst hu; exact ⟨[], by simp⟩
              | advance t =>
                simp only [step] at hu
                split at hu
                · simp at hu
                · split at hu
                  · simp at hu; subst hu; exact ⟨[], by simp⟩
                  · simp at hu
              | fire =>
                simp only [step] at hu
                split at hu
                · simp at hu
                · split at hu
                  · simp at hu
                  · split at hu
                    · simp at hu; subst hu; exact ⟨[], by simp⟩
                    · simp at hu
              | iter i =>
                simp only [step] at hu
                split at hu
                · next boot hph =>
                  have body : ∀ (p : Pkt) (q : State), q.fwd = u.fwd →
                      offer q boot p = .ok u1 → ∃ m, u1.fwd = u.fwd ++ m := by
                    intro p q e3 hq
                    unfold offer at hq
                    split at hq
                    · split at hq
                      · simp at hq; subst hq; exact ⟨[(q.now, p, false)], by simp [e3]⟩
                      · split at hq
                        · simp at hq
                        · split at hq
                          · simp at hq
                          · simp [forwardLater] at hq; subst hq; exact ⟨[], by simp [e3]⟩
                        · simp at hq; subst hq; exact ⟨[(q.now, p, true)], by simp [e3]⟩
                    · simp at hq; subst hq; exact ⟨[(q.now, p, false)], by simp [e3]⟩
                  unfold iter at hu
                  split at hu
                  · split at hu
                    · simp at hu; subst hu; exact ⟨[], by simp⟩
                    · simp at hu
                  · next p q hsome =>
                    unfold take at hsome
                    split at hsome
                    · simp at hsome; obtain ⟨rfl, rfl⟩ := hsome
                      refine body _ _ ?_ hu; rfl
                    · split at hsome
                      · simp at hsome; obtain ⟨rfl, rfl⟩ := hsome
                        refine body _ _ ?_ hu; rfl
                      · simp at hsome
                · simp at hu
            obtain ⟨m, hm⟩ := this
            exact ⟨m ++ n, by rw [hn, hm, List.append_assoc]⟩
        rename_i hrest
        obtain ⟨n2, hn2⟩ := hext hrest
        have hnew' : new = n1 ++ n2 := by
          rw [hn2, g2, ho, List.append_assoc] at hn
          exact (List.append_cancel_left hn).symm
        subst hnew'
        rcases List.mem_append.mp hx with hx | hx
        · have := g3 x hx; omega
        · exact ih T (by omega) s1.fwd rfl n2 hn2 x hx
    exact key h' s.now (Nat.le_refl _) s.fwd rfl new hnew
  have heq : remoteBytes new = limitedBytes new := by
    unfold remoteBytes limitedBytes
    congr 1
    apply List.map_congr_left
    intro x hx
    have hx' : x ∈ s'.fwd := by rw [hnew]; simp [hx]
    have := hf'.2 x hx'
    have hle := htimes x hx
    have hbs' : s'.bucket.isSome := by rw [hsome', hbs]
    cases hl : x.2.1.isLocal with
    | true =>
      have hfl : x.2.2 = false := by
        cases hfl : x.2.2 with
        | false => rfl
        | true => rw [hfl, hl] at this; simp at this
      simp [hfl]
    | false =>
      have hfl : x.2.2 = true := this.mpr ⟨hbs', by omega, hl⟩
      simp [hfl]
  rw [heq]; exact hbound

/-! ## Non-vacuity -/

/-- A relay limited to 1 byte per millisecond with capacity 1501. -/
def exBucket : Bucket := ⟨1501, 1501, 1, 1000000, simStart⟩

/-- Two packets of 1000 bytes: the first leaves at once, the second is held back for 499 ms and then
    leaves. -/
example : exec 0 (init simStart (some exBucket))
    [.push ⟨1, 1000, false⟩, .push ⟨2, 1000, false⟩, .fire, .iter 0, .iter 0,
     .advance (simStart + 499000000), .fire, .iter 0, .iter 0] =
    .ok { now := simStart + 499000000,
          bucket := some ⟨1501, 0, 1, 1000000, simStart + 499000000⟩
          phase := .idle, next := none, tasks := [], src := []
          arrived := [⟨1, 1000, false⟩, ⟨2, 1000, false⟩]
          popped := [⟨1, 1000, false⟩, ⟨2, 1000, false⟩]
          fwd := [(simStart, ⟨1, 1000, false⟩, true),
            (simStart + 499000000, ⟨2, 1000, false⟩, true)] } := by
  decide +kernel

/-- An oversize packet meets the hypotheses of `C13_oversize_blocks_forever` after one attempt. -/
example : exec 0 (init simStart (some exBucket)) [.push ⟨1, 2000, false⟩, .fire, .iter 0] =
    .ok { now := simStart, bucket := some exBucket, phase := .pending
          next := some ⟨1, 2000, false⟩, tasks := [simStart + 499000000], src := []
          arrived := [⟨1, 2000, false⟩], popped := [⟨1, 2000, false⟩], fwd := [] } := by
  decide +kernel

theorem exec_steps {bootEnd : Nat} {s s' : State} {as : List Act} :
    exec bootEnd s as = .ok s' ↔ Steps bootEnd s as s' := by
  induction as generalizing s with
  | nil =>
    simp only [exec, Out.ok.injEq]
    constructor
    · rintro rfl; exact .nil _
    · intro h; cases h; rfl
  | cons a as ih =>
    simp only [exec]
    constructor
    · intro h
      split at h
      · next s1 h1 => exact .cons h1 (ih.mp h)
      · simp at h
      · simp at h
    · intro h
      cases h with
      | cons h1 h2 => rw [h1]; exact ih.mpr h2

end Shadow.Relay
