import Verif.Channel.Model

/-!
# C37: the channel

A history is any interleaving of the steps of the writer, the receiver and the closing threads. The one duty of the users is
the documented one: no `send` while a message is pending, that is before the messages sent so far were received.
-/
namespace Shadow.Channel

open Shadow.Base

variable {M : Type}

/-! ## Histories -/

inductive Run : St M → Prop
  | init : Run St.init
  | step {s s' : St M} {a : Act M} : Run s → (∀ m, a = .send m → s.sent = s.received) → step s a = some (.ok s') → Run s'

/-! ## Lemmas -/

/-- What holds of the writer. -/
def WOk (s : St M) : Prop :=
  match s.w with
  | .idle | .wake => s.word.contents ≠ .writing ∧ (s.word.contents = .empty → s.sent = s.received) ∧
      (s.word.contents = .ready ∨ s.word.contents = .reading → ∃ m, s.cell = some m ∧ s.sent = s.received ++ [m])
  | .claim m => s.word.contents = .empty ∧ s.sent = s.received ++ [m]
  | .claimCas m w => s.word.contents = .empty ∧ w.contents = .empty ∧ s.sent = s.received ++ [m]
  | .write m => s.word.contents = .writing ∧ s.sent = s.received ++ [m]
  | .publish => s.word.contents = .writing ∧ ∃ m, s.cell = some m ∧ s.sent = s.received ++ [m]
  | .publishCas w => s.word.contents = .writing ∧ w.contents = .writing ∧ ∃ m, s.cell = some m ∧ s.sent = s.received ++ [m]

/-- What holds of the receiver. -/
def ROk (s : St M) : Prop :=
  match s.r with
  | .idle | .load => s.word.sleeper = false ∧ s.word.contents ≠ .reading
  | .mark w => s.word.sleeper = false ∧ s.word.contents ≠ .reading ∧ w.sleeper = false ∧ w.closed = false ∧ (w.contents = .empty ∨ w.contents = .writing)
  | .wait w => s.word.sleeper = true ∧ s.word.contents ≠ .reading ∧ w.sleeper = true ∧ w.closed = false ∧ (w.contents = .empty ∨ w.contents = .writing)
  | .asleep => s.word.sleeper = true ∧ s.word.contents ≠ .reading ∧ (s.word.closed = true → ∃ i, s.c i = .wake) ∧ (s.word.contents = .ready → s.w = .wake)
  | .clear | .clearCas _ => s.word.sleeper = true ∧ s.word.contents ≠ .reading
  | .take => s.word.sleeper = false ∧ s.word.contents = .ready
  | .takeCas w => s.word.sleeper = false ∧ s.word.contents = .ready ∧ w.contents = .ready
  | .read => s.word.sleeper = false ∧ s.word.contents = .reading
  | .done m => s.word.sleeper = false ∧ s.word.contents = .reading ∧ s.cell = some m
  | .doneCas m w => s.word.sleeper = false ∧ s.word.contents = .reading ∧ w.contents = .reading ∧ s.cell = some m

/-- Nothing closes the writer but `close_writer`. -/
def COk (s : St M) : Prop := (s.word.closed = true → s.closing = true) ∧ ∀ i, s.c i ≠ .idle → s.closing = true

structure Inv (s : St M) : Prop where
  w : WOk s
  r : ROk s
  c : COk s

theorem assert_if {b : Bool} {x : R α} (h : b = true) : (R.assert b >>= fun _ => x) = x := by rw [h]; rfl

theorem claimRead_inv {s : St M} {m : M} (hw : s.word.contents = .empty ∧ s.sent = s.received ++ [m]) (hr : ROk s) (hc : COk s)
    (hn : s.w ≠ .wake) : ∃ s', claimRead s m = .ok s' ∧ Inv s' := by
  refine ⟨{ s with w := .claimCas m s.word }, by simp [claimRead, hw.1], ⟨hw.1, hw.1, hw.2⟩, ?_, hc⟩
  unfold ROk at hr ⊢
  cases h : s.r <;> simp_all

theorem publishRead_inv {s : St M} (hw : s.word.contents = .writing ∧ ∃ m, s.cell = some m ∧ s.sent = s.received ++ [m]) (hr : ROk s) (hc : COk s)
    (hn : s.w ≠ .wake) : ∃ s', publishRead s = .ok s' ∧ Inv s' := by
  refine ⟨{ s with w := .publishCas s.word }, by simp [publishRead, hw.1], ⟨hw.1, hw.1, hw.2⟩, ?_, hc⟩
  unfold ROk at hr ⊢
  cases h : s.r <;> simp_all

theorem wstep_inv {s : St M} (hi : Inv s) {x : R (St M)} (h : wstep s = some x) : ∃ s', x = .ok s' ∧ Inv s' := by
  obtain ⟨hw, hr, hc⟩ := hi
  unfold wstep at h
  unfold WOk at hw
  cases hp : s.w with
  | idle => simp [hp] at h
  | claim m =>
    simp only [hp] at h hw
    cases h
    exact claimRead_inv hw hr hc (by simp [hp])
  | claimCas m w =>
    simp only [hp] at h hw
    cases h
    by_cases he : s.word = w
    · rw [if_pos he]
      subst he
      refine ⟨_, rfl, ?_, ?_, hc⟩
      · simp_all [WOk]
      · unfold ROk at hr ⊢
        cases h : s.r <;> simp_all
    · rw [if_neg he]
      exact claimRead_inv ⟨hw.1, hw.2.2⟩ hr hc (by simp [hp])
  | write m =>
    simp only [hp] at h hw
    cases h
    refine ⟨_, rfl, ?_, ?_, hc⟩
    · simp_all [WOk]
    · unfold ROk at hr ⊢
      cases h : s.r <;> simp_all
  | publish =>
    simp only [hp] at h hw
    cases h
    exact publishRead_inv hw hr hc (by simp [hp])
  | publishCas w =>
    simp only [hp] at h hw
    cases h
    by_cases he : s.word = w
    · rw [if_pos he]
      subst he
      refine ⟨_, rfl, ?_, ?_, hc⟩
      · unfold WOk
        obtain ⟨_, _, hm⟩ := hw
        cases hsl : s.word.sleeper <;> simp [hm]
      · unfold ROk at hr ⊢
        cases h : s.r <;> simp_all
    · rw [if_neg he]
      exact publishRead_inv ⟨hw.1, hw.2.2⟩ hr hc (by simp [hp])
  | wake =>
    simp only [hp] at h hw
    cases h
    refine ⟨_, rfl, ?_, ?_, hc⟩
    · simpa [WOk] using hw
    · unfold ROk at hr ⊢
      cases h : s.r <;> simp_all [wakeOne]

theorem wspur_inv {s : St M} (hi : Inv s) {x : R (St M)} (h : wspur s = some x) : ∃ s', x = .ok s' ∧ Inv s' := by
  obtain ⟨hw, hr, hc⟩ := hi
  unfold wspur at h
  unfold WOk at hw
  cases hp : s.w <;> simp only [hp] at h hw <;> try cases h
  · exact claimRead_inv ⟨hw.1, hw.2.2⟩ hr hc (by simp [hp])
  · exact publishRead_inv ⟨hw.1, hw.2.2⟩ hr hc (by simp [hp])

/-- The writer does not look at the receiver. -/
theorem WOk.congr {s s' : St M} (h : WOk s) (h1 : s'.w = s.w) (h2 : s'.word.contents = s.word.contents) (h3 : s'.cell = s.cell) (h4 : s'.sent = s.sent)
    (h5 : s'.received = s.received) : WOk s' := by
  unfold WOk at h ⊢
  rw [h1, h2, h3, h4, h5]
  exact h

theorem enter_inv {s : St M} {w : Word} (hi : WOk s) (hc : COk s) (he : s.word = w) (hs : w.sleeper = false)
    (hn : w.contents ≠ .reading) : ∃ s', enter s w = .ok s' ∧ Inv s' := by
  subst he
  unfold enter
  by_cases h1 : s.word.contents = .ready
  · rw [if_pos h1]
    exact ⟨_, rfl, hi.congr rfl rfl rfl rfl rfl, ⟨hs, h1⟩, hc⟩
  · rw [if_neg h1]
    by_cases h2 : s.word.closed
    · rw [if_pos h2]
      exact ⟨_, rfl, hi.congr rfl rfl rfl rfl rfl, ⟨hs, hn⟩, hc⟩
    · rw [if_neg h2]
      have h3 : s.word.contents = .empty ∨ s.word.contents = .writing := by
        cases h : s.word.contents <;> simp_all
      rw [assert_if (decide_eq_true h3), assert_if (by rw [hs]; rfl)]
      exact ⟨_, rfl, hi.congr rfl rfl rfl rfl rfl, ⟨hs, hn, hs, by simpa using h2, h3⟩, hc⟩

theorem takeRead_inv {s : St M} (hi : WOk s) (hc : COk s) (hs : s.word.sleeper = false) (hn : s.word.contents = .ready) :
    ∃ s', takeRead s = .ok s' ∧ Inv s' :=
  ⟨{ s with r := .takeCas s.word }, by simp [takeRead, hn], hi.congr rfl rfl rfl rfl rfl, ⟨hs, hn, hn⟩, hc⟩

theorem doneRead_inv {s : St M} {m : M} (hi : WOk s) (hc : COk s) (hs : s.word.sleeper = false) (hn : s.word.contents = .reading)
    (hm : s.cell = some m) : ∃ s', doneRead s m = .ok s' ∧ Inv s' :=
  ⟨{ s with r := .doneCas m s.word }, by simp [doneRead, hn], hi.congr rfl rfl rfl rfl rfl, ⟨hs, hn, hn, hm⟩, hc⟩

/-- While the message is there or being read the writer is not in `send`. -/
theorem wok_ready {s : St M} (h : WOk s) (hc : s.word.contents = .ready ∨ s.word.contents = .reading) :
    (s.w = .idle ∨ s.w = .wake) ∧ ∃ m, s.cell = some m ∧ s.sent = s.received ++ [m] := by
  unfold WOk at h
  cases hw : s.w <;> simp only [hw] at h
  · exact ⟨Or.inl rfl, h.2.2 hc⟩
  · rcases hc with hc | hc <;> rw [hc] at h <;> simp at h
  · rcases hc with hc | hc <;> rw [hc] at h <;> simp at h
  · rcases hc with hc | hc <;> rw [hc] at h <;> simp at h
  · rcases hc with hc | hc <;> rw [hc] at h <;> simp at h
  · rcases hc with hc | hc <;> rw [hc] at h <;> simp at h
  · exact ⟨Or.inr rfl, h.2.2 hc⟩

theorem rstep_inv {s : St M} (hi : Inv s) {x : R (St M)} (h : rstep s = some x) : ∃ s', x = .ok s' ∧ Inv s' := by
  obtain ⟨hw, hr, hc⟩ := hi
  unfold rstep at h
  unfold ROk at hr
  cases hp : s.r with
  | idle => simp [hp] at h
  | load =>
    simp only [hp] at h hr
    cases h
    exact enter_inv hw hc rfl hr.1 hr.2
  | mark w =>
    simp only [hp] at h hr
    cases h
    by_cases he : s.word = w
    · rw [if_pos he]
      subst he
      exact ⟨_, rfl, hw.congr rfl rfl rfl rfl rfl, ⟨rfl, hr.2.1, rfl, hr.2.2.2.1, hr.2.2.2.2⟩, hc⟩
    · rw [if_neg he]
      exact enter_inv hw hc rfl hr.1 hr.2.1
  | wait w =>
    simp only [hp] at h hr
    cases h
    refine ⟨_, rfl, hw.congr rfl rfl rfl rfl rfl, ?_, hc⟩
    by_cases he : s.word = w
    · subst he
      unfold ROk
      simp only [if_true]
      refine ⟨hr.1, hr.2.1, fun hcl => ?_, fun hcl => ?_⟩
      · rw [hr.2.2.2.1] at hcl; cases hcl
      · rcases hr.2.2.2.2 with h | h <;> rw [h] at hcl <;> cases hcl
    · unfold ROk
      simp only [he, if_false]
      exact ⟨hr.1, hr.2.1⟩
  | asleep => simp [hp] at h
  | clear =>
    simp only [hp] at h hr
    cases h
    exact ⟨_, rfl, hw.congr rfl rfl rfl rfl rfl, hr, hc⟩
  | clearCas w =>
    simp only [hp] at h hr
    cases h
    by_cases he : s.word = w
    · rw [if_pos he]
      subst he
      exact enter_inv (hw.congr rfl rfl rfl rfl rfl) hc rfl rfl hr.2
    · rw [if_neg he]
      exact ⟨_, rfl, hw.congr rfl rfl rfl rfl rfl, hr, hc⟩
  | take =>
    simp only [hp] at h hr
    cases h
    exact takeRead_inv hw hc hr.1 hr.2
  | takeCas w =>
    simp only [hp] at h hr
    cases h
    by_cases he : s.word = w
    · rw [if_pos he]
      subst he
      refine ⟨_, rfl, ?_, ⟨hr.1, rfl⟩, hc⟩
      obtain ⟨h1, h2⟩ := wok_ready hw (Or.inl hr.2.1)
      unfold WOk
      rcases h1 with h1 | h1 <;> simp [h1, h2]
    · rw [if_neg he]
      exact takeRead_inv hw hc hr.1 hr.2.1
  | read =>
    simp only [hp] at h hr
    cases h
    obtain ⟨_, m, hm, _⟩ := wok_ready hw (Or.inr hr.2)
    rw [hm]
    exact ⟨_, rfl, hw.congr rfl rfl hm.symm rfl rfl, ⟨hr.1, hr.2, rfl⟩, hc⟩
  | done m =>
    simp only [hp] at h hr
    cases h
    exact doneRead_inv hw hc hr.1 hr.2.1 hr.2.2
  | doneCas m w =>
    simp only [hp] at h hr
    cases h
    by_cases he : s.word = w
    · rw [if_pos he]
      subst he
      refine ⟨_, rfl, ?_, ⟨hr.1, by simp⟩, hc⟩
      obtain ⟨h1, m', h2, h3⟩ := wok_ready hw (Or.inr hr.2.1)
      rw [hr.2.2.2] at h2
      cases h2
      unfold WOk
      rcases h1 with h1 | h1 <;> simp [h1, h3]
    · rw [if_neg he]
      exact doneRead_inv hw hc hr.1 hr.2.1 hr.2.2.2

theorem rspur_inv {s : St M} (hi : Inv s) {x : R (St M)} (h : rspur s = some x) : ∃ s', x = .ok s' ∧ Inv s' := by
  obtain ⟨hw, hr, hc⟩ := hi
  unfold rspur at h
  unfold ROk at hr
  cases hp : s.r <;> simp only [hp] at h hr <;> try cases h
  · exact ⟨_, rfl, hw.congr rfl rfl rfl rfl rfl, ⟨hr.1, hr.2.1⟩, hc⟩
  · exact ⟨_, rfl, hw.congr rfl rfl rfl rfl rfl, ⟨hr.1, hr.2.1⟩, hc⟩
  · exact ⟨_, rfl, hw.congr rfl rfl rfl rfl rfl, hr, hc⟩
  · exact takeRead_inv hw hc hr.1 hr.2.1
  · exact doneRead_inv hw hc hr.1 hr.2.1 hr.2.2.2

theorem setC_self {c : Nat → CPc} {i : Nat} {p : CPc} : setC c i p i = p := by simp [setC]

theorem setC_ne {c : Nat → CPc} {i j : Nat} {p : CPc} (h : j ≠ i) : setC c i p j = c j := by simp [setC, h]

/-- A closing thread that is not at its wake-up moves. -/
theorem ROk.setC {s : St M} (h : ROk s) {i : Nat} {p : CPc} (hn : s.c i ≠ .wake) {b : Bool} : ROk { s with c := setC s.c i p, closing := b } := by
  unfold ROk at h ⊢
  cases hp : s.r <;> simp only [hp] at h ⊢ <;> try exact h
  refine ⟨h.1, h.2.1, fun hcl => ?_, h.2.2.2⟩
  obtain ⟨j, hj⟩ := h.2.2.1 hcl
  have hne : j ≠ i := by intro he; subst he; exact hn hj
  exact ⟨j, by rw [← hj]; exact setC_ne hne⟩

theorem COk.setC {s : St M} (h : COk s) {i : Nat} {p : CPc} (hn : s.c i ≠ .idle) : COk { s with c := setC s.c i p } := by
  refine ⟨h.1, fun j hj => ?_⟩
  exact h.2 i hn

theorem cread_inv {s : St M} (hi : Inv s) {i : Nat} (hn : s.c i ≠ .wake) (hn' : s.c i ≠ .idle) : Inv { s with c := setC s.c i (.cas s.word) } :=
  ⟨hi.w.congr rfl rfl rfl rfl rfl, ROk.setC (b := s.closing) hi.r hn, hi.c.setC hn'⟩

theorem cstep_inv {s : St M} (hi : Inv s) {i : Nat} {x : R (St M)} (h : cstep s i = some x) : ∃ s', x = .ok s' ∧ Inv s' := by
  unfold cstep at h
  cases hp : s.c i with
  | idle => simp [hp] at h
  | load =>
    simp only [hp] at h
    cases h
    exact ⟨_, rfl, cread_inv hi (by simp [hp]) (by simp [hp])⟩
  | cas w =>
    simp only [hp] at h
    cases h
    by_cases he : s.word = w
    · rw [if_pos he]
      subst he
      refine ⟨_, rfl, hi.w.congr rfl rfl rfl rfl rfl, ?_, fun _ => hi.c.2 i (by simp [hp]), fun _ _ => hi.c.2 i (by simp [hp])⟩
      have hr := hi.r
      unfold ROk at hr ⊢
      cases hpr : s.r <;> simp only [hpr] at hr ⊢ <;> try exact hr
      refine ⟨hr.1, hr.2.1, fun _ => ⟨i, ?_⟩, hr.2.2.2⟩
      rw [setC_self, hr.1]; rfl
    · rw [if_neg he]
      exact ⟨_, rfl, cread_inv hi (by simp [hp]) (by simp [hp])⟩
  | wake =>
    simp only [hp] at h
    cases h
    refine ⟨_, rfl, hi.w.congr rfl rfl rfl rfl rfl, ?_, hi.c.1, fun _ _ => hi.c.2 i (by simp [hp])⟩
    have hr := hi.r
    unfold ROk at hr ⊢
    cases hpr : s.r <;> simp only [hpr, wakeOne] at hr ⊢ <;> try exact hr
    exact ⟨hr.1, hr.2.1⟩

theorem cspur_inv {s : St M} (hi : Inv s) {i : Nat} {x : R (St M)} (h : cspur s i = some x) : ∃ s', x = .ok s' ∧ Inv s' := by
  unfold cspur at h
  cases hp : s.c i <;> simp only [hp] at h <;> try cases h
  exact ⟨_, rfl, cread_inv hi (by simp [hp]) (by simp [hp])⟩

theorem step_inv {s : St M} {a : Act M} (hi : Inv s) (hs : ∀ m, a = .send m → s.sent = s.received) {x : R (St M)} (h : step s a = some x) :
    ∃ s', x = .ok s' ∧ Inv s' := by
  cases a with
  | send m =>
    have hsr := hs m rfl
    unfold step at h
    cases hp : s.w <;> simp only [hp] at h <;> try cases h
    refine ⟨_, rfl, ?_, ?_, hi.c⟩
    · have hw := hi.w
      unfold WOk at hw ⊢
      simp only [hp] at hw
      refine ⟨?_, by rw [hsr]⟩
      cases hcn : s.word.contents with
      | empty => rfl
      | writing => exact absurd hcn hw.1
      | ready =>
        obtain ⟨m', _, h⟩ := hw.2.2 (Or.inl hcn)
        rw [hsr] at h; simp at h
      | reading =>
        obtain ⟨m', _, h⟩ := hw.2.2 (Or.inr hcn)
        rw [hsr] at h; simp at h
    · have hr := hi.r
      unfold ROk at hr ⊢
      cases hpr : s.r <;> simp_all
  | w => exact wstep_inv hi h
  | wspur => exact wspur_inv hi h
  | receive =>
    unfold step at h
    have hr := hi.r
    unfold ROk at hr
    cases hp : s.r <;> simp only [hp] at h hr <;> try cases h
    exact ⟨_, rfl, hi.w.congr rfl rfl rfl rfl rfl, hr, hi.c⟩
  | r => exact rstep_inv hi h
  | rspur => exact rspur_inv hi h
  | close i =>
    unfold step at h
    cases hp : s.c i <;> simp only [hp] at h <;> try cases h
    exact ⟨_, rfl, hi.w.congr rfl rfl rfl rfl rfl, hi.r.setC (by simp [hp]), fun _ => rfl, fun _ _ => rfl⟩
  | c i => exact cstep_inv hi h
  | cspur i => exact cspur_inv hi h

theorem init_inv : Inv (St.init : St M) := by
  refine ⟨?_, ?_, by simp [St.init], by simp [St.init]⟩
  · simp [WOk, St.init]
  · simp [ROk, St.init]

theorem run_inv {s : St M} (h : Run s) : Inv s := by
  induction h with
  | init => exact init_inv
  | step _ hs h ih =>
    obtain ⟨s', h1, h2⟩ := step_inv ih hs h
    cases h1
    exact h2

/-! ## Theorems -/

/-- The state survives the trip through the 32-bit word. -/
theorem C37_word (w : Word) : Word.decode w.encode = .ok w ∧ w.encode < 2 ^ 32 := by
  obtain ⟨c, s, k⟩ := w
  cases c <;> cases s <;> cases k <;> exact ⟨rfl, by decide⟩

/-- No assertion fails, whatever the interleaving. -/
theorem C37_no_panic {s : St M} (h : Run s) {a : Act M} (ha : ∀ m, a = .send m → s.sent = s.received) : step s a ≠ some .panic := by
  intro hp
  obtain ⟨s', h1, _⟩ := step_inv (run_inv h) ha hp
  cases h1

/-- The messages received are the messages sent, in order, each once and unchanged; at most one is under way. -/
theorem C37_messages {s : St M} (h : Run s) : s.sent = s.received ∨ ∃ m, s.sent = s.received ++ [m] := by
  have hw := (run_inv h).w
  unfold WOk at hw
  cases hp : s.w <;> simp only [hp] at hw
  · cases hc : s.word.contents with
    | empty => exact Or.inl (hw.2.1 hc)
    | writing => exact absurd hc hw.1
    | ready => obtain ⟨m, _, h⟩ := hw.2.2 (Or.inl hc); exact Or.inr ⟨m, h⟩
    | reading => obtain ⟨m, _, h⟩ := hw.2.2 (Or.inr hc); exact Or.inr ⟨m, h⟩
  · exact Or.inr ⟨_, hw.2⟩
  · exact Or.inr ⟨_, hw.2.2⟩
  · exact Or.inr ⟨_, hw.2⟩
  · obtain ⟨m, _, h⟩ := hw.2; exact Or.inr ⟨m, h⟩
  · obtain ⟨m, _, h⟩ := hw.2.2; exact Or.inr ⟨m, h⟩
  · cases hc : s.word.contents with
    | empty => exact Or.inl (hw.2.1 hc)
    | writing => exact absurd hc hw.1
    | ready => obtain ⟨m, _, h⟩ := hw.2.2 (Or.inl hc); exact Or.inr ⟨m, h⟩
    | reading => obtain ⟨m, _, h⟩ := hw.2.2 (Or.inr hc); exact Or.inr ⟨m, h⟩

/-- Once `send` has returned, the message stays until it is received: with the receiver outside of `receive` the channel holds
    exactly the message under way, and this is what is destroyed with the channel. -/
theorem C37_pending {s : St M} (h : Run s) (hw : s.w = .idle) (hr : s.r = .idle) :
    s.sent = s.received ++ s.dropped.toList ∧ (s.word.contents = .ready ↔ s.sent ≠ s.received) := by
  have hi := run_inv h
  have h1 := hi.w
  have h2 := hi.r
  unfold WOk at h1
  unfold ROk at h2
  simp only [hw] at h1
  simp only [hr] at h2
  unfold St.dropped
  cases hc : s.word.contents with
  | empty => simp [h1.2.1 hc]
  | writing => exact absurd hc h1.1
  | ready =>
    obtain ⟨m, h3, h4⟩ := h1.2.2 (Or.inl hc)
    simp [h3, h4]
  | reading => exact absurd hc h2.2

/-- The writer and the receiver are never at the message at the same time, and the message is there when it is read. -/
theorem C37_exclusive {s : St M} (h : Run s) (hr : s.r = .read) : (∀ m, s.w ≠ .write m) ∧ ∃ m, s.cell = some m := by
  have hi := run_inv h
  have h2 := hi.r
  unfold ROk at h2
  simp only [hr] at h2
  obtain ⟨h3, m, hm, _⟩ := wok_ready hi.w (Or.inr h2.2)
  exact ⟨fun m' he => by rw [he] at h3; simp at h3, m, hm⟩

/-- No lost wake-up: if the receiver sleeps although a message is ready or the writer is closed, then a thread is about to wake
    it up. -/
theorem C37_wake {s : St M} (h : Run s) (hr : s.r = .asleep) :
    (s.word.contents = .ready → s.w = .wake) ∧ (s.word.closed = true → ∃ i, s.c i = .wake) := by
  have h2 := (run_inv h).r
  unfold ROk at h2
  simp only [hr] at h2
  exact ⟨h2.2.2.2, h2.2.2.1⟩

/-- ... and its next step does wake it up. -/
theorem C37_woken {s : St M} (hr : s.r = .asleep) :
    (s.w = .wake → ∃ s', step s .w = some (.ok s') ∧ s'.r = .clear) ∧ (∀ i, s.c i = .wake → ∃ s', step s (.c i) = some (.ok s') ∧ s'.r = .clear) := by
  constructor
  · intro hw
    exact ⟨{ s with w := .idle, r := wakeOne s.r }, by simp [step, wstep, hw], by rw [hr]; rfl⟩
  · intro i hi
    exact ⟨{ s with c := setC s.c i .idle, r := wakeOne s.r }, by simp [step, cstep, hi], by rw [hr]; rfl⟩

/-- Both together: all threads being at rest, no receiver sleeps beside a message or a closed writer. -/
theorem C37_not_left {s : St M} (h : Run s) (hw : s.w = .idle) (hc : ∀ i, s.c i = .idle) (hp : s.word.contents = .ready ∨ s.word.closed = true) :
    s.r ≠ .asleep := by
  intro hr
  obtain ⟨h1, h2⟩ := C37_wake h hr
  rcases hp with hp | hp
  · rw [h1 hp] at hw; cases hw
  · obtain ⟨i, hi⟩ := h2 hp
    rw [hc i] at hi; cases hi

/-- `receive` fails only when the writer is closed and no message is ready, at that moment; and only if `close_writer` was
    called. -/
theorem C37_error {s s' : St M} {a : Act M} (h : Run s) (ha : ∀ m, a = .send m → s.sent = s.received) (hs : step s a = some (.ok s'))
    (he : s'.errors ≠ s.errors) : s.word.closed = true ∧ s.word.contents ≠ .ready ∧ s.closing = true ∧ s'.r = .idle := by
  have hi := run_inv h
  have key : ∀ {t t' : St M} {w : Word}, enter t w = .ok t' → t'.errors ≠ t.errors → w.closed = true ∧ w.contents ≠ .ready ∧ t'.r = .idle := by
    intro t t' w ht hn
    unfold enter at ht
    by_cases h1 : w.contents = .ready
    · rw [if_pos h1] at ht; cases ht; exact absurd rfl hn
    · rw [if_neg h1] at ht
      by_cases h2 : w.closed
      · rw [if_pos h2] at ht; cases ht; exact ⟨h2, h1, rfl⟩
      · rw [if_neg h2] at ht
        obtain ⟨_, _, ht⟩ := R.bind_eq_ok.mp ht
        obtain ⟨_, _, ht⟩ := R.bind_eq_ok.mp ht
        cases ht; exact absurd rfl hn
  have hread : ∀ {t : St M} {m : M}, claimRead t m = .ok s' → s'.errors = t.errors := by
    intro t m ht; obtain ⟨_, _, ht⟩ := R.bind_eq_ok.mp ht; cases ht; rfl
  have hread2 : ∀ {t : St M}, publishRead t = .ok s' → s'.errors = t.errors := by
    intro t ht; obtain ⟨_, _, ht⟩ := R.bind_eq_ok.mp ht; cases ht; rfl
  have hread3 : ∀ {t : St M}, takeRead t = .ok s' → s'.errors = t.errors := by
    intro t ht; obtain ⟨_, _, ht⟩ := R.bind_eq_ok.mp ht; cases ht; rfl
  have hread4 : ∀ {t : St M} {m : M}, doneRead t m = .ok s' → s'.errors = t.errors := by
    intro t m ht; obtain ⟨_, _, ht⟩ := R.bind_eq_ok.mp ht; cases ht; rfl
  cases a with
  | r =>
    have hs : rstep s = some (.ok s') := hs
    unfold rstep at hs
    cases hp : s.r <;> simp only [hp] at hs
    case idle => cases hs
    case load =>
      obtain ⟨k1, k2, k3⟩ := key (Option.some.inj hs) he
      exact ⟨k1, k2, hi.c.1 k1, k3⟩
    case mark w =>
      by_cases hw : s.word = w
      · rw [if_pos hw] at hs; cases hs; exact absurd rfl he
      · rw [if_neg hw] at hs
        obtain ⟨k1, k2, k3⟩ := key (Option.some.inj hs) he
        exact ⟨k1, k2, hi.c.1 k1, k3⟩
    case wait w => cases hs; exact absurd rfl he
    case asleep => cases hs
    case clear => cases hs; exact absurd rfl he
    case clearCas w =>
      by_cases hw : s.word = w
      · rw [if_pos hw] at hs
        subst hw
        obtain ⟨k1, k2, k3⟩ := key (Option.some.inj hs) he
        exact ⟨k1, k2, hi.c.1 k1, k3⟩
      · rw [if_neg hw] at hs; cases hs; exact absurd rfl he
    case take => exact absurd (hread3 (Option.some.inj hs)) he
    case takeCas w =>
      by_cases hw : s.word = w
      · rw [if_pos hw] at hs; cases hs; exact absurd rfl he
      · rw [if_neg hw] at hs; exact absurd (hread3 (Option.some.inj hs)) he
    case read =>
      obtain ⟨_, _, ht⟩ := R.bind_eq_ok.mp (Option.some.inj hs)
      cases ht; exact absurd rfl he
    case done m => exact absurd (hread4 (Option.some.inj hs)) he
    case doneCas m w =>
      by_cases hw : s.word = w
      · rw [if_pos hw] at hs; cases hs; exact absurd rfl he
      · rw [if_neg hw] at hs; exact absurd (hread4 (Option.some.inj hs)) he
  | send m =>
    unfold step at hs
    cases hp : s.w <;> simp only [hp] at hs <;> cases hs
    exact absurd rfl he
  | w =>
    have hs : wstep s = some (.ok s') := hs
    unfold wstep at hs
    cases hp : s.w <;> simp only [hp] at hs
    case idle => cases hs
    case claim m => exact absurd (hread (Option.some.inj hs)) he
    case claimCas m w =>
      by_cases hw : s.word = w
      · rw [if_pos hw] at hs; cases hs; exact absurd rfl he
      · rw [if_neg hw] at hs; exact absurd (hread (Option.some.inj hs)) he
    case write m => cases hs; exact absurd rfl he
    case publish => exact absurd (hread2 (Option.some.inj hs)) he
    case publishCas w =>
      by_cases hw : s.word = w
      · rw [if_pos hw] at hs; cases hs; exact absurd rfl he
      · rw [if_neg hw] at hs; exact absurd (hread2 (Option.some.inj hs)) he
    case wake => cases hs; exact absurd rfl he
  | wspur =>
    have hs : wspur s = some (.ok s') := hs
    unfold wspur at hs
    cases hp : s.w <;> simp only [hp] at hs <;> try cases hs
    · exact absurd (hread (Option.some.inj hs)) he
    · exact absurd (hread2 (Option.some.inj hs)) he
  | receive =>
    unfold step at hs
    cases hp : s.r <;> simp only [hp] at hs <;> cases hs
    exact absurd rfl he
  | rspur =>
    have hs : rspur s = some (.ok s') := hs
    unfold rspur at hs
    cases hp : s.r <;> simp only [hp] at hs <;> try cases hs
    · exact absurd rfl he
    · exact absurd rfl he
    · exact absurd rfl he
    · exact absurd (hread3 (Option.some.inj hs)) he
    · exact absurd (hread4 (Option.some.inj hs)) he
  | close i =>
    unfold step at hs
    cases hp : s.c i <;> simp only [hp] at hs <;> cases hs
    exact absurd rfl he
  | c i =>
    have hs : cstep s i = some (.ok s') := hs
    unfold cstep at hs
    cases hp : s.c i <;> simp only [hp] at hs <;> try cases hs
    · exact absurd rfl he
    · by_cases hw : s.word = ‹Word›
      · rw [if_pos hw] at he; exact absurd rfl he
      · rw [if_neg hw] at he; exact absurd rfl he
    · exact absurd rfl he
  | cspur i =>
    have hs : cspur s i = some (.ok s') := hs
    unfold cspur at hs
    cases hp : s.c i <;> simp only [hp] at hs <;> try cases hs
    exact absurd rfl he

/-! ### A receiver with something to receive can finish -/

/-- Steps of the receiver and wake-ups under way. -/
inductive Steps : St M → St M → Prop
  | refl {s : St M} : Steps s s
  | step {s s' s'' : St M} {a : Act M} : (a = .r ∨ (a = .w ∧ s.w = .wake) ∨ ∃ i, a = .c i ∧ s.c i = .wake) → step s a = some (.ok s') →
      Steps s' s'' → Steps s s''

/-- The receiver returns with the message, or with the error. -/
def Finishes (s : St M) : Prop :=
  ∃ s', Steps s s' ∧ s'.r = .idle ∧ ((s'.received = s.sent ∧ s'.errors = s.errors) ∨ (s.word.contents ≠ .ready ∧ s'.received = s.received ∧ s'.errors = s.errors + 1))

theorem Finishes.r {s s' : St M} (h : Finishes s') (hs : rstep s = some (.ok s')) (h1 : s'.sent = s.sent) (h2 : s'.errors = s.errors)
    (h3 : s'.word.contents = s.word.contents) (h4 : s'.received = s.received) : Finishes s := by
  obtain ⟨t, ht, hi, hf⟩ := h
  refine ⟨t, .step (Or.inl rfl) hs ht, hi, ?_⟩
  rw [h1, h2, h3, h4] at hf
  exact hf

theorem fin_done {s : St M} {m : M} (hr : s.r = .doneCas m s.word) (hm : s.sent = s.received ++ [m]) : ∃ s', Steps s s' ∧ s'.r = .idle ∧ s'.received = s.sent ∧ s'.errors = s.errors := by
  refine ⟨{ s with word := { s.word with contents := .empty }, r := .idle, received := s.received ++ [m] }, .step (a := .r) (Or.inl rfl) ?_ .refl, rfl, hm.symm, rfl⟩
  simp [step, rstep, hr]

theorem fin_doneRead {s : St M} {m : M} (hc : s.word.contents = .reading) (hm : s.sent = s.received ++ [m]) (hr : (∃ w, s.r = .doneCas m w) ∨ s.r = .done m) :
    ∃ s', Steps s s' ∧ s'.r = .idle ∧ s'.received = s.sent ∧ s'.errors = s.errors := by
  obtain ⟨s', h1, h2, h3, h4⟩ := fin_done (s := { s with r := .doneCas m s.word }) rfl hm
  have go : ∀ {x : St M}, Steps { s with r := RPc.doneCas m s.word } x → rstep s = some (.ok { s with r := RPc.doneCas m s.word }) → Steps s x :=
    fun hx he => .step (Or.inl rfl) (show step s .r = _ from he) hx
  rcases hr with ⟨w, hr⟩ | hr
  · by_cases he : s.word = w
    · subst he; exact fin_done hr hm
    · exact ⟨s', go h1 (by simp [rstep, hr, he, doneRead, hc]), h2, h3, h4⟩
  · exact ⟨s', go h1 (by simp [rstep, hr, doneRead, hc]), h2, h3, h4⟩

theorem fin_read {s : St M} {m : M} (hc : s.word.contents = .reading) (hcell : s.cell = some m) (hm : s.sent = s.received ++ [m]) (hr : s.r = .read) :
    ∃ s', Steps s s' ∧ s'.r = .idle ∧ s'.received = s.sent ∧ s'.errors = s.errors := by
  obtain ⟨s', h1, h2, h3, h4⟩ := fin_doneRead (s := { s with r := .done m }) hc hm (Or.inr rfl)
  exact ⟨s', .step (a := .r) (Or.inl rfl) (by simp [step, rstep, hr, hcell]) h1, h2, h3, h4⟩

theorem fin_takeCas {s : St M} {m : M} (hcell : s.cell = some m) (hm : s.sent = s.received ++ [m]) (hr : s.r = .takeCas s.word) :
    ∃ s', Steps s s' ∧ s'.r = .idle ∧ s'.received = s.sent ∧ s'.errors = s.errors := by
  obtain ⟨s', h1, h2, h3, h4⟩ := fin_read (s := { s with word := { s.word with contents := .reading }, r := .read }) rfl hcell hm rfl
  exact ⟨s', .step (a := .r) (Or.inl rfl) (by simp [step, rstep, hr]) h1, h2, h3, h4⟩

theorem fin_take {s : St M} {m : M} (hc : s.word.contents = .ready) (hcell : s.cell = some m) (hm : s.sent = s.received ++ [m])
    (hr : (∃ w, s.r = .takeCas w) ∨ s.r = .take) : ∃ s', Steps s s' ∧ s'.r = .idle ∧ s'.received = s.sent ∧ s'.errors = s.errors := by
  obtain ⟨s', h1, h2, h3, h4⟩ := fin_takeCas (s := { s with r := .takeCas s.word }) hcell hm rfl
  have go : rstep s = some (.ok { s with r := RPc.takeCas s.word }) → Steps s s' := fun he => .step (a := .r) (Or.inl rfl) he h1
  rcases hr with ⟨w, hr⟩ | hr
  · by_cases he : s.word = w
    · subst he; exact fin_takeCas hcell hm hr
    · exact ⟨s', go (by simp [rstep, hr, he, takeRead, hc]), h2, h3, h4⟩
  · exact ⟨s', go (by simp [rstep, hr, takeRead, hc]), h2, h3, h4⟩

theorem wok_cell {s : St M} (h : WOk s) (hc : s.word.contents = .ready) : ∃ m, s.cell = some m ∧ s.sent = s.received ++ [m] := (wok_ready h (Or.inl hc)).2

/-- Where the loop goes with the present value. -/
theorem fin_enter {s : St M} (hw : WOk s) (hp : s.word.contents = .ready ∨ s.word.closed = true) :
    ∃ s1, enter s s.word = .ok s1 ∧ s1.word = s.word ∧ s1.sent = s.sent ∧
      ∃ s', Steps s1 s' ∧ s'.r = .idle ∧ ((s'.received = s.sent ∧ s'.errors = s.errors) ∨ (s.word.contents ≠ .ready ∧ s'.received = s.received ∧ s'.errors = s.errors + 1)) := by
  by_cases hc : s.word.contents = .ready
  · obtain ⟨m, h1, h2⟩ := wok_cell hw hc
    obtain ⟨s', e1, e2, e3, e4⟩ := fin_take (s := { s with r := .take }) hc h1 h2 (Or.inr rfl)
    exact ⟨{ s with r := .take }, by simp [enter, hc], rfl, rfl, s', e1, e2, Or.inl ⟨e3, e4⟩⟩
  · have hcl : s.word.closed = true := by rcases hp with h | h; exact absurd h hc; exact h
    exact ⟨{ s with r := .idle, errors := s.errors + 1 }, by simp [enter, hc, hcl], rfl, rfl, _, .refl, rfl, Or.inr ⟨hc, rfl, rfl⟩⟩

theorem fin_clearCas {s : St M} (hw : WOk s) (hp : s.word.contents = .ready ∨ s.word.closed = true) (hr : s.r = .clearCas s.word) : Finishes s := by
  obtain ⟨s1, h1, _, _, s', h3, h4, h5⟩ := fin_enter (s := { s with word := { s.word with sleeper := false } }) (hw.congr rfl rfl rfl rfl rfl) hp
  refine ⟨s', .step (a := .r) (Or.inl rfl) (s' := s1) ?_ h3, h4, h5⟩
  simp only [hr] at h1
  simp only [step, rstep, hr, if_true]
  rw [h1]

theorem fin_clear {s : St M} (hw : WOk s) (hp : s.word.contents = .ready ∨ s.word.closed = true) (hr : (∃ w, s.r = .clearCas w) ∨ s.r = .clear) : Finishes s := by
  have h1 := fin_clearCas (s := { s with r := .clearCas s.word }) (hw.congr rfl rfl rfl rfl rfl) hp rfl
  rcases hr with ⟨w, hr⟩ | hr
  · by_cases he : s.word = w
    · subst he; exact fin_clearCas hw hp hr
    · exact h1.r (by simp [rstep, hr, he]) rfl rfl rfl rfl
  · exact h1.r (by simp [rstep, hr]) rfl rfl rfl rfl

/-- Whenever a message is ready (or being taken) or the writer is closed, a receiver inside `receive` gets to its end by its own
    steps and the wake-ups under way: with the message if one is ready, else with the error. -/
theorem C37_finish {s : St M} (h : Run s) (hr : s.r ≠ .idle)
    (hp : s.word.contents = .ready ∨ s.word.contents = .reading ∨ s.word.closed = true) : Finishes s := by
  have hi := run_inv h
  have hw := hi.w
  have hrk := hi.r
  unfold ROk at hrk
  have hp' : s.word.contents ≠ .reading → s.word.contents = .ready ∨ s.word.closed = true := by
    intro hn
    rcases hp with h | h | h
    · exact Or.inl h
    · exact absurd h hn
    · exact Or.inr h
  cases hpc : s.r <;> simp only [hpc] at hrk
  case idle => exact absurd hpc hr
  case load =>
    obtain ⟨s1, h1, _, _, s', h3, h4, h5⟩ := fin_enter hw (hp' hrk.2)
    exact ⟨s', .step (a := .r) (Or.inl rfl) (by simp only [step, rstep, hpc]; rw [h1]) h3, h4, h5⟩
  case mark w =>
    have hne : s.word ≠ w := by
      intro he
      subst he
      rcases hp' hrk.2.1 with h | h
      · rcases hrk.2.2.2.2 with h' | h' <;> rw [h] at h' <;> cases h'
      · rw [hrk.2.2.2.1] at h; cases h
    obtain ⟨s1, h1, _, _, s', h3, h4, h5⟩ := fin_enter hw (hp' hrk.2.1)
    exact ⟨s', .step (a := .r) (Or.inl rfl) (by simp only [step, rstep, hpc, hne, if_false]; rw [h1]) h3, h4, h5⟩
  case wait w =>
    have hne : s.word ≠ w := by
      intro he
      subst he
      rcases hp' hrk.2.1 with h | h
      · rcases hrk.2.2.2.2 with h' | h' <;> rw [h] at h' <;> cases h'
      · rw [hrk.2.2.2.1] at h; cases h
    have h1 := fin_clear (s := { s with r := .clear }) (hw.congr rfl rfl rfl rfl rfl) (hp' hrk.2.1) (Or.inr rfl)
    exact h1.r (by simp [rstep, hpc, hne]) rfl rfl rfl rfl
  case asleep =>
    obtain ⟨k1, k2⟩ := C37_wake h hpc
    rcases hp' hrk.2.1 with hh | hh
    · have hwk := k1 hh
      have hwk' := hw
      unfold WOk at hwk'
      simp only [hwk] at hwk'
      obtain ⟨t, t1, t2, t3⟩ := fin_clear (s := { s with w := .idle, r := .clear }) hwk' (hp' hrk.2.1) (Or.inr rfl)
      exact ⟨t, .step (a := .w) (Or.inr (Or.inl ⟨rfl, hwk⟩)) (by simp [step, wstep, hwk, hpc, wakeOne]) t1, t2, t3⟩
    · obtain ⟨i, hci⟩ := k2 hh
      obtain ⟨t, t1, t2, t3⟩ := fin_clear (s := { s with c := setC s.c i .idle, r := .clear }) (hw.congr rfl rfl rfl rfl rfl) (hp' hrk.2.1) (Or.inr rfl)
      exact ⟨t, .step (a := .c i) (Or.inr (Or.inr ⟨i, rfl, hci⟩)) (by simp [step, cstep, hci, hpc, wakeOne]) t1, t2, t3⟩
  case clear => exact fin_clear hw (hp' hrk.2) (Or.inr hpc)
  case clearCas w => exact fin_clear hw (hp' hrk.2) (Or.inl ⟨w, hpc⟩)
  case take =>
    obtain ⟨m, h1, h2⟩ := wok_cell hw hrk.2
    obtain ⟨t, t1, t2, t3⟩ := fin_take hrk.2 h1 h2 (Or.inr hpc)
    exact ⟨t, t1, t2, Or.inl t3⟩
  case takeCas w =>
    obtain ⟨m, h1, h2⟩ := wok_cell hw hrk.2.1
    obtain ⟨t, t1, t2, t3⟩ := fin_take hrk.2.1 h1 h2 (Or.inl ⟨w, hpc⟩)
    exact ⟨t, t1, t2, Or.inl t3⟩
  case read =>
    obtain ⟨_, m, h1, h2⟩ := wok_ready hw (Or.inr hrk.2)
    obtain ⟨t, t1, t2, t3⟩ := fin_read hrk.2 h1 h2 hpc
    exact ⟨t, t1, t2, Or.inl t3⟩
  case done m =>
    obtain ⟨_, m', h1, h2⟩ := wok_ready hw (Or.inr hrk.2.1)
    rw [hrk.2.2] at h1
    cases h1
    obtain ⟨t, t1, t2, t3⟩ := fin_doneRead hrk.2.1 h2 (Or.inr hpc)
    exact ⟨t, t1, t2, Or.inl t3⟩
  case doneCas m w =>
    obtain ⟨_, m', h1, h2⟩ := wok_ready hw (Or.inr hrk.2.1)
    rw [hrk.2.2.2] at h1
    cases h1
    obtain ⟨t, t1, t2, t3⟩ := fin_doneRead hrk.2.1 h2 (Or.inl ⟨w, hpc⟩)
    exact ⟨t, t1, t2, Or.inl t3⟩

/-! ## Examples -/

def exec (s : St Nat) : List (Act Nat) → Option (St Nat)
  | [] => some s
  | a :: as =>
    match step s a with
    | some (.ok s') => exec s' as
    | _ => none

def allowed (s : St Nat) : Act Nat → Bool
  | .send _ => decide (s.sent = s.received)
  | _ => true

/-- The actions keep to the duty of the users. -/
def good (s : St Nat) : List (Act Nat) → Bool
  | [] => true
  | a :: as =>
    allowed s a &&
    match step s a with
    | some (.ok s') => good s' as
    | _ => false

theorem exec_run {s s' : St Nat} (h : Run s) {as : List (Act Nat)} (hg : good s as = true) (he : exec s as = some s') : Run s' := by
  induction as generalizing s with
  | nil => cases he; exact h
  | cons a as ih =>
    rw [exec] at he
    rw [good] at hg
    cases hs : step s a with
    | none => rw [hs] at he; cases he
    | some x =>
      cases x with
      | panic => rw [hs] at he; cases he
      | ok t =>
        rw [hs] at he hg
        simp only [Bool.and_eq_true] at hg
        refine ih (Run.step h ?_ hs) hg.2 he
        intro m hm
        subst hm
        exact of_decide_eq_true hg.1

/-- The parts of a state that can be compared. -/
structure View where
  word : Word
  w : WPc Nat
  r : RPc Nat
  sent : List Nat
  received : List Nat
  errors : Nat
deriving DecidableEq

def view (s : St Nat) : View := ⟨s.word, s.w, s.r, s.sent, s.received, s.errors⟩

/-- The receiver sleeps, the writer publishes 7 and is about to wake it up. -/
def sleepy : List (Act Nat) := [.receive, .r, .r, .r, .send 7, .w, .w, .w, .w, .w]

example : good St.init sleepy = true ∧ (exec St.init sleepy).map view = some ⟨⟨false, true, .ready⟩, .wake, .asleep, [7], [], 0⟩ := by decide +kernel

/-- ... and the message is received; then a second one, and the error after a close. -/
example : let as := sleepy ++ [.w, .r, .r, .r, .r, .r, .r, .r, .send 8, .receive, .w, .r, .r, .r, .close 3, .w, .c 3, .c 3, .c 3, .r, .r, .receive]
    good St.init as = true ∧ (exec St.init as).map view = some ⟨⟨true, false, .empty⟩, .claimCas 8 ⟨false, true, .empty⟩, .load, [7, 8], [7], 1⟩ := by decide +kernel

/-- A second `send` before the message was received panics. -/
example : (exec St.init [.send 7, .w, .w, .w, .w, .w, .send 8]).bind (fun s => (step s .w).map (fun x => match x with | .panic => true | _ => false)) = some true := by
  decide +kernel

end Shadow.Channel
