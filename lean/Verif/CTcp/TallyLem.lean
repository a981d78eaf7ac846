import Verif.Tally.Props
/-!
# What the calls on the retransmission tally do

Each call of the C TCP stack on a well-formed tally succeeds and leaves a well-formed tally, with these sets.
-/

namespace Shadow.CTcp
open Shadow.Base Shadow.Tally

/-- All lists of a tally are in order. -/
structure TWF (t : Tally) : Prop where
  m : WF t.marked
  s : WF t.sacked
  x : WF t.retx
  l : WF t.lost

theorem twf_new : TWF Tally.new := ⟨wf_nil, wf_nil, wf_nil, wf_nil⟩

theorem twf_clear {t : Tally} (h : TWF t) : TWF t.clearRetx := ⟨h.m, h.s, wf_nil, h.l⟩

theorem markRetx_spec {t : Tally} (h : TWF t) {b e : Int} (hb : b < e) :
    ∃ t', t.markRetx b e = .ok t' ∧ TWF t' ∧ t'.sacked = t.sacked ∧ t'.marked = t.marked ∧ t'.lastAck = t.lastAck ∧
      (∀ x, Cov t'.retx x ↔ Cov t.retx x ∨ (b ≤ x ∧ x < e)) ∧
      (∀ x, Cov t'.lost x ↔ Cov t.marked x ∧ ¬ Cov t.sacked x ∧ ¬ Cov t'.retx x) := by
  obtain ⟨x, e1, w1, c1⟩ := insert_spec (v := ⟨b, e⟩) h.x hb
  obtain ⟨l, e2, w2, c2⟩ := computeLost_spec (t := { t with retx := x }) h.m h.s w1
  exact ⟨{ t with retx := x, lost := l }, by simp [Tally.markRetx, e1, e2], ⟨h.m, h.s, w1, w2⟩, rfl, rfl, rfl, c1, c2⟩

theorem markLost_spec {t : Tally} (h : TWF t) {b e : Nat} (hb : b ≤ e) :
    ∃ t', t.markLost b e = .ok t' ∧ TWF t' ∧ t'.sacked = t.sacked ∧ t'.retx = t.retx ∧ t'.lastAck = t.lastAck ∧
      (∀ x, Cov t'.marked x → Cov t.marked x ∨ (b : Int) ≤ x) ∧
      (∀ x : Int, (b : Int) ≤ x → x < e → Cov t'.marked x) ∧
      (∀ x, Cov t'.lost x ↔ Cov t'.marked x ∧ ¬ Cov t.sacked x ∧ ¬ Cov t.retx x) := by
  have n1 : ¬ b = e + 1 := by omega
  obtain ⟨m, e1, w1, c1⟩ := insert_spec (v := ⟨(b : Int), ((if b = e then e + 1 else e : Nat) : Int)⟩) h.m (by
    show (b : Int) < ((if b = e then e + 1 else e : Nat) : Int)
    split <;> omega)
  obtain ⟨l, e2, w2, c2⟩ := computeLost_spec (t := { t with marked := m }) w1 h.s h.x
  have lt : b < (if b = e then e + 1 else e) := by split <;> omega
  refine ⟨{ t with marked := m, lost := l }, ?_, ⟨w1, h.s, h.x, w2⟩, rfl, rfl, rfl, fun x hx => ?_, fun x h1 h2 => ?_, c2⟩
  · simp [Tally.markLost, n1, e1, e2, lt]
  · rcases (c1 x).1 hx with g | g
    · exact .inl g
    · exact .inr g.1
  · refine (c1 x).2 (.inr ⟨h1, ?_⟩)
    show x < ((if b = e then e + 1 else e : Nat) : Int)
    split <;> omega

theorem markSacked_spec : ∀ (bs : List (Nat × Nat)) {t : Tally}, TWF t → (∀ b ∈ bs, b.1 < b.2) →
    ∃ t', t.markSacked bs = .ok t' ∧ TWF t' ∧ t'.marked = t.marked ∧ t'.retx = t.retx ∧ t'.lost = t.lost ∧ t'.lastAck = t.lastAck ∧
      ∀ x, Cov t'.sacked x ↔ Cov t.sacked x ∨ ∃ b ∈ bs, (b.1 : Int) ≤ x ∧ x < b.2
  | [], t, h, _ => ⟨t, rfl, h, rfl, rfl, rfl, rfl, by simp⟩
  | (a, b) :: bs, t, h, hb => by
    have lt : a < b := hb (a, b) (by simp)
    obtain ⟨s, e1, w1, c1⟩ := insert_spec (v := ⟨(a : Int), (b : Int)⟩) h.s (by show (a : Int) < b; omega)
    obtain ⟨t', e2, w2, m, x, l, k, c2⟩ := markSacked_spec bs (t := { t with sacked := s }) ⟨h.m, w1, h.x, h.l⟩
      (fun c hc => hb c (by simp [hc]))
    refine ⟨t', ?_, w2, m, x, l, k, fun y => ?_⟩
    · have p : 0 < b := by omega
      simp [Tally.markSacked, p, e1, e2]
    · rw [c2, show Cov ({ t with sacked := s } : Tally).sacked y ↔ _ from c1 y]
      simp [or_assoc]

theorem update_spec {t : Tally} (h : TWF t) (a : Nat) (d : Bool) :
    ∃ r, t.update a d = .ok r ∧ TWF r.1 ∧ (∀ x, Cov r.1.sacked x → Cov t.sacked x) ∧
      t.lastAck ≤ r.1.lastAck ∧ (a : Int) ≤ r.1.lastAck ∧
      (∀ x, Cov r.1.marked x → Cov t.marked x ∨ r.1.lastAck ≤ x) ∧
      (∀ x, Cov r.1.lost x → Cov t.lost x ∨ Cov r.1.marked x) := by
  have ack : ∃ t1, t.updateAck a d = .ok t1 ∧ TWF t1 ∧ (∀ x, Cov t1.sacked x → Cov t.sacked x) ∧
      t.lastAck ≤ t1.lastAck ∧ (a : Int) ≤ t1.lastAck ∧ (∀ x, Cov t1.marked x → Cov t.marked x) ∧ t1.lost = t.lost := by
    unfold Tally.updateAck
    split
    · rename_i c
      simp at c
      exact ⟨_, rfl, ⟨h.m, h.s, h.x, h.l⟩, fun _ x => x, by simp, by simp [c.2], fun _ x => x, rfl⟩
    split
    · obtain ⟨m, e1, w1, s1, _⟩ := tidy_spec h.m a
      obtain ⟨s, e2, w2, s2, _⟩ := tidy_spec h.s a
      obtain ⟨x, e3, w3, s3, _⟩ := tidy_spec h.x a
      refine ⟨{ t with lastAck := a, dups := 0, marked := m, sacked := s, retx := x }, by simp [e1, e2, e3], ⟨w1, w2, w3, h.l⟩, s2, ?_, ?_, s1, rfl⟩
      · show t.lastAck ≤ (a : Int); omega
      · show (a : Int) ≤ (a : Int); omega
    · rename_i c1 c2
      exact ⟨_, rfl, h, fun _ x => x, by omega, by omega, fun _ x => x, rfl⟩
  obtain ⟨t1, e1, w1, s1, l1, a1, m1, lo1⟩ := ack
  unfold Tally.update
  simp only [e1, R.bind_ok]
  split
  · obtain ⟨m, e2, w2, c2⟩ := insert_spec (v := ⟨t1.lastAck, t1.lastAck + 1⟩) w1.m (by show t1.lastAck < t1.lastAck + 1; omega)
    obtain ⟨l, e3, w3, c3⟩ := computeLost_spec (t := { t1 with marked := m }) w2 w1.s w1.x
    refine ⟨({ t1 with marked := m, lost := l }, !l.isEmpty), by simp [e2, e3], ⟨w2, w1.s, w1.x, w3⟩, s1, l1, a1, fun x hx => ?_,
      fun x hx => .inr ((c3 x).1 hx).1⟩
    rcases (c2 x).1 hx with g | g
    · exact .inl (m1 x g)
    · exact .inr g.1
  · exact ⟨_, rfl, w1, s1, l1, a1, fun x hx => .inl (m1 x hx), fun x hx => .inl (by rw [← lo1]; exact hx)⟩

end Shadow.CTcp
