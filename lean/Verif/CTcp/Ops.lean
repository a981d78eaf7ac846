import Verif.CTcp.Inv
/-!
# Each part of the code keeps the invariant
-/

namespace Shadow.CTcp
open Shadow.Base Shadow.Tally

theorem mem_ins {g h : Seg} : ∀ {l : List Seg}, h ∈ ins g l ↔ h = g ∨ h ∈ l
  | [] => by simp [ins]
  | a :: l => by
    unfold ins
    split
    · simp
    · simp [mem_ins (l := l)]
      constructor <;> (rintro (h | h | h) <;> simp [h])

theorem countP_ins (p : Seg → Bool) (g : Seg) : ∀ l : List Seg, (ins g l).countP p = l.countP p + (if p g then 1 else 0)
  | [] => by simp [ins, List.countP_cons]
  | a :: l => by
    unfold ins
    split
    · simp [List.countP_cons]
    · simp only [List.countP_cons, countP_ins p g l]; omega

/-- The members of the history have numbers from 1 on. -/
theorem Snd.pos {X : Ep} (h : Snd X) {g : Seg} (hg : g ∈ X.hist) : 1 ≤ g.seq ∧ g.seq ≤ X.hist.length ∧ X.hist[g.seq - 1]? = some g := by
  obtain ⟨i, hi, e⟩ := List.mem_iff_getElem.1 hg
  have := h.seqs i g (by rw [List.getElem?_eq_getElem hi, e])
  refine ⟨by omega, by omega, ?_⟩
  rw [this]
  simp [hi, e]

theorem Snd.noFA {X : Ep} (h : Snd X) {g : Seg} (hg : g ∈ X.hist) : (g.fin && g.ack) = false := by
  cases hf : g.fin
  · rfl
  · simp [(h.fin g hg hf).2.1]

/-- A change of fields that the invariant does not mention. -/
macro "mv_same" h:term : tactic => `(tactic|
  exact ⟨⟨{ ($h).s with }, { ($h).r with }, ⟨($h).a.last, ($h).a.sack⟩, ($h).pn⟩,
    ⟨List.prefix_refl _, fun _ => rfl, Nat.le_refl _, Nat.le_refl _, fun _ h => h, fun h => h⟩, ⟨rfl, rfl, fun h => h, fun h => h, fun _ _ h => h⟩⟩)

theorem updRwin_mv {P X : Ep} (h : Good P X) : Mv P X X.updRwin := by mv_same h
theorem updSwin_mv {P X : Ep} (h : Good P X) : Mv P X X.updSwin := by mv_same h
theorem cwnd_mv {P X : Ep} (h : Good P X) (c : Nat) : Mv P X { X with cwnd := c } := by mv_same h
theorem sizes_mv {P X : Ep} (h : Good P X) (i o : Nat) : Mv P X { X with inSize := i, outSize := o } := by mv_same h
theorem inSize_mv {P X : Ep} (h : Good P X) (i : Nat) : Mv P X { X with inSize := i } := by mv_same h
theorem readable_mv {P X : Ep} (h : Good P X) (b : Bool) : Mv P X { X with readable := b } := by mv_same h
theorem lastWin_mv {P X : Ep} (h : Good P X) (n : Nat) : Mv P X { X with lastWin := n } := by mv_same h
theorem ackCount_mv {P X : Ep} (h : Good P X) (n : Nat) : Mv P X { X with ackCount := n } := by mv_same h
theorem sLastWin_mv {P X : Ep} (h : Good P X) (n : Nat) : Mv P X { X with sLastWin := n } := by mv_same h
theorem eofRd_mv {P X : Ep} (h : Good P X) (b : Bool) : Mv P X { X with eofRd := b } := by mv_same h

theorem ackSched_mv {P X : Ep} (h : Good P X) (b : Bool) (hl : X.state ≠ .listen) : Mv P X { X with ackSched := b } :=
  ⟨⟨{ h.s with listen := fun e => absurd e hl },
      { h.r with }, ⟨h.a.last, h.a.sack⟩, h.pn⟩,
    ⟨List.prefix_refl _, fun _ => rfl, Nat.le_refl _, Nat.le_refl _, fun _ h => h, fun h => h⟩, ⟨rfl, rfl, fun h => h, fun h => h, fun _ _ h => h⟩⟩

theorem winPending_mv {P X : Ep} (h : Good P X) (b : Bool) (hl : X.state ≠ .listen) : Mv P X { X with winPending := b } :=
  ⟨⟨{ h.s with listen := fun e => absurd e hl },
      { h.r with }, ⟨h.a.last, h.a.sack⟩, h.pn⟩,
    ⟨List.prefix_refl _, fun _ => rfl, Nat.le_refl _, Nat.le_refl _, fun _ h => h, fun h => h⟩, ⟨rfl, rfl, fun h => h, fun h => h, fun _ _ h => h⟩⟩

theorem timerOn_mv {P X : Ep} (h : Good P X) : Mv P X { X with timer := true } :=
  ⟨⟨{ h.s with timer := fun _ _ _ => rfl }, { h.r with }, ⟨h.a.last, h.a.sack⟩, h.pn⟩,
    ⟨List.prefix_refl _, fun _ => rfl, Nat.le_refl _, Nat.le_refl _, fun _ h => h, fun h => h⟩, ⟨rfl, rfl, fun h => h, fun h => h, fun _ _ h => h⟩⟩

theorem timerOff_mv {P X : Ep} (h : Good P X) (e : ∀ g ∈ X.rq, g.data = []) : Mv P X { X with timer := false } :=
  ⟨⟨{ h.s with timer := fun g hg n => absurd (e g hg) n }, { h.r with }, ⟨h.a.last, h.a.sack⟩, h.pn⟩,
    ⟨List.prefix_refl _, fun _ => rfl, Nat.le_refl _, Nat.le_refl _, fun _ h => h, fun h => h⟩, ⟨rfl, rfl, fun h => h, fun h => h, fun _ _ h => h⟩⟩

theorem tally_mv {P X : Ep} (h : Good P X) {t : Tally} (w : TWF t) (s : ∀ q : Nat, Cov t.sacked q → Has P q) :
    Mv P X { X with tally := t } :=
  ⟨⟨{ h.s with twf := w }, { h.r with }, ⟨h.a.last, s⟩, h.pn⟩,
    ⟨List.prefix_refl _, fun _ => rfl, Nat.le_refl _, Nat.le_refl _, fun _ h => h, fun h => h⟩, ⟨rfl, rfl, fun h => h, fun h => h, fun _ _ h => h⟩⟩

theorem shouldOff_mv {P X : Ep} (h : Good P X) : Mv P X { X with shouldFin := false } :=
  ⟨⟨{ h.s with should := fun x => Bool.noConfusion x }, { h.r with }, ⟨h.a.last, h.a.sack⟩, h.pn⟩,
    ⟨List.prefix_refl _, fun _ => rfl, Nat.le_refl _, Nat.le_refl _, fun _ h => h, fun h => h⟩, ⟨rfl, rfl, fun h => h, fun h => h, fun _ _ h => h⟩⟩

theorem shouldOn_mv {P X : Ep} (h : Good P X) (c : X.closedWr = true) : Mv P X { X with shouldFin := true } :=
  ⟨⟨{ h.s with should := fun _ => c }, { h.r with }, ⟨h.a.last, h.a.sack⟩, h.pn⟩,
    ⟨List.prefix_refl _, fun _ => rfl, Nat.le_refl _, Nat.le_refl _, fun _ h => h, fun h => h⟩, ⟨rfl, rfl, fun h => h, fun h => h, fun _ _ h => h⟩⟩

theorem errSend_mv {P X : Ep} (h : Good P X) : Mv P X { X with errSend := true } :=
  ⟨⟨{ h.s with errS := fun _ => .inl rfl }, { h.r with }, ⟨h.a.last, h.a.sack⟩, h.pn⟩,
    ⟨List.prefix_refl _, fun _ => rfl, Nat.le_refl _, Nat.le_refl _, fun _ h => h, fun h => h⟩, ⟨rfl, rfl, fun h => h, fun h => h, fun _ _ h => h⟩⟩

theorem errRecv_mv {P X : Ep} (h : Good P X) (c : X.closedRd = true ∨ (X.remoteClosed = true ∧ X.rend ≤ X.rnext)) :
    Mv P X { X with errRecv := true } :=
  ⟨⟨{ h.s with }, { h.r with errR := fun _ => c }, ⟨h.a.last, h.a.sack⟩, h.pn⟩,
    ⟨List.prefix_refl _, fun _ => rfl, Nat.le_refl _, Nat.le_refl _, fun _ h => h, fun h => h⟩, ⟨rfl, rfl, fun h => h, fun h => h, fun _ _ h => h⟩⟩

theorem closedRd_mv {P X : Ep} (h : Good P X) (hl : X.state ≠ .listen ∧ X.state ≠ .synSent ∧ X.state ≠ .synRcvd) :
    Mv P X { X with closedRd := true } :=
  ⟨⟨{ h.s with early := fun e => absurd e (by simp [hl]) }, { h.r with errR := fun _ => .inl rfl }, ⟨h.a.last, h.a.sack⟩, h.pn⟩,
    ⟨List.prefix_refl _, fun _ => rfl, Nat.le_refl _, Nat.le_refl _, fun _ h => h, fun h => h⟩, ⟨rfl, rfl, fun h => h, fun h => h, fun _ _ h => h⟩⟩

theorem setClosed_mv {P X : Ep} (h : Good P X) (hh : X.hist ≠ []) : Mv P X X.setClosed :=
  ⟨⟨{ h.s with
        rq := by simp [Ep.setClosed]
        kept := fun c => absurd rfl c
        timer := by simp [Ep.setClosed]
        finSt := fun _ _ _ => by simp [Ep.setClosed, PastFin]
        listen := fun e => State.noConfusion e
        early := fun e => by simp [Ep.setClosed] at e
        started := fun _ _ => hh },
      { h.r with
        early := fun e => by simp [Ep.setClosed] at e
        rcSt := fun _ => by simp [Ep.setClosed] }, ⟨h.a.last, h.a.sack⟩, h.pn⟩,
    ⟨List.prefix_refl _, fun _ => rfl, Nat.le_refl _, Nat.le_refl _, fun _ h => h, fun h => h⟩,
    ⟨rfl, rfl, fun e => State.noConfusion e, fun e => State.noConfusion e, fun _ _ h => h⟩⟩

/-! ## Making packets -/

theorem flat_append (a b : List Seg) : flat (a ++ b) = flat a ++ flat b := by simp [flat]

/-- A packet without a number. -/
theorem createCtl_good {P X : Ep} (h : Good P X) (hl : X.state ≠ .listen) (f : Flags) (hs : f.syn = false) (ha : f.ack = true) :
    Good P (X.create f []) ∧ Ext X (X.create f []) ∧ faL (X.create f []) = faL X + (if f.fin then 1 else 0) ∧
      (X.create f []).remoteClosed = X.remoteClosed ∧ (X.create f []).state = X.state ∧
      (∀ g : Seg, 0 < g.seq → g ∈ X.thr ∨ g ∈ X.outD → g ∈ (X.create f []).thr ∨ g ∈ (X.create f []).outD) := by
  have e : X.create f [] = { X.updRwin with thr := ins ⟨0, f.syn, f.fin, f.ack, f.dup, []⟩ X.thr } := by
    simp [Ep.create, hs, ha]; rfl
  rw [e]
  refine ⟨⟨{ h.s with
        thr := fun g hg => ?_
        kept := fun c g hg hu => ?_
        listen := fun e => absurd e hl }, { h.r with }, ⟨h.a.last, h.a.sack⟩, h.pn⟩,
    ⟨List.prefix_refl _, fun _ => rfl, Nat.le_refl _, Nat.le_refl _, fun _ h => h, fun h => h⟩, ?_, rfl, rfl, fun x _ hx => hx.imp (fun hx => mem_ins.2 (.inr hx)) id⟩
  · rcases mem_ins.1 hg with rfl | hg
    · exact .inl ⟨rfl, rfl, hs, ha⟩
    · exact h.s.thr g hg
  · rcases h.s.kept c g hg hu with k | k
    · exact .inl (mem_ins.2 (.inr k))
    · exact .inr k
  · simp only [faL, List.countP_append, countP_ins, ha, Bool.and_true, Ep.updRwin]
    omega

/-- A packet with a number; the program's bytes are counted as written at the same time. -/
theorem createNum_mv {P X : Ep} (h : Good P X) (hl : X.state ≠ .listen) (f : Flags) (data : List Nat)
    (nofin : ∀ g ∈ X.hist, g.fin = false)
    (kind : (data ≠ [] ∧ f.syn = false ∧ f.fin = false ∧ X.hist ≠ [] ∧ X.closedWr = false) ∨
      (data = [] ∧ f.syn = true ∧ f.fin = false ∧ X.hist = []) ∨
      (data = [] ∧ f.syn = false ∧ f.fin = true ∧ f.ack = false ∧ X.hist ≠ [] ∧ PastFin X.state ∧ X.closedWr = true)) :
    Mv P X { X.create f data with wrote := X.wrote ++ data } := by
  have c : (!data.isEmpty || (f.fin && !f.ack) || f.syn) = true := by
    rcases kind with ⟨k, _⟩ | ⟨_, k, _⟩ | ⟨_, _, k1, k2, _⟩
    · simp [k]
    · simp [k]
    · simp [k1, k2]
  have e : ({ X.create f data with wrote := X.wrote ++ data } : Ep) =
      { X.updRwin with
        snext := X.snext + 1, thr := ins ⟨X.snext, f.syn, f.fin, f.ack, f.dup, data⟩ X.thr
        hist := X.hist ++ [⟨X.snext, f.syn, f.fin, f.ack, f.dup, data⟩], wrote := X.wrote ++ data } := by
    simp only [Ep.create, c, if_true]; rfl
  rw [e]
  have hn := h.s.next
  generalize hg0 : (⟨X.snext, f.syn, f.fin, f.ack, f.dup, data⟩ : Seg) = g0
  have q0 : g0.seq = X.hist.length + 1 := by rw [← hg0]; exact hn
  have d0 : g0.data = data := by rw [← hg0]
  have s0 : g0.syn = f.syn := by rw [← hg0]
  have f0 : g0.fin = f.fin := by rw [← hg0]
  have a0 : g0.ack = f.ack := by rw [← hg0]
  have len : X.hist = [] ↔ X.hist.length = 0 := by simp
  have fa0 : (g0.fin && g0.ack) = false := by rw [f0, a0]; rcases kind with k | k | k <;> simp [k]
  have cl : ∀ g ∈ X.hist, g.seq ≤ X.hist.length := fun g hg => (h.s.pos hg).2.1
  refine ⟨⟨{ h.s with
        seqs := fun i g hi => ?_
        next := ?_
        thr := fun g hg => ?_
        outD := fun g hg => ⟨List.mem_append_left _ (h.s.outD g hg).1, (h.s.outD g hg).2⟩
        rq := fun g hg => ⟨List.mem_append_left _ (h.s.rq g hg).1, (h.s.rq g hg).2⟩
        high := ?_
        syn := fun g hg => ?_
        data := fun g hg => ?_
        fin := fun g hg => ?_
        wrote := ?_
        kept := fun c g hg hu => ?_
        finSt := fun g hg hf => ?_
        finCl := fun g hg hf => ?_
        listen := fun e => absurd e hl
        started := fun _ _ => by simp
        csched := fun _ => by simp }, { h.r with }, ⟨h.a.last, h.a.sack⟩, h.pn⟩,
    ⟨List.prefix_append _ _, fun ⟨g, hg, hf⟩ => absurd hf (by simp [nofin g hg]), Nat.le_refl _, Nat.le_refl _, fun _ h => h, fun h => h⟩,
    ⟨?_, rfl, fun h => h, fun h => h, fun x _ hx => hx.imp (fun hx => mem_ins.2 (.inr hx)) id⟩⟩
  · simp only [List.getElem?_append] at hi
    split at hi
    · exact h.s.seqs i g hi
    · rename_i hlt
      have : i - X.hist.length = 0 := by
        rcases Nat.eq_zero_or_pos (i - X.hist.length) with z | z
        · exact z
        · simp [List.getElem?_eq_none (l := [g0]) (i := i - X.hist.length) (by simp; omega)] at hi
      rw [this] at hi
      simp at hi
      rw [← hi, q0]; omega
  · simp [hn]
  · rcases mem_ins.1 hg with rfl | hg
    · exact .inr (by simp)
    · exact (h.s.thr g hg).imp id (List.mem_append_left _)
  · have := h.s.high
    simp [Ep.updRwin]; omega
  · rcases List.mem_append.1 hg with hg | hg
    · exact h.s.syn g hg
    · simp at hg; subst hg
      rw [s0, q0]
      rcases kind with k | k | k
      · have := k.2.2.2.1; rw [Ne, len] at this; rw [k.2.1]; exact ⟨fun x => Bool.noConfusion x, fun x => by omega⟩
      · simp [k]
      · have := k.2.2.2.2.1; rw [Ne, len] at this; rw [k.2.1]; exact ⟨fun x => Bool.noConfusion x, fun x => by omega⟩
  · rcases List.mem_append.1 hg with hg | hg
    · exact h.s.data g hg
    · simp at hg; subst hg
      rw [d0, q0, f0]
      rcases kind with k | k | k
      · have := k.2.2.2.1; rw [Ne, len] at this
        constructor
        · intro d; exact absurd d k.1
        · rintro (x | x)
          · omega
          · simp [k.2.2.1] at x
      · simp [k]
      · simp [k]
  · intro hf
    rcases List.mem_append.1 hg with hg | hg
    · exact absurd hf (by simp [nofin g hg])
    · simp at hg; subst hg
      rcases kind with k | k | k
      · rw [f0] at hf; simp [k] at hf
      · rw [f0] at hf; simp [k] at hf
      · have := k.2.2.2.2.1; rw [Ne, len] at this
        refine ⟨by simp [q0], by rw [a0]; exact k.2.2.2.1, by omega⟩
  · rw [flat_append, ← h.s.wrote]; simp [flat, d0]
  · rcases List.mem_append.1 hg with hg | hg
    · rcases h.s.kept c g hg hu with k | k
      · exact .inl (mem_ins.2 (.inr k))
      · exact .inr k
    · simp at hg; subst hg
      exact .inl (mem_ins.2 (.inl rfl))
  · rcases List.mem_append.1 hg with hg | hg
    · exact absurd hf (by simp [nofin g hg])
    · simp at hg; subst hg
      rw [f0] at hf
      rcases kind with k | k | k
      · simp [k] at hf
      · simp [k] at hf
      · exact k.2.2.2.2.2.1
  · rcases List.mem_append.1 hg with hg | hg
    · exact absurd hf (by simp [nofin g hg])
    · simp at hg; subst hg
      rw [f0] at hf
      rcases kind with k | k | k
      · simp [k] at hf
      · simp [k] at hf
      · exact k.2.2.2.2.2.2
  · simp only [faL, List.countP_append, countP_ins, fa0, Ep.updRwin]; simp

/-! ## Retransmission -/

theorem retxPacket_mv {P X : Ep} (h : Good P X) (q : Nat) : Mv P X (X.retxPacket q) := by
  unfold Ep.retxPacket
  split
  · exact .refl h
  rename_i g0 hf
  have hm := List.mem_of_find?_eq_some hf
  have hq : g0.seq = q := by simpa using List.find?_some hf
  have hh := (h.s.rq g0 hm).1
  have uniq : ∀ g ∈ X.hist, g.seq = q → g = g0 := by
    intro g hg e
    have a := (h.s.pos hg).2.2
    have b := (h.s.pos hh).2.2
    rw [e] at a; rw [hq] at b
    rw [a] at b; simpa using b
  refine ⟨⟨{ h.s with
        thr := fun g hg => ?_
        rq := fun g hg => h.s.rq g (List.mem_filter.1 hg).1
        kept := fun c g hg hu => ?_
        timer := fun _ _ _ => rfl
        listen := fun e => by have := (h.s.listen e).2.2.2.2.1; rw [this] at hm; simp at hm },
      { h.r with }, ⟨h.a.last, h.a.sack⟩, h.pn⟩,
    ⟨List.prefix_refl _, fun _ => rfl, Nat.le_refl _, Nat.le_refl _, fun _ h => h, fun h => h⟩,
    ⟨?_, rfl, fun h => h, fun h => h, fun x _ hx => hx.imp (fun hx => mem_ins.2 (.inr hx)) id⟩⟩
  · rcases mem_ins.1 hg with rfl | hg
    · exact .inr hh
    · exact h.s.thr g hg
  · rcases h.s.kept c g hg hu with k | k | k
    · exact .inl (mem_ins.2 (.inr k))
    · exact .inr (.inl k)
    · by_cases e : g.seq = q
      · exact .inl (mem_ins.2 (.inl (uniq g hg e)))
      · exact .inr (.inr (List.mem_filter.2 ⟨k, by simp [e]⟩))
  · simp only [faL, List.countP_append, countP_ins, h.s.noFA hh]; simp

theorem retxFold_mv {P : Ep} : ∀ (l : List Nat) {X : Ep}, Good P X → Mv P X (l.foldl Ep.retxPacket X)
  | [], _, h => .refl h
  | q :: l, X, h => by
    have m := retxPacket_mv h q
    exact m.trans (retxFold_mv l m.good)

theorem retxPacket_tally (X : Ep) (q : Nat) : (X.retxPacket q).tally = X.tally := by
  unfold Ep.retxPacket; split <;> rfl

theorem retxFold_tally : ∀ (l : List Nat) (X : Ep), (l.foldl Ep.retxPacket X).tally = X.tally
  | [], _ => rfl
  | q :: l, X => by rw [List.foldl_cons, retxFold_tally l, retxPacket_tally]

theorem retxRanges_mv {P : Ep} : ∀ (rs : List Rng) {X : Ep}, Good P X → (∀ r ∈ rs, r.lo < r.hi) →
    ∃ X', Ep.retxRanges rs X = .ok X' ∧ Mv P X X'
  | [], X, h, _ => ⟨X, rfl, .refl h⟩
  | r :: rs, X, h, hr => by
    have m := retxFold_mv (List.range' r.lo.toNat (r.hi - r.lo).toNat) h
    have ht := retxFold_tally (List.range' r.lo.toNat (r.hi - r.lo).toNat) X
    obtain ⟨t, e, w, s, _⟩ := markRetx_spec m.good.s.twf (hr r (by simp))
    have m2 := tally_mv m.good (t := t) w (fun q hq => m.good.a.sack q (by rw [← s]; exact hq))
    obtain ⟨X', e', m3⟩ := retxRanges_mv rs m2.good (fun r hr' => hr r (by simp [hr']))
    refine ⟨X', ?_, (m.trans m2).trans m3⟩
    simp only [Ep.retxRanges, e, R.bind_ok]
    exact e'

/-! ## The loops of flush -/

theorem toOut_mv {P X : Ep} {g : Seg} {rest : List Seg} (h : Good P { X with thr := g :: rest }) :
    Mv P { X with thr := g :: rest } { X.toOut g with thr := rest } := by
  have hg := h.s.thr g (by simp)
  have key : (g.seq = 0 ∧ Ctl g) ∨ (g.seq ≠ 0 ∧ g ∈ X.hist) := by
    rcases hg with c | c
    · exact .inl ⟨c.1, c⟩
    · exact .inr ⟨by have := (h.s.pos c).1; omega, c⟩
  have hl : g.seq ≤ X.hist.length := by
    rcases key with k | k
    · omega
    · exact (h.s.pos k.2).2.1
  have hh := h.s.high
  refine ⟨⟨{ h.s with
        thr := fun x hx => h.s.thr x (List.mem_cons_of_mem _ hx)
        outC := fun x hx => ?_
        outD := fun x hx => ?_
        rq := fun x hx => ⟨(h.s.rq x hx).1, Nat.le_trans (h.s.rq x hx).2 (Nat.le_max_left _ _)⟩
        high := Nat.max_le.2 ⟨hh, hl⟩
        kept := fun c x hx hu => ?_
        listen := fun e => by have := (h.s.listen e).2.1; simp at this },
      { h.r with }, ⟨h.a.last, h.a.sack⟩, ?_⟩,
    ⟨List.prefix_refl _, fun _ => rfl, Nat.le_max_left _ _, Nat.le_refl _, fun _ h => h, fun h => h⟩,
    ⟨?_, rfl, fun h => h, fun h => h, fun x px hx => ?_⟩⟩
  · simp only [Ep.toOut] at hx
    split at hx
    · rcases List.mem_append.1 hx with hx | hx
      · exact h.s.outC x hx
      · simp at hx; subst hx
        rcases key with k | k
        · exact k.2
        · exact absurd ‹_› k.1
    · exact h.s.outC x hx
  · simp only [Ep.toOut] at hx
    split at hx
    · exact ⟨(h.s.outD x hx).1, Nat.le_trans (h.s.outD x hx).2 (Nat.le_max_left _ _)⟩
    · rcases List.mem_append.1 hx with hx | hx
      · exact ⟨(h.s.outD x hx).1, Nat.le_trans (h.s.outD x hx).2 (Nat.le_max_left _ _)⟩
      · simp at hx; subst hx
        rcases key with k | k
        · exact absurd k.1 ‹_›
        · exact ⟨k.2, Nat.le_max_right _ _⟩
  · simp only [Ep.toOut]
    rcases h.s.kept c x hx hu with k | k | k
    · rcases List.mem_cons.1 k with rfl | k
      · have := (h.s.pos hx).1
        rw [if_neg (by omega)]
        exact .inr (.inl (by simp))
      · exact .inl k
    · refine .inr (.inl ?_)
      split
      · exact k
      · exact List.mem_append_left _ k
    · exact .inr (.inr k)
  · have := h.pn
    have := Nat.le_max_left X.highest g.seq
    show P.rnext ≤ max X.highest g.seq + 1
    simp only at *
    omega
  · simp only [faL, List.countP_append, Ep.toOut, List.countP_cons]
    rcases key with k | k
    · simp only [k.1, if_true, List.countP_append, List.countP_cons, List.countP_nil]; omega
    · have := h.s.noFA k.2
      simp [k.1, this]
  · simp only [Ep.toOut]
    rcases hx with k | k
    · rcases List.mem_cons.1 k with rfl | k
      · rw [if_neg (by omega)]
        exact .inr (by simp)
      · exact .inl k
    · refine .inr ?_
      split
      · exact k
      · exact List.mem_append_left _ k

theorem thr_eta (X : Ep) : { X with thr := X.thr } = X := rfl
theorem uno_eta (X : Ep) : { X with uno := X.uno } = X := rfl

theorem sendLoop_mv {P : Ep} : ∀ (l : List Seg) {X : Ep}, Good P { X with thr := l } → Mv P { X with thr := l } (Ep.sendLoop l X)
  | [], X, h => .refl h
  | g :: rest, X, h => by
    unfold Ep.sendLoop
    split
    · exact .refl h
    · have m := toOut_mv h
      exact m.trans (sendLoop_mv rest m.good)

theorem inLoop_mv {P : Ep} (hP : Snd P) : ∀ (l : List Seg) {X : Ep}, Good P { X with uno := l } → Mv P { X with uno := l } (Ep.inLoop l X)
  | [], X, h => .refl h
  | g :: rest, X, h => by
    unfold Ep.inLoop
    have hg := h.r.uno g (by simp)
    split
    · rename_i lt
      refine ⟨⟨{ h.s with }, { h.r with
            uno := fun x hx => h.r.uno x (List.mem_cons_of_mem _ hx)
            sack := fun q hq => ?_ }, ⟨h.a.last, h.a.sack⟩, h.pn⟩,
        ⟨List.prefix_refl _, fun _ => rfl, Nat.le_refl _, Nat.le_refl _, fun q hq => ?_, fun h => h⟩, ⟨rfl, rfl, fun h => h, fun h => h, fun _ _ h => h⟩⟩
      · rcases h.r.sack q hq with k | ⟨x, hx, e⟩
        · exact .inl k
        · rcases List.mem_cons.1 hx with rfl | hx
          · exact .inl (by simp only at e ⊢; omega)
          · exact .inr ⟨x, hx, e⟩
      · rcases hq with k | ⟨x, hx, e⟩
        · exact .inl k
        · rcases List.mem_cons.1 hx with rfl | hx
          · exact .inl (by simp only at e ⊢; omega)
          · exact .inr ⟨x, hx, e⟩
    split
    · rename_i c
      have pos := hP.pos hg.1
      have has : ∀ q, Has { X with uno := g :: rest } q →
          Has { X with uno := rest, inb := X.inb ++ [g.data], rnext := X.rnext + 1, readable := true } q := by
        rintro q (k | ⟨x, hx, e⟩)
        · exact .inl (by simp only at k ⊢; omega)
        · rcases List.mem_cons.1 hx with rfl | hx
          · exact .inl (by simp only; omega)
          · exact .inr ⟨x, hx, e⟩
      have m : Mv P { X with uno := g :: rest }
          { X with uno := rest, inb := X.inb ++ [g.data], rnext := X.rnext + 1, readable := true } := by
        refine ⟨⟨{ h.s with }, { h.r with
              uno := fun x hx => h.r.uno x (List.mem_cons_of_mem _ hx)
              next := ⟨by simp only; omega, by simp only; omega⟩
              str := ?_
              sack := fun q hq => has q (h.r.sack q hq)
              errR := fun e => (h.r.errR e).imp id fun k => ⟨k.1, Nat.le_succ_of_le k.2⟩
              early := fun e => ?_ }, ⟨h.a.last, h.a.sack⟩, h.pn⟩,
          ⟨List.prefix_refl _, fun _ => rfl, Nat.le_refl _, Nat.le_succ _, has, fun h => h⟩, ⟨rfl, rfl, fun h => h, fun h => h, fun _ _ h => h⟩⟩
        · have st := h.r.str
          have n1 := h.r.next.1
          simp only at st n1 ⊢
          have e1 : X.rnext + 1 - 1 = (X.rnext - 1) + 1 := by omega
          have e2 : P.hist[X.rnext - 1]? = some g := by rw [← c.1]; exact pos.2.2
          rw [e1, List.take_add_one, e2, flat_append, ← st]
          simp [flat]
        · have n1 := (h.r.early e).1
          have := (hP.data g hg.1).2 (.inl (by simp only at n1; omega))
          exact absurd this hg.2.1
      exact m.trans (inLoop_mv hP rest (X := { X with inb := X.inb ++ [g.data], rnext := X.rnext + 1, readable := true }) m.good)
    · exact .refl h

theorem flushBody_mv {P X : Ep} (hP : Snd P) (h : Good P X) : ∃ X', X.flushBody = .ok X' ∧ Mv P X X' := by
  have m1 := updRwin_mv h
  have m2 := m1.trans (updSwin_mv m1.good)
  obtain ⟨Y, e, m3⟩ := retxRanges_mv X.tally.lost m2.good (fun r hr => h.s.twf.l.1 r hr)
  have m4 := m2.trans m3
  have m5 := m4.trans (sendLoop_mv Y.thr (X := Y) m4.good)
  have m6 := m5.trans (inLoop_mv hP _ (X := Ep.sendLoop Y.thr Y) m5.good)
  refine ⟨_, ?_, m6⟩
  show (do let s ← Ep.retxRanges X.tally.lost X.updRwin.updSwin; _) = _
  rw [e]; rfl

theorem eofPart_mv {P X : Ep} (h : Good P X) : Mv P X X.eofPart := by
  unfold Ep.eofPart
  have k : Mv P X (if X.closedWr then { X with errSend := true } else X) := by
    split
    · exact errSend_mv h
    · exact .refl h
  generalize (if X.closedWr then { X with errSend := true } else X : Ep) = Y at k
  simp only
  split
  · rename_i c
    simp at c
    have m := errRecv_mv k.good (by rcases c.1.1 with c1 | c1; exact .inl c1; exact .inr ⟨c1, c.1.2⟩)
    exact (k.trans m).trans (readable_mv m.good true)
  · exact k

end Shadow.CTcp
