import Verif.CTcp.Ops2
/-!
# Data, acknowledgements, and the calls of the program keep the invariant
-/

namespace Shadow.CTcp
open Shadow.Base Shadow.Tally

theorem mem_insNum {q x : Nat} : ∀ {l : List Nat}, x ∈ insNum q l ↔ x = q ∨ x ∈ l
  | [] => by simp [insNum]
  | a :: l => by
    unfold insNum
    split
    · simp
    · simp [mem_insNum (l := l)]
      constructor <;> (rintro (h | h | h) <;> simp [h])

theorem mem_sackTrim {h x : Nat} {l : List Nat} (hx : x ∈ sackTrim h l) : x ∈ l := by
  unfold sackTrim at hx
  split at hx
  · exact hx
  · split at hx
    · exact (List.mem_filter.1 hx).1
    · exact hx

theorem uno_mv {P X : Ep} (h : Good P X) {g : Seg} (hg : g ∈ P.hist ∧ g.data ≠ [] ∧ g.seq ≤ P.highest) (sk : List Nat)
    (hs : ∀ q ∈ sk, q ∈ X.sacks ∨ q = g.seq) : Mv P X { X with uno := ins g X.uno, sacks := sk } := by
  have has : ∀ q, Has X q → Has { X with uno := ins g X.uno, sacks := sk } q := by
    rintro q (k | ⟨x, hx, e⟩)
    · exact .inl k
    · exact .inr ⟨x, mem_ins.2 (.inr hx), e⟩
  refine ⟨⟨{ h.s with }, { h.r with
      uno := fun x hx => ?_
      sack := fun q hq => ?_ }, ⟨h.a.last, h.a.sack⟩, h.pn⟩,
    ⟨List.prefix_refl _, fun _ => rfl, Nat.le_refl _, Nat.le_refl _, has, fun h => h⟩, ⟨rfl, rfl, fun h => h, fun h => h, fun _ _ h => h⟩⟩
  · rcases mem_ins.1 hx with rfl | hx
    · exact hg
    · exact h.r.uno x hx
  · rcases hs q hq with k | rfl
    · exact has q (h.r.sack q k)
    · exact .inr ⟨g, mem_ins.2 (.inl rfl), rfl⟩

theorem sacks_mv {P X : Ep} (h : Good P X) (sk : List Nat) (hs : ∀ q ∈ sk, q ∈ X.sacks) : Mv P X { X with sacks := sk } :=
  ⟨⟨{ h.s with }, { h.r with sack := fun q hq => h.r.sack q (hs q hq) }, ⟨h.a.last, h.a.sack⟩, h.pn⟩,
    ⟨List.prefix_refl _, fun _ => rfl, Nat.le_refl _, Nat.le_refl _, fun _ h => h, fun h => h⟩, ⟨rfl, rfl, fun h => h, fun h => h, fun _ _ h => h⟩⟩

/-- The fields that the processing of data and acknowledgements leaves alone. -/
structure Same (X Y : Ep) : Prop where
  hist : Y.hist = X.hist
  state : Y.state = X.state
  err : Y.errRecv = X.errRecv

theorem dataProc_mv {P X : Ep} (h : Good P X) {g : Seg} (hg : g ∈ P.hist ∧ g.data ≠ [] ∧ g.seq ≤ P.highest) :
    Mv P X (X.dataProc g).1 ∧ Same X (X.dataProc g).1 := by
  unfold Ep.dataProc
  split
  · exact ⟨.refl h, rfl, rfl, rfl⟩
  split
  · simp only
    split
    · refine ⟨uno_mv h hg _ fun q hq => ?_, rfl, rfl, rfl⟩
      split at hq
      · exact (mem_insNum.1 hq).symm
      · exact .inl (mem_sackTrim hq)
    · rename_i c
      refine ⟨sacks_mv h _ fun q hq => ?_, rfl, rfl, rfl⟩
      split at hq
      · rename_i d
        simp at d
        simp [d.2] at c
      · exact mem_sackTrim hq
  · exact ⟨.refl h, rfl, rfl, rfl⟩

theorem bytes_zero : ∀ {l : List Seg}, bytes l = 0 → ∀ g ∈ l, g.data = []
  | [], _, g, hg => by simp at hg
  | a :: l, h, g, hg => by
    simp [bytes] at h
    rcases List.mem_cons.1 hg with rfl | hg
    · exact h.1
    · exact bytes_zero (l := l) (by simpa [bytes] using h.2) g hg

theorem ackTimer_mv {P X : Ep} (h : Good P X) (v : Bool) :
    Mv P X (if bytes X.rq == 0 then { X with timer := false } else if v then { X with timer := true } else X) := by
  split
  · rename_i c
    exact timerOff_mv h (bytes_zero (by simpa using c))
  split
  · exact timerOn_mv h
  · exact .refl h

theorem ackMove_mv {P X : Ep} (h : Good P X) (hl : X.state ≠ .listen) {n o : Nat} (hn : n ≤ P.rnext) (hu : X.unacked < n) :
    Mv P X { X with
      rq := X.rq.filter (fun g => !(decide (X.lastAck ≤ g.seq) && decide (g.seq < n)))
      lastAck := n, unacked := n, outSize := o } := by
  refine ⟨⟨{ h.s with
      rq := fun g hg => h.s.rq g (List.mem_filter.1 hg).1
      last := ⟨rfl, by have := h.s.last; simp only; omega⟩
      kept := fun c g hg hq => ?_
      timer := fun g hg => h.s.timer g (List.mem_filter.1 hg).1
      listen := fun e => absurd e hl }, { h.r with }, ⟨hn, h.a.sack⟩, h.pn⟩,
    ⟨List.prefix_refl _, fun _ => rfl, Nat.le_refl _, Nat.le_refl _, fun _ h => h, fun h => h⟩, ⟨rfl, rfl, fun h => h, fun h => h, fun _ _ h => h⟩⟩
  simp only at hq
  rcases h.s.kept c g hg (by omega) with k | k | k
  · exact .inl k
  · exact .inr (.inl k)
  · exact .inr (.inr (List.mem_filter.2 ⟨k, by simp; omega⟩))

theorem ackProc_mv {P X : Ep} (h : Good P X) (hl : X.state ≠ .listen) {p : Pkt} (hp : PktOK P p) (cw o : Nat) :
    ∃ X', X.ackProc p cw o = .ok X' ∧ Mv P X X' ∧ Same X X' := by
  obtain ⟨r, e, w, sk, _⟩ := update_spec h.s.twf p.ackNo p.seg.dup
  have m1 := tally_mv h (t := r.1) w (fun q hq => h.a.sack q (sk q hq))
  have m2 := m1.trans (cwnd_mv m1.good cw)
  have m3 : Mv P X (if (decide (p.ackNo > X.unacked) && decide (p.ackNo ≤ X.snext)) = true then
      { X with
        tally := r.1, cwnd := cw
        rq := X.rq.filter (fun g => !(decide (X.lastAck ≤ g.seq) && decide (g.seq < p.ackNo)))
        lastAck := p.ackNo, unacked := p.ackNo, outSize := o }
    else { X with tally := r.1, cwnd := cw }) := by
    split
    · rename_i c
      simp at c
      exact m2.trans (ackMove_mv m2.good hl hp.ack c.1)
    · exact m2
  have same : Same X (if (decide (p.ackNo > X.unacked) && decide (p.ackNo ≤ X.snext)) = true then
      { X with
        tally := r.1, cwnd := cw
        rq := X.rq.filter (fun g => !(decide (X.lastAck ≤ g.seq) && decide (g.seq < p.ackNo)))
        lastAck := p.ackNo, unacked := p.ackNo, outSize := o }
    else { X with tally := r.1, cwnd := cw }) := by
    split <;> exact ⟨rfl, rfl, rfl⟩
  unfold Ep.ackProc
  simp only [e, R.bind_ok]
  generalize (if (decide (p.ackNo > X.unacked) && decide (p.ackNo ≤ X.snext)) = true then
      { X with
        tally := r.1, cwnd := cw
        rq := X.rq.filter (fun g => !(decide (X.lastAck ≤ g.seq) && decide (g.seq < p.ackNo)))
        lastAck := p.ackNo, unacked := p.ackNo, outSize := o }
    else ({ X with tally := r.1, cwnd := cw } : Ep)) = Y at m3 same
  generalize hw : (if ((p.ackNo == X.lastAck && decide (p.win > X.lastWin)) || (decide (p.ackNo > X.lastAck) && p.win != X.lastWin)) = true then
      { Y with lastWin := p.win } else Y) = Z
  have m4 : Mv P X Z ∧ Same X Z := by
    rw [← hw]
    split
    · exact ⟨m3.trans (lastWin_mv m3.good _), same.1, same.2, same.3⟩
    · exact ⟨m3, same⟩
  refine ⟨_, rfl, m4.1.trans (ackTimer_mv m4.1.good _), ?_⟩
  split
  · exact ⟨m4.2.1, m4.2.2, m4.2.3⟩
  split
  · exact ⟨m4.2.1, m4.2.2, m4.2.3⟩
  · exact m4.2

theorem markSacked_mv {P X : Ep} (h : Good P X) {p : Pkt} (hp : PktOK P p) :
    ∃ t, X.tally.markSacked p.sacks = .ok t ∧ Mv P X { X with tally := t } := by
  obtain ⟨t, e, w, _, _, _, _, c⟩ := markSacked_spec p.sacks h.s.twf (fun b hb => (hp.sack b hb).1)
  refine ⟨t, e, tally_mv h w fun q hq => ?_⟩
  rcases (c q).1 hq with k | ⟨b, hb, k⟩
  · exact h.a.sack q k
  · exact (hp.sack b hb).2 q (by omega) (by omega)

/-- The result of processing a packet. -/
structure Rc (P X X' : Ep) (p : Pkt) : Prop where
  good : Good P X'
  ext : Ext X X'
  sr : X'.state = .synRcvd → X'.hist ≠ []
  fa : faL X' + (if X.remoteClosed then 1 else 0) ≤ faL X + (if X'.remoteClosed then 1 else 0)
  fw : X'.state = .finWait2 → X.state = .finWait2 ∨ (p.seg.fin && p.seg.ack) = true

theorem sr_of {P X X' : Ep} (m : Mv P X X') (h : X.state = .synRcvd → X.hist ≠ []) : X'.state = .synRcvd → X'.hist ≠ [] := by
  intro e n
  have p := m.ext.hist
  rw [n] at p
  exact h (m.keep.sr e) (List.prefix_nil.1 p)

theorem Rc.mv {P X Y Z : Ep} {p : Pkt} (h : Rc P X Y p) (m : Mv P Y Z) : Rc P X Z p :=
  ⟨m.good, h.ext.trans m.ext, sr_of m h.sr, by rw [m.keep.fa, m.keep.rc]; exact h.fa, fun e => h.fw (m.keep.fw e)⟩

theorem Sw.mv {P X Y Z : Ep} {p : Pkt} {f : Flags} (h : Sw P X Y p f) (m : Mv P Y Z) (s : Same Y Z) :
    Good P Z ∧ Ext X Z ∧ Z.state ≠ .listen ∧ faL Z = faL X ∧
      (f.syn = true → f.fin = false ∧ f.ack = true ∧ Z.hist = [] ∧ Z.errRecv = false) ∧
      (Z.state = .synRcvd → Z.hist = [] → f.syn = true) ∧
      (if f.fin then X.remoteClosed = false ∧ Z.remoteClosed = true else Z.remoteClosed = X.remoteClosed) ∧
      (Z.state = .finWait2 → X.state = .finWait2 ∨ (p.seg.fin && p.seg.ack) = true) := by
  refine ⟨m.good, h.ext.trans m.ext, by rw [s.state]; exact h.nl, ?_, ?_, ?_, ?_, ?_⟩
  · rw [m.keep.fa]; simp [faL, h.qs.1, h.qs.2.1]
  · intro e; rw [s.hist, s.err]; exact h.syn e
  · rw [s.state, s.hist]; exact h.sr
  · rw [m.keep.rc]; exact h.fin
  · rw [s.state]; exact h.fw

theorem respond_rc {P X Z : Ep} (hP : Snd P) {p : Pkt} {f f' : Flags} {Y : Ep} (h : Sw P X Y p f) (m : Mv P Y Z) (s : Same Y Z)
    (hf : f'.syn = f.syn ∧ f'.fin = f.fin ∧ (f' = {} ∨ f'.ack = true)) :
    ∃ X', Z.respond f' = .ok X' ∧ Rc P X X' p := by
  obtain ⟨g, x, nl, fa, syn, sr, fin, fw⟩ := h.mv m s
  have quiet : f'.fin = false → f'.syn = false → Rc P X Z p := by
    intro a b
    rw [hf.2.1] at a
    rw [hf.1] at b
    rw [a] at fin
    simp at fin
    exact ⟨g, x, fun c d => by simp [b] at sr; exact absurd d (sr c), by rw [fa, fin]; omega, fw⟩
  unfold Ep.respond
  split
  · rename_i c
    have ack : f'.ack = true := by
      rcases hf.2.2 with k | k
      · simp [k] at c
      · exact k
    split
    · -- a control packet
      rename_i c2
      cases hsy : f'.syn
      · cases hfi : f'.fin
        · obtain ⟨X', e, m2⟩ := sendAck_mv hP g nl f' hsy hfi ack
          exact ⟨X', e, (quiet hfi hsy).mv m2⟩
        · obtain ⟨g2, x2, fa2, rc2, st2, _⟩ := createCtl_good g nl f' hsy ack
          have r : Rc P X (Z.create f' []) p := by
            rw [← hf.2.1, hfi] at fin
            simp at fin
            refine ⟨g2, x.trans x2, fun a b => ?_, ?_, fun a => fw (by rw [← st2]; exact a)⟩
            · have q := x2.hist
              rw [b] at q
              rw [st2] at a
              have := sr a (List.prefix_nil.1 q)
              rw [← hf.1, hsy] at this; simp at this
            · rw [fa2, rc2, fin.1, fin.2, hfi, fa]; simp
          obtain ⟨X', e, m2⟩ := flush_mv hP g2
          exact ⟨X', e, r.mv m2⟩
      · obtain ⟨q1, q2, q3, q4⟩ := syn (by rw [← hf.1]; exact hsy)
        have m2 := createNum_mv g nl f' [] (by simp [q3]) (.inr (.inl ⟨rfl, hsy, by rw [hf.2.1]; exact q1, q3⟩))
        rw [create_nil] at m2
        obtain ⟨X', e, m3⟩ := flush_mv hP m2.good
        refine ⟨X', e, Rc.mv (Y := Z.create f' []) ⟨m2.good, x.trans m2.ext, fun _ => ?_, ?_, fun a => fw (m2.keep.fw a)⟩ m3⟩
        · have : (!([] : List Nat).isEmpty || (f'.fin && !f'.ack) || f'.syn) = true := by simp [hsy]
          simp only [Ep.create, this, if_true]
          simp
        · rw [q1] at fin
          simp at fin
          rw [m2.keep.fa, m2.keep.rc, fin, fa]; omega
    · -- an acknowledgement that is sent later
      rename_i c2
      have e : f' = { ack := true } := by simpa using c2
      have r := quiet (by rw [e]) (by rw [e])
      have m2 := ackSched_mv g true nl
      exact ⟨_, rfl, (r.mv m2).mv (ackCount_mv m2.good (Z.ackCount + 1))⟩
  · rename_i c
    refine ⟨Z, rfl, ?_⟩
    cases hsy : f'.syn
    · cases hfi : f'.fin
      · exact quiet hfi hsy
      · exfalso
        apply c
        simp [hfi]
        intro e; rw [e] at hfi; simp at hfi
    · exfalso
      have := (syn (by rw [← hf.1]; exact hsy)).2.2.2
      apply c
      simp [this]
      intro e; rw [e] at hsy; simp at hsy

theorem respFlags_ok (Z : Ep) (g : Seg) (f : Flags) (b : Bool) (h : f = {} ∨ f.ack = true) :
    (Z.respFlags g f b).syn = f.syn ∧ (Z.respFlags g f b).fin = f.fin ∧ (Z.respFlags g f b = {} ∨ (Z.respFlags g f b).ack = true) := by
  unfold Ep.respFlags
  split
  · exact ⟨rfl, rfl, .inr rfl⟩
  split
  · exact ⟨rfl, rfl, .inr rfl⟩
  · exact ⟨rfl, rfl, h⟩

theorem Same.trans {X Y Z : Ep} (h : Same X Y) (k : Same Y Z) : Same X Z :=
  ⟨k.hist.trans h.hist, k.state.trans h.state, k.err.trans h.err⟩

theorem ackIf_mv {P X : Ep} (h : Good P X) (hl : X.state ≠ .listen) {p : Pkt} (hp : PktOK P p) (cw o : Nat) :
    ∃ X', X.ackIf p cw o = .ok X' ∧ Mv P X X' ∧ Same X X' := by
  unfold Ep.ackIf
  split
  · exact ackProc_mv h hl hp cw o
  · exact ⟨X, rfl, .refl h, rfl, rfl, rfl⟩

theorem afterSwitch_rc {P X Y : Ep} (hP : Snd P) {p : Pkt} {f : Flags} {proc : Bool} (hp : PktOK P p) (h : Sw P X Y p f)
    (hproc : f.syn = true ∨ f.fin = true → proc = true) (cw o : Nat) : ∃ X', Y.afterSwitch proc f p cw o = .ok X' ∧ Rc P X X' p := by
  unfold Ep.afterSwitch
  generalize hd : (if (!p.seg.data.isEmpty && !Y.errRecv) = true then Y.dataProc p.seg else (Y, false, false)) = d
  have m1 : Mv P Y d.1 ∧ Same Y d.1 := by
    rw [← hd]
    split
    · rename_i c
      simp at c
      refine dataProc_mv h.good ?_
      rcases hp.seg with k | k
      · exact absurd k.2.1 c.1
      · exact ⟨k.1, c.1, k.2⟩
    · exact ⟨.refl h.good, rfl, rfl, rfl⟩
  obtain ⟨Z, e, m2, s2⟩ := ackIf_mv m1.1.good (by rw [m1.2.state]; exact h.nl) hp cw o
  have m3 := m1.1.trans m2
  have s3 := m1.2.trans s2
  simp only [e, R.bind_ok]
  split
  · rename_i c
    refine ⟨Z, rfl, ?_⟩
    obtain ⟨g, x, nl, fa, syn, sr, fin, fw⟩ := h.mv m3 s3
    have a : f.syn = false ∧ f.fin = false := by
      cases hs : f.syn
      · cases hf : f.fin
        · simp
        · simp [hproc (.inr hf)] at c
      · simp [hproc (.inl hs)] at c
    rw [a.2] at fin
    simp at fin
    exact ⟨g, x, fun q r => by simp [a.1] at sr; exact absurd r (sr q), by rw [fa, fin]; omega, fw⟩
  · obtain ⟨t, e2, m4⟩ := markSacked_mv m3.good hp
    have m5 := m3.trans m4
    have s5 : Same Y { Z with tally := t } := ⟨s3.hist, s3.state, s3.err⟩
    obtain ⟨X1, e3, r⟩ := respond_rc hP h m5 s5 (respFlags_ok { Z with tally := t } p.seg f d.2.2 h.e)
    obtain ⟨X2, e4, m6⟩ := flush_mv hP r.good
    exact ⟨X2, by simp [e2, e3, e4], r.mv m6⟩

theorem onState_proc (X : Ep) (g : Seg) : (X.onState g).2.2.syn = true ∨ (X.onState g).2.2.fin = true → (X.onState g).2.1 = true := by
  unfold Ep.onState
  repeat' split
  all_goals simp

theorem receive_rc {P X : Ep} (hP : Good X P) (h : Good P X) (hsr : X.state = .synRcvd → X.hist ≠ []) {p : Pkt} (hp : PktOK P p)
    (hfa : (p.seg.fin && p.seg.ack) = true → P.remoteClosed = true ∧ X.state ≠ .finWait2) (cw o : Nat) :
    ∃ X', X.receive p cw o = .ok X' ∧ Rc P X X' p := by
  unfold Ep.receive
  split
  · rename_i Y e
    refine ⟨Y, rfl, ?_⟩
    have self : Rc P X X p := ⟨h, .refl X, hsr, Nat.le_refl _, .inl⟩
    unfold Ep.absorbed at e
    split at e
    · split at e
      · simp at e
      · simp at e; rw [← e]; exact self
    · rename_i st
      split at e
      · simp at e; rw [← e]
        exact self.mv (setClosed_mv h (h.s.started (by simp [st]) (by simp [st])))
      · simp at e
    · simp at e; rw [← e]; exact self
    · simp at e
  · rename_i e
    exact afterSwitch_rc hP.s hp (onState_sw hP h hsr hp hfa e) (onState_proc X p.seg) cw o

/-! ## The calls of the program, timers and tasks -/

/-- Making a packet and counting its bytes as written. -/
def createW (X : Ep) (c : List Nat) : Ep := { X.create { ack := true } c with wrote := X.wrote ++ c }

theorem create_wrote (X : Ep) (f : Flags) (c w : List Nat) : ({ X with wrote := w } : Ep).create f c = { X.create f c with wrote := w } := by
  unfold Ep.create
  split <;> rfl

theorem create_wrote' (X : Ep) (f : Flags) (c : List Nat) : (X.create f c).wrote = X.wrote := by
  unfold Ep.create
  split <;> rfl

theorem foldl_create : ∀ (l : List (List Nat)) (X : Ep),
    l.foldl createW X = { l.foldl (fun s c => s.create { ack := true } c) X with wrote := X.wrote ++ l.flatten }
  | [], X => by simp
  | c :: l, X => by
    rw [List.foldl_cons, foldl_create l, List.foldl_cons]
    have gen : ∀ (l : List (List Nat)) (Y : Ep) (w : List Nat),
        l.foldl (fun s c => s.create { ack := true } c) { Y with wrote := w } =
          { l.foldl (fun (s : Ep) c => s.create { ack := true } c) Y with wrote := w } := by
      intro l
      induction l with
      | nil => intros; rfl
      | cons a l ih => intro Y w; rw [List.foldl_cons, create_wrote, ih, List.foldl_cons]
    unfold createW
    rw [gen]
    simp

theorem foldl_wrote : ∀ (l : List (List Nat)) (X : Ep), (l.foldl (fun s c => s.create { ack := true } c) X).wrote = X.wrote
  | [], _ => rfl
  | c :: l, X => by rw [List.foldl_cons, foldl_wrote l, create_wrote']

theorem chunks_ok : ∀ (n : Nat) (bs : List Nat), bs.length ≤ n → (chunks n bs).flatten = bs ∧ ∀ c ∈ chunks n bs, c ≠ []
  | 0, bs, h => by
    have : bs = [] := List.length_eq_zero_iff.1 (by omega)
    simp [chunks, this]
  | n + 1, bs, h => by
    unfold chunks
    split
    · rename_i e
      simp at e; simp [e]
    · rename_i e
      simp at e
      have : bs.length ≠ 0 := by simp [e]
      obtain ⟨a, b⟩ := chunks_ok n (bs.drop 1460) (by simp; omega)
      refine ⟨by rw [List.flatten_cons, a, List.take_append_drop], ?_⟩
      intro c hc
      rcases List.mem_cons.1 hc with rfl | hc
      · intro z
        have := congrArg List.length z
        simp only [List.length_take, List.length_nil] at this; omega
      · exact b c hc

theorem createW_mv {P : Ep} : ∀ (l : List (List Nat)) {X : Ep}, Good P X → X.closedWr = false → X.hist ≠ [] → X.state ≠ .listen →
    (∀ c ∈ l, c ≠ []) → Mv P X (l.foldl createW X)
  | [], X, h, _, _, _, _ => .refl h
  | c :: l, X, h, hw, ne, nl, hc => by
    have nf : ∀ g ∈ X.hist, g.fin = false := fun g hg => by
      cases hf : g.fin
      · rfl
      · have := h.s.finCl g hg hf
        rw [hw] at this; simp at this
    have m : Mv P X (createW X c) := createNum_mv h nl { ack := true } c nf (.inl ⟨hc c (by simp), rfl, rfl, ne, hw⟩)
    have st : (createW X c).state = X.state ∧ (createW X c).closedWr = X.closedWr := by
      unfold createW Ep.create
      split <;> exact ⟨rfl, rfl⟩
    refine m.trans (createW_mv l m.good (by rw [st.2]; exact hw) (fun e => ne ?_) (by rw [st.1]; exact nl) fun c hc' => hc c (by simp [hc']))
    have := m.ext.hist
    rw [e] at this
    exact List.prefix_nil.1 this

theorem write_mv {P X : Ep} (hP : Snd P) (h : Good P X) (hu : X.uclosed = false) (nl : X.state ≠ .listen) (nr : X.state ≠ .synRcvd)
    (bs : List Nat) : ∃ X', X.write bs = .ok X' ∧ Mv P X X' := by
  unfold Ep.write
  split
  · exact ⟨X, rfl, .refl h⟩
  · rename_i c
    simp only
    generalize bs.take (min 65535 (X.outSpace - X.outLen)) = b
    have cw : X.closedWr = false := by
      cases hw : X.closedWr
      · rfl
      · rcases h.s.errS hw with k | k
        · exact absurd k c
        · rw [hu] at k; simp at k
    obtain ⟨k1, k2⟩ := chunks_ok b.length b (Nat.le_refl _)
    have m := createW_mv (chunks b.length b) h cw (h.s.started nl nr) nl k2
    rw [foldl_create, k1] at m
    have e : ({ (chunks b.length b).foldl (fun s c => s.create { ack := true } c) X with
        wrote := ((chunks b.length b).foldl (fun s c => s.create { ack := true } c) X).wrote ++ b } : Ep) =
        { (chunks b.length b).foldl (fun s c => s.create { ack := true } c) X with wrote := X.wrote ++ b } := by
      rw [foldl_wrote]
    rw [e]
    obtain ⟨X', e2, m2⟩ := flush_mv hP m.good
    exact ⟨X', e2, m.trans m2⟩

theorem takeIn_ok : ∀ (n : Nat) (q : List (List Nat)), (Ep.takeIn n q).1 ++ (Ep.takeIn n q).2.1 ++ (Ep.takeIn n q).2.2.flatten = q.flatten := by
  intro n q
  fun_induction Ep.takeIn n q with
  | case1 => simp
  | case2 => simp
  | case3 n d q h0 hd r ih => simp [← ih, r]
  | case4 n d q h0 hd => rw [List.flatten_cons, List.take_append_drop]

/-- The bytes that are read come in order from what was received. -/
theorem copy_str (X : Ep) (n : Nat) :
    (X.copy n).1.read ++ (X.copy n).1.part ++ (X.copy n).1.inb.flatten = X.read ++ X.part ++ X.inb.flatten := by
  unfold Ep.copy
  split
  · rename_i c
    simp only
    rw [List.take_of_length_le c]
    have := takeIn_ok (n - X.part.length) X.inb
    rw [← this]
    simp
  · simp only
    rw [List.append_assoc X.read, List.take_append_drop]

end Shadow.CTcp
