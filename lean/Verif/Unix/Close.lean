import Verif.Unix.Calls

/-!
# Unix-domain sockets: closing keeps the invariant

Closing a listening socket closes the connections that wait in its queue, one after the other,
before the callbacks run.  In between the state bits of the listening socket are out of date.
-/

namespace Shadow.Unix

open Shadow.Base

variable {α : Type}

/-- The invariant with callbacks pending, except for the state bits of the sockets in `x`. -/
structure Part (x : Nat → Prop) (w : World α) (cs : List Cb) : Prop where
  wf : Wf w.socks w.next
  names : Names w cs
  acct : Acct w cs
  bits : ∀ i s, w.socks i = some s → ¬ x i →
    w.flags i = w.flagsOf i s ∨ (s.proto.over = false ∧ Pending i cs) ∨ Fresh w i s
  calm : ∀ i, Cb.refresh i true ∉ cs

theorem Part.mid {w : World α} {cs : List Cb} (h : Part (fun _ => False) w cs) : Mid w cs :=
  ⟨h.wf, h.names, h.acct, ⟨fun i s hs => h.bits i s hs id, fun i hi => (h.calm i hi).elim⟩⟩

theorem Mid.part {w : World α} {cs : List Cb} (h : Mid w cs) (hc : ∀ i, Cb.refresh i true ∉ cs)
    (x : Nat → Prop) : Part x w cs :=
  ⟨h.wf, h.names, h.acct, fun i s hs _ => h.bits.exact i s hs, hc⟩

/-- The callback that drops the name of a closed socket. -/
def unbindOf (s : Sock α) : List Cb :=
  match s.reg with
  | some n => [.unbind s.kind n]
  | none => []

theorem mem_unbindOf {s : Sock α} {c : Cb} : c ∈ unbindOf s ↔ ∃ n, s.reg = some n ∧ c = .unbind s.kind n := by
  unfold unbindOf
  cases s.reg with
  | none => simp
  | some n => simp

theorem shut_ok {w : World α} {i : Nat} {s : Sock α} (hs : w.socks i = some s) (p : Proto) :
    shut w i p = .ok ((fixed { w with socks := put w.socks i (some { s with proto := p, held := false }) } i).queue
      (unbindOf s)) := by
  unfold shut
  simp only [mod_some hs, refresh_false, R.bind_ok, (fixed_rest _ _).1, put_same]
  unfold unbindOf
  cases hr : s.reg with
  | none =>
    simp only [World.queue, List.append_nil]
  | some n => rfl

/-- The names after socket `i` was closed. -/
theorem names_close {w w' : World α} {cs xs : List Cb} {i : Nat} {s s' : Sock α} (h : Names w cs)
    (hns : w'.ns = w.ns) (hs : w.socks i = some s) (hs' : w'.socks i = some s')
    (hk : s'.kind = s.kind) (hr : s'.reg = s.reg) (ho : s.proto.over = false) (ho' : s'.proto.over = true)
    (back : ∀ j u', j ≠ i → w'.socks j = some u' → ∃ u, w.socks j = some u ∧ SameName u u')
    (fwd : ∀ j u, j ≠ i → w.socks j = some u → ∃ u', w'.socks j = some u' ∧ SameName u u')
    (hxs : ∀ k n, Cb.unbind k n ∉ xs) : Names w' (cs ++ xs ++ unbindOf s) := by
  have hmem : ∀ k n, Cb.unbind k n ∈ cs ++ xs ++ unbindOf s ↔
      Cb.unbind k n ∈ cs ∨ (k = s.kind ∧ s.reg = some n) := by
    intro k n
    simp only [List.mem_append, hxs, or_false, mem_unbindOf, Cb.unbind.injEq]
    constructor
    · rintro (h | ⟨m, h1, h2, h3⟩)
      · exact .inl h
      · exact .inr ⟨h2, by rw [h3]; exact h1⟩
    · rintro (h | ⟨h1, h2⟩)
      · exact .inl h
      · exact .inr ⟨n, h2, h1, rfl⟩
  have hnot : ∀ n, s.reg = some n → w.ns s.kind n = some i ∧ Cb.unbind s.kind n ∉ cs := by
    intro n hn
    have h1 := h.there i s n hs hn ho
    obtain ⟨u, h2, h3, h4, h5⟩ := h.found _ _ _ h1
    rw [hs] at h2; cases h2
    exact ⟨h1, fun hm => by rw [h5.2 hm] at ho; cases ho⟩
  constructor
  · intro k n j hj
    rw [hns] at hj
    obtain ⟨u, h1, h2, h3, h4⟩ := h.found k n j hj
    by_cases e : j = i
    · subst e
      rw [hs] at h1; cases h1
      refine ⟨s', hs', by rw [hk, h2], by rw [hr, h3], ?_⟩
      rw [hmem]
      simp [ho', h2, h3]
    · obtain ⟨u', h5, h6⟩ := fwd j u e h1
      refine ⟨u', h5, by rw [← h6.1, h2], by rw [← h6.2.1, h3], ?_⟩
      rw [← h6.2.2, h4, hmem]
      constructor
      · exact .inl
      · rintro (h7 | ⟨h7, h8⟩)
        · exact h7
        · have := (hnot n h8).1
          rw [← h7, hj] at this
          cases this
          exact (e rfl).elim
  · intro j u' n hu hr' ho''
    rw [hns]
    by_cases e : j = i
    · subst e; rw [hs'] at hu; cases hu; rw [ho'] at ho''; cases ho''
    · obtain ⟨u, h1, h2⟩ := back j u' e hu
      rw [← h2.1]
      exact h.there j u n h1 (by rw [h2.2.1, hr']) (by rw [h2.2.2, ho''])
  · intro k n hm
    rw [hns]
    rcases (hmem k n).1 hm with hm | ⟨h1, h2⟩
    · exact h.due k n hm
    · rw [h1, (hnot n h2).1]; rfl
  · intro k n
    rw [List.count_append, List.count_append, List.count_eq_zero.2 (hxs k n)]
    have h1 := h.once k n
    by_cases hu : Cb.unbind k n ∈ unbindOf s
    · obtain ⟨m, h2, h3⟩ := mem_unbindOf.1 hu
      cases h3
      have h4 := (hnot n h2).2
      rw [List.count_eq_zero.2 h4]
      unfold unbindOf
      rw [h2]
      simp
    · rw [List.count_eq_zero.2 hu]; omega

/-- Closing a socket that was never connected. -/
theorem part_shut {x : Nat → Prop} {w : World α} {i : Nat} {s : Sock α} (h : Part x w w.cbs)
    (hs : w.socks i = some s) (hd : s.proto.early = true)
    (hq : ∀ b q l, s.proto = .listening b q l → q = []) :
    ∃ w', shut w i .closed = .ok w' ∧ Part (fun j => x j ∧ j ≠ i) w' w'.cbs ∧
      w'.socks = put w.socks i (some { s with proto := .closed, held := false }) ∧ w'.next = w.next ∧
      w'.limit = w.limit ∧ w'.nonblock = w.nonblock := by
  obtain ⟨w1, hw1⟩ : ∃ w1, w1 = fixed { w with socks := put w.socks i (some { s with proto := Proto.closed, held := false }) } i := ⟨_, rfl⟩
  refine ⟨_, shut_ok hs _, ?_⟩
  rw [← hw1]
  have hf := fixed_rest { w with socks := put w.socks i (some { s with proto := Proto.closed, held := false }) } i
  rw [← hw1] at hf
  obtain ⟨f1, f2, f3, f4, f5, f6, f7⟩ := hf
  simp only at f1 f2 f3 f4 f5 f6 f7
  have gi : w1.socks i = some { s with proto := .closed, held := false } := by rw [f1, put_same]
  have ffl : ∀ j, j ≠ i → w1.flags j = w.flags j := fun j hj => by rw [hw1]; exact fixed_ne _ hj
  have ffi : w1.flags i = w1.flagsOf i { s with proto := .closed, held := false } := by
    rw [hw1]; exact fixed_flags (by simp)
  have hov : s.proto.over = false := by revert hd; cases s.proto <;> simp [Proto.early, Proto.over]
  have hlt := h.wf.old i s hs
  have hnc : ∀ b a p, s.proto ≠ .conn b a p := by
    intro b a p e; rw [e] at hd; cases hd
  have hnd : ∀ b a p, s.proto ≠ .dgram b a p := by
    intro b a p e; rw [e] at hd; cases hd
  have hpn : ∀ k, pendN k (w1.queue (unbindOf s)).cbs = pendN k w.cbs := by
    intro k
    rw [queue_cbs, f4, pendN_append, pendN_zero (cs := unbindOf s)]
    · rfl
    · intro n hm; obtain ⟨m, -, hm⟩ := mem_unbindOf.1 hm; cases hm
  refine ⟨⟨?_, ?_, ?_, ?_, ?_⟩, f1, f2, f6, f7⟩
  · rw [queue_socks, queue_next, f1, f2]; exact wf_shut h.wf hs hd hq
  · have := names_close (w' := w1.queue (unbindOf s)) (xs := []) h.names f3 hs gi rfl rfl hov rfl ?_ ?_ (by simp)
    · rw [List.append_nil] at this; rw [queue_cbs, f4]; exact this
    · intro j u e hu
      rw [queue_socks, f1, put_ne _ _ e] at hu
      exact ⟨u, hu, rfl, rfl, rfl⟩
    · intro j u e hu
      exact ⟨u, by rw [queue_socks, f1, put_ne _ _ e]; exact hu, rfl, rfl, rfl⟩
  · have hown : ∀ k, owedTo w1.socks w1.next k = owedTo w.socks w.next k := by
      intro k
      rw [f1, f2]
      refine owedTo_same hlt ?_
      rw [hs]
      unfold owed
      cases hp : s.proto with
      | dgram b a r => exact (hnd _ _ _ hp).elim
      | _ => simp only [hp]
    obtain ⟨a1, a2, a3, a4, a5⟩ := h.acct
    have pe := h.wf.peer
    constructor
    · intro y u b1 a1' z v hy hu hz
      rw [hpn, queue_sent, f5]
      rw [queue_socks, f1] at hy hz
      have e : y ≠ i := by rintro rfl; rw [put_same] at hy; cases hy; cases hu
      rw [put_ne _ _ e] at hy
      by_cases e1 : z = i
      · subst e1
        rw [put_same] at hz; cases hz
        exact a1 y u _ _ _ s hy hu hs
      · rw [put_ne _ _ e1] at hz; exact a1 y u _ _ _ v hy hu hz
    · intro y u b1 a1' r1 hy hu
      rw [hpn, queue_sent, f5, queue_socks, queue_next, hown]
      rw [queue_socks, f1] at hy
      have e : y ≠ i := by rintro rfl; rw [put_same] at hy; cases hy; cases hu
      rw [put_ne _ _ e] at hy
      exact a2 y u _ _ _ hy hu
    · intro y u hy hu
      rw [queue_sent, f5]
      rw [queue_socks, f1] at hy
      have e : y ≠ i := by rintro rfl; rw [put_same] at hy; cases hy; cases hu
      rw [put_ne _ _ e] at hy
      exact a3 y u hy hu
    · intro y m hm
      rw [queue_cbs, f4, List.mem_append] at hm
      rcases hm with hm | hm
      · obtain ⟨u, h1, h2⟩ := a4 y m hm
        by_cases e : y = i
        · subst e; rw [hs] at h1; cases h1; rw [hd] at h2; cases h2
        · exact ⟨u, by rw [queue_socks, f1, put_ne _ _ e]; exact h1, h2⟩
      · obtain ⟨k, -, hm⟩ := mem_unbindOf.1 hm; cases hm
    · intro y u hy
      rw [queue_sent, queue_limit, f5, f6]
      rw [queue_socks, f1] at hy
      by_cases e : y = i
      · subst e; exact a5 y s hs
      · rw [put_ne _ _ e] at hy; exact a5 y u hy
  · intro j u hu hx
    rw [queue_socks] at hu
    by_cases e : j = i
    · subst e
      rw [gi] at hu; cases hu
      exact .inl ffi
    · have hu' := hu
      rw [f1, put_ne _ _ e] at hu
      have hread : ∀ k, (w1.queue (unbindOf s)).readers k = w.readers k :=
        fun k => readers_put (w' := w1.queue (unbindOf s)) hs f1 rfl k
      have hfl : (w1.queue (unbindOf s)).flagsOf j u = w.flagsOf j u :=
        flagsOf_congr j u (by rw [queue_sent, f5]) f6 hread
      rw [hfl]
      rcases h.bits j u hu (fun hxj => hx ⟨hxj, e⟩) with h1 | ⟨h1, h2⟩ | h1
      · exact .inl (by rw [queue_flags, ffl j e]; exact h1)
      · exact .inr (.inl ⟨h1, by rw [queue_cbs, f4, pending_append]; exact .inl h2⟩)
      · refine .inr (.inr ⟨h1.1, ?_, ?_⟩)
        · rw [queue_flags, ffl j e]; exact h1.2.1
        · rw [queue_sent, f5]; exact h1.2.2
  · intro j hm
    rw [queue_cbs, f4, List.mem_append] at hm
    rcases hm with hm | hm
    · exact h.calm j hm
    · obtain ⟨k, -, hm⟩ := mem_unbindOf.1 hm; cases hm

/-! ## Closing a connected socket -/

/-- The closed socket's buffer. -/
def Buf.left (b : Buf α) : Buf α := { b with readers := b.readers - 1 }

/-- The buffer that the closed socket wrote to. -/
def Buf.lorn (b : Buf α) : Buf α := { b with writers := b.writers - 1 }

theorem closeConn_ok {w : World α} {i p : Nat} {s t : Sock α} (hs : w.socks i = some s)
    (ht : w.socks p = some t) (hne : p ≠ i) :
    closeConn w i p = .ok ((fixed { w with
      socks := put (put w.socks p (some { t with buf := t.buf.lorn.pub.forget i })) i
        (some { s with proto := .closed, held := false, buf := s.buf.left.pub.forget i })
      cbs := w.cbs ++ heard s.buf.left s.buf.st false ++ heard t.buf.lorn t.buf.st false } i).queue
      (unbindOf s)) := by
  unfold closeConn
  simp only [touch_some hs]
  have h1 : (put w.socks i (some { s with buf := Buf.pub { s.buf with readers := s.buf.readers - 1 } })) p = some t := by
    rw [put_ne _ _ hne]; exact ht
  rw [touch_some (s := t) h1]
  rw [poke_some (i := i) (s := { s with buf := Buf.pub { s.buf with readers := s.buf.readers - 1 } })]
  · rw [poke_some (i := p) (s := { t with buf := Buf.pub { t.buf with writers := t.buf.writers - 1 } })]
    · rw [shut_ok (s := { s with buf := (Buf.pub { s.buf with readers := s.buf.readers - 1 }).forget i })]
      · simp only [unbindOf]
        congr 3
        congr 1
        funext x
        simp only [put, Buf.left, Buf.lorn]
        grind
      · simp only [put_ne _ _ (Ne.symm hne), put_same]
    · simp only [put_ne _ _ hne, put_same]
  · simp only [put_ne _ _ (Ne.symm hne), put_same]

theorem mem_forget {b : Buf α} {i : Nat} {e : Nat × Role} : e ∈ (b.forget i).ears ↔ e ∈ b.ears ∧ e.1 ≠ i := by
  simp [Buf.forget]

theorem part_closeConn {x : Nat → Prop} {w : World α} {i p : Nat} {s : Sock α} {b a : Option Nat}
    (h : Part x w w.cbs) (hs : w.socks i = some s) (hd : s.proto = .conn b a p) (hxp : ¬ x p)
    (hnq : ∀ j u b q l, w.socks j = some u → u.proto = .listening b q l → i ∉ q) :
    ∃ w' t, closeConn w i p = .ok w' ∧ w.socks p = some t ∧ Part (fun j => x j ∧ j ≠ i) w' w'.cbs ∧
      w'.socks = put (put w.socks p (some { t with buf := t.buf.lorn.pub.forget i })) i
        (some { s with proto := .closed, held := false, buf := s.buf.left.pub.forget i }) ∧
      w'.next = w.next ∧ w'.limit = w.limit ∧ w'.nonblock = w.nonblock := by
  obtain ⟨hne, t, ht, hkt, hor⟩ := h.wf.peer i s b a p hs hd
  obtain ⟨hw1t, het⟩ := h.wf.writers i s b a p t hs hd ht
  obtain ⟨w1, hw1⟩ : ∃ w1, w1 = fixed { w with
      socks := put (put w.socks p (some { t with buf := t.buf.lorn.pub.forget i })) i
        (some { s with proto := .closed, held := false, buf := s.buf.left.pub.forget i })
      cbs := w.cbs ++ heard s.buf.left s.buf.st false ++ heard t.buf.lorn t.buf.st false } i := ⟨_, rfl⟩
  have hf := fixed_rest { w with
      socks := put (put w.socks p (some { t with buf := t.buf.lorn.pub.forget i })) i
        (some { s with proto := .closed, held := false, buf := s.buf.left.pub.forget i })
      cbs := w.cbs ++ heard s.buf.left s.buf.st false ++ heard t.buf.lorn t.buf.st false } i
  refine ⟨_, t, closeConn_ok hs ht hne, ht, ?_⟩
  rw [← hw1]
  rw [← hw1] at hf
  obtain ⟨f1, f2, f3, f4, f5, f6, f7⟩ := hf
  simp only at f1 f2 f3 f4 f5 f6 f7
  have gi : w1.socks i = some { s with proto := .closed, held := false, buf := s.buf.left.pub.forget i } := by
    rw [f1, put_same]
  have gp : w1.socks p = some { t with buf := t.buf.lorn.pub.forget i } := by
    rw [f1, put_ne _ _ hne, put_same]
  have gx : ∀ j, j ≠ i → j ≠ p → w1.socks j = w.socks j := fun j e1 e2 => by
    rw [f1, put_ne _ _ e1, put_ne _ _ e2]
  have ffl : ∀ j, j ≠ i → w1.flags j = w.flags j := fun j hj => by rw [hw1]; exact fixed_ne _ hj
  have ffi : w1.flags i = w1.flagsOf i { s with proto := .closed, held := false, buf := s.buf.left.pub.forget i } := by
    rw [hw1]; exact fixed_flags (by simp)
  have hcbs : (w1.queue (unbindOf s)).cbs =
      w.cbs ++ (heard s.buf.left s.buf.st false ++ heard t.buf.lorn t.buf.st false) ++ unbindOf s := by
    rw [queue_cbs, f4, List.append_assoc w.cbs]
  have hpn : ∀ k, pendN k (w1.queue (unbindOf s)).cbs = pendN k w.cbs := by
    intro k
    rw [hcbs, pendN_append, pendN_append, pendN_append, pendN_heard, pendN_heard, pendN_zero (cs := unbindOf s)]
    · rfl
    · intro n hm; obtain ⟨m, -, hm⟩ := mem_unbindOf.1 hm; cases hm
  have hrd := h.wf.readers i s hs (by rw [hd]; rfl)
  rw [hd] at hrd
  -- who is connected to `i`
  have honly : ∀ y u b a, w.socks y = some u → u.proto = .conn b a i → y = p := by
    intro y u b' a' hy hu
    obtain ⟨-, v, h1, -, h2⟩ := h.wf.peer y u _ _ _ hy hu
    rw [hs] at h1; cases h1
    rcases h2 with h2 | ⟨_, _, h2⟩ <;> rw [hd] at h2 <;> cases h2
    rfl
  refine ⟨⟨?_, ?_, ?_, ?_, ?_⟩, f1, f2, f6, f7⟩
  · rw [queue_socks, queue_next, f1, f2]
    exact wf_closeConn h.wf hs hd ht rfl rfl (by show s.buf.readers - 1 = 0; rw [hrd]; rfl) rfl rfl (fun e => mem_forget)
      rfl rfl rfl (by show t.buf.writers - 1 = 0; omega) rfl (fun e => mem_forget) hnq
  · rw [hcbs]
    refine names_close (w' := w1.queue (unbindOf s)) h.names f3 hs gi rfl rfl (by rw [hd]; rfl) rfl ?_ ?_ ?_
    · intro j u e hu
      rw [queue_socks] at hu
      by_cases e1 : j = p
      · subst e1; rw [gp] at hu; cases hu; exact ⟨t, ht, rfl, rfl, rfl⟩
      · rw [gx j e e1] at hu; exact ⟨u, hu, rfl, rfl, rfl⟩
    · intro j u e hu
      rw [queue_socks]
      by_cases e1 : j = p
      · subst e1; rw [ht] at hu; cases hu; exact ⟨_, gp, rfl, rfl, rfl⟩
      · exact ⟨u, by rw [gx j e e1]; exact hu, rfl, rfl, rfl⟩
    · intro k n hm
      rcases List.mem_append.1 hm with hm | hm <;> exact heard_unbind hm
  · have hown : ∀ k, owedTo w1.socks w1.next k = owedTo w.socks w.next k := by
      intro k
      have hi' := h.wf.old i s hs
      have ht' := h.wf.old p t ht
      rw [f1, f2, owedTo_same hi', owedTo_same ht']
      · rw [ht]; rfl
      · rw [put_ne _ _ (Ne.symm hne), hs]; simp only [owed, hd]
    obtain ⟨a1, a2, a3, a4, a5⟩ := h.acct
    constructor
    · intro y u b1 a1' z v hy hu hz
      rw [hpn, queue_sent, f5]
      rw [queue_socks] at hy hz
      have e : y ≠ i := by rintro rfl; rw [gi] at hy; cases hy; cases hu
      have hy0 : ∃ u0, w.socks y = some u0 ∧ u0.proto = .conn b1 a1' z := by
        by_cases e1 : y = p
        · subst e1; rw [gp] at hy; cases hy; exact ⟨t, ht, hu⟩
        · rw [gx y e e1] at hy; exact ⟨u, hy, hu⟩
      obtain ⟨u0, hy0, hu0⟩ := hy0
      have hz0 : ∃ v0, w.socks z = some v0 ∧ vol v.buf = vol v0.buf := by
        by_cases e1 : z = p
        · subst e1; rw [gp] at hz; cases hz; exact ⟨t, ht, rfl⟩
        · by_cases e2 : z = i
          · subst e2; rw [gi] at hz; cases hz; exact ⟨s, hs, rfl⟩
          · rw [gx z e2 e1] at hz; exact ⟨v, hz, rfl⟩
      obtain ⟨v0, hz0, hv⟩ := hz0
      rw [hv]
      exact a1 y u0 _ _ _ v0 hy0 hu0 hz0
    · intro y u b1 a1' r1 hy hu
      rw [hpn, queue_sent, f5, queue_socks, queue_next, hown]
      rw [queue_socks] at hy
      have e : y ≠ i := by rintro rfl; rw [gi] at hy; cases hy; cases hu
      by_cases e1 : y = p
      · subst e1; rw [gp] at hy; cases hy; exact a2 y t _ _ _ ht hu
      · rw [gx y e e1] at hy; exact a2 y u _ _ _ hy hu
    · intro y u hy hu
      rw [queue_sent, f5]
      rw [queue_socks] at hy
      have e : y ≠ i := by rintro rfl; rw [gi] at hy; cases hy; cases hu
      by_cases e1 : y = p
      · subst e1; rw [gp] at hy; cases hy; exact a3 y t ht hu
      · rw [gx y e e1] at hy; exact a3 y u hy hu
    · intro y m hm
      rw [hcbs, List.append_assoc] at hm
      rcases List.mem_append.1 hm with hm | hm
      · obtain ⟨u, h1, h2⟩ := a4 y m hm
        rw [queue_socks]
        by_cases e : y = i
        · subst e; exact ⟨_, gi, rfl⟩
        · by_cases e1 : y = p
          · subst e1; rw [ht] at h1; cases h1; exact ⟨_, gp, h2⟩
          · exact ⟨u, by rw [gx y e e1]; exact h1, h2⟩
      · rcases List.mem_append.1 hm with hm | hm
        · rcases List.mem_append.1 hm with hm | hm <;> exact (heard_inform hm).elim
        · obtain ⟨k, -, hm⟩ := mem_unbindOf.1 hm; cases hm
    · intro y u hy
      rw [queue_sent, queue_limit, f5, f6]
      rw [queue_socks] at hy
      by_cases e : y = i
      · subst e; exact a5 y s hs
      · by_cases e1 : y = p
        · subst e1; exact a5 y t ht
        · rw [gx y e e1] at hy; exact a5 y u hy
  · intro j u hu hx
    rw [queue_socks] at hu
    by_cases e : j = i
    · subst e
      rw [gi] at hu; cases hu
      exact .inl ffi
    · by_cases e1 : j = p
      · subst e1
        rw [gp] at hu; cases hu
        rcases hor with hor | ⟨b', a', hor⟩
        · rcases h.bits j t ht hxp with h1 | ⟨h1, h2⟩ | h1
          · left
            rw [queue_flags, ffl j e, h1]
            simp only [World.flagsOf, hor]
          · rw [hor] at h1; cases h1
          · obtain ⟨⟨_, h1⟩, -⟩ := h1; rw [hor] at h1; cases h1
        · refine .inr (.inl ⟨by show t.proto.over = false; rw [hor]; rfl, .inl ⟨false, ?_⟩⟩)
          rw [hcbs]
          refine List.mem_append_left _ (List.mem_append_right _ (List.mem_append_right _ ?_))
          rw [mem_heard]
          refine ⟨j, .own, h.wf.ear j t _ _ _ ht hor, ?_, rfl⟩
          have := h.wf.st j t ht
          rw [this]
          simp [Role.hears, Buf.exact, Buf.lorn, hw1t]
      · rw [gx j e e1] at hu
        have hfl : (w1.queue (unbindOf s)).flagsOf j u = w.flagsOf j u := by
          unfold World.flagsOf
          rw [queue_sent, queue_limit, f5, f6]
          cases hp : u.proto with
          | conn b1 a1 y =>
            simp only
            have hy : y ≠ i := by rintro rfl; exact e1 (honly j u _ _ hu hp)
            have : (w1.queue (unbindOf s)).readers y = w.readers y := by
              unfold World.readers
              rw [queue_socks]
              by_cases e2 : y = p
              · subst e2; rw [gp, ht]; rfl
              · rw [gx y hy e2]
            rw [this]
          | _ => rfl
        rw [hfl]
        rcases h.bits j u hu (fun hxj => hx ⟨hxj, e⟩) with h1 | ⟨h1, h2⟩ | h1
        · exact .inl (by rw [queue_flags, ffl j e]; exact h1)
        · exact .inr (.inl ⟨h1, by rw [hcbs, pending_append, pending_append]; exact .inl (.inl h2)⟩)
        · refine .inr (.inr ⟨h1.1, ?_, ?_⟩)
          · rw [queue_flags, ffl j e]; exact h1.2.1
          · rw [queue_sent, f5]; exact h1.2.2
  · intro j hm
    rw [hcbs, List.append_assoc] at hm
    rcases List.mem_append.1 hm with hm | hm
    · exact h.calm j hm
    · rcases List.mem_append.1 hm with hm | hm
      · rcases List.mem_append.1 hm with hm | hm <;> exact (heard_grew hm).elim
      · obtain ⟨k, -, hm⟩ := mem_unbindOf.1 hm; cases hm

/-! ## Closing a datagram socket -/

/-- The news for the senders of datagrams that nobody will read. -/
def news (r : List Entry) : List Cb := r.map fun e => .inform e.src e.len

theorem pendN_news (k : Nat) (r : List Entry) : pendN k (news r) = owedIn k r := by
  induction r with
  | nil => rfl
  | cons e r ih =>
    rw [owedIn_cons, ← ih]
    rfl

theorem closeDgram_ok {w : World α} {i : Nat} {s : Sock α} (hs : w.socks i = some s) (r : List Entry) :
    closeDgram w i r = .ok ((fixed { w with
      socks := put w.socks i (some { s with proto := .dgramClosed, held := false, buf := s.buf.left.pub.forget i })
      cbs := w.cbs ++ heard s.buf.left s.buf.st false ++ news r } i).queue (unbindOf s)) := by
  unfold closeDgram
  simp only [touch_some hs, World.queue]
  rw [poke_some (i := i) (s := { s with buf := Buf.pub { s.buf with readers := s.buf.readers - 1 } })]
  · rw [shut_ok (s := { s with buf := (Buf.pub { s.buf with readers := s.buf.readers - 1 }).forget i })]
    · simp only [unbindOf, put_put]
      rfl
    · simp only [put_same]
  · simp only [put_same]

theorem part_closeDgram {x : Nat → Prop} {w : World α} {i : Nat} {s : Sock α} {b a : Option Nat} {r : List Entry}
    (h : Part x w w.cbs) (hs : w.socks i = some s) (hd : s.proto = .dgram b a r) :
    ∃ w', closeDgram w i r = .ok w' ∧ Part (fun j => x j ∧ j ≠ i) w' w'.cbs ∧
      w'.socks = put w.socks i (some { s with proto := .dgramClosed, held := false, buf := s.buf.left.pub.forget i }) ∧
      w'.next = w.next ∧ w'.limit = w.limit ∧ w'.nonblock = w.nonblock := by
  obtain ⟨w1, hw1⟩ : ∃ w1, w1 = fixed { w with
      socks := put w.socks i (some { s with proto := .dgramClosed, held := false, buf := s.buf.left.pub.forget i })
      cbs := w.cbs ++ heard s.buf.left s.buf.st false ++ news r } i := ⟨_, rfl⟩
  have hf := fixed_rest { w with
      socks := put w.socks i (some { s with proto := .dgramClosed, held := false, buf := s.buf.left.pub.forget i })
      cbs := w.cbs ++ heard s.buf.left s.buf.st false ++ news r } i
  refine ⟨_, closeDgram_ok hs r, ?_⟩
  rw [← hw1]
  rw [← hw1] at hf
  obtain ⟨f1, f2, f3, f4, f5, f6, f7⟩ := hf
  simp only at f1 f2 f3 f4 f5 f6 f7
  have gi : w1.socks i = some { s with proto := .dgramClosed, held := false, buf := s.buf.left.pub.forget i } := by
    rw [f1, put_same]
  have gx : ∀ j, j ≠ i → w1.socks j = w.socks j := fun j e1 => by rw [f1, put_ne _ _ e1]
  have ffl : ∀ j, j ≠ i → w1.flags j = w.flags j := fun j hj => by rw [hw1]; exact fixed_ne _ hj
  have ffi : w1.flags i = w1.flagsOf i { s with proto := .dgramClosed, held := false, buf := s.buf.left.pub.forget i } := by
    rw [hw1]; exact fixed_flags (by simp)
  have hcbs : (w1.queue (unbindOf s)).cbs =
      w.cbs ++ (heard s.buf.left s.buf.st false ++ news r) ++ unbindOf s := by
    rw [queue_cbs, f4, List.append_assoc w.cbs]
  have hpn : ∀ k, pendN k (w1.queue (unbindOf s)).cbs = pendN k w.cbs + owedIn k r := by
    intro k
    rw [hcbs, pendN_append, pendN_append, pendN_append, pendN_heard, pendN_news, pendN_zero (cs := unbindOf s)]
    · omega
    · intro n hm; obtain ⟨m, -, hm⟩ := mem_unbindOf.1 hm; cases hm
  have hrd := h.wf.readers i s hs (by rw [hd]; rfl)
  rw [hd] at hrd
  have hwf : Wf w1.socks w1.next := by
    rw [f1, f2]
    exact wf_closeDgram h.wf hs hd rfl rfl (by show s.buf.readers - 1 = 0; rw [hrd]; rfl) rfl rfl
      (fun e he => (mem_forget.1 he).1)
  have hnews : ∀ c, c ∈ news r → ∃ e ∈ r, c = .inform e.src e.len := by
    intro c hc
    simp only [news, List.mem_map] at hc
    obtain ⟨e, h1, h2⟩ := hc
    exact ⟨e, h1, h2.symm⟩
  have hkd : s.kind = .dgram := (h.wf.isD i s hs).1 (by rw [hd]; rfl)
  refine ⟨⟨hwf, ?_, ?_, ?_, ?_⟩, f1, f2, f6, f7⟩
  · rw [hcbs]
    refine names_close (w' := w1.queue (unbindOf s)) h.names f3 hs gi rfl rfl (by rw [hd]; rfl) rfl ?_ ?_ ?_
    · intro j u e hu
      rw [queue_socks, gx j e] at hu; exact ⟨u, hu, rfl, rfl, rfl⟩
    · intro j u e hu
      exact ⟨u, by rw [queue_socks, gx j e]; exact hu, rfl, rfl, rfl⟩
    · intro k n hm
      rcases List.mem_append.1 hm with hm | hm
      · exact heard_unbind hm
      · obtain ⟨e, -, he⟩ := hnews _ hm; cases he
  · have hown : ∀ k, owedTo w1.socks w1.next k + owedIn k r = owedTo w.socks w.next k := by
      intro k
      rw [f1, f2]
      have := owedTo_put (S := w.socks) (k := k)
        (some { s with proto := .dgramClosed, held := false, buf := s.buf.left.pub.forget i }) (h.wf.old i s hs)
      rw [hs] at this
      simp only [owed, hd] at this
      omega
    obtain ⟨a1, a2, a3, a4, a5⟩ := h.acct
    constructor
    · intro y u b1 a1' z v hy hu hz
      rw [queue_socks] at hy hz
      have e : y ≠ i := by rintro rfl; rw [gi] at hy; cases hy; cases hu
      rw [gx y e] at hy
      have e1 : z ≠ i := by
        rintro rfl
        obtain ⟨-, v', h1, -, h2⟩ := h.wf.peer y u _ _ _ hy hu
        rw [hs] at h1; cases h1
        rcases h2 with h2 | ⟨_, _, h2⟩ <;> rw [hd] at h2 <;> cases h2
      rw [gx z e1] at hz
      have h0 : owedIn y r = 0 := owedIn_unknown fun e he hey => by
        have := h.wf.srcs i s _ _ _ e hs hd he
        rw [hey, hy] at this
        have := (h.wf.isD y u hy).2 (by simpa using this)
        rw [hu] at this; cases this
      rw [hpn, queue_sent, f5, h0]
      exact a1 y u _ _ _ v hy hu hz
    · intro y u b1 a1' r1 hy hu
      rw [hpn, queue_sent, f5, queue_socks, queue_next]
      rw [queue_socks] at hy
      have e : y ≠ i := by rintro rfl; rw [gi] at hy; cases hy; cases hu
      rw [gx y e] at hy
      have := a2 y u _ _ _ hy hu
      have := hown y
      omega
    · intro y u hy hu
      rw [queue_sent, f5]
      rw [queue_socks] at hy
      have e : y ≠ i := by rintro rfl; rw [gi] at hy; cases hy; cases hu
      rw [gx y e] at hy; exact a3 y u hy hu
    · intro y m hm
      rw [hcbs, List.append_assoc] at hm
      rw [queue_socks]
      rcases List.mem_append.1 hm with hm | hm
      · obtain ⟨u, h1, h2⟩ := a4 y m hm
        by_cases e : y = i
        · subst e; exact ⟨_, gi, rfl⟩
        · exact ⟨u, by rw [gx y e]; exact h1, h2⟩
      · rcases List.mem_append.1 hm with hm | hm
        · rcases List.mem_append.1 hm with hm | hm
          · exact (heard_inform hm).elim
          · obtain ⟨e, he, hm⟩ := hnews _ hm
            cases hm
            refine kind_early hwf ?_
            have hk := h.wf.srcs i s _ _ _ e hs hd he
            by_cases e1 : e.src = i
            · rw [e1, gi]; simp [hkd]
            · rw [gx _ e1]; exact hk
        · obtain ⟨k, -, hm⟩ := mem_unbindOf.1 hm; cases hm
    · intro y u hy
      rw [queue_sent, queue_limit, f5, f6]
      rw [queue_socks] at hy
      by_cases e : y = i
      · subst e; exact a5 y s hs
      · rw [gx y e] at hy; exact a5 y u hy
  · intro j u hu hx
    rw [queue_socks] at hu
    by_cases e : j = i
    · subst e
      rw [gi] at hu; cases hu
      exact .inl ffi
    · rw [gx j e] at hu
      have hfl : (w1.queue (unbindOf s)).flagsOf j u = w.flagsOf j u := by
        unfold World.flagsOf
        rw [queue_sent, queue_limit, f5, f6]
        cases hp : u.proto with
        | conn b1 a1 y =>
          simp only
          have hy : y ≠ i := by
            rintro rfl
            obtain ⟨-, v', h1, -, h2⟩ := h.wf.peer j u _ _ _ hu hp
            rw [hs] at h1; cases h1
            rcases h2 with h2 | ⟨_, _, h2⟩ <;> rw [hd] at h2 <;> cases h2
          have : (w1.queue (unbindOf s)).readers y = w.readers y := by
            unfold World.readers
            rw [queue_socks, gx y hy]
          rw [this]
        | _ => rfl
      rw [hfl]
      rcases h.bits j u hu (fun hxj => hx ⟨hxj, e⟩) with h1 | ⟨h1, h2⟩ | h1
      · exact .inl (by rw [queue_flags, ffl j e]; exact h1)
      · exact .inr (.inl ⟨h1, by rw [hcbs, pending_append, pending_append]; exact .inl (.inl h2)⟩)
      · refine .inr (.inr ⟨h1.1, ?_, ?_⟩)
        · rw [queue_flags, ffl j e]; exact h1.2.1
        · rw [queue_sent, f5]; exact h1.2.2
  · intro j hm
    rw [hcbs, List.append_assoc] at hm
    rcases List.mem_append.1 hm with hm | hm
    · exact h.calm j hm
    · rcases List.mem_append.1 hm with hm | hm
      · rcases List.mem_append.1 hm with hm | hm
        · exact (heard_grew hm).elim
        · obtain ⟨e, -, he⟩ := hnews _ hm; cases he
      · obtain ⟨k, -, hm⟩ := mem_unbindOf.1 hm; cases hm

/-! ## Closing a listening socket -/

/-- One connection leaves the queue. -/
theorem part_pop {w : World α} {i m c lim : Nat} {q : List Nat} {s : Sock α}
    (h : Part (fun j => j = i) w w.cbs) (hs : w.socks i = some s) (hd : s.proto = .listening m (c :: q) lim) :
    Part (fun j => j = i) (w.mod i fun s => { s with proto := .listening m q lim }) w.cbs := by
  obtain ⟨t, ht, hh, hk, hr, hc⟩ := h.wf.child i s m (c :: q) lim c hs hd (by simp)
  have hne : i ≠ c := by rintro rfl; rw [hs] at ht; cases ht; rw [hd] at hc; cases hc
  rw [mod_some hs]
  have hwf := wf_accept h.wf hs hd ht hc t.held hne
  have : put w.socks c (some { t with held := t.held }) = w.socks := by
    have := put_id w.socks c; rw [ht] at this; exact this
  rw [this] at hwf
  refine ⟨hwf, ?_, ?_, ?_, h.calm⟩
  · obtain ⟨f, t, d, o⟩ := h.names
    refine ⟨?_, ?_, d, o⟩
    · intro k n j hj
      obtain ⟨u, h1, h2, h3, h4⟩ := f k n j hj
      simp only
      by_cases e : j = i
      · subst e; rw [hs] at h1; cases h1
        rw [put_same]
        refine ⟨_, rfl, h2, h3, ?_⟩
        rw [← h4, hd]; rfl
      · rw [put_ne _ _ e]; exact ⟨u, h1, h2, h3, h4⟩
    · intro j u n hu hr ho
      simp only at hu
      by_cases e : j = i
      · subst e; rw [put_same] at hu; cases hu
        exact t j s n hs hr (by rw [hd]; rfl)
      · rw [put_ne _ _ e] at hu; exact t j u n hu hr ho
  · have hown : ∀ k, owedTo (put w.socks i (some { s with proto := .listening m q lim })) w.next k = owedTo w.socks w.next k :=
      fun k => owedTo_same (h.wf.old i s hs) (by rw [hs]; simp only [owed, hd])
    obtain ⟨a1, a2, a3, a4, a5⟩ := h.acct
    constructor
    · intro y u b1 a1' z v hy hu hz
      simp only at hy hz ⊢
      have e : y ≠ i := by rintro rfl; rw [put_same] at hy; cases hy; cases hu
      rw [put_ne _ _ e] at hy
      by_cases e1 : z = i
      · subst e1; rw [put_same] at hz; cases hz; exact a1 y u _ _ _ s hy hu hs
      · rw [put_ne _ _ e1] at hz; exact a1 y u _ _ _ v hy hu hz
    · intro y u b1 a1' r1 hy hu
      simp only at hy ⊢
      rw [hown]
      have e : y ≠ i := by rintro rfl; rw [put_same] at hy; cases hy; cases hu
      rw [put_ne _ _ e] at hy
      exact a2 y u _ _ _ hy hu
    · intro y u hy hu
      simp only at hy ⊢
      by_cases e : y = i
      · subst e; exact a3 y s hs (by rw [hd]; rfl)
      · rw [put_ne _ _ e] at hy; exact a3 y u hy hu
    · intro y n hm
      obtain ⟨u, h1, h2⟩ := a4 y n hm
      simp only
      by_cases e : y = i
      · subst e; rw [hs] at h1; cases h1; rw [hd] at h2; cases h2
      · exact ⟨u, by rw [put_ne _ _ e]; exact h1, h2⟩
    · intro y u hy
      simp only at hy ⊢
      by_cases e : y = i
      · subst e; exact a5 y s hs
      · rw [put_ne _ _ e] at hy; exact a5 y u hy
  · intro j u hu hx
    simp only at hu
    rw [put_ne _ _ hx] at hu
    have hfl : ({ w with socks := put w.socks i (some { s with proto := .listening m q lim }) } : World α).flagsOf j u = w.flagsOf j u :=
      flagsOf_congr j u rfl rfl (fun k => readers_put (s' := { s with proto := .listening m q lim }) hs rfl rfl k)
    rw [hfl]
    exact h.bits j u hu hx

/-- The sockets after the queue of `i` was closed: no connection is left in it, those that were in
it are closed, and others lost at most the writer of their buffer. -/
structure Cut (S S' : Nat → Option (Sock α)) (i : Nat) (q : List Nat) : Prop where
  gone : ∀ c ∈ q, ∃ t, S' c = some t ∧ t.proto = .closed ∧ t.held = false
  kinds : ∀ j, (S' j).map Sock.kind = (S j).map Sock.kind
  none : ∀ j, S j = none → S' j = none
  kept : ∀ j s, j ≠ i → j ∉ q → S j = some s → ∃ b, S' j = some { s with buf := b } ∧
    b.bytes = s.buf.bytes ∧ b.pkts = s.buf.pkts

theorem closeQueue_ok {w : World α} {i m lim : Nat} (q : List Nat) {s : Sock α}
    (h : Part (fun j => j = i) w w.cbs) (hw : Waiting w.socks fun _ => False)
    (hs : w.socks i = some s) (hd : s.proto = .listening m q lim) :
    ∃ w', closeQueue w i m lim q = .ok w' ∧ Part (fun j => j = i) w' w'.cbs ∧
      Waiting w'.socks (fun _ => False) ∧
      w'.socks i = some { s with proto := .listening m [] lim } ∧ Cut w.socks w'.socks i q ∧
      w'.next = w.next ∧ w'.limit = w.limit ∧ w'.nonblock = w.nonblock := by
  induction q generalizing w s with
  | nil =>
    refine ⟨w, rfl, h, hw, by rw [hs, ← hd], ⟨by simp, fun _ => rfl, fun _ h => h, ?_⟩, rfl, rfl, rfl⟩
    intro j u hj _ hu; exact ⟨u.buf, hu, rfl, rfl⟩
  | cons c q ih =>
    obtain ⟨t, ht, hh, hk, hr, hc⟩ := h.wf.child i s m (c :: q) lim c hs hd (by simp)
    have hne : i ≠ c := by rintro rfl; rw [hs] at ht; cases ht; rw [hd] at hc; cases hc
    have hnd := h.wf.nodup i s m _ lim hs hd
    have hap := h.wf.apart
    have hcq : c ∉ q := (List.nodup_cons.1 hnd).1
    have h1 := part_pop h hs hd
    have hm : (w.mod i fun s => { s with proto := .listening m q lim }) =
        { w with socks := put w.socks i (some { s with proto := .listening m q lim }) } := mod_some hs _
    have h1' : Part (fun j => j = i) (w.mod i fun s => { s with proto := .listening m q lim })
        (w.mod i fun s => { s with proto := .listening m q lim }).cbs := h1
    have hcp : ∃ b a p, t.proto = .conn b a p := by
      revert hc; cases t.proto <;> simp [Proto.isConn]
    obtain ⟨b, a, p, hcp⟩ := hcp
    have htc : (w.mod i fun s => { s with proto := .listening m q lim }).socks c = some t := by
      rw [hm]; simp only; rw [put_ne _ _ (Ne.symm hne)]; exact ht
    have hpi : p ≠ i := by
      rintro rfl
      obtain ⟨-, u, h2, -, h3⟩ := h.wf.peer c t _ _ _ ht hcp
      rw [hs] at h2; cases h2
      rcases h3 with h3 | ⟨_, _, h3⟩ <;> rw [hd] at h3 <;> cases h3
    have hnq : ∀ j u b q' l, (w.mod i fun s => { s with proto := .listening m q lim }).socks j = some u →
        u.proto = .listening b q' l → c ∉ q' := by
      intro j u b' q' l hj hu hmem
      rw [hm] at hj
      simp only at hj
      by_cases e : j = i
      · subst e; rw [put_same] at hj; cases hj
        simp only [Proto.listening.injEq] at hu
        obtain ⟨rfl, rfl, rfl⟩ := hu
        exact hcq hmem
      · rw [put_ne _ _ e] at hj
        exact e (hap j i u s _ _ _ _ _ _ c hj hs hu hd hmem (by simp))
    obtain ⟨w1, tp, k1, k2, k3, k4, k5, k6, k7⟩ := part_closeConn h1' htc hcp hpi hnq
    rw [hm] at k2
    simp only at k2
    rw [put_ne _ _ hpi] at k2
    have hpc : p ≠ c := (h.wf.peer c t _ _ _ ht hcp).1
    have ks : w1.socks = put (put (put w.socks i (some { s with proto := .listening m q lim })) p
        (some { tp with buf := tp.buf.lorn.pub.forget c })) c
        (some { t with proto := .closed, held := false, buf := t.buf.left.pub.forget c }) := by
      rw [k4, hm]
    have gi : w1.socks i = some { s with proto := .listening m q lim } := by
      rw [ks, put_ne _ _ hne, put_ne _ _ (Ne.symm hpi), put_same]
    have gc : w1.socks c = some { t with proto := .closed, held := false, buf := t.buf.left.pub.forget c } := by
      rw [ks, put_same]
    have gp : w1.socks p = some { tp with buf := tp.buf.lorn.pub.forget c } := by
      rw [ks, put_ne _ _ hpc, put_same]
    have gx : ∀ j, j ≠ i → j ≠ c → j ≠ p → w1.socks j = w.socks j := fun j e1 e2 e3 => by
      rw [ks, put_ne _ _ e2, put_ne _ _ e3, put_ne _ _ e1]
    have k3' : Part (fun j => j = i) w1 w1.cbs :=
      ⟨k3.wf, k3.names, k3.acct, fun j u hu hx => k3.bits j u hu (fun hh => hx hh.1), k3.calm⟩
    have hw1 : Waiting w1.socks fun _ => False := by
      intro d u hu hcu hhu hx
      by_cases e1 : d = c
      · subst e1; rw [gc] at hu; cases hu; cases hcu
      · by_cases e2 : d = i
        · subst e2; rw [gi] at hu; cases hu; cases hcu
        · have hu0 : ∃ u0, w.socks d = some u0 ∧ u0.proto.isConn = true ∧ u0.held = false := by
            by_cases e3 : d = p
            · subst e3; rw [gp] at hu; cases hu; exact ⟨tp, k2, hcu, hhu⟩
            · rw [gx d e2 e1 e3] at hu; exact ⟨u, hu, hcu, hhu⟩
          obtain ⟨u0, h3, h4, h5⟩ := hu0
          obtain ⟨j, v, b', q', l', h6, h7, h8⟩ := hw d u0 h3 h4 h5 id
          by_cases e4 : j = i
          · subst e4
            rw [hs] at h6; cases h6
            rw [hd] at h7; cases h7
            refine ⟨j, _, _, _, _, gi, rfl, ?_⟩
            simpa [e1] using h8
          · have e5 : j ≠ c := by rintro rfl; rw [ht] at h6; cases h6; rw [hcp] at h7; cases h7
            by_cases e6 : j = p
            · subst e6; rw [k2] at h6; cases h6; exact ⟨j, _, _, _, _, gp, h7, h8⟩
            · exact ⟨j, v, _, _, _, by rw [gx j e4 e5 e6]; exact h6, h7, h8⟩
    obtain ⟨w', n1, n2, n3, n4, n5, n6, n7, n8⟩ := ih k3' hw1 gi rfl
    refine ⟨w', ?_, n2, n3, n4, ⟨?_, ?_, ?_, ?_⟩, by rw [n6, k5]; rfl, by rw [n7, k6]; rfl, by rw [n8, k7]; rfl⟩
    · simp only [closeQueue]
      have : closeOne (w.mod i fun s => { s with proto := .listening m q lim }) c = .ok w1 := by
        unfold closeOne; rw [htc]; simp only [hcp]; exact k1
      rw [this, R.bind_ok]
      exact n1
    · intro d hd'
      rcases List.mem_cons.1 hd' with rfl | hd'
      · obtain ⟨b', h3, -⟩ := n5.kept d _ (Ne.symm hne) hcq gc
        exact ⟨_, h3, rfl, rfl⟩
      · exact n5.gone d hd'
    · intro j
      rw [n5.kinds j]
      by_cases e1 : j = c
      · subst e1; rw [gc, ht]; rfl
      · by_cases e2 : j = i
        · subst e2; rw [gi, hs]; rfl
        · by_cases e3 : j = p
          · subst e3; rw [gp, k2]; rfl
          · rw [gx j e2 e1 e3]
    · intro j hj
      refine n5.none j ?_
      rw [gx j (by rintro rfl; rw [hs] at hj; cases hj) (by rintro rfl; rw [ht] at hj; cases hj)
        (by rintro rfl; rw [k2] at hj; cases hj)]
      exact hj
    · intro j u hji hjq hu
      simp only [List.mem_cons, not_or] at hjq
      by_cases e : j = p
      · subst e
        rw [k2] at hu; cases hu
        obtain ⟨b', h3, h4, h5⟩ := n5.kept j _ hji hjq.2 gp
        exact ⟨b', h3, h4, h5⟩
      · exact n5.kept j u hji hjq.2 (by rw [gx j hji hjq.1 e]; exact hu)

end Shadow.Unix
