import Verif.Unix.Talk

/-!
# Unix-domain sockets: closing, and all calls together
-/

namespace Shadow.Unix

open Shadow.Base Spec

variable {α : Type}

/-- The names after socket `i` was closed. -/
theorem owner_close {w w' : World α} {A' : Host α} {i : Nat} {s s' : Sock α} (h : Inv w)
    (hs : w.socks i = some s) (hs' : w'.socks i = some s') (ho : s'.proto.over = true)
    (back : ∀ j u', j ≠ i → w'.socks j = some u' → u'.proto.over = false → ∃ u, w.socks j = some u ∧ SameName u u')
    (fwd : ∀ j u, j ≠ i → w.socks j = some u → u.proto.over = false → u.reg ≠ none →
      ∃ u', w'.socks j = some u' ∧ SameName u u')
    (hA : A'.names = ((abs w).release i).names) : Owner w' A' := by
  have hO := owner_names (A := abs w) h.mid.names rfl (by simp)
  intro k n j
  rw [hA]
  have : ((abs w).release i).names k n = some j ↔ (abs w).names k n = some j ∧ j ≠ i := by
    simp only [Host.release]
    split
    · rename_i e; rw [e]; simp; rintro rfl; simp
    · rename_i e
      constructor
      · intro e'; exact ⟨e', by rintro rfl; exact e e'⟩
      · exact And.left
  rw [this, hO k n j]
  constructor
  · rintro ⟨⟨u, h1, h2, h3, h4⟩, hj⟩
    obtain ⟨u', h5, h6, h7, h8⟩ := fwd j u hj h1 h4 (by rw [h3]; simp)
    exact ⟨u', h5, by rw [← h6]; exact h2, by rw [← h7]; exact h3, by rw [← h8]; exact h4⟩
  · rintro ⟨u', h1, h2, h3, h4⟩
    have hj : j ≠ i := by rintro rfl; rw [hs'] at h1; cases h1; rw [ho] at h4; cases h4
    obtain ⟨u, h5, h6, h7, h8⟩ := back j u' hj h1 h4
    exact ⟨⟨u, h5, by rw [h6]; exact h2, by rw [h7]; exact h3, by rw [h8]; exact h4⟩, hj⟩

theorem part_of_inv {w : World α} (h : Inv w) (x : Nat → Prop) : Part x w w.cbs := by
  rw [h.idle]; exact Mid.part h.mid (by simp) x

theorem sk_buf {s : Sock α} {b : Buf α} (h1 : b.bytes = s.buf.bytes) (h2 : b.pkts = s.buf.pkts) :
    skOf { s with buf := b } = skOf s := by
  simp only [skOf, h2]
  cases s.proto <;> simp only []
  cases s.kind <;> simp [inboxOf, h1, h2]

theorem good_closeOne {w : World α} {i : Nat} {s : Sock α} (h : Inv w) (hs : w.socks i = some s)
    (hh : s.held = true) (hq : ∀ b q l, s.proto ≠ .listening b q l) :
    Good w (.close i) (closeOne w i >>= fun w => .ok (w, .done)) := by
  have ho := h.mid.wf.held i s hs hh
  have hsk := sock_abs hs
  have hnl : ∀ n q lim, (skOf s).st ≠ .listening n q lim := by
    intro n q lim e
    cases hp : s.proto with
    | listening a b c => exact hq a b c hp
    | _ => simp [skOf, hp] at e
  have hdoes : Does (abs w) (.close i) .done (((abs w).set i ⟨s.kind, .dead, false⟩).release i) :=
    .close i _ hsk hh hnl
  have hrel : (((abs w).set i ⟨s.kind, .dead, false⟩).release i).names = ((abs w).release i).names := rfl
  have hsh : ∀ {w' : World α} {s' : Sock α}, w'.socks i = some s' → skOf s' = ⟨s.kind, .dead, false⟩ →
      (∀ j, j ≠ i → (w'.socks j).map skOf = (w.socks j).map skOf) → w'.next = w.next → w'.limit = w.limit →
      w'.nonblock = w.nonblock → Shape w' (((abs w).set i ⟨s.kind, .dead, false⟩).release i) := by
    intro w' s' e1 e2 e3 e4 e5 e6
    refine ⟨fun j => ?_, e6, e4, e5⟩
    simp only [Host.release, Host.set, abs]
    by_cases e : j = i
    · simp [e, e1, e2]
    · simp [e, e3 j e]
  cases hp : s.proto with
  | listening a b c => exact (hq a b c hp).elim
  | closed => rw [hp] at ho; cases ho
  | dgramClosed => rw [hp] at ho; cases ho
  | init b =>
    obtain ⟨w', e, h1, h2, h3, h4, h5⟩ := part_shut (part_of_inv h fun _ => False) hs (by rw [hp]; rfl)
      (by simp [hp])
    have ec : closeOne w i = .ok w' := by unfold closeOne; rw [hs]; simp only [hp]; exact e
    rw [ec, R.bind_ok]
    have h1' : Part (fun _ => False) w' w'.cbs :=
      ⟨h1.wf, h1.names, h1.acct, fun j u hu _ => h1.bits j u hu (by simp), h1.calm⟩
    refine ⟨w', _, _, rfl, h1'.mid, ?_, hsh (s' := { s with proto := .closed, held := false })
      (by rw [h2, put_same]) (by simp [skOf]) (fun j hj => by rw [h2, put_ne _ _ hj]) h3 h4 h5, ?_, hdoes⟩
    · rw [h2]
      refine waiting_of h.queued ?_ ?_
      · intro c t hc g1 g2
        simp only [put] at hc
        split at hc
        · cases hc; cases g1
        · exact ⟨t, hc, g1, g2⟩
      · intro c t j u b q lim _ _ hj hu hm
        have : j ≠ i := by rintro rfl; rw [hs] at hj; cases hj; rw [hp] at hu; cases hu
        exact ⟨j, u, b, q, lim, by rw [put_ne _ _ this]; exact hj, hu, hm⟩
    · refine owner_close h hs (by rw [h2, put_same]) rfl ?_ ?_ hrel
      · intro j u hj hu _; rw [h2, put_ne _ _ hj] at hu; exact ⟨u, hu, rfl, rfl, rfl⟩
      · intro j u hj hu _ _; exact ⟨u, by rw [h2, put_ne _ _ hj]; exact hu, rfl, rfl, rfl⟩
  | dgram b a r =>
    obtain ⟨w', e, h1, h2, h3, h4, h5⟩ := part_closeDgram (part_of_inv h fun _ => False) hs hp
    have ec : closeOne w i = .ok w' := by unfold closeOne; rw [hs]; simp only [hp]; exact e
    rw [ec, R.bind_ok]
    have h1' : Part (fun _ => False) w' w'.cbs :=
      ⟨h1.wf, h1.names, h1.acct, fun j u hu _ => h1.bits j u hu (by simp), h1.calm⟩
    refine ⟨w', _, _, rfl, h1'.mid, ?_, hsh
      (by rw [h2, put_same]) (by simp [skOf]) (fun j hj => by rw [h2, put_ne _ _ hj]) h3 h4 h5, ?_, hdoes⟩
    · rw [h2]
      refine waiting_of h.queued ?_ ?_
      · intro c t hc g1 g2
        simp only [put] at hc
        split at hc
        · cases hc; cases g1
        · exact ⟨t, hc, g1, g2⟩
      · intro c t j u b q lim _ _ hj hu hm
        have : j ≠ i := by rintro rfl; rw [hs] at hj; cases hj; rw [hp] at hu; cases hu
        exact ⟨j, u, b, q, lim, by rw [put_ne _ _ this]; exact hj, hu, hm⟩
    · refine owner_close h hs (by rw [h2, put_same]) rfl ?_ ?_ hrel
      · intro j u hj hu _; rw [h2, put_ne _ _ hj] at hu; exact ⟨u, hu, rfl, rfl, rfl⟩
      · intro j u hj hu _ _; exact ⟨u, by rw [h2, put_ne _ _ hj]; exact hu, rfl, rfl, rfl⟩
  | conn b a p =>
    have hne := (Inv.peer h hs hp).1
    have hnq : ∀ j u b q l, w.socks j = some u → u.proto = .listening b q l → i ∉ q := by
      intro j u b q l hj hu hm
      obtain ⟨t, ht, g, _⟩ := h.mid.wf.child j u b q l i hj hu hm
      rw [hs] at ht; cases ht; rw [hh] at g; cases g
    obtain ⟨w', t, e, ht, h1, h2, h3, h4, h5⟩ :=
      part_closeConn (part_of_inv h fun _ => False) hs hp (by simp) hnq
    have ec : closeOne w i = .ok w' := by unfold closeOne; rw [hs]; simp only [hp]; exact e
    rw [ec, R.bind_ok]
    have h1' : Part (fun _ => False) w' w'.cbs :=
      ⟨h1.wf, h1.names, h1.acct, fun j u hu _ => h1.bits j u hu (by simp), h1.calm⟩
    refine ⟨w', _, _, rfl, h1'.mid, ?_, hsh
      (by rw [h2, put_same]) (by simp [skOf]) ?_ h3 h4 h5, ?_, hdoes⟩
    · rw [h2]
      refine waiting_of h.queued ?_ ?_
      · intro c u hc g1 g2
        simp only [put] at hc
        split at hc
        · cases hc; cases g1
        · split at hc
          · rename_i ep; cases hc; exact ⟨t, by rw [ep]; exact ht, g1, g2⟩
          · exact ⟨u, hc, g1, g2⟩
      · intro c u j v b q lim _ _ hj hu hm
        have hji : j ≠ i := by rintro rfl; rw [hs] at hj; cases hj; rw [hp] at hu; cases hu
        by_cases hjp : j = p
        · subst hjp
          rw [ht] at hj; cases hj
          exact ⟨j, { t with buf := t.buf.lorn.pub.forget i }, b, q, lim, by rw [put_ne _ _ hji, put_same], hu, hm⟩
        · exact ⟨j, v, b, q, lim, by rw [put_ne _ _ hji, put_ne _ _ hjp]; exact hj, hu, hm⟩
    · intro j hj
      rw [h2, put_ne _ _ hj]
      by_cases hjp : j = p
      · subst hjp
        rw [put_same, ht]
        simp only [Option.map_some, Option.some.injEq]
        exact sk_buf rfl rfl
      · rw [put_ne _ _ hjp]
    · refine owner_close h hs (by rw [h2, put_same]) rfl ?_ ?_ hrel
      · intro j u hj hu _
        rw [h2, put_ne _ _ hj] at hu
        by_cases hjp : j = p
        · subst hjp; rw [put_same] at hu; cases hu; exact ⟨t, ht, rfl, rfl, rfl⟩
        · rw [put_ne _ _ hjp] at hu; exact ⟨u, hu, rfl, rfl, rfl⟩
      · intro j u hj hu _ _
        by_cases hjp : j = p
        · subst hjp; rw [ht] at hu; cases hu; exact ⟨{ t with buf := t.buf.lorn.pub.forget i }, by rw [h2, put_ne _ _ hj, put_same], rfl, rfl, rfl⟩
        · exact ⟨u, by rw [h2, put_ne _ _ hj, put_ne _ _ hjp]; exact hu, rfl, rfl, rfl⟩

theorem good_closeListen {w : World α} {i m lim : Nat} {q : List Nat} {s : Sock α} (h : Inv w)
    (hs : w.socks i = some s) (hh : s.held = true) (hp : s.proto = .listening m q lim) :
    Good w (.close i) ((closeQueue w i m lim q >>= fun w => shut w i .closed) >>= fun w => .ok (w, .done)) := by
  obtain ⟨w1, e1, p1, q1, s1, c1, n1, l1, b1⟩ := closeQueue_ok q (part_of_inv h fun j => j = i) h.queued hs hp
  obtain ⟨w', e, h1, h2, h3, h4, h5⟩ := part_shut p1 s1 rfl
    (by intro b q l e; simp only [Proto.listening.injEq] at e; exact e.2.1.symm)
  simp only [e1, e, R.bind_ok]
  have h1' : Part (fun _ => False) w' w'.cbs :=
    ⟨h1.wf, h1.names, h1.acct, fun j u hu _ => h1.bits j u hu (fun x => x.2 x.1), h1.calm⟩
  have hkin : ∀ c ∈ q, c ≠ i := by
    rintro c hc rfl
    obtain ⟨t, ht, g, _⟩ := h.mid.wf.child c s m q lim c hs hp hc
    rw [hs] at ht; cases ht; rw [hh] at g; cases g
  refine ⟨w', _, _, rfl, h1'.mid, ?_, ?_, ?_, .closeListen i s.kind m lim q (by rw [sock_abs hs, sk_listening hp hh])⟩
  · rw [h2]
    refine waiting_of q1 ?_ ?_
    · intro c t hc g1 g2
      simp only [put] at hc
      split at hc
      · cases hc; cases g1
      · exact ⟨t, hc, g1, g2⟩
    · intro c t j u b q lim _ _ hj hu hm
      by_cases hji : j = i
      · subst hji; rw [s1] at hj; cases hj
        simp only [Proto.listening.injEq] at hu
        rw [← hu.2.1] at hm; cases hm
      · exact ⟨j, u, b, q, lim, by rw [put_ne _ _ hji]; exact hj, hu, hm⟩
  · refine ⟨fun j => ?_, h5.trans b1, h3.trans n1, h4.trans l1⟩
    rw [h2]
    simp only [abs, put]
    by_cases hji : j = i
    · simp [hji, hs, skOf]
    · by_cases hjq : j ∈ q
      · obtain ⟨t, g1, g2, g3⟩ := c1.gone j hjq
        obtain ⟨t0, ht0, k1, k2, k3, k4⟩ := h.mid.wf.child i s m q lim j hs hp hjq
        have hk := c1.kinds j
        rw [g1, ht0] at hk
        simp only [Option.map_some, Option.some.injEq] at hk
        simp [hji, hjq, g1, ht0, skOf, g2, g3, hk]
      · simp only [hji, hjq, or_self, if_false]
        cases hj : w.socks j with
        | none => simp [c1.none j hj]
        | some u =>
          obtain ⟨b, g1, g2, g3⟩ := c1.kept j u hji hjq hj
          rw [g1]
          simp only [Option.map_some, Option.some.injEq]
          exact sk_buf g2 g3
  · refine owner_close h hs (by rw [h2, put_same]) rfl ?_ ?_ rfl
    · intro j u hj hu ho
      rw [h2, put_ne _ _ hj] at hu
      by_cases hjq : j ∈ q
      · obtain ⟨t, g1, g2, _⟩ := c1.gone j hjq
        rw [hu] at g1; cases g1; rw [g2] at ho; cases ho
      · cases hwj : w.socks j with
        | none => rw [c1.none j hwj] at hu; cases hu
        | some v =>
          obtain ⟨b, g1, g2, g3⟩ := c1.kept j v hj hjq hwj
          rw [hu] at g1; cases g1
          exact ⟨v, rfl, rfl, rfl, rfl⟩
    · intro j u hj hu ho hr
      by_cases hjq : j ∈ q
      · obtain ⟨t, g1, _, _, g4, _⟩ := h.mid.wf.child i s m q lim j hs hp hjq
        rw [hu] at g1; cases g1; exact (hr g4).elim
      · obtain ⟨b, g1, _⟩ := c1.kept j u hj hjq hu
        exact ⟨{ u with buf := b }, by rw [h2, put_ne _ _ hj]; exact g1, rfl, rfl, rfl⟩

theorem good_close {w : World α} {i : Nat} {s : Sock α} (h : Inv w) (hs : w.socks i = some s)
    (hh : s.held = true) : Good w (.close i) (close w i s >>= fun w => .ok (w, .done)) := by
  unfold close
  split
  · exact good_closeListen h hs hh ‹_›
  · rename_i hx
    exact good_closeOne h hs hh hx

/-- The initial state. -/
theorem inv_empty (limit : Nat) : Inv (World.empty limit : World α) := by
  refine ⟨⟨?_, ?_, ?_, ?_⟩, rfl, ?_⟩
  · constructor <;> intros <;> simp_all [World.empty]
  · constructor <;> intros <;> simp_all [World.empty]
  · constructor <;> intros <;> simp_all [World.empty]
  · constructor <;> intros <;> simp_all [World.empty]
  · intro c t hc; simp [World.empty] at hc

/-- Every call on an open socket does what the specification says, unless it is a `Bad` one. -/
theorem step_does {w : World α} {a : Act α} (h : Inv w) (ho : Open (abs w) a) (hb : ¬ Bad (abs w) a) :
    ∃ w' r, step w a = some (.ok (w', r)) ∧ Inv w' ∧ Does (abs w) a r (abs w') := by
  have key : ∀ i (f : Sock α → R (World α × Ret α)), target a = some i →
      (∀ s, w.socks i = some s → s.held = true → Good w a (f s)) →
      ∃ w' r, on w i f = some (.ok (w', r)) ∧ Inv w' ∧ Does (abs w) a r (abs w') := by
    intro i f ht hf
    obtain ⟨k, hk, hh⟩ := ho i ht
    cases hs : w.socks i with
    | none => simp [abs, hs] at hk
    | some s =>
      rw [sock_abs hs] at hk
      have hh' : s.held = true := by cases hk; exact hh
      obtain ⟨w', r, h1, h2, h3⟩ := good_finish (hf s hs hh')
      exact ⟨w', r, by simp [on, World.open_, hs, hh', h1], h2, h3⟩
  cases a with
  | socket k nb =>
    have hg := good_socket h k nb
    obtain ⟨w', r, h1, h2, h3⟩ := good_finish hg
    have hi : Inv (w.add (newSock α w.next k) nb) := good_inv hg rfl h.idle
    have : drain (w.add (newSock α w.next k) nb) = .ok (w.add (newSock α w.next k) nb) := by
      unfold drain
      rw [hi.idle]
      have e := hi.idle
      generalize w.add (newSock α w.next k) nb = v at *
      cases v
      simp only at e
      subst e
      rfl
    simp only [finish, R.bind_ok, this, R.ok.injEq, Prod.mk.injEq] at h1
    obtain ⟨rfl, rfl⟩ := h1
    exact ⟨_, _, rfl, h2, h3⟩
  | pair k nb =>
    obtain ⟨w', r, h1, h2, h3⟩ := good_finish (good_pair h k nb)
    exact ⟨w', r, congrArg some h1, h2, h3⟩
  | bind i addr auto => exact key i _ rfl fun s hs hh => good_bind h hs hh addr auto
  | listen i b => exact key i _ rfl fun s hs hh => good_listen h hs hh b
  | connect i addr => exact key i _ rfl fun s hs hh => good_connect h hs hh addr hb
  | accept i => exact key i _ rfl fun s hs hh => good_accept h hs hh
  | send i dst data dw fault => exact key i _ rfl fun s hs hh => good_send h hs hh dst data dw fault hb
  | recv i room dw tr fault => exact key i _ rfl fun s hs hh => good_recv h hs hh room dw tr fault hb
  | nonblock i b => exact key i _ rfl fun s hs hh => good_nonblock h hs hh b
  | close i => exact key i _ rfl fun s hs hh => good_close h hs hh

/-- A call on a socket that is not open cannot be made. -/
theorem step_closed {w : World α} {a : Act α} (ho : ¬ Open (abs w) a) : step w a = none := by
  have key : ∀ i (f : Sock α → R (World α × Ret α)), target a = some i → on w i f = none := by
    intro i f ht
    cases hs : w.socks i with
    | none => simp [on, World.open_, hs]
    | some s =>
      cases hh : s.held with
      | false => simp [on, World.open_, hs, hh]
      | true =>
        refine (ho fun j hj => ?_).elim
        rw [ht] at hj; cases hj
        exact ⟨_, sock_abs hs, hh⟩
  cases a with
  | socket k nb => exact (ho (by intro i h; cases h)).elim
  | pair k nb => exact (ho (by intro i h; cases h)).elim
  | bind i addr auto => exact key i _ rfl
  | listen i b => exact key i _ rfl
  | connect i addr => exact key i _ rfl
  | accept i => exact key i _ rfl
  | send i dst data dw fault => exact key i _ rfl
  | recv i room dw tr fault => exact key i _ rfl
  | nonblock i b => exact key i _ rfl
  | close i => exact key i _ rfl

end Shadow.Unix
