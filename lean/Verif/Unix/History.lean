import Verif.Unix.Refine

/-!
# Unix-domain sockets: what is received is what was sent

`explains_step` shows for every call that the history of each socket goes on explaining its state.
-/

namespace Shadow.Unix

open Shadow.Base Spec

variable {α : Type}

/-- What the code's states are like, as far as histories are concerned. -/
structure Tidy (A : Host α) : Prop where
  fresh : ∀ i, A.count ≤ i → A.sock i = none
  inbox : ∀ i k b a p x h, A.sock i = some ⟨k, .linked b a p x, h⟩ → (k = .stream ↔ ∃ l, x = .stream l)
  kind : ∀ k n i s, A.names k n = some i → A.sock i = some s → s.kind = k

theorem tidy {w : World α} (h : Inv w) : Tidy (abs w) := by
  refine ⟨fun i hi => ?_, fun i k b a p x hh e => ?_, fun k n i s hn hs => ?_⟩
  · cases hs : w.socks i with
    | none => simp [abs, hs]
    | some s => exact absurd (h.mid.wf.old i s hs) (Nat.not_lt.2 hi)
  · cases hs : w.socks i with
    | none => simp [abs, hs] at e
    | some s =>
      rw [sock_abs hs] at e
      simp only [skOf, Option.some.injEq, Sk.mk.injEq] at e
      obtain ⟨rfl, e, _⟩ := e
      split at e <;> first | (simp only [St.linked.injEq] at e) | cases e
      obtain ⟨_, _, _, rfl⟩ := e
      cases hk : s.kind <;> simp [inboxOf]
  · obtain ⟨t, h1, h2, _⟩ := h.mid.names.found k n i hn
    rw [sock_abs h1] at hs
    cases hs
    exact h2

theorem about_append {β : Type} (f : Event α → Option (Nat × β)) (p : Nat) (l l' : List (Event α)) :
    about f p (l ++ l') = about f p l ++ about f p l' := List.filterMap_append

theorem about_one {β : Type} (f : Event α → Option (Nat × β)) (p : Nat) (e : Event α) :
    about f p [e] = match f e with
      | some x => if x.1 = p then [x.2] else []
      | none => [] := by
  simp only [about, List.filterMap_cons, List.filterMap_nil]
  cases f e with
  | none => rfl
  | some x => by_cases h : x.1 = p <;> simp [h]

/-- The call is not about socket `p`. -/
structure Away (e : Event α) (p : Nat) : Prop where
  delivered : about delivered p [e] = []
  received : about received p [e] = []
  joined : about joined p [e] = []
  accepted : about accepted p [e] = []

theorem explains_away {tr : List (Event α)} {e : Event α} {p : Nat} {o : Option (Sk α)}
    (ha : Away e p) (h : Explains tr p o) : Explains (tr ++ [e]) p o := by
  obtain ⟨h1, h2, h3, h4⟩ := ha
  have g1 := about_append Spec.delivered p tr [e]
  have g2 := about_append Spec.received p tr [e]
  have g3 := about_append Spec.joined p tr [e]
  have g4 := about_append Spec.accepted p tr [e]
  simp only [h1, h2, h3, h4, List.append_nil] at g1 g2 g3 g4
  unfold Explains at h ⊢
  simp only [g1, g2, g3, g4]
  exact h

theorem explains_st {tr : List (Event α)} {p : Nat} {s t : Sk α} (e : t.st = s.st)
    (h : Explains tr p (some s)) : Explains tr p (some t) := by
  simp only [Explains, e] at h ⊢
  exact h

theorem quiet {e : Event α} (h1 : delivered e = none) (h2 : received e = none) (h3 : joined e = none)
    (h4 : accepted e = none) (p : Nat) : Away e p := by
  constructor <;> simp only [about_one, h1, h2, h3, h4]

theorem explains_linked {tr : List (Event α)} {p : Nat} {k : Kind} {b a : Option Nat} {q : Nat} {h : Bool}
    (h1 : about delivered p tr = []) (h2 : about received p tr = []) :
    Explains tr p (some ⟨k, .linked b a q (.none k), h⟩) := by
  cases k
  · simp [Explains, Inbox.none, h1, h2]
  · exact ⟨by simp [h1], [], [], by simp [h1], rfl, by simp [Pieces, h2]⟩
  · exact ⟨by simp [h1], [], [], by simp [h1], rfl, by simp [Pieces, h2]⟩

theorem explains_dgram {tr : List (Event α)} {p : Nat} {k : Kind} {b a : Option Nat} {h : Bool}
    (h1 : about delivered p tr = []) (h2 : about received p tr = []) :
    Explains tr p (some ⟨k, .dgram b a [], h⟩) := by
  simp [Explains, h1, h2, Pieces, PiecesFrom]

theorem dest_of {A : Host α} {q : Option Nat} {dst : Option Addr} {p : Nat} (h : Dest A q dst p) :
    dest A q dst = some p := by
  cases h with
  | default p h => exact h
  | name n p h => exact h

theorem pieces_snoc {l : List (Msg α)} {got : List (Nat × List α × Option Nat)} {m : Msg α}
    {g : Nat × List α × Option Nat} (h : Pieces l got) (e : g.2.1 = m.data.take g.1) :
    Pieces (l ++ [m]) (got ++ [g]) := by
  obtain ⟨hl, h⟩ := h
  refine ⟨by simp [hl], fun j m' g' h1 h2 => ?_⟩
  by_cases hj : j < l.length
  · rw [List.getElem?_append_left hj] at h1
    rw [List.getElem?_append_left (hl ▸ hj)] at h2
    exact h j m' g' h1 h2
  · rw [List.getElem?_append_right (by omega)] at h1
    rw [List.getElem?_append_right (by omega)] at h2
    have e1 := List.mem_of_getElem? h1
    have e2 := List.mem_of_getElem? h2
    simp only [List.mem_singleton] at e1 e2
    subst e1; subst e2
    exact e

theorem piecesFrom_snoc {l : List (Msg α)} {got : List (Nat × List α × Option Nat)} {m : Msg α}
    {g : Nat × List α × Option Nat} (h : PiecesFrom l got) (e : g.2.1 = m.data.take g.1)
    (e' : g.2.2 = m.addr) : PiecesFrom (l ++ [m]) (got ++ [g]) := by
  refine ⟨pieces_snoc h.1 e, fun j m' g' h1 h2 => ?_⟩
  have hl := h.1.1
  by_cases hj : j < l.length
  · rw [List.getElem?_append_left hj] at h1
    rw [List.getElem?_append_left (hl ▸ hj)] at h2
    exact h.2 j m' g' h1 h2
  · rw [List.getElem?_append_right (by omega)] at h1
    rw [List.getElem?_append_right (by omega)] at h2
    have e1 := List.mem_of_getElem? h1
    have e2 := List.mem_of_getElem? h2
    simp only [List.mem_singleton] at e1 e2
    subst e1; subst e2
    exact e'

/-- A new socket. -/
theorem explains_new {tr : List (Event α)} {A : Host α} {s : Sk α} {nb : Bool}
    (h : ∀ p, Explains tr p (A.sock p)) (hs : Explains tr A.count (some s)) (p : Nat) :
    Explains tr p ((A.new s nb).sock p) := by
  simp only [Host.new]
  split
  · next e => rw [e]; exact hs
  · exact h p

theorem explains_set {tr : List (Event α)} {A : Host α} {i : Nat} {s : Sk α}
    (h : ∀ p, p ≠ i → Explains tr p (A.sock p)) (hs : Explains tr i (some s)) (p : Nat) :
    Explains tr p ((A.set i s).sock p) := by
  simp only [Host.set]
  split
  · next e => rw [e]; exact hs
  · next e => exact h p e

/-- Every call keeps the histories right. -/
theorem explains_step {A A' : Host α} {a : Act α} {r : Ret α} {tr : List (Event α)} (ht : Tidy A)
    (h : ∀ p, Explains tr p (A.sock p)) (hd : Does A a r A') (p : Nat) :
    Explains (tr ++ [⟨A, a, r⟩]) p (A'.sock p) := by
  -- calls that neither deliver, take, join nor accept
  have hq : delivered ⟨A, a, r⟩ = none → received ⟨A, a, r⟩ = none → joined ⟨A, a, r⟩ = none →
      accepted ⟨A, a, r⟩ = none → ∀ p, Explains (tr ++ [⟨A, a, r⟩]) p (A.sock p) :=
    fun h1 h2 h3 h4 p => explains_away (quiet h1 h2 h3 h4 p) (h p)
  have hn : ∀ i, A.count ≤ i → delivered ⟨A, a, r⟩ = none → received ⟨A, a, r⟩ = none → joined ⟨A, a, r⟩ = none →
      accepted ⟨A, a, r⟩ = none → Explains (tr ++ [⟨A, a, r⟩]) i none :=
    fun i hi h1 h2 h3 h4 => by
      have := hq h1 h2 h3 h4 i
      rw [ht.fresh i hi] at this
      exact this
  cases hd with
  | socket k nb hk =>
    have hn := hn A.count (Nat.le_refl _) rfl rfl rfl rfl
    exact explains_new (s := ⟨k, .idle none, true⟩) (hq rfl rfl rfl rfl) hn p
  | socketD nb =>
    have hn := hn A.count (Nat.le_refl _) rfl rfl rfl rfl
    exact explains_new (hq rfl rfl rfl rfl) (explains_dgram hn.1 hn.2.1) p
  | pair k nb hk =>
    have h0 := hn A.count (Nat.le_refl _) rfl rfl rfl rfl
    have h1 := hn (A.count + 1) (Nat.le_succ _) rfl rfl rfl rfl
    exact explains_new (explains_new (hq rfl rfl rfl rfl) (explains_linked h0.1 h0.2.1))
      (explains_linked h1.1 h1.2.1) p
  | pairD nb =>
    have h0 := hn A.count (Nat.le_refl _) rfl rfl rfl rfl
    have h1 := hn (A.count + 1) (Nat.le_succ _) rfl rfl rfl rfl
    exact explains_new (explains_new (hq rfl rfl rfl rfl) (explains_dgram h0.1 h0.2.1))
      (explains_dgram h1.1 h1.2.1) p
  | bind i k addr auto n hs hb hf =>
    have hi := hq rfl rfl rfl rfl i
    rw [hs] at hi
    exact explains_set (s := ⟨k, .idle (some n), true⟩) (fun p _ => hq rfl rfl rfl rfl p) hi p
  | bindD i k addr auto n q l hs hb hf =>
    have hi := hq rfl rfl rfl rfl i
    rw [hs] at hi
    exact explains_set (s := ⟨k, .dgram (some n) q l, true⟩) (fun p _ => hq rfl rfl rfl rfl p) hi p
  | bindNot => exact hq rfl rfl rfl rfl p
  | listen i k n backlog hs =>
    have hi := hq rfl rfl rfl rfl i
    rw [hs] at hi
    obtain ⟨_, _, h3, h4⟩ := hi
    exact explains_set (fun p _ => hq rfl rfl rfl rfl p) (by simp [Explains, h3, h4]) p
  | relisten i k n q lim backlog hs =>
    have hi := hq rfl rfl rfl rfl i
    rw [hs] at hi
    exact explains_set (s := ⟨k, .listening n q (capacity backlog), true⟩) (fun p _ => hq rfl rfl rfl rfl p) hi p
  | listenNot => exact hq rfl rfl rfl rfl p
  | connect i k b n srv lim m q hs hn' hsrv hlt =>
    have hj : joined ⟨A, .connect i (.name n), .done⟩ = some (srv, A.count) := by simp [joined, hs, hn']
    have hne : i ≠ srv := by rintro rfl; rw [hs] at hsrv; cases hsrv
    have haw : ∀ p, p ≠ srv → Away ⟨A, .connect i (.name n), .done⟩ p := fun p hp =>
      ⟨rfl, rfl, by simp [about_one, hj, Ne.symm hp], rfl⟩
    have hc : A.count ≠ srv := by
      intro e; rw [← e, ht.fresh _ (Nat.le_refl _)] at hsrv; cases hsrv
    have hi := h i
    rw [hs] at hi
    have hi := explains_away (haw i hne) hi
    have hcn := h A.count
    rw [ht.fresh _ (Nat.le_refl _)] at hcn
    have hcn := explains_away (haw _ hc) hcn
    have hl := h srv
    rw [hsrv] at hl
    refine explains_set (fun p hpi => ?_) (explains_linked hi.1 hi.2.1) p
    simp only [Host.set]
    split
    · next e =>
      subst e
      simp only [Explains, about_append, about_one, hj, if_true] at hl ⊢
      rw [hl]
      simp [accepted]
    · next e =>
      simp only [Host.new]
      split
      · next e' => rw [e']; exact explains_linked hcn.1 hcn.2.1
      · exact explains_away (haw p e) (h p)
  | connectFull => exact hq rfl rfl (by simp only [orWait]; split <;> rfl) (by simp only [orWait]; split <;> rfl) p
  | connectNot i k b addr => cases addr <;> exact hq rfl rfl rfl rfl p
  | connectD i k b q l n j hs hf =>
    have hj : joined ⟨A, .connect i (.name n), .done⟩ = none := by simp [joined, hs]
    have hi := hq rfl rfl hj rfl i
    rw [hs] at hi
    exact explains_set (s := ⟨k, .dgram b (some j) l, true⟩) (fun p _ => hq rfl rfl hj rfl p) hi p
  | connectDNot i k b q l addr => cases addr <;> exact hq rfl rfl rfl rfl p
  | connectBusy i s addr => cases addr <;> exact hq rfl rfl rfl rfl p
  | accept i k n c lim q s hs hc =>
    have ha : accepted ⟨A, .accept i, .socket c⟩ = some (i, c) := rfl
    have haw : ∀ p, p ≠ i → Away ⟨A, .accept i, .socket c⟩ p := fun p hp =>
      ⟨rfl, rfl, rfl, by simp [about_one, ha, Ne.symm hp]⟩
    have hl := h i
    rw [hs] at hl
    refine explains_set (fun p hpi => ?_) ?_ p
    · simp only [Host.set]
      split
      · next e =>
        have := h p
        rw [e, hc] at this
        rw [e] at hpi
        rw [e]
        exact explains_st (s := s) rfl (explains_away (haw c hpi) this)
      · exact explains_away (haw p hpi) (h p)
    · simp only [Explains, about_append, about_one, ha, if_true] at hl ⊢
      rw [hl]
      simp [joined]
  | acceptNone i => exact hq rfl rfl (by simp only [orWait]; split <;> rfl) (by simp only [orWait]; split <;> rfl) p
  | acceptNot => exact hq rfl rfl rfl rfl p
  | sendNothing i q k b a b' a' x y hh dst data dw fault n hs hp hdst hfit hz =>
    have hdel : delivered ⟨A, .send i dst data dw fault, .sent 0⟩ = some (q, ⟨i, b, []⟩) := by
      simp [delivered, hs]
    obtain ⟨rfl, rfl⟩ := hz
    obtain ⟨l, rfl⟩ := (ht.inbox q _ _ _ _ _ _ hp).1 rfl
    by_cases e : p = q
    · subst e
      have hi := h p
      rw [hp] at hi ⊢
      simp only [Explains, about_append, about_one, hdel, if_true] at hi ⊢
      refine ⟨?_, ?_⟩
      · intro m hm
        rcases List.mem_append.1 hm with hm | hm
        · exact hi.1 m hm
        · simp only [List.mem_singleton] at hm; subst hm; rfl
      · simp only [List.flatMap_append, hi.2]
        simp [received]
    · exact explains_away ⟨by simp [about_one, hdel, Ne.symm e], rfl, rfl, rfl⟩ (h p)
  | sendSome i q k b a b' a' x y hh dst data dw fault n hs hp hdst hfit hz hsound =>
    have hdel : delivered ⟨A, .send i dst data dw fault, .sent n⟩ = some (q, ⟨i, b, data.take n⟩) := by
      simp [delivered, hs]
    refine explains_set (fun p e => explains_away ⟨by simp [about_one, hdel, Ne.symm e], rfl, rfl, rfl⟩ (h p)) ?_ p
    have hi := h q
    rw [hp] at hi
    cases y with
    | stream l =>
      simp only [Explains, Inbox.add, about_append, about_one, hdel, if_true] at hi ⊢
      refine ⟨?_, ?_⟩
      · intro m hm
        rcases List.mem_append.1 hm with hm | hm
        · exact hi.1 m hm
        · simp only [List.mem_singleton] at hm; subst hm; rfl
      · simp only [List.flatMap_append, hi.2]
        simp [received]
    | packets l =>
      simp only [Explains, Inbox.add, about_append, about_one, hdel, if_true] at hi ⊢
      obtain ⟨h0, ms, rest, h1, h2, h3⟩ := hi
      refine ⟨?_, ms, rest ++ [⟨i, b, data.take n⟩], by simp [h1], by simp [h2], ?_⟩
      · intro m hm
        rcases List.mem_append.1 hm with hm | hm
        · exact h0 m hm
        · simp only [List.mem_singleton] at hm; subst hm; rfl
      simpa [received] using h3
  | sendPipe => exact hq rfl rfl rfl rfl p
  | sendFull =>
    exact hq (by simp only [orWait]; split <;> rfl) (by simp only [orWait]; split <;> rfl)
      (by simp only [orWait]; split <;> rfl) (by simp only [orWait]; split <;> rfl) p
  | sendLong => exact hq rfl rfl rfl rfl p
  | sendAddr => exact hq rfl rfl rfl rfl p
  | sendD i q b c b' c' l l' dst data dw fault hs hdst hp hfit hsound =>
    have hdel : delivered ⟨A, .send i dst data dw fault, .sent data.length⟩ = some (q, ⟨i, b, data⟩) := by
      simp [delivered, hs, dest_of hdst]
    refine explains_set (fun p e => explains_away ⟨by simp [about_one, hdel, Ne.symm e], rfl, rfl, rfl⟩ (h p)) ?_ p
    have hi := h q
    rw [hp] at hi
    simp only [Explains, about_append, about_one, hdel, if_true] at hi ⊢
    obtain ⟨ms, h1, h2⟩ := hi
    exact ⟨ms, by simp [h1], by simpa [received] using h2⟩
  | sendDDead => exact hq rfl rfl rfl rfl p
  | sendDFull =>
    exact hq (by simp only [orWait]; split <;> rfl) (by simp only [orWait]; split <;> rfl)
      (by simp only [orWait]; split <;> rfl) (by simp only [orWait]; split <;> rfl) p
  | sendDLong => exact hq rfl rfl rfl rfl p
  | sendDNot => exact hq rfl rfl rfl rfl p
  | sendNot => exact hq rfl rfl rfl rfl p
  | sendFault => exact hq rfl rfl rfl rfl p
  | sendDFault => exact hq rfl rfl rfl rfl p
  | recvStream i q k b a l room dw trunc fault hs hne hsound =>
    have htk : received ⟨A, .recv i room dw trunc fault, .got (l.take room) (min room l.length) false a⟩ =
        some (i, room, l.take room, a) := by
      simp [received, hs, waiting, hne]
    refine explains_set (fun p e => explains_away ⟨rfl, by simp [about_one, htk, Ne.symm e], rfl, rfl⟩ (h p)) ?_ p
    have hi := h i
    rw [hs] at hi
    simp only [Explains, about_append, about_one, htk, if_true] at hi ⊢
    refine ⟨by simpa [delivered] using hi.1, ?_⟩
    simp only [List.flatMap_append, hi.2]
    simp [delivered]
  | recvPacket i q k b a d l room dw trunc fault hs hsound =>
    have htk : received ⟨A, .recv i room dw trunc fault, packetRet d room trunc a⟩ =
        some (i, room, d.take room, a) := by
      simp [received, hs, waiting, packetRet]
    refine explains_set (fun p e => explains_away ⟨rfl, by simp [about_one, htk, Ne.symm e], rfl, rfl⟩ (h p)) ?_ p
    have hi := h i
    rw [hs] at hi
    simp only [Explains, about_append, about_one, htk, if_true] at hi ⊢
    obtain ⟨h0, ms, rest, h1, h2, h3⟩ := hi
    cases rest with
    | nil => simp at h2
    | cons m rest =>
      simp only [List.map_cons, List.cons.injEq] at h2
      refine ⟨by simpa [delivered] using h0, ms ++ [m], rest, by simp [h1, delivered], h2.2, pieces_snoc h3 ?_⟩
      simp [h2.1]
  | recvEnd i q k b a room dw trunc fault hs hdead =>
    have hw : waiting (A.sock i) = false := by rw [hs]; cases k <;> rfl
    exact hq rfl (by simp [received, hw]) rfl rfl p
  | recvWait =>
    exact hq (by simp only [orWait]; split <;> rfl) (by simp only [orWait]; split <;> rfl)
      (by simp only [orWait]; split <;> rfl) (by simp only [orWait]; split <;> rfl) p
  | recvFault => exact hq rfl rfl rfl rfl p
  | recvD i b q m l room dw trunc fault hs hsound =>
    have htk : received ⟨A, .recv i room dw trunc fault, packetRet m.data room trunc m.addr⟩ =
        some (i, room, m.data.take room, m.addr) := by
      simp [received, hs, waiting, packetRet]
    refine explains_set (fun p e => explains_away ⟨rfl, by simp [about_one, htk, Ne.symm e], rfl, rfl⟩ (h p)) ?_ p
    have hi := h i
    rw [hs] at hi
    simp only [Explains, about_append, about_one, htk, if_true] at hi ⊢
    obtain ⟨ms, h1, h2⟩ := hi
    exact ⟨ms ++ [m], by simp [h1, delivered], piecesFrom_snoc h2 rfl rfl⟩
  | recvDWait =>
    exact hq (by simp only [orWait]; split <;> rfl) (by simp only [orWait]; split <;> rfl)
      (by simp only [orWait]; split <;> rfl) (by simp only [orWait]; split <;> rfl) p
  | recvNot => exact hq rfl rfl rfl rfl p
  | nonblock => exact hq rfl rfl rfl rfl p
  | close i s hs hh hl =>
    exact explains_set (s := ⟨s.kind, .dead, false⟩) (fun p _ => hq rfl rfl rfl rfl p) trivial p
  | closeListen i k n lim q hs =>
    have hp := hq rfl rfl rfl rfl p
    show Explains _ p (if p = i ∨ p ∈ q then (A.sock p).map fun s => ⟨s.kind, .dead, false⟩ else A.sock p)
    split
    · cases e : A.sock p with
      | none => rw [e] at hp; exact hp
      | some s => trivial
    · exact hp

end Shadow.Unix
