import Verif.Sim.Inv

/-!
# All hosts together: what survives every interleaving

`Core` relates every host, at any moment of any interleaving, to a run of that host alone
(`soloRun`), plus the packets the other hosts have sent to it in this round.
-/
namespace Shadow.Sim
open Shadow.Ev

set_option linter.unusedSectionVars false
set_option linter.unusedSimpArgs false

variable {H P : Type} [DecidableEq P]

/-- Host `id` alone, `k` steps, with nobody sending to it. -/
def soloRun (cfg : Cfg) (prog : Prog H P) (re id : Nat) : Nat → Host H P → Option (Host H P)
  | 0, h => some h
  | k + 1, h => match soloRun cfg prog re id k h with
    | none => none
    | some h1 => (lstep cfg prog re id h1).map (·.1)

/-- The packets sent to host `id` in this round, by sender. -/
def received (n : Nat) (hosts : Nat → Host H P) (id : Nat) : List (Event P) :=
  (List.range n).flatMap fun j => ((hosts j).sent.filter (fun x => x.1 == id)).map (·.2.2.2)

theorem flatMap_insert {α β : Type} (l : List α) (f f' : α → List β) (a : α) (x : β)
    (hnd : l.Nodup) (ha : a ∈ l) (h1 : f' a = f a ++ [x]) (h2 : ∀ b ∈ l, b ≠ a → f' b = f b) :
    (l.flatMap f').Perm (x :: l.flatMap f) := by
  induction l with
  | nil => simp at ha
  | cons b l ih =>
    rw [List.nodup_cons] at hnd
    simp only [List.flatMap_cons]
    by_cases hb : b = a
    · subst hb
      have : l.flatMap f' = l.flatMap f := by
        rw [List.flatMap_def, List.flatMap_def]
        congr 1
        apply List.map_congr_left
        intro c hc
        exact h2 c (by simp [hc]) (fun h => hnd.1 (h ▸ hc))
      rw [h1, this]
      simp only [List.append_assoc, List.cons_append, List.nil_append]
      exact List.perm_middle
    · have hal : a ∈ l := by
        rcases List.mem_cons.mp ha with h | h
        · exact absurd h.symm hb
        · exact h
      rw [h2 b (by simp) hb]
      have := ih hnd.2 hal (fun c hc hne => h2 c (by simp [hc]) hne)
      exact (List.Perm.append_left _ this).trans List.perm_middle

theorem received_congr {n : Nat} {hs hs' : Nat → Host H P}
    (h : ∀ j, j < n → (hs' j).sent = (hs j).sent) (id : Nat) :
    received n hs' id = received n hs id := by
  unfold received
  rw [List.flatMap_def, List.flatMap_def]
  congr 1
  apply List.map_congr_left
  intro j hj
  simp at hj
  rw [h j hj]

theorem received_send {n : Nat} {hs hs' : Nat → Host H P} {id dst now lat : Nat} {e : Event P}
    (hid : id < n) (h1 : (hs' id).sent = (hs id).sent ++ [(dst, now, lat, e)])
    (h2 : ∀ j, j < n → j ≠ id → (hs' j).sent = (hs j).sent) :
    (received n hs' dst).Perm (e :: received n hs dst) ∧
    ∀ d, d ≠ dst → received n hs' d = received n hs d := by
  constructor
  · refine flatMap_insert _ _ _ id e List.nodup_range (by simp [hid]) ?_ ?_
    · simp [h1]
    · intro b hb hne
      simp at hb
      simp [h2 b hb hne]
  · intro d hd
    unfold received
    rw [List.flatMap_def, List.flatMap_def]
    congr 1
    apply List.map_congr_left
    intro j hj
    simp at hj
    by_cases hji : j = id
    · subst hji
      have : (dst == d) = false := by simp; exact fun h => hd h.symm
      simp [h1, this]
    · simp [h2 j hj hji]

/-- How a step of a host changes the data of its events, its counter and its sent packets. -/
theorem lstep_data {cfg : Cfg} {prog : Prog H P} {re id : Nat} {h h' : Host H P} {out : Out P}
    (hd : DistinctIds h.queue.events)
    (hs : lstep cfg prog re id h = some (h', out)) :
    (∀ x ∈ all h', (∃ y ∈ all h, y.data = x.data) ∨ ∃ p i, x.data = .local p i) ∧
    h.nextId ≤ h'.nextId ∧
    (out = none → h'.sent = h.sent) ∧
    (∀ dst lat e, out = some (dst, lat, e) → dst < cfg.n ∧ re ≤ e.time ∧
      (∃ p, e.data = .packet p id h.nextId) ∧ h'.nextId = h.nextId + 1 ∧
      h'.queue = h.queue ∧ h.phase ≠ .done ∧
      ∃ now, h'.sent = h.sent ++ [(dst, now, lat, e)] ∧ h.phase ≠ .broke) := by
  cases lstep_cases hs with
  | move p hp hp' heq ho hx hb hw hl =>
    subst heq; subst ho
    refine ⟨fun x hx => .inl ⟨x, by simpa [all, hp, hp'] using hx, rfl⟩, Nat.le_refl _,
      fun _ => rfl, by simp⟩
  | finish now st hp heq ho =>
    subst heq; subst ho
    refine ⟨fun x hx => .inl ⟨x, by simpa [all, hp] using hx, rfl⟩, Nat.le_refl _,
      fun _ => rfl, by simp⟩
  | pop e q hp ht hpop heq ho =>
    subst heq; subst ho
    obtain ⟨hperm, -, -, -⟩ := pop_before hd hpop
    refine ⟨fun x hx => .inl ⟨x, ?_, rfl⟩, Nat.le_refl _, fun _ => rfl, by simp⟩
    simp [all] at hx
    rcases hx with hx | rfl | hx
    · simp [all, hx]
    · have := hperm.subset (List.mem_cons_self)
      simp [all, this]
    · have := hperm.subset (List.mem_cons_of_mem _ hx)
      simp [all, this]
  | drop e hp hlate heq ho =>
    subst heq; subst ho
    refine ⟨fun x hx => .inl ⟨x, ?_, rfl⟩, Nat.le_refl _, fun _ => rfl, by simp⟩
    simp [all] at hx
    rcases hx with hx | hx <;> simp [all, hx]
  | repush e q d hd hp hq hl ht heq ho =>
    subst heq; subst ho
    refine ⟨fun x hx => .inl ?_, Nat.le_refl _, fun _ => rfl, by simp⟩
    simp [all, hq] at hx
    rcases hx with hx | rfl | hx
    · exact ⟨x, by simp [all, hx], rfl⟩
    · exact ⟨e, by simp [all, hp], rfl⟩
    · exact ⟨x, by simp [all, hx], rfl⟩
  | start e hp hd heq ho =>
    subst heq; subst ho
    refine ⟨fun x hx => .inl ⟨x, ?_, rfl⟩, Nat.le_refl _, fun _ => rfl, by simp⟩
    simpa [all, hp] using hx
  | refused now t p k hp ht heq ho =>
    subst heq; subst ho
    refine ⟨fun x hx => .inl ⟨x, by simpa [all, hp] using hx, rfl⟩, by simp,
      fun _ => rfl, by simp⟩
  | push now t p k q hp ht hle hq hl heq ho =>
    subst heq; subst ho
    refine ⟨fun x hx => ?_, by simp, fun _ => rfl, by simp⟩
    simp [all, hq] at hx
    rcases hx with hx | rfl | hx
    · exact .inl ⟨x, by simp [all, hx], rfl⟩
    · exact .inr ⟨_, _, rfl⟩
    · exact .inl ⟨x, by simp [all, hx], rfl⟩
  | send now dst lat p k hp hn hdst hlat e he heq ho =>
    subst heq; subst ho
    refine ⟨fun x hx => .inl ⟨x, by simpa [all, hp] using hx, rfl⟩, by simp, by simp, ?_⟩
    intro dst' lat' e' heq
    simp at heq
    obtain ⟨rfl, rfl, rfl⟩ := heq
    subst he
    exact ⟨hdst, by simp only; omega, ⟨p, rfl⟩, rfl, rfl, by simp [hp], now, rfl, by simp [hp]⟩
  | advance now d k hp hle heq ho =>
    subst heq; subst ho
    refine ⟨fun x hx => .inl ⟨x, by simpa [all, hp] using hx, rfl⟩, by simp,
      fun _ => rfl, by simp⟩

/-- At any moment: every host satisfies its invariant, identities of packets come from their
    senders' counters, and every host is in a state it reaches alone, plus received packets. -/
structure Core (cfg : Cfg) (prog : Prog H P) (lo re : Nat) (r hs : Nat → Host H P) : Prop where
  host : ∀ id, id < cfg.n → HInv cfg lo re id (hs id)
  pktId : ∀ id, id < cfg.n → ∀ e ∈ all (hs id), ∀ p j i, e.data = .packet p j i →
    j < cfg.n ∧ i < (hs j).nextId
  solo : ∀ id, id < cfg.n → ∃ k s inc, soloRun cfg prog re id k (r id) = some s ∧
    Rel re (hs id) s inc ∧ inc.Perm (received cfg.n hs id)

theorem distinct_queue {cfg : Cfg} {lo re id : Nat} {h : Host H P} (hi : HInv cfg lo re id h) :
    DistinctIds h.queue.events :=
  distinctIds_right (distinctIds_right hi.distinct)

theorem solo_succ {cfg : Cfg} {prog : Prog H P} {re id k : Nat} {a s s' : Host H P} {out : Out P}
    (h1 : soloRun cfg prog re id k a = some s) (h2 : lstep cfg prog re id s = some (s', out)) :
    soloRun cfg prog re id (k + 1) a = some s' := by
  simp [soloRun, h1, h2]

theorem core_lstep {cfg : Cfg} {prog : Prog H P} {lo re id : Nat} {r hs : Nat → Host H P}
    {h' : Host H P} (hc : Core cfg prog lo re r hs) (hid : id < cfg.n)
    (hs1 : lstep cfg prog re id (hs id) = some (h', none)) :
    Core cfg prog lo re r (setHost hs id h') := by
  have hi := hc.host id hid
  obtain ⟨hdata, hnid, hsent, -⟩ := lstep_data (distinct_queue hi) hs1
  have hrec : ∀ d, received cfg.n (setHost hs id h') d = received cfg.n hs d := by
    apply received_congr
    intro j _
    unfold setHost
    split
    · rename_i hj; subst hj; exact hsent rfl
    · rfl
  have hmono : ∀ j, (hs j).nextId ≤ (setHost hs id h' j).nextId := by
    intro j; unfold setHost; split
    · rename_i hj; subst hj; exact hnid
    · exact Nat.le_refl _
  refine ⟨?_, ?_, ?_⟩
  · intro j hj
    unfold setHost; split
    · rename_i hji; subst hji; exact lstep_inv hi hs1
    · exact hc.host j hj
  · intro j hj e he p s i hd
    have : ∃ y ∈ all (hs j), y.data = e.data := by
      unfold setHost at he
      split at he
      · rename_i hji; subst hji
        rcases hdata e he with h1 | ⟨p', i', h1⟩
        · exact h1
        · rw [h1] at hd; cases hd
      · exact ⟨e, he, rfl⟩
    obtain ⟨y, hy, hyd⟩ := this
    have := hc.pktId j hj y hy p s i (hyd.trans hd)
    exact ⟨this.1, Nat.lt_of_lt_of_le this.2 (hmono s)⟩
  · intro j hj
    obtain ⟨k, s, inc, h1, h2, h3⟩ := hc.solo j hj
    by_cases hji : j = id
    · subst hji
      obtain ⟨s', h4, h5⟩ := lstep_rel h2 (distinct_queue hi) hs1
      refine ⟨k + 1, s', inc, solo_succ h1 h4, ?_, ?_⟩
      · simpa [setHost] using h5
      · rw [hrec]; exact h3
    · refine ⟨k, s, inc, h1, ?_, ?_⟩
      · simpa [setHost, hji] using h2
      · rw [hrec]; exact h3

theorem push_ok {q : Queue P} {e : Event P} (h : q.lastPopped ≤ e.time) :
    q.push e = .ok ⟨e :: q.events, q.lastPopped⟩ := by
  unfold Queue.push; rw [if_pos h]

/-- Delivering a packet never panics (the heart of C04). -/
theorem deliver_ok {cfg : Cfg} {prog : Prog H P} {lo re id : Nat} {r hs : Nat → Host H P}
    {h' : Host H P} {dst lat : Nat} {e : Event P} (hc : Core cfg prog lo re r hs) (hid : id < cfg.n)
    (hs1 : lstep cfg prog re id (hs id) = some (h', some (dst, lat, e))) :
    deliver (setHost hs id h') dst e = some (setHost (setHost hs id h') dst
      { setHost hs id h' dst with
        queue := ⟨e :: (hs dst).queue.events, (hs dst).queue.lastPopped⟩ }) := by
  have hi := hc.host id hid
  obtain ⟨-, -, -, h4⟩ := lstep_data (distinct_queue hi) hs1
  obtain ⟨hdst, hre, -, -, hqueue, -⟩ := h4 dst lat e rfl
  have hq : (setHost hs id h' dst).queue = (hs dst).queue := by
    unfold setHost; split
    · rename_i hj; subst hj; exact hqueue
    · rfl
  have hlast := (hc.host dst hdst).last
  unfold deliver
  rw [hq, push_ok (by omega)]

theorem core_send {cfg : Cfg} {prog : Prog H P} {lo re id : Nat} {r hs hs2 : Nat → Host H P}
    {h' : Host H P} {dst lat : Nat} {e : Event P} (hc : Core cfg prog lo re r hs) (hid : id < cfg.n)
    (hs1 : lstep cfg prog re id (hs id) = some (h', some (dst, lat, e)))
    (hdel : deliver (setHost hs id h') dst e = some hs2) :
    Core cfg prog lo re r hs2 := by
  rw [deliver_ok hc hid hs1] at hdel
  simp only [Option.some.injEq] at hdel
  have hi := hc.host id hid
  obtain ⟨hdata, hnid, -, h4⟩ := lstep_data (distinct_queue hi) hs1
  obtain ⟨hdst, hre, ⟨p0, hpd⟩, hnid', hqueue, -, now, hsent, -⟩ := h4 dst lat e rfl
  -- the intermediate hosts, after the sender's step
  have hq : ∀ j, (setHost hs id h' j).queue = (hs j).queue := by
    intro j; unfold setHost; split
    · rename_i hj; subst hj; exact hqueue
    · rfl
  have hmono : ∀ j, (hs j).nextId ≤ (setHost hs id h' j).nextId := by
    intro j; unfold setHost; split
    · rename_i hj; subst hj; exact hnid
    · exact Nat.le_refl _
  have hidn : (setHost hs id h' id).nextId = (hs id).nextId + 1 := by
    simp [setHost, hnid']
  have hpk1 : ∀ j, j < cfg.n → ∀ x ∈ all (setHost hs id h' j), ∀ p s i, x.data = .packet p s i →
      s < cfg.n ∧ i < (hs s).nextId := by
    intro j hj x hx p s i hd
    have : ∃ y ∈ all (hs j), y.data = x.data := by
      unfold setHost at hx
      split at hx
      · rename_i hji; subst hji
        rcases hdata x hx with h1 | ⟨p', i', h1⟩
        · exact h1
        · rw [h1] at hd; cases hd
      · exact ⟨x, hx, rfl⟩
    obtain ⟨y, hy, hyd⟩ := this
    exact hc.pktId j hj y hy p s i (hyd.trans hd)
  have hinv1 : ∀ j, j < cfg.n → HInv cfg lo re j (setHost hs id h' j) := by
    intro j hj
    unfold setHost; split
    · rename_i hji; subst hji; exact lstep_inv hi hs1
    · exact hc.host j hj
  have hrel1 : ∀ j, j < cfg.n → ∃ k s inc, soloRun cfg prog re j k (r j) = some s ∧
      Rel re (setHost hs id h' j) s inc ∧ inc.Perm (received cfg.n hs j) := by
    intro j hj
    obtain ⟨k, s, inc, h1, h2, h3⟩ := hc.solo j hj
    by_cases hji : j = id
    · subst hji
      obtain ⟨s', h4, h5⟩ := lstep_rel h2 (distinct_queue hi) hs1
      exact ⟨k + 1, s', inc, solo_succ h1 h4, by simpa [setHost] using h5, h3⟩
    · exact ⟨k, s, inc, h1, by simpa [setHost, hji] using h2, h3⟩
  have hfresh : ∀ x ∈ all (setHost hs id h' dst), ¬ SameId e x := by
    intro x hx hsame
    unfold SameId at hsame
    rw [hpd] at hsame
    cases hxd : x.data with
    | packet p s i =>
      simp [hxd] at hsame
      have := (hpk1 dst hdst x hx p s i hxd).2
      rw [← hsame.1] at this
      omega
    | «local» p i => simp [hxd] at hsame
  have hlast := (hc.host dst hdst).last
  generalize hmid : setHost hs id h' = m at *
  subst hdel
  have hsentm : ∀ j, (setHost m dst { m dst with queue := ⟨e :: (hs dst).queue.events, (hs dst).queue.lastPopped⟩ } j).sent = (m j).sent := by
    intro j
    rw [setHost]
    split
    · rename_i hj; subst hj; rfl
    · rfl
  have hrec := received_send (n := cfg.n) (hs := hs)
    (hs' := setHost m dst { m dst with queue := ⟨e :: (hs dst).queue.events, (hs dst).queue.lastPopped⟩ })
    (id := id) (dst := dst) (now := now) (lat := lat) (e := e) hid
    (by rw [hsentm, ← hmid]; simp [setHost, hsent])
    (by intro j _ hne; rw [hsentm, ← hmid]; simp [setHost, hne])
  refine ⟨?_, ?_, ?_⟩
  · intro j hj
    rw [setHost]; split
    · rename_i hjd; subst hjd
      refine deliver_inv (hinv1 j hj) hre ?_ hfresh ?_
      · rw [hq j]; exact push_ok (by omega)
      · rw [hpd]; intro p i hx; cases hx
    · exact hinv1 j hj
  · intro j hj x hx p s i hd
    have hn2 : ∀ s, (setHost m dst { m dst with queue := ⟨e :: (hs dst).queue.events, (hs dst).queue.lastPopped⟩ } s).nextId = (m s).nextId := by
      intro s; rw [setHost]; split
      · rename_i hj; subst hj; rfl
      · rfl
    rw [hn2 s]
    rw [setHost] at hx
    split at hx
    · rename_i hjd; subst hjd
      simp only [all, List.mem_append, List.mem_cons] at hx
      have : x = e ∨ x ∈ all (m j) := by
        rcases hx with h1 | h1 | h1 | h1
        · exact .inr (by simp [all, h1])
        · exact .inr (by simp [all, h1])
        · exact .inl h1
        · exact .inr (by simp [all, hq j, h1])
      rcases this with rfl | hx
      · rw [hpd] at hd
        injection hd with h5 h6 h7
        subst h6; subst h7
        exact ⟨hid, by omega⟩
      · have := hpk1 j hj x hx p s i hd
        exact ⟨this.1, Nat.lt_of_lt_of_le this.2 (hmono s)⟩
    · have := hpk1 j hj x hx p s i hd
      exact ⟨this.1, Nat.lt_of_lt_of_le this.2 (hmono s)⟩
  · intro j hj
    obtain ⟨k, s, inc, h1, h2, h3⟩ := hrel1 j hj
    by_cases hjd : j = dst
    · subst hjd
      refine ⟨k, s, e :: inc, h1, ?_, ?_⟩
      · simp only [setHost, if_true]
        refine ⟨h2.st, h2.nextId, h2.phase, h2.ran, h2.sent, h2.clock, ?_, ?_, ?_⟩
        · rw [← h2.last, hq j]
        · have := h2.perm; rw [hq j] at this
          exact (this.cons e).trans List.perm_middle.symm
        · intro x hx
          rcases List.mem_cons.mp hx with rfl | hx
          · exact hre
          · exact h2.late x hx
      · exact (h3.cons e).trans hrec.1.symm
    · refine ⟨k, s, inc, h1, ?_, ?_⟩
      · rw [setHost, if_neg hjd]; exact h2
      · rw [hrec.2 j hjd]; exact h3

end Shadow.Sim
