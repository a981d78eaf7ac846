import Verif.Pool.BoundedSub

/-!
# The thread pool of the thread-per-host scheduler: a step of `start_next_thread` keeps the invariant
-/
namespace Shadow.Pool.Bounded

open Shadow.Base Shadow.Latch

variable {s : St} {w : CountDown.Waiter} {c : Nat → CountDown.Counter} {pl : Nat → Place} {bat : Nat → Option Agent} {pend : Nat → Agent}

theorem unparks_ne {s' : St} {b : Agent} (h1 : s'.starter b = s.starter b) (h2 : b = none → s'.main = s.main) : s'.unparks b = s.unparks b := by
  cases b with
  | none => simp only [St.unparks, h2 rfl, h1]
  | some j => simp only [St.unparks, h1]

theorem unparks_at {a : Agent} {p : Nat} {sub : Sub} (h : s.starter a = some (p, sub)) : s.unparks a = unparksIn (some (p, sub)) := by
  cases a with
  | none =>
    have hm := starter_main h
    simp only [St.unparks, hm, h]
  | some j => simp only [St.unparks, h]

theorem goOn_unparks (s1 : St) {a : Agent} {p : Nat} {sub : Sub} (hm : s1.main = s.main) (hpc : s1.pc = s.pc) (h : s.starter a = some (p, sub)) (r : Option Sub)
    {b : Agent} (hb : b ≠ a) : (s1.goOn a p r).unparks b = s.unparks b := by
  apply unparks_ne
  · rw [goOn_starter s1 hm hpc h r, upd_ne _ _ _ _ hb]
  · rintro rfl
    rcases goOn_main s1 hm h r with e | ⟨e, _⟩
    · exact e
    · exact absurd e.symm hb

theorem goOn_has (s1 : St) {a : Agent} {p : Nat} {sub : Sub} (h : s1.starter a = some (p, sub)) (r : Option Sub) (hl : ∀ i, a = some i → i < s1.n ∧ s1.lpi i = p)
    (b : Agent) (q : Nat) (hq : q < s1.np) :
    (s1.goOn a p r).has b q ↔ if b = a ∧ q = p then r.any (fun x => !x.isUnpark) = true else s1.has b q := by
  cases a with
  | none =>
    have hm := starter_main h
    cases b with
    | some j => simp [St.goOn, St.has]
    | none =>
      cases r with
      | some sub' =>
        simp only [St.goOn, St.has, hm, MPc.has]
        by_cases e : q = p
        · subst e; simp
        · simp [e, Ne.symm e]
      | none =>
        by_cases hp1 : p + 1 < s1.np
        · simp only [St.goOn, St.has, hm, if_pos hp1, MPc.has]
          by_cases e : q = p
          · subst e; simp
          · simp [e, Ne.symm e, Sub.isUnpark]; omega
        · simp only [St.goOn, St.has, hm, if_neg hp1, MPc.has]
          by_cases e : q = p
          · subst e; simp
          · simp [e, Ne.symm e]; omega
  | some i =>
    obtain ⟨why, hw⟩ := starter_thread h
    obtain ⟨hin, hli⟩ := hl i rfl
    cases b with
    | none => simp [St.goOn, St.has, St.put]
    | some j =>
      by_cases ej : j = i
      · subst ej
        simp only [St.goOn, St.has, St.put, upd_same, hw, hli, hin, true_and]
        by_cases e : q = p
        · subst e
          cases r with
          | some sub' => simp [TPc.active]
          | none => cases why <;> simp [TPc.active, Why.next]
        · simp [e, Ne.symm e]
      · simp [St.goOn, St.has, St.put, upd_ne _ _ _ _ ej, ej]

/-- What is known about an agent that starts threads. -/
theorem Inv.agent (hi : Inv s w c pl bat pend) {a : Agent} {p : Nat} {sub : Sub} (h : s.starter a = some (p, sub)) :
    s.main ≠ .making ∧ p < s.np ∧ (∀ i, a = some i → i < s.n ∧ s.lpi i = p) ∧ (s.main.joined = true → ∃ i, a = some i) := by
  have hon := hi.on h
  have hm : s.main ≠ .making := by
    intro e
    rw [e] at hon
    rcases hon with h | h <;> cases h
  refine ⟨hm, (hi.q hm).pr a p sub h, ?_, ?_⟩
  · rintro i rfl
    obtain ⟨why, hw⟩ := starter_thread h
    have hin : i < s.n := by
      rcases Nat.lt_or_ge i s.n with e | e
      · exact e
      · rw [hi.outr i e] at hw; cases hw
    exact ⟨hin, ((hi.thr i hin).proc p (by rw [hw]; rfl)).symm⟩
  · intro hj
    cases a with
    | some i => exact ⟨i, rfl⟩
    | none => rw [starter_main h] at hj; cases hj

/-- A thread that is taken and not released. -/
theorem Inv.taken (hi : Inv s w c pl bat pend) {a : Agent} {v : Nat} (hm : s.main ≠ .making) (h : heldIn (s.starter a) = some v) :
    v < s.n ∧ (s.main.round s.task = true → (c v).live = true ∧ (c v).passed = w.passed ∧ s.flag v = false ∧ (s.pc v).rest = true) := by
  have := ((hi.q hm).hld v a).2 h
  refine ⟨this.1, fun hr => ((hi.rnd hr).fresh v this.1).1 (by rw [this.2]; simp)⟩

/-- The agent has the right to use the processor. -/
theorem Inv.right (hi : Inv s w c pl bat pend) {a : Agent} {p : Nat} {sub : Sub} (h : s.starter a = some (p, sub)) (hs : sub.isUnpark = false)
    (hr : s.main.round s.task = true) : bat p = some a := by
  obtain ⟨_, hp, hl, _⟩ := hi.agent h
  rw [← (hi.rnd hr).bt a p hp]
  cases a with
  | none => simp [St.has, starter_main h, MPc.has, hs]
  | some i =>
    obtain ⟨why, hw⟩ := starter_thread h
    obtain ⟨h1, h2⟩ := hl i rfl
    simp [St.has, h1, h2, hw, TPc.active, hs]

theorem joined_round {m : MPc} {t : Option Nat} : m.joined = true → m.round t = false := by cases m <;> simp [MPc.round, MPc.joined]

theorem popCount_mono {n p : Nat} {lpi : Nat → Nat} {pc pc' : Nat → TPc} (h : ∀ i, i < n → (pc' i).toPop = true → (pc i).toPop = true) :
    popCount n p lpi pc' ≤ popCount n p lpi pc := by
  apply countP_mono'
  intro i hi hc
  have hi := List.mem_range.1 hi
  simp only [Bool.and_eq_true] at hc ⊢
  exact ⟨hc.1, h i hi hc.2⟩

theorem countP_lt {α : Type} {p q : α → Bool} {l : List α} (h : ∀ x ∈ l, p x = true → q x = true) {y : α} (hy : y ∈ l) (h1 : q y = true) (h2 : p y = false) :
    l.countP p < l.countP q := by
  induction l with
  | nil => cases hy
  | cons a l ih =>
    have hm := countP_mono' (fun x hx => h x (List.mem_cons_of_mem a hx))
    simp only [List.countP_cons]
    rcases List.mem_cons.1 hy with e | e
    · subst e; rw [h1, h2]; simp; omega
    · have := ih (fun x hx => h x (List.mem_cons_of_mem _ hx)) e
      have h3 := h a (by simp)
      cases hp : p a
      · simp; omega
      · simp [h3 hp]; omega

/-- The part of `Inv` about dropping the pool, when no queue changes. -/
theorem Jn.keep {n P : Nat} {ready : Nat → List Nat} {pc pc' : Nat → TPc} {flag flag' : Nat → Bool} {lpi : Nat → Nat} {st : Agent → Option (Nat × Sub)} {main : MPc}
    (h : Jn n P ready pc flag lpi st main) {a : Agent} {y : Option (Nat × Sub)}
    (h1 : ∀ i, i < n → (pc' i).toPop = true → (pc i).toPop = true) (h2 : ∀ i, i < n → (pc' i).rest = (pc i).rest) (h3 : ∀ i, i < n → flag i = true → flag' i = true)
    (h4 : ∀ p k, y = some (p, .seek k) → k = 0) (h5 : ∀ p v q, y = some (p, .push v q) ∨ y = some (p, .assign v q) → q = p) :
    Jn n P ready pc' flag' lpi (upd st a y) main := by
  refine ⟨fun p hp => Nat.le_trans (popCount_mono h1) (h.cnt p hp), ?_, ?_, ?_, ?_⟩
  · intro b p k hb
    by_cases e : b = a
    · subst e; rw [upd_same] at hb; exact h4 p k hb
    · rw [upd_ne _ _ _ _ e] at hb; exact h.k0 b p k hb
  · intro b p v q hb
    by_cases e : b = a
    · subst e; rw [upd_same] at hb; exact h5 p v q (.inl hb)
    · rw [upd_ne _ _ _ _ e] at hb; exact h.own1 b p v q hb
  · intro b p v q hb
    by_cases e : b = a
    · subst e; rw [upd_same] at hb; exact h5 p v q (.inr hb)
    · rw [upd_ne _ _ _ _ e] at hb; exact h.own2 b p v q hb
  · intro i hin hu
    rw [h2 i hin]
    rcases h.sig i hin hu with e | e
    · exact .inl (h3 i hin e)
    · exact .inr e

theorem goOn_rest (s1 : St) {a : Agent} {p : Nat} {sub : Sub} (hpc : s1.pc = s.pc) (h : s.starter a = some (p, sub)) (r : Option Sub) (j : Nat) :
    ((s1.goOn a p r).pc j).rest = (s.pc j).rest := by
  rcases goOn_pc s1 hpc h r j with h | ⟨_, why, h1, ⟨sub', _, h2⟩ | ⟨_, h2⟩⟩
  · rw [h]
  · rw [h1, h2]; rfl
  · rw [h1, h2]; cases why <;> rfl

theorem goOn_toPop (s1 : St) {a : Agent} {p : Nat} {sub : Sub} (hpc : s1.pc = s.pc) (h : s.starter a = some (p, sub)) (r : Option Sub) (hr : ∀ k, r ≠ some (.seek k)) (j : Nat) :
    ((s1.goOn a p r).pc j).toPop = true → (s.pc j).toPop = true := by
  rcases goOn_pc s1 hpc h r j with h | ⟨_, why, h1, ⟨sub', h3, h2⟩ | ⟨_, h2⟩⟩
  · rw [h]; exact id
  · rw [h2]
    cases sub' with
    | seek k => exact absurd h3 (hr k)
    | _ => intro e; cases e
  · rw [h2]; cases why <;> (intro e; cases e)

/-- In `join` the queue of an agent that looks for a thread is not empty. -/
theorem Inv.own (hi : Inv s w c pl bat pend) {a : Agent} {p k : Nat} (h : s.starter a = some (p, .seek k)) (hj : s.main.joined = true) :
    k = 0 ∧ s.ready p ≠ [] := by
  obtain ⟨_, hp, hl, ha⟩ := hi.agent h
  have hjn := hi.jn hj
  refine ⟨hjn.k0 a p k h, ?_⟩
  obtain ⟨i, rfl⟩ := ha hj
  obtain ⟨why, hw⟩ := starter_thread h
  obtain ⟨hin, hli⟩ := hl i rfl
  have h1 := hjn.cnt p hp
  have h2 : 0 < popCount s.n p s.lpi s.pc := by
    apply List.countP_pos_iff.2
    exact ⟨i, List.mem_range.2 hin, by simp [hli, hw, TPc.toPop]⟩
  intro e
  rw [e] at h1
  simp at h1
  omega

theorem Inv.seekNext (hi : Inv s w c pl bat pend) {a : Agent} {p k : Nat} (h : s.starter a = some (p, .seek k)) (he : s.ready ((p + k) % s.np) = []) (hk : k + 1 < s.np) :
    Inv (s.goOn a p (some (.seek (k + 1)))) w c pl bat pend := by
  obtain ⟨hm, hp, hl, _⟩ := hi.agent h
  have hnj : s.main.joined = true → False := by
    intro hj
    obtain ⟨rfl, h2⟩ := hi.own h hj
    rw [Nat.add_zero, Nat.mod_eq_of_lt hp] at he
    exact h2 he
  refine hi.moved h rfl rfl rfl rfl rfl rfl rfl rfl rfl rfl ?_ ?_ (fun hj => (hnj hj).elim) (fun _ _ e => .inl e) (fun _ _ => .inl rfl) ?_ hi.aff
  · exact (hi.q hm).move a (by rw [h]; rfl) _ rfl (by rintro p' sub' ⟨⟩; exact hp) (by rintro p' k' ⟨⟩; exact hk)
  · intro hr
    have hR := hi.rnd hr
    refine ⟨hR.fresh, ?_, hR.empty, ?_⟩
    · intro b q hq
      rw [goOn_has s h _ hl b q hq, ← hR.bt b q hq]
      split
      · next e =>
        obtain ⟨rfl, rfl⟩ := e
        have := hi.right h rfl hr
        rw [← hR.bt b q hq] at this
        simp [this, Sub.isUnpark]
      · rfl
    · intro b p' k' hb j hj
      by_cases e : b = a
      · subst e
        rw [upd_same] at hb
        cases hb
        by_cases ej : j = k
        · subst ej; exact he
        · exact hR.seek b p k h j (by omega)
      · rw [upd_ne _ _ _ _ e] at hb; exact hR.seek b p' k' hb j hj
  · intro i hin hp hf ht
    have := hi.pn i hin hp hf ht
    refine Eq.trans (goOn_unparks (s := s) _ ?_ ?_ h _ ?_) this
    · rfl
    · rfl
    intro e; rw [e, unparks_at h] at this; cases this

theorem mod_cover {P p q : Nat} (hp : p < P) (hq : q < P) : ∃ j, j < P ∧ (p + j) % P = q := by
  rcases Nat.lt_or_ge q p with h | h
  · refine ⟨q + P - p, by omega, ?_⟩
    rw [show p + (q + P - p) = q + P by omega, Nat.add_mod_right, Nat.mod_eq_of_lt hq]
  · refine ⟨q - p, by omega, ?_⟩
    rw [show p + (q - p) = q by omega, Nat.mod_eq_of_lt hq]

theorem nextStart_cases (s1 : St) (a : Agent) (p : Nat) : s1.nextStart a p none = none ∨ (s1.nextStart a p none = some (p + 1, .seek 0) ∧ p + 1 < s1.np ∧ a = none) := by
  cases a with
  | some i => exact .inl rfl
  | none =>
    by_cases h : p + 1 < s1.np
    · exact .inr ⟨by simp [St.nextStart, h], h, rfl⟩
    · exact .inl (by simp [St.nextStart, h])

theorem Inv.seekStop (hi : Inv s w c pl bat pend) {a : Agent} {p k : Nat} (h : s.starter a = some (p, .seek k)) (he : s.ready ((p + k) % s.np) = []) (hk : ¬k + 1 < s.np) :
    Inv (s.goOn a p none) w c pl (upd bat p none) pend := by
  obtain ⟨hm, hp, hl, _⟩ := hi.agent h
  have hkp := (hi.q hm).sk a p k h
  have hnj : s.main.joined = true → False := by
    intro hj
    obtain ⟨rfl, h2⟩ := hi.own h hj
    rw [Nat.add_zero, Nat.mod_eq_of_lt hp] at he
    exact h2 he
  have hns := nextStart_cases s a p
  refine hi.moved h rfl rfl rfl rfl rfl rfl rfl rfl rfl rfl ?_ ?_ (fun hj => (hnj hj).elim) (fun _ _ e => .inl e) (fun _ _ => .inl rfl) ?_ hi.aff
  · refine (hi.q hm).move a (by rw [h]; rfl) _ ?_ ?_ ?_
    · rcases hns with e | ⟨e, _⟩ <;> rw [e] <;> rfl
    · intro p' sub' hx
      rcases hns with e | ⟨e, e', _⟩ <;> rw [e] at hx <;> cases hx
      exact e'
    · intro p' k' hx
      rcases hns with e | ⟨e, e', _⟩ <;> rw [e] at hx <;> cases hx
      omega
  · intro hr
    have hR := hi.rnd hr
    have hall : ∀ q, s.ready q = [] := by
      intro q
      rcases Nat.lt_or_ge q s.np with hq | hq
      · obtain ⟨j, hj, rfl⟩ := mod_cover hp hq
        by_cases ej : j = k
        · subst ej; exact he
        · exact hR.seek a p k h j (by omega)
      · apply List.eq_nil_iff_forall_not_mem.2
        intro i hc
        obtain ⟨h1, _, h2⟩ := ((hi.q hm).rdy i q).1 hc
        have := (hi.q hm).lp i h1
        omega
    refine ⟨hR.fresh, ?_, fun _ _ _ => hall, ?_⟩
    · intro b q hq
      rw [goOn_has s h _ hl b q hq]
      have hb := hi.right h rfl hr
      by_cases e : q = p
      · subst e
        rw [upd_same]
        by_cases eb : b = a
        · rw [if_pos ⟨eb, rfl⟩]; simp
        · rw [if_neg (fun e1 => eb e1.1), hR.bt b q hq, hb]
          constructor
          · intro e1; exact absurd (Option.some.inj e1).symm eb
          · intro e1; cases e1
      · rw [upd_ne _ _ _ _ e, if_neg (fun e1 => e e1.2)]; exact hR.bt b q hq
    · intro b p' k' hb j hj; exact hall _
  · intro i hin hp hf ht
    have := hi.pn i hin hp hf ht
    refine Eq.trans (goOn_unparks (s := s) _ ?_ ?_ h _ ?_) this
    · rfl
    · rfl
    intro e; rw [e, unparks_at h] at this; cases this

theorem Inv.seekPop (hi : Inv s w c pl bat pend) {a : Agent} {p k v : Nat} {l : List Nat} (h : s.starter a = some (p, .seek k)) (he : s.ready ((p + k) % s.np) = v :: l) :
    Inv (({ s with ready := upd s.ready ((p + k) % s.np) l } : St).goOn a p (some (.push v ((p + k) % s.np)))) w c (upd pl v (.held a)) bat pend := by
  obtain ⟨hm, hp, hl, haj⟩ := hi.agent h
  have hQ := (hi.q hm).pop h he
  have hv := ((hi.q hm).rdy v _).1 (by rw [he]; exact List.mem_cons_self)
  refine hi.moved h rfl rfl rfl rfl rfl rfl rfl rfl rfl rfl hQ ?_ ?_ (fun _ _ e => .inl e) (fun _ _ => .inl rfl) ?_ hi.aff
  · intro hr
    have hR := hi.rnd hr
    refine ⟨?_, ?_, ?_, ?_⟩
    · intro i hin
      rw [← hR.fresh i hin]
      by_cases e : i = v
      · subst e; rw [upd_same, hv.2.1]; simp
      · rw [upd_ne _ _ _ _ e]
    · intro b q hq
      rw [goOn_has ({ s with ready := upd s.ready ((p + k) % s.np) l } : St) (sub := .seek k) h _ hl b q hq, ← hR.bt b q hq]
      split
      · next e =>
        obtain ⟨rfl, rfl⟩ := e
        have := hi.right h rfl hr
        rw [← hR.bt b q hq] at this
        simp [this, Sub.isUnpark]
      · cases b <;> rfl
    · intro q hq hb
      have := hR.empty q hq hb ((p + k) % s.np)
      rw [he] at this; cases this
    · intro b p' k' hb j hj
      by_cases e : b = a
      · subst e; rw [upd_same] at hb; cases hb
      · rw [upd_ne _ _ _ _ e] at hb
        have := hR.seek b p' k' hb j hj
        by_cases e : (p' + j) % s.np = (p + k) % s.np
        · rw [e, he] at this; cases this
        · simp only [upd_ne _ _ _ _ e]; exact this
  · intro hj
    obtain ⟨rfl, _⟩ := hi.own h hj
    have hq : (p + 0) % s.np = p := by rw [Nat.add_zero, Nat.mod_eq_of_lt hp]
    rw [hq] at he ⊢
    have hJ := hi.jn hj
    obtain ⟨i, rfl⟩ := haj hj
    obtain ⟨why, hw⟩ := starter_thread h
    obtain ⟨hin, hli⟩ := hl i rfl
    have hk := hJ.keep (a := some i) (y := some (p, .push v p)) (pc' := (({ s with ready := upd s.ready p l } : St).goOn (some i) p (some (.push v p))).pc) (flag' := s.flag)
      (fun j _ => goOn_toPop (s := s) ({ s with ready := upd s.ready p l } : St) rfl h _ (by simp) j)
      (fun j _ => goOn_rest (s := s) ({ s with ready := upd s.ready p l } : St) rfl h _ j) (fun _ _ e => e) (by rintro p' k' ⟨⟩) (by rintro p' v' q' (⟨⟨⟩⟩ | ⟨⟨⟩⟩); rfl)
    refine ⟨?_, hk.k0, hk.own1, hk.own2, hk.sig⟩
    intro q hqp
    by_cases e : q = p
    · subst e
      have h1 := hJ.cnt q hqp
      simp only [upd_same]
      have h2 : popCount s.n q s.lpi (({ s with ready := upd s.ready q l } : St).goOn (some i) q (some (.push v q))).pc < popCount s.n q s.lpi s.pc := by
        refine countP_lt ?_ (y := i) (List.mem_range.2 hin) ?_ ?_
        · intro j hj hc
          simp only [Bool.and_eq_true] at hc ⊢
          exact ⟨hc.1, goOn_toPop (s := s) ({ s with ready := upd s.ready q l } : St) rfl h _ (by simp) j hc.2⟩
        · simp [hli, hw, TPc.toPop]
        · simp [St.goOn, St.put, upd_same, hw, TPc.toPop]
      rw [he] at h1
      simp at h1
      omega
    · simp only [upd_ne _ _ _ _ e]; exact hk.cnt q hqp
  · intro i hin hp hf ht
    have := hi.pn i hin hp hf ht
    refine Eq.trans (goOn_unparks (s := s) _ ?_ ?_ h _ ?_) this
    · rfl
    · rfl
    intro e; rw [e, unparks_at h] at this; cases this

/-- There is room in the queue. -/
theorem Inv.room (hi : Inv s w c pl bat pend) {a : Agent} {p v q : Nat} (h : s.starter a = some (p, .push v q)) : (s.done p).length < s.n := by
  obtain ⟨hm, hp, hl, haj⟩ := hi.agent h
  have hQ := hi.q hm
  obtain ⟨hv, hv2⟩ := (hQ.hld v a).2 (by rw [h]; rfl)
  have hvd : v ∉ s.done p := by
    intro hc
    have := (hQ.dn v p).1 hc
    rw [hv2] at this
    simp [isDone, h, pushedIn, Sub.pushed] at this
  have h1 : (v :: s.done p).Nodup := List.nodup_cons.2 ⟨hvd, hQ.nd p⟩
  have h2 : (v :: s.done p) ⊆ List.range s.n := by
    intro x hx
    rcases List.mem_cons.1 hx with rfl | hx
    · exact List.mem_range.2 hv
    · exact List.mem_range.2 ((hQ.dn x p).1 hx).1
  have := h1.length_le_of_subset h2
  simp at this
  omega

theorem Inv.pushStep (hi : Inv s w c pl bat pend) {a : Agent} {p v q : Nat} (h : s.starter a = some (p, .push v q)) :
    Inv (({ s with done := upd s.done p (s.done p ++ [v]) } : St).goOn a p (some (.assign v q))) w c pl bat pend := by
  obtain ⟨hm, hp, hl, haj⟩ := hi.agent h
  have hQ := (hi.q hm).push h
  refine hi.moved h rfl rfl rfl rfl rfl rfl rfl rfl rfl rfl hQ ?_ ?_ (fun _ _ e => .inl e) (fun _ _ => .inl rfl) ?_ hi.aff
  · intro hr
    have hR := hi.rnd hr
    refine ⟨hR.fresh, ?_, hR.empty, ?_⟩
    · intro b q' hq
      rw [goOn_has ({ s with done := upd s.done p (s.done p ++ [v]) } : St) (sub := .push v q) h _ hl b q' hq, ← hR.bt b q' hq]
      split
      · next e =>
        obtain ⟨rfl, rfl⟩ := e
        have := hi.right h rfl hr
        rw [← hR.bt b _ hq] at this
        simp [this, Sub.isUnpark]
      · cases b <;> rfl
    · intro b p' k' hb j hj
      by_cases e : b = a
      · subst e; rw [upd_same] at hb; cases hb
      · rw [upd_ne _ _ _ _ e] at hb
        exact hR.seek b p' k' hb j hj
  · intro hj
    have hJ := hi.jn hj
    have ho := hJ.own1 a p v q h
    exact hJ.keep (fun j _ => goOn_toPop (s := s) ({ s with done := upd s.done p (s.done p ++ [v]) } : St) rfl h _ (by simp) j)
      (fun j _ => goOn_rest (s := s) ({ s with done := upd s.done p (s.done p ++ [v]) } : St) rfl h _ j) (fun _ _ e => e) (by rintro p' k' ⟨⟩) (by rintro p' v' q' (⟨⟨⟩⟩ | ⟨⟨⟩⟩); exact ho)
  · intro i hin hp hf ht
    have := hi.pn i hin hp hf ht
    refine Eq.trans (goOn_unparks (s := s) _ ?_ ?_ h _ ?_) this
    · rfl
    · rfl
    intro e; rw [e, unparks_at h] at this; cases this

theorem Inv.assignStep (hi : Inv s w c pl bat pend) {a : Agent} {p v q : Nat} (h : s.starter a = some (p, .assign v q)) (af : Nat → Option Nat)
    (haf : (af = s.aff ∧ (p ≠ q → s.cpu p = none)) ∨ (p ≠ q ∧ ∃ d, s.cpu p = some d ∧ af = upd s.aff v (some d))) :
    Inv (({ s with aff := af, lpi := upd s.lpi v p } : St).goOn a p (some (.flag v))) w c pl bat pend := by
  obtain ⟨hm, hp, hl, haj⟩ := hi.agent h
  have hQ := (hi.q hm).assign h
  have hfr := (hi.q hm).fr2 a p v q h
  obtain ⟨hvn, hv⟩ := hi.taken hm (v := v) (by rw [h]; rfl)
  have hsame : p = q → upd s.lpi v p = s.lpi := by
    intro e; rw [e, ← hfr, upd_self]
  have hav : s.main.round s.task = true → ∀ i, a = some i → i ≠ v := by
    intro hr i e ei
    subst e ei
    obtain ⟨why, hw⟩ := starter_thread h
    have := (hv hr).2.2.2
    rw [hw] at this; cases this
  have hl' : s.main.round s.task = true → ∀ i, a = some i → i < s.n ∧ upd s.lpi v p i = p := by
    intro hr i e
    rw [upd_ne _ _ _ _ (hav hr i e)]; exact hl i e
  refine hi.moved h rfl rfl rfl rfl rfl rfl rfl rfl rfl rfl hQ ?_ ?_ (fun _ _ e => .inl e) ?_ ?_ ?_
  · intro hr
    have hR := hi.rnd hr
    refine ⟨hR.fresh, ?_, hR.empty, ?_⟩
    · intro b q' hq
      rw [goOn_has ({ s with aff := af, lpi := upd s.lpi v p } : St) (sub := .assign v q) h _ (hl' hr) b q' hq, ← hR.bt b q' hq]
      split
      · next e =>
        obtain ⟨rfl, rfl⟩ := e
        have := hi.right h rfl hr
        rw [← hR.bt b _ hq] at this
        simp [this, Sub.isUnpark]
      · cases b with
        | none => rfl
        | some j =>
          by_cases e : j = v
          · subst e
            have hna : (s.pc j).active (s.flag j) = false := by
              obtain ⟨_, _, h1, h2⟩ := hv hr
              rw [h1]
              cases hp : s.pc j <;> rw [hp] at h2 <;> first | rfl | cases h2
            simp [St.has, hna]
          · simp [St.has, upd_ne _ _ _ _ e]
    · intro b p' k' hb j hj
      by_cases e : b = a
      · subst e; rw [upd_same] at hb; cases hb
      · rw [upd_ne _ _ _ _ e] at hb
        exact hR.seek b p' k' hb j hj
  · intro hj
    have hJ := hi.jn hj
    have ho := hJ.own2 a p v q h
    have hs := hsame ho.symm
    show Jn s.n s.np s.ready _ s.flag (upd s.lpi v p) _ s.main
    rw [hs]
    exact hJ.keep (fun j _ => goOn_toPop (s := s) ({ s with aff := af, lpi := s.lpi } : St) rfl h _ (by simp) j)
      (fun j _ => goOn_rest (s := s) ({ s with aff := af, lpi := s.lpi } : St) rfl h _ j) (fun _ _ e => e) (by rintro p' k' ⟨⟩) (by rintro p' v' q' (⟨⟨⟩⟩ | ⟨⟨⟩⟩))
  · intro j hjn
    show upd s.lpi v p j = s.lpi j ∨ _
    by_cases e : p = q
    · rw [hsame e]; exact .inl rfl
    · by_cases ej : j = v
      · subst ej
        rcases hi.on h with hr | hj
        · exact .inr (hv hr).2.2.2
        · exact absurd ((hi.jn hj).own2 a p j q h).symm e
      · left; exact upd_ne _ _ _ _ ej
  · intro i hin hp hf ht
    have := hi.pn i hin hp hf ht
    refine Eq.trans (goOn_unparks (s := s) _ ?_ ?_ h _ ?_) this
    · rfl
    · rfl
    intro e; rw [e, unparks_at h] at this; cases this
  · intro i hin
    show af i = none ∨ s.cpu (upd s.lpi v p i) = none ∨ af i = s.cpu (upd s.lpi v p i)
    by_cases e : p = q
    · rw [hsame e]
      rcases haf with ⟨rfl, _⟩ | ⟨e', _⟩
      · exact hi.aff i hin
      · exact absurd e e'
    · by_cases ei : i = v
      · subst ei
        rw [upd_same]
        rcases haf with ⟨_, e'⟩ | ⟨_, d, h1, rfl⟩
        · right; left; exact e' e
        · right; right; rw [upd_same]; exact h1.symm
      · rw [upd_ne _ _ _ _ ei]
        rcases haf with ⟨rfl, _⟩ | ⟨_, d, h1, rfl⟩
        · exact hi.aff i hin
        · rw [upd_ne _ _ _ _ ei]; exact hi.aff i hin

theorem Inv.flagStep (hi : Inv s w c pl bat pend) {a : Agent} {p v : Nat} (h : s.starter a = some (p, .flag v)) :
    Inv (({ s with flag := upd s.flag v true } : St).goOn a p (some (.unpark v))) w c (upd pl v .out) (upd bat p (some (some v))) (upd pend v a) := by
  obtain ⟨hm, hp, hl, haj⟩ := hi.agent h
  have hQ := (hi.q hm).release h
  have hlv := (hi.q hm).flg a p v h
  obtain ⟨hvn, hv⟩ := hi.taken hm (v := v) (by rw [h]; rfl)
  refine hi.moved h rfl rfl rfl rfl rfl rfl rfl rfl rfl rfl hQ ?_ ?_ ?_ (fun _ _ => .inl rfl) ?_ hi.aff
  · intro hr
    have hR := hi.rnd hr
    have hav : a ≠ some v := by
      rintro rfl
      obtain ⟨why, hw⟩ := starter_thread h
      have := (hv hr).2.2.2
      rw [hw] at this; cases this
    have hb0 := hi.right h rfl hr
    refine ⟨?_, ?_, ?_, ?_⟩
    · intro i hin
      by_cases e : i = v
      · subst e; simp only [upd_same]; simp
      · simp only [upd_ne _ _ _ _ e]; exact hR.fresh i hin
    · intro b q' hq
      rw [goOn_has ({ s with flag := upd s.flag v true } : St) (sub := .flag v) h _ hl b q' hq]
      by_cases e : q' = p
      · subst e
        rw [upd_same]
        split
        · next e =>
          obtain ⟨rfl, _⟩ := e
          simp only [Option.any, Sub.isUnpark, Bool.not_true]
          constructor
          · intro e; cases e
          · intro e; exact absurd (Option.some.inj e).symm hav
        · next e =>
          have hba : b ≠ a := fun e1 => e ⟨e1, rfl⟩
          by_cases ebv : b = some v
          · subst ebv
            have hac : (s.pc v).active true = true := by
              have h2 := (hv hr).2.2.2
              cases hp : s.pc v <;> rw [hp] at h2 <;> first | rfl | cases h2
            simp [St.has, hvn, hlv, upd_same, hac]
          · have h1 : St.has ({ s with flag := upd s.flag v true } : St) b q' ↔ s.has b q' := by
              cases b with
              | none => rfl
              | some j => simp [St.has, upd_ne _ _ _ _ (fun e : j = v => ebv (by rw [e]))]
            rw [h1, hR.bt b q' hq, hb0]
            constructor
            · intro e; exact absurd (Option.some.inj e).symm hba
            · intro e; exact absurd (Option.some.inj e).symm ebv
      · rw [if_neg (fun e1 => e e1.2), upd_ne _ _ _ _ e, ← hR.bt b q' hq]
        cases b with
        | none => rfl
        | some j =>
          by_cases ej : j = v
          · subst ej; simp [St.has, hlv, Ne.symm e]
          · simp [St.has, upd_ne _ _ _ _ ej]
    · intro q hq hb
      by_cases e : q = p
      · subst e; rw [upd_same] at hb; cases hb
      · rw [upd_ne _ _ _ _ e] at hb; exact hR.empty q hq hb
    · intro b p' k' hb j hj
      by_cases e : b = a
      · subst e; rw [upd_same] at hb; cases hb
      · rw [upd_ne _ _ _ _ e] at hb
        exact hR.seek b p' k' hb j hj
  · intro hj
    have hJ := hi.jn hj
    refine hJ.keep (fun j _ => goOn_toPop (s := s) ({ s with flag := upd s.flag v true } : St) rfl h _ (by simp) j)
      (fun j _ => goOn_rest (s := s) ({ s with flag := upd s.flag v true } : St) rfl h _ j) ?_ (by rintro p' k' ⟨⟩) (by rintro p' v' q' (⟨⟨⟩⟩ | ⟨⟨⟩⟩))
    intro i _ e
    by_cases ei : i = v
    · subst ei; exact upd_same _ _ _
    · show upd s.flag v true i = true
      rw [upd_ne _ _ _ _ ei]; exact e
  · intro j hjn e
    by_cases ej : j = v
    · subst ej
      right
      rcases hi.on h with hr | hj
      · exact .inl ⟨hr, (hv hr).2.1, (hv hr).2.2.2⟩
      · exact .inr hj
    · left
      rw [← e]
      exact (upd_ne _ _ _ _ ej).symm
  · intro i hin hp hf ht
    by_cases ei : i = v
    · subst ei
      rw [upd_same]
      have h1 := goOn_starter ({ s with flag := upd s.flag i true } : St) (s := s) rfl rfl h (some (.unpark i))
      have h2 : (({ s with flag := upd s.flag i true } : St).goOn a p (some (.unpark i))).starter a = some (p, .unpark i) := by rw [h1, upd_same]; cases a <;> rfl
      rw [unparks_at h2]; rfl
    · rw [upd_ne _ _ _ _ ei]
      have := hi.pn i hin hp (by rw [← hf]; exact (upd_ne _ _ _ _ ei).symm) ht
      refine Eq.trans (goOn_unparks (s := s) _ ?_ ?_ h _ ?_) this
      · rfl
      · rfl
      intro e; rw [e, unparks_at h] at this; cases this

theorem Inv.unparkStep (hi : Inv s w c pl bat pend) {a : Agent} {p v : Nat} (h : s.starter a = some (p, .unpark v)) :
    Inv (({ s with token := upd s.token v true } : St).goOn a p none) w c pl bat pend := by
  obtain ⟨hm, hp, hl, haj⟩ := hi.agent h
  have hns := nextStart_cases ({ s with token := upd s.token v true } : St) a p
  refine hi.moved h rfl rfl rfl rfl rfl rfl rfl rfl rfl rfl ?_ ?_ ?_ (fun _ _ e => .inl e) (fun _ _ => .inl rfl) ?_ hi.aff
  · refine (hi.q hm).move a (by rw [h]; rfl) _ ?_ ?_ ?_
    · rcases hns with e | ⟨e, _⟩ <;> rw [e] <;> rfl
    · intro p' sub' hx
      rcases hns with e | ⟨e, e', _⟩ <;> rw [e] at hx <;> cases hx
      exact e'
    · intro p' k' hx
      rcases hns with e | ⟨e, e', _⟩ <;> rw [e] at hx <;> cases hx
      omega
  · intro hr
    have hR := hi.rnd hr
    refine ⟨hR.fresh, ?_, hR.empty, ?_⟩
    · intro b q hq
      rw [goOn_has ({ s with token := upd s.token v true } : St) (sub := .unpark v) h _ hl b q hq, ← hR.bt b q hq]
      split
      · next e =>
        obtain ⟨rfl, rfl⟩ := e
        simp only [Option.any]
        cases b with
        | none => simp [St.has, starter_main h, MPc.has, Sub.isUnpark]
        | some i =>
          obtain ⟨why, hw⟩ := starter_thread h
          simp [St.has, hw, TPc.active, Sub.isUnpark]
      · cases b <;> rfl
    · intro b p' k' hb j hj
      by_cases e : b = a
      · subst e
        rw [upd_same] at hb
        rcases hns with e | ⟨e, e', _⟩ <;> rw [e] at hb <;> cases hb
        omega
      · rw [upd_ne _ _ _ _ e] at hb
        exact hR.seek b p' k' hb j hj
  · intro hj
    have hJ := hi.jn hj
    obtain ⟨i, rfl⟩ := haj hj
    exact hJ.keep (fun j _ => goOn_toPop (s := s) ({ s with token := upd s.token v true } : St) rfl h _ (by simp) j)
      (fun j _ => goOn_rest (s := s) ({ s with token := upd s.token v true } : St) rfl h _ j) (fun _ _ e => e) (by rintro p' k' ⟨⟩) (by rintro p' v' q' (⟨⟨⟩⟩ | ⟨⟨⟩⟩))
  · intro i hin hp hf ht
    by_cases ei : i = v
    · subst ei
      have : upd s.token i true i = false := ht
      rw [upd_same] at this; cases this
    · have := hi.pn i hin hp hf (by rw [← ht]; exact (upd_ne _ _ _ _ ei).symm)
      refine Eq.trans (goOn_unparks (s := s) _ ?_ ?_ h _ ?_) this
      · rfl
      · rfl
      intro e
      rw [e, unparks_at h] at this
      exact ei (Option.some.inj this).symm

/-- A step of `start_next_thread` does not panic and keeps the invariant. -/
theorem Inv.subStep (hi : Inv s w c pl bat pend) {a : Agent} {p : Nat} {sub : Sub} (h : s.starter a = some (p, sub)) :
    ∃ s1 r pl' bat' pend', Inv (s1.goOn a p r) w c pl' bat' pend' ∧ s1.pc = s.pc ∧ s.sub p sub = .ok (s1, r) := by
  obtain ⟨hm, hp, hl, haj⟩ := hi.agent h
  cases sub with
  | seek k =>
    cases he : s.ready ((p + k) % s.np) with
    | nil =>
      by_cases hk : k + 1 < s.np
      · exact ⟨_, _, _, _, _, hi.seekNext h he hk, rfl, by simp only [St.sub, he, if_pos hk]⟩
      · exact ⟨_, _, _, _, _, hi.seekStop h he hk, rfl, by simp only [St.sub, he, if_neg hk]⟩
    | cons v l => exact ⟨_, _, _, _, _, hi.seekPop h he, rfl, by simp only [St.sub, he]⟩
  | push v q =>
    have hc := hi.room h
    exact ⟨_, _, _, _, _, hi.pushStep h, rfl, by simp only [St.sub, hc, decide_true, R.assert_true, R.bind_ok, R.pure_eq]⟩
  | assign v q =>
    have hfr := (hi.q hm).fr2 a p v q h
    obtain ⟨hvn, hv⟩ := hi.taken hm (v := v) (by rw [h]; rfl)
    by_cases e : p = q
    · have hlv : upd s.lpi v p = s.lpi := by rw [e, ← hfr, upd_self]
      have := hi.assignStep h s.aff (.inl ⟨rfl, fun e' => absurd e e'⟩)
      rw [hlv] at this
      exact ⟨_, _, _, _, _, this, rfl, by simp only [St.sub, hvn, hfr, e, decide_true, R.assert_true, R.bind_ok, R.pure_eq, ne_eq, not_true, if_false]⟩
    · have hr : s.main.round s.task = true := by
        rcases hi.on h with hr | hj
        · exact hr
        · exact absurd ((hi.jn hj).own2 a p v q h).symm e
      have hg : s.pc v ≠ .gone := ((hi.thr v hvn).live).1 (hv hr).1
      cases hcpu : s.cpu p with
      | none =>
        exact ⟨_, _, _, _, _, hi.assignStep h s.aff (.inl ⟨rfl, fun _ => hcpu⟩), rfl, by simp only [St.sub, St.assignTo, hvn, hfr, hcpu, e, decide_true, R.assert_true, R.bind_ok, R.pure_eq, ne_eq, not_false_eq_true, if_true]⟩
      | some d =>
        exact ⟨_, _, _, _, _, hi.assignStep h _ (.inr ⟨e, d, hcpu, rfl⟩), rfl, by simp only [St.sub, St.assignTo, hvn, hfr, hcpu, e, hg, decide_true, R.assert_true, R.bind_ok, R.pure_eq, ne_eq, not_false_eq_true, if_true]⟩
  | flag v => exact ⟨_, _, _, _, _, hi.flagStep h, rfl, rfl⟩
  | unpark v => exact ⟨_, _, _, _, _, hi.unparkStep h, rfl, rfl⟩

end Shadow.Pool.Bounded
