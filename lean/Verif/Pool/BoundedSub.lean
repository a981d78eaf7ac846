import Verif.Pool.BoundedInv

/-!
# The thread pool of the thread-per-host scheduler: `start_next_thread`
-/
namespace Shadow.Pool.Bounded

open Shadow.Base Shadow.Latch

/-- Where an agent goes on in `start_next_thread` or after it. -/
def St.goOn (s : St) (a : Agent) (p : Nat) (r : Option Sub) : St :=
  match a with
  | none => { s with main := match r with
    | some sub => .starting p sub
    | none => if p + 1 < s.np then .starting (p + 1) (.seek 0) else .ran }
  | some i => s.put i (match s.pc i, r with
    | .starting why _ _, some sub => .starting why p sub
    | .starting why _ _, none => why.next
    | x, _ => x)

/-- What it is doing then. -/
def St.nextStart (s : St) (a : Agent) (p : Nat) (r : Option Sub) : Option (Nat × Sub) :=
  match a, r with
  | _, some sub => some (p, sub)
  | none, none => if p + 1 < s.np then some (p + 1, .seek 0) else none
  | some _, none => none

variable {s : St} {w : CountDown.Waiter} {c : Nat → CountDown.Counter} {pl : Nat → Place} {bat : Nat → Option Agent} {pend : Nat → Agent}

theorem starter_main {p : Nat} {sub : Sub} (h : s.starter none = some (p, sub)) : s.main = .starting p sub := by
  cases hm : s.main <;> simp [St.starter, MPc.starter, hm] at h
  rw [h.1, h.2]

theorem starter_thread {i p : Nat} {sub : Sub} (h : s.starter (some i) = some (p, sub)) : ∃ why, s.pc i = .starting why p sub := by
  cases hm : s.pc i <;> simp [St.starter, TPc.starter, hm] at h
  rename_i why _ _
  exact ⟨why, by rw [h.1, h.2]⟩

theorem goOn_starter (s1 : St) {a : Agent} {p : Nat} {sub : Sub} (hm : s1.main = s.main) (hpc : s1.pc = s.pc) (h : s.starter a = some (p, sub)) (r : Option Sub) :
    (s1.goOn a p r).starter = upd s.starter a (s1.nextStart a p r) := by
  have h0 : s1.starter = s.starter := by funext b; cases b <;> simp [St.starter, hm, hpc]
  funext b
  cases a with
  | none =>
    cases b with
    | none =>
      rw [upd_same]
      cases r with
      | some sub => rfl
      | none => simp only [St.goOn, St.starter, St.nextStart]; split <;> rfl
    | some j => rw [upd_ne _ _ _ _ (by simp), ← h0]; rfl
  | some i =>
    obtain ⟨why, hw⟩ := starter_thread h
    rw [← hpc] at hw
    cases b with
    | none => rw [upd_ne _ _ _ _ (by simp), ← h0]; rfl
    | some j =>
      by_cases ej : j = i
      · subst ej
        rw [upd_same]
        simp only [St.goOn, St.starter, St.put, upd_same, hw, St.nextStart]
        cases r with
        | some sub => rfl
        | none => cases why <;> rfl
      · rw [upd_ne _ _ _ _ (by simpa using ej), ← h0]
        simp [St.goOn, St.starter, St.put, upd_ne _ _ _ _ ej]

/-- The position of a thread after a step of an agent. -/
theorem goOn_pc (s1 : St) {a : Agent} {p : Nat} {sub : Sub} (hpc : s1.pc = s.pc) (h : s.starter a = some (p, sub)) (r : Option Sub) (j : Nat) :
    (s1.goOn a p r).pc j = s.pc j ∨
      (a = some j ∧ ∃ why, s.pc j = .starting why p sub ∧ ((∃ sub', r = some sub' ∧ (s1.goOn a p r).pc j = .starting why p sub') ∨ (r = none ∧ (s1.goOn a p r).pc j = why.next))) := by
  cases a with
  | none => left; rw [← hpc]; rfl
  | some i =>
    obtain ⟨why, hw⟩ := starter_thread h
    rw [← hpc] at hw
    by_cases ej : j = i
    · subst ej
      right
      refine ⟨rfl, why, by rw [← hpc]; exact hw, ?_⟩
      cases r with
      | some sub => left; exact ⟨sub, rfl, by simp only [St.goOn, St.put, upd_same, hw]⟩
      | none => right; exact ⟨rfl, by simp only [St.goOn, St.put, upd_same, hw]⟩
    · left; simp only [St.goOn, St.put, upd_ne _ _ _ _ ej, hpc]

theorem goOn_main (s1 : St) {a : Agent} {p : Nat} {sub : Sub} (hm : s1.main = s.main) (h : s.starter a = some (p, sub)) (r : Option Sub) :
    (s1.goOn a p r).main = s.main ∨ (a = none ∧ s.main = .starting p sub ∧ ((∃ k sub', (s1.goOn a p r).main = .starting k sub') ∨ (s1.goOn a p r).main = .ran)) := by
  cases a with
  | some i => left; rw [← hm]; rfl
  | none =>
    right
    refine ⟨rfl, starter_main h, ?_⟩
    cases r with
    | some sub => exact .inl ⟨_, _, rfl⟩
    | none =>
      simp only [St.goOn]
      split
      · exact .inl ⟨_, _, rfl⟩
      · exact .inr rfl

theorem TInv.goOn {r j ps : Bool} {l : List Nat} {W : Nat} {p : Nat} {sub : Sub} {why : Why} {f f' : Bool} {q : Nat} {rn : List Nat} {cr : Bool} {d : CountDown.Counter} {x : TPc}
    (h : TInv r j ps l W (.starting why p sub) f q rn cr d) (hx : (∃ sub', x = .starting why p sub') ∨ x = why.next) (hf : f' = true → f = true ∨ j = true) :
    TInv r j ps l W x f' q rn cr d := by
  obtain ⟨h1, h2, h3, h4, h5, h6, h7, h8, h9, h10, h11, h12, h13, h14⟩ := h
  have hl : d.live = true := h1.2 (by simp)
  have hpd : d.pending = false := by
    cases hp : d.pending with
    | false => rfl
    | true => cases h2.1 hp
  have hle := h9 (by simp)
  have hrn := h3 (by simp)
  have hq := h10 p rfl
  have hfl : f' = true → j = true := by
    intro e
    rcases hf e with e | e
    · rcases h8 e with ⟨_, _, e⟩ | e
      · cases e
      · exact e
    · exact e
  have hcr : why ≠ .crash → cr = false := by
    intro hw
    cases hc : cr with
    | false => rfl
    | true =>
      rcases h11 hc with ⟨_, _, e⟩ | e | e | e <;> cases e
      exact absurd rfl hw
  rcases hx with ⟨sub', rfl⟩ | rfl
  · refine ⟨by simp [hl], by simp [hpd], ?_, by simp, fun _ => h5 rfl, ?_, ?_, fun e => .inr (hfl e), fun _ => hle, ?_, ?_, by simp, ?_, by simp⟩
    · intro _; rw [hrn]; cases why <;> rfl
    · intro e; exact h6 (by cases why <;> simp_all [TPc.after])
    · intro p' s' e; cases e; exact h7 p sub rfl
    · intro p' e; cases e; exact hq
    · intro e; rcases h11 e with ⟨a, b, e⟩ | e | e | e <;> cases e; exact .inl ⟨_, _, rfl⟩
    · intro p' s' e
      rcases e with e | e <;> cases e
      exact h13 p sub (.inl rfl)
  · cases why with
    | ret =>
      have hc := hcr (by simp)
      refine ⟨by simp [Why.next, hl], by simp [Why.next, hpd], fun _ => hrn, by simp [Why.next], fun _ => h5 rfl, fun _ => h6 rfl, by simp [Why.next], fun e => .inr (hfl e), fun _ => hle, by simp [Why.next, TPc.proc],
        by simp [hc], by simp [Why.next], by simp [Why.next], by simp [Why.next]⟩
    | crash =>
      have hc := h13 p sub (.inl rfl)
      exact ⟨by simp [Why.next, hl], by simp [Why.next, hpd], fun _ => hrn, by simp [Why.next], fun _ => h5 rfl, fun _ => h6 rfl, by simp [Why.next], fun e => .inr (hfl e), fun _ => hle, by simp [Why.next, TPc.proc],
        fun _ => .inr (.inl rfl), by simp [Why.next], fun _ _ _ => hc, by simp [Why.next]⟩
    | quit =>
      have hc := hcr (by simp)
      have hj := h7 p sub rfl
      exact ⟨by simp [Why.next, hl], by simp [Why.next, hpd], fun _ => by rw [hrn]; simp [Why.next, TPc.after, hc], by simp [Why.next], fun _ => .inr hj, fun e => by simp [Why.next, TPc.after, hc] at e,
        by simp [Why.next], fun e => .inr (hfl e), fun _ => hle, by simp [Why.next, TPc.proc],
        by simp [hc], by simp [hc], by simp [Why.next], fun _ => .inr hj⟩

/-- If an agent starts threads, then there is a round or the pool is being dropped. -/
theorem Inv.on (hi : Inv s w c pl bat pend) {a : Agent} {p : Nat} {sub : Sub} (h : s.starter a = some (p, sub)) :
    s.main.round s.task = true ∨ s.main.joined = true := by
  cases a with
  | none => rw [starter_main h]; exact .inl rfl
  | some i =>
    obtain ⟨why, hw⟩ := starter_thread h
    have hin : i < s.n := by
      rcases Nat.lt_or_ge i s.n with e | e
      · exact e
      · rw [hi.outr i e] at hw; cases hw
    have := (hi.thr i hin).act (by rw [hw]; rfl)
    rcases this with e | e
    · exact .inl e.1
    · exact .inr e

theorem Inv.moved (hi : Inv s w c pl bat pend) {a : Agent} {p : Nat} {sub : Sub} (ha : s.starter a = some (p, sub)) {s1 : St} {r : Option Sub}
    {pl' : Nat → Place} {bat' : Nat → Option Agent} {pend' : Nat → Agent}
    (e1 : s1.main = s.main) (e2 : s1.pc = s.pc) (e3 : s1.n = s.n) (e4 : s1.cpus = s.cpus) (e5 : s1.ran = s.ran) (e6 : s1.crashed = s.crashed) (e7 : s1.task = s.task)
    (e8 : s1.poisoned = s.poisoned) (e9 : s1.fin = s.fin) (e10 : s1.issued = s.issued)
    (hq : Q s.n s.np s1.ready s1.done s1.lpi (upd s.starter a (s1.nextStart a p r)) pl')
    (hr : s.main.round s.task = true → Rnd s.n s.np w.passed s1.ready (fun i => (s.pc i).rest) s1.flag c (upd s.starter a (s1.nextStart a p r)) (s1.goOn a p r).has pl' bat')
    (hj : s.main.joined = true → Jn s.n s.np s1.ready (s1.goOn a p r).pc s1.flag s1.lpi (upd s.starter a (s1.nextStart a p r)) s.main)
    (hfl : ∀ j, j < s.n → s1.flag j = true → s.flag j = true ∨ (s.main.round s.task = true ∧ (c j).passed = w.passed ∧ (s.pc j).rest = true) ∨ s.main.joined = true)
    (hlp : ∀ j, j < s.n → s1.lpi j = s.lpi j ∨ (s.pc j).rest = true)
    (hpn : ∀ i, i < s.n → s.pc i = .park → s1.flag i = true → s1.token i = false → (s1.goOn a p r).unparks (pend' i) = some i)
    (haf : ∀ i, i < s.n → s1.aff i = none ∨ s.cpu (s1.lpi i) = none ∨ s1.aff i = s.cpu (s1.lpi i)) : Inv (s1.goOn a p r) w c pl' bat' pend' := by
  have hst := goOn_starter s1 e1 e2 ha r
  have hpc := goOn_pc s1 e2 ha r
  have hmn := goOn_main s1 e1 ha r
  have hon := hi.on ha
  have f1 : (s1.goOn a p r).n = s.n := by rw [← e3]; cases a <;> rfl
  have f2 : (s1.goOn a p r).cpus = s.cpus := by rw [← e4]; cases a <;> rfl
  have f3 : (s1.goOn a p r).ready = s1.ready := by cases a <;> rfl
  have f4 : (s1.goOn a p r).done = s1.done := by cases a <;> rfl
  have f5 : (s1.goOn a p r).lpi = s1.lpi := by cases a <;> rfl
  have f6 : (s1.goOn a p r).flag = s1.flag := by cases a <;> rfl
  have f7 : (s1.goOn a p r).token = s1.token := by cases a <;> rfl
  have f8 : (s1.goOn a p r).aff = s1.aff := by cases a <;> rfl
  have f9 : (s1.goOn a p r).ran = s.ran := by rw [← e5]; cases a <;> rfl
  have f10 : (s1.goOn a p r).crashed = s.crashed := by rw [← e6]; cases a <;> rfl
  have f11 : (s1.goOn a p r).task = s.task := by rw [← e7]; cases a <;> rfl
  have f12 : (s1.goOn a p r).poisoned = s.poisoned := by rw [← e8]; cases a <;> rfl
  have f13 : (s1.goOn a p r).fin = s.fin := by rw [← e9]; cases a <;> rfl
  have f14 : (s1.goOn a p r).issued = s.issued := by rw [← e10]; cases a <;> rfl
  have f15 : (s1.goOn a p r).np = s.np := by simp [St.np, f2]
  have f16 : ∀ q, (s1.goOn a p r).cpu q = s.cpu q := by intro q; simp [St.cpu, f2]
  generalize s1.goOn a p r = s' at *
  have m1 : s'.main.round s.task = s.main.round s.task := by
    rcases hmn with h | ⟨_, h1, ⟨k, sub', h2⟩ | h2⟩
    · rw [h]
    · rw [h1, h2]; rfl
    · rw [h1, h2]; rfl
  have m2 : s'.main.joined = s.main.joined := by
    rcases hmn with h | ⟨_, h1, ⟨k, sub', h2⟩ | h2⟩
    · rw [h]
    · rw [h1, h2]; rfl
    · rw [h1, h2]; rfl
  have m3 : s'.main = s.main ∨ (s.main.joined = false ∧ ((∃ k sub', s'.main = .starting k sub') ∨ s'.main = .ran) ∧ ∃ k sub', s.main = .starting k sub') := by
    rcases hmn with h | ⟨_, h1, h2⟩
    · exact .inl h
    · exact .inr ⟨by rw [h1]; rfl, h2, _, _, h1⟩
  have hmk : s.main ≠ .making := by
    intro e
    rw [e] at hon
    rcases hon with h | h <;> cases h
  have hrest : ∀ j, (s'.pc j).rest = (s.pc j).rest := by
    intro j
    rcases hpc j with h | ⟨_, why, h1, ⟨sub', _, h2⟩ | ⟨_, h2⟩⟩
    · rw [h]
    · rw [h1, h2]; rfl
    · rw [h1, h2]; cases why <;> rfl
  have hgone : ∀ j, s'.pc j = .gone ↔ s.pc j = .gone := by
    intro j
    rcases hpc j with h | ⟨_, why, h1, ⟨sub', _, h2⟩ | ⟨_, h2⟩⟩
    · rw [h]
    · rw [h1, h2]; simp
    · rw [h1, h2]; cases why <;> simp [Why.next]
  have hpark : ∀ j, s'.pc j = .park → s.pc j = .park := by
    intro j
    rcases hpc j with h | ⟨_, why, h1, ⟨sub', _, h2⟩ | ⟨_, h2⟩⟩
    · rw [h]; exact id
    · rw [h1, h2]; simp
    · rw [h1, h2]; cases why <;> simp [Why.next]
  constructor
  case fin =>
    rw [f13]
    intro _
    refine hi.fin ?_
    intro e
    cases a with
    | none => rw [starter_main ha] at e; cases e
    | some i =>
      obtain ⟨why, hw⟩ := starter_thread ha
      have hin : i < s.n := by
        rcases Nat.lt_or_ge i s.n with e | e
        · exact e
        · rw [hi.outr i e] at hw; cases hw
      have := hi.over e i hin
      rw [hw] at this; cases this
  case len => rw [f13, f1]; exact hi.len
  case c0 =>
    obtain ⟨d, h1, h2, h3⟩ := hi.c0
    refine ⟨d, by rw [f13]; exact h1, ?_, h3⟩
    rw [h2]
    have : s'.main ≠ .making := by
      rcases m3 with h | ⟨_, ⟨k, sub', h⟩ | h, _⟩ <;> rw [h]
      · exact hmk
      · simp
      · simp
    simp [this, hmk]
  case cs => rw [f1, f13]; exact hi.cs
  case thr =>
    rw [f1, f11, m1, m2, f12, f14, f6, f5, f9, f10]
    intro j hjn
    have h := hi.thr j hjn
    rcases hpc j with h1 | ⟨_, why, h1, h2⟩
    · rw [h1]
      rcases hlp j hjn with h2 | h2
      · rw [h2]
        refine { h with fl := ?_ }
        intro e
        rcases hfl j hjn e with e | ⟨e, e', e''⟩ | e
        · exact h.fl e
        · exact .inl ⟨e, e', e''⟩
        · exact .inr e
      · refine { h with fl := ?_, proc := ?_ }
        · intro e
          rcases hfl j hjn e with e | ⟨e, e', e''⟩ | e
          · exact h.fl e
          · exact .inl ⟨e, e', e''⟩
          · exact .inr e
        · intro q e
          cases hp : s.pc j <;> rw [hp] at h2 e <;> cases h2 <;> cases e
    · rw [h1] at h
      have hl : s1.lpi j = s.lpi j := by
        rcases hlp j hjn with h3 | h3
        · exact h3
        · rw [h1] at h3; cases h3
      rw [hl]
      refine h.goOn ?_ ?_
      · rcases h2 with ⟨sub', _, h2⟩ | ⟨_, h2⟩
        · exact .inl ⟨sub', h2⟩
        · exact .inr h2
      · intro e
        rcases hfl j hjn e with e | ⟨_, _, e⟩ | e
        · exact .inl e
        · rw [h1] at e; cases e
        · exact .inr e
  case outr =>
    rw [f1]
    intro j hjn
    rcases hpc j with h1 | ⟨_, why, h1, _⟩
    · rw [h1]; exact hi.outr j hjn
    · rw [hi.outr j hjn] at h1; cases h1
  case fresh =>
    intro e
    rcases m3 with h | ⟨_, ⟨k, sub', h⟩ | h, _⟩
    · exact absurd (h.symm.trans e) hmk
    · rw [h] at e; cases e
    · rw [h] at e; cases e
  case q => intro _; rw [f1, f15, f3, f4, f5, hst]; exact hq
  case rnd =>
    rw [f11, m1]
    intro h
    rw [f1, f15, f3, f6, hst]
    have h1 : (fun i => (s'.pc i).rest) = fun i => (s.pc i).rest := by funext i; exact hrest i
    rw [h1]
    exact hr h
  case jn =>
    rw [m2]
    intro h
    have hmm : s'.main = s.main := by
      rcases m3 with e | ⟨e, _⟩
      · exact e
      · rw [h] at e; cases e
    rw [f1, f15, f3, f6, f5, hst, hmm]
    exact hj h
  case pn =>
    rw [f1, f6, f7]
    intro j hjn hp hf ht
    exact hpn j hjn (hpark j hp) hf ht
  case mn =>
    have h := hi.mn
    rw [f11, f14, f12]
    rcases m3 with e | ⟨_, e, k, sub', e0⟩
    · rw [e]; exact h
    · have g1 := h.iss
      have g2 := h.tk
      have g3 := h.wpc
      rw [e0] at g1 g2 g3
      rcases e with ⟨k', sub'', e⟩ | e <;> rw [e] <;>
        exact ⟨g1, g2, fun _ => ⟨fun hh => absurd ((g3 (by simp)).1 hh) (by simp), (fun hh => by cases hh)⟩, (fun hh => by cases hh), (fun hh => by cases hh),
          (fun hh => by rcases hh with hh | hh <;> cases hh), (fun hh => by cases hh)⟩
  case post =>
    intro e
    rcases m3 with h | ⟨_, ⟨k, sub', h⟩ | h, _⟩
    · rw [h] at e
      exfalso
      cases hm : s.main <;> rw [hm] at e hon <;> simp [MPc.post, MPc.round, MPc.joined] at e hon
    · rw [h] at e; cases e
    · rw [h] at e; cases e
  case idle =>
    intro _ e1' e2'
    rw [f11, m1] at e1'
    rw [m2] at e2'
    rcases hon with h | h
    · rw [h] at e1'; cases e1'
    · rw [h] at e2'; cases e2'
  case blame => rw [f12, f1, f10]; exact hi.blame
  case over =>
    intro e j hjn
    rw [f1] at hjn
    rcases m3 with h | ⟨_, ⟨k, sub', h⟩ | h, _⟩
    · exact (hgone j).2 (hi.over (h.symm.trans e) j hjn)
    · rw [h] at e; cases e
    · rw [h] at e; cases e
  case check =>
    intro b hb
    rw [f1, f10]
    refine hi.check b ?_
    rcases m3 with h | ⟨_, ⟨k, sub', h⟩ | h, _⟩
    · rw [h] at hb; exact hb
    · rw [h] at hb; rcases hb with ⟨_, _, hb⟩ | ⟨_, hb⟩ <;> cases hb
    · rw [h] at hb; rcases hb with ⟨_, _, hb⟩ | ⟨_, hb⟩ <;> cases hb
  case joins =>
    intro b k hb j hjk hjn
    rw [f1] at hjn
    rcases m3 with h | ⟨_, ⟨k, sub', h⟩ | h, _⟩
    · exact (hgone j).2 (hi.joins b k (h.symm.trans hb) j hjk hjn)
    · rw [h] at hb; cases hb
    · rw [h] at hb; cases hb
  case unp =>
    intro b k half hb
    rw [f1]
    rcases m3 with h | ⟨_, ⟨k, sub', h⟩ | h, _⟩
    · exact hi.unp b k half (h.symm.trans hb)
    · rw [h] at hb; cases hb
    · rw [h] at hb; cases hb
  case aff =>
    rw [f1, f8, f5]
    intro j hjn
    rw [f16]
    exact haf j hjn

end Shadow.Pool.Bounded
