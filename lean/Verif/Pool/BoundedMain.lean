import Verif.Pool.BoundedThread

/-!
# The thread pool of the thread-per-host scheduler: the steps of the main thread keep the invariant
-/
namespace Shadow.Pool.Bounded

open Shadow.Base Shadow.Latch

variable {s : St} {w : CountDown.Waiter} {c : Nat → CountDown.Counter} {pl : Nat → Place} {bat : Nat → Option Agent} {pend : Nat → Agent}

/-- A step of the main thread after `new`. -/
theorem Inv.mainTo (hi : Inv s w c pl bat pend) {s' : St} {w' : CountDown.Waiter} {pl' : Nat → Place} {bat' : Nat → Option Agent} {pend' : Nat → Agent}
    (e1 : s'.pc = s.pc) (e2 : s'.n = s.n) (e3 : s'.cpus = s.cpus) (e4 : s'.lpi = s.lpi) (e5 : s'.ran = s.ran) (e6 : s'.crashed = s.crashed) (e7 : s'.poisoned = s.poisoned)
    (e8 : s'.aff = s.aff) (hm : s.main ≠ .making) (hm' : s'.main ≠ .making) (hfin : s'.main ≠ .over → Fin s'.fin w') (hcs : s'.fin.cs = s.fin.cs)
    (hthr : ∀ i, i < s.n → TInv (s'.main.round s'.task) s'.main.joined s.poisoned s'.issued w'.passed (s.pc i) (s'.flag i) (s.lpi i) (s.ran i) (s.crashed i) (c i))
    (hq : Q s.n s.np s'.ready s'.done s.lpi s'.starter pl')
    (hrnd : s'.main.round s'.task = true → Rnd s.n s.np w'.passed s'.ready (fun i => (s.pc i).rest) s'.flag c s'.starter s'.has pl' bat')
    (hjn : s'.main.joined = true → Jn s.n s.np s'.ready s.pc s'.flag s.lpi s'.starter s'.main)
    (hpn : ∀ i, i < s.n → s.pc i = .park → s'.flag i = true → s'.token i = false → s'.unparks (pend' i) = some i)
    (hmn : Mn s'.main s'.task s'.issued s.poisoned w')
    (hpost : s'.main.post = true → ∀ i, i < s.n → pl' i = .out)
    (hidle : s'.main.post = false → s'.main.round s'.task = false → s'.main.joined = false → ∀ i, i < s.n → pl' i = .ready)
    (hover : s'.main = .over → ∀ i, i < s.n → s.pc i = .gone)
    (hcheck : ∀ b, (∃ k half, s'.main = .unparking b k half) ∨ (∃ k, s'.main = .joining b k) → b = true → ∀ i, i < s.n → s.crashed i = false)
    (hjoins : ∀ b k, s'.main = .joining b k → ∀ j, j < k → j < s.n → s.pc j = .gone)
    (hunp : ∀ b k half, s'.main = .unparking b k half → k < s.n) : Inv s' w' c pl' bat' pend' := by
  have e9 : s'.np = s.np := by simp [St.np, e3]
  have e10 : ∀ p, s'.cpu p = s.cpu p := fun p => by simp [St.cpu, e3]
  constructor
  case fin => exact hfin
  case len => rw [hcs, e2]; exact hi.len
  case c0 =>
    obtain ⟨d, h1, h2, h3⟩ := hi.c0
    exact ⟨d, by rw [hcs]; exact h1, by rw [h2]; simp [hm, hm'], h3⟩
  case cs => rw [hcs, e2]; exact hi.cs
  case thr => rw [e2, e1, e4, e5, e6, e7]; exact hthr
  case outr => rw [e2, e1]; exact hi.outr
  case fresh => exact fun h => absurd h hm'
  case q => intro _; rw [e2, e9, e4]; exact hq
  case rnd => rw [e2, e9, e1]; exact hrnd
  case jn => rw [e2, e9, e1, e4]; exact hjn
  case pn => rw [e2, e1]; exact hpn
  case mn => rw [e7]; exact hmn
  case post => rw [e2]; exact hpost
  case idle => rw [e2]; exact hidle
  case blame => rw [e7, e2, e6]; exact hi.blame
  case over => rw [e2, e1]; exact hover
  case check => rw [e2, e6]; exact hcheck
  case joins => rw [e2, e1]; exact hjoins
  case unp => rw [e2]; exact hunp
  case aff => rw [e2, e8, e4]; intro i hin; rw [e10]; exact hi.aff i hin

theorem TInv.still {r j r' j' ps : Bool} {l l' : List Nat} {W W' : Nat} {pc : TPc} {f : Bool} {q : Nat} {rn : List Nat} {cr : Bool} {d : CountDown.Counter}
    (h : TInv r j ps l W pc f q rn cr d) (hb : pc.busy = false) (hf : f = false) (hex : pc = .gone → cr = true ∨ j' = true) (hl : l' = l ∨ (pc ≠ .gone ∧ ∃ t, l' = l ++ [t])) :
    TInv r' j' ps l' W' pc f q rn cr d := by
  obtain ⟨h1, h2, h3, h4, h5, h6, h7, h8, h9, h10, h11, h12, h13, h14⟩ := h
  have ha : pc.after cr = false := by cases pc <;> simp [TPc.busy] at hb <;> rfl
  have hs : pc.starter = none := by cases pc <;> simp [TPc.busy] at hb <;> rfl
  refine ⟨h1, h2, ?_, ?_, by simp [hb], by simp [ha], ?_, by simp [hf], ?_, h10, h11, h12, h13, ?_⟩
  · intro hg
    rw [h3 hg]
    rcases hl with rfl | ⟨_, t, rfl⟩
    · rfl
    · rw [ha]; exact (List.take_append_of_le_length (h9 hg)).symm
  · intro hg
    rcases hl with rfl | ⟨hn, _⟩
    · exact h4 hg
    · exact absurd hg hn
  · intro p sub e; rw [e] at hs; cases hs
  · intro hg
    have := h9 hg
    rcases hl with rfl | ⟨_, t, rfl⟩
    · exact this
    · simp; omega
  · intro e
    rcases e with e | e
    · rw [e] at hb; cases hb
    · exact hex e

/-- Between the rounds the threads rest. -/
theorem Inv.quiet (hi : Inv s w c pl bat pend) (hr : s.main.round s.task = false) (hj : s.main.joined = false) {i : Nat} (hin : i < s.n) :
    (s.pc i).busy = false ∧ s.flag i = false := by
  have h := hi.thr i hin
  refine ⟨?_, ?_⟩
  · cases hb : (s.pc i).busy with
    | false => rfl
    | true =>
      rcases h.act hb with ⟨h1, _⟩ | h1
      · rw [hr] at h1; cases h1
      · rw [hj] at h1; cases h1
  · cases hb : s.flag i with
    | false => rfl
    | true =>
      rcases h.fl hb with ⟨h1, _⟩ | h1
      · rw [hr] at h1; cases h1
      · rw [hj] at h1; cases h1

theorem Inv.noStart (hi : Inv s w c pl bat pend) (hr : s.main.round s.task = false) (hj : s.main.joined = false) (a : Agent) : s.starter a = none := by
  cases a with
  | none => cases hm : s.main <;> rw [hm] at hr <;> simp [St.starter, MPc.starter, hm] ; cases hr
  | some i =>
    rcases Nat.lt_or_ge i s.n with hin | hin
    · have := (hi.quiet hr hj hin).1
      cases hp : s.pc i <;> rw [hp] at this <;> simp [TPc.busy] at this <;> simp [St.starter, hp, TPc.starter]
    · simp [St.starter, hi.outr i hin, TPc.starter]

theorem Inv.noBorrow (hi : Inv s w c pl bat pend) (hr : s.main.round s.task = false) (hj : s.main.joined = false) :
    ((List.range s.n).any fun i => (s.pc i).borrows) = false ∧ ((List.range s.n).any fun i => (s.pc i).borrowsLps) = false := by
  constructor
  all_goals
    rw [List.any_eq_false]
    intro i hin
    have := (hi.quiet hr hj (List.mem_range.1 hin)).1
    cases hp : s.pc i <;> rw [hp] at this <;> simp [TPc.busy, TPc.borrows, TPc.borrowsLps] at this ⊢

theorem starter_same {s' : St} (h1 : s'.pc = s.pc) (h2 : s'.main.starter = s.main.starter) : s'.starter = s.starter := by
  funext a
  cases a with
  | none => exact h2
  | some i => simp [St.starter, h1]

/-- A step between the rounds. -/
theorem Inv.calm (hi : Inv s w c pl bat pend) (hm : s.main ≠ .making) (hr : s.main.round s.task = false) (hj : s.main.joined = false) {m : MPc} {t : Option Nat}
    (hm' : m ≠ .making) (ho : m ≠ .over) (hst : m.starter = none) (hr' : m.round t = false) (hj' : m.joined = false)
    (hp : m.post = s.main.post) (hmn : Mn m t s.issued s.poisoned w) :
    Inv { s with main := m, task := t } w c pl bat pend := by
  have hst0 : s.main.starter = none := hi.noStart hr hj none
  have hno : s.main ≠ .over := by intro e; rw [e] at hj; cases hj
  have hse : ({ s with main := m, task := t } : St).starter = s.starter := starter_same rfl (by rw [hst0]; exact hst)
  refine hi.mainTo rfl rfl rfl rfl rfl rfl rfl rfl hm hm' (fun _ => hi.fin hno) rfl ?_ ?_ ?_ ?_ ?_ hmn ?_ ?_ ?_ ?_ ?_ ?_
  · intro i hin
    have hq := hi.quiet hr hj hin
    exact (hi.thr i hin).still hq.1 hq.2 (fun hg => by
      rcases (hi.thr i hin).ex (.inr hg) with e | e
      · exact .inl e
      · rw [hj] at e; cases e) (.inl rfl)
  · rw [hse]; exact hi.q hm
  · intro h; rw [show ({ s with main := m, task := t } : St).main.round t = m.round t from rfl, hr'] at h; cases h
  · intro h; rw [show ({ s with main := m, task := t } : St).main.joined = m.joined from rfl, hj'] at h; cases h
  · intro i hin _ hf _
    have := (hi.quiet hr hj hin).2
    rw [show s.flag i = true from hf] at this; cases this
  · intro h; exact hi.post (by rw [← hp]; exact h)
  · intro h _ _; exact hi.idle (by rw [← hp]; exact h) hr hj
  · exact fun h => absurd h ho
  · intro b h
    have hj'' : m.joined = false := hj'
    rcases h with ⟨_, _, h⟩ | ⟨_, h⟩ <;> rw [show m = _ from h] at hj'' <;> cases hj''
  · intro b k h
    rw [show m = _ from h] at hj'; cases hj'
  · intro b k half h
    rw [show m = _ from h] at hj'; cases hj'

theorem Inv.enter (hi : Inv s w c pl bat pend) {res : Option Res} (h : s.main = .idle res) :
    Inv { s with main := if s.poisoned then .idle (some .refused) else .scope } w c pl bat pend := by
  have hmn := hi.mn
  have g1 := hmn.iss
  have g2 := hmn.tk
  have g3 := hmn.wpc
  rw [h] at g1 g2 g3
  have g4 : w.pc ≠ .out → False := fun e => by have := (g3 (by simp)).1 e; cases this
  by_cases hp : s.poisoned = true
  · rw [if_pos hp]
    refine hi.calm (m := .idle (some .refused)) (t := s.task) (by rw [h]; simp) (by rw [h]; rfl) (by rw [h]; rfl) (by simp) (by simp) rfl rfl rfl (by rw [h]; rfl) ?_
    exact ⟨g1, g2, fun _ => ⟨fun e => (g4 e).elim, (fun e => by cases e)⟩, (fun e => by cases e), (fun e => by cases e), fun _ => hp, (fun e => by cases e)⟩
  · rw [if_neg hp]
    have hp : s.poisoned = false := by simpa using hp
    refine hi.calm (m := .scope) (t := s.task) (by rw [h]; simp) (by rw [h]; rfl) (by rw [h]; rfl) (by simp) (by simp) rfl rfl rfl (by rw [h]; rfl) ?_
    exact ⟨g1, g2, fun _ => ⟨fun e => (g4 e).elim, (fun e => by cases e)⟩, (fun e => by cases e), fun _ => hp, (fun e => by rcases e with e | e <;> cases e), (fun e => by cases e)⟩

theorem Inv.run (hi : Inv s w c pl bat pend) (h : s.main = .scope) (t : Nat) :
    Inv { s with task := some t, issued := s.issued ++ [t], main := .setting } w c pl (fun _ => some none) pend := by
  have hm : s.main ≠ .making := by rw [h]; simp
  have hr : s.main.round s.task = false := by rw [h]; rfl
  have hj : s.main.joined = false := by rw [h]; rfl
  have hmn := hi.mn
  have hps := hmn.clean (by rw [h]; rfl)
  have g1 := hmn.iss
  rw [hr] at g1
  simp only [Bool.false_eq_true, if_false, Nat.add_zero] at g1
  have hng : ∀ i, i < s.n → s.pc i ≠ .gone := by
    intro i hin hg
    have ht := hi.thr i hin
    rcases ht.ex (.inr hg) with e | e
    · have := ht.cr2 e (.inr hg); rw [hps] at this; cases this
    · rw [hj] at e; cases e
  have hno : s.main ≠ .over := by rw [h]; simp
  have hst := hi.noStart hr hj
  have hse : ({ s with task := some t, issued := s.issued ++ [t], main := .setting } : St).starter = s.starter := starter_same rfl (by rw [h]; rfl)
  refine hi.mainTo rfl rfl rfl rfl rfl rfl rfl rfl hm (by simp) (fun _ => hi.fin hno) rfl ?_ ?_ ?_ ?_ ?_ ?_ ?_ ?_ ?_ ?_ ?_ ?_
  · intro i hin
    have hq := hi.quiet hr hj hin
    exact (hi.thr i hin).still hq.1 hq.2 (fun hg => absurd hg (hng i hin)) (.inr ⟨hng i hin, t, rfl⟩)
  · rw [hse]; exact hi.q hm
  · intro _
    rw [hse]
    refine ⟨?_, ?_, ?_, ?_⟩
    · intro i hin
      have ht := hi.thr i hin
      have hl := ht.live.2 (hng i hin)
      have h1 := ((hi.fin hno).range (hi.cs i hin) hl).1
      have h2 := ht.le (hng i hin)
      have hq := hi.quiet hr hj hin
      have hrest : (s.pc i).rest = true := by
        have := hng i hin
        cases hp : s.pc i <;> rw [hp] at hq this <;> simp [TPc.busy, TPc.rest] at hq this ⊢
      rw [hi.idle (by rw [h]; rfl) hr hj i hin]
      simp only [ne_eq, reduceCtorEq, not_false_eq_true, true_iff]
      exact ⟨hl, by omega, hq.2, hrest⟩
    · intro a p hp
      cases a with
      | none => simp [St.has, MPc.has]
      | some i =>
        simp only [St.has, Option.some.injEq, reduceCtorEq, iff_false]
        rintro ⟨hin, _, ha⟩
        have hq := hi.quiet hr hj hin
        rw [show s.flag i = false from hq.2] at ha
        cases hp : s.pc i <;> rw [show s.pc i = _ from hp] at ha hq <;> simp [TPc.busy, TPc.active] at ha hq
    · intro p hp e; cases e
    · intro a p k e; rw [hst a] at e; cases e
  · intro e; cases e
  · intro i hin _ hf _
    have := (hi.quiet hr hj hin).2
    rw [show s.flag i = true from hf] at this; cases this
  · have g3 := hmn.wpc hno
    refine ⟨by simp [g1, MPc.round], by simp [MPc.round], ?_, (fun e => by cases e), (fun e => by cases e), (fun e => by rcases e with e | e <;> cases e), (fun e => by cases e)⟩
    intro _
    rw [g3, h]; simp
  · intro e; cases e
  · intro _ e; cases e
  · intro e; cases e
  · intro b e; rcases e with ⟨_, _, e⟩ | ⟨_, e⟩ <;> cases e
  · intro b k e; cases e
  · intro b k half e; cases e

/-- A step of the main thread in a round after which it still has the processors that it had. -/
theorem Inv.onward (hi : Inv s w c pl bat pend) (hm : s.main ≠ .making) (hr : s.main.round s.task = true) {m : MPc} {fin' : CountDown.St} {w' : CountDown.Waiter}
    (hfin : Fin fin' w') (hcs : fin'.cs = s.fin.cs) (hw : w'.passed = w.passed) (hw' : w'.pc ≠ .out ↔ m = .waiting)
    (hst : heldIn s.main.starter = none) (hst' : heldIn m.starter = none) (hp : ∀ p sub, m.starter = some (p, sub) → p < s.np) (hk : ∀ p k, m.starter = some (p, .seek k) → k = 0 ∧ 0 < s.np)
    (hr' : m.round s.task = true) (hh : ∀ p, p < s.np → (m.has p ↔ s.main.has p))
    (hun : s.unparks none = none) : Inv { s with main := m, fin := fin' } w' c pl bat pend := by
  have hj := round_joined hr
  have hj' := round_joined hr'
  have hse : ({ s with main := m, fin := fin' } : St).starter = upd s.starter none m.starter := by
    funext a
    cases a with
    | none => rw [upd_same]; rfl
    | some i => rw [upd_ne _ _ _ _ (by simp)]; rfl
  have hmk : m ≠ .making := by intro e; rw [e] at hr'; cases hr'
  have hnp : m.post = false := by cases m <;> simp [MPc.round] at hr' <;> rfl
  refine hi.mainTo rfl rfl rfl rfl rfl rfl rfl rfl hm hmk (fun _ => hfin) hcs ?_ ?_ ?_ ?_ ?_ ?_ ?_ ?_ ?_ ?_ ?_ ?_
  · intro i hin
    have := hi.thr i hin
    rw [hr, hj] at this
    show TInv (m.round s.task) m.joined _ _ _ _ _ _ _ _ _
    rw [hr', hj', hw]; exact this
  · rw [hse]
    exact (hi.q hm).move none hst _ hst' hp (fun p k e => by rw [(hk p k e).1]; exact (hk p k e).2)
  · intro _
    have hR := hi.rnd hr
    rw [hse]
    refine ⟨?_, ?_, hR.empty, ?_⟩
    · intro i hin; rw [hw]; exact hR.fresh i hin
    · intro a p hpn
      rw [← hR.bt a p hpn]
      cases a with
      | none => exact hh p hpn
      | some i => rfl
    · intro a p k ha j hjk
      by_cases e : a = none
      · subst e
        rw [upd_same] at ha
        have := (hk p k ha).1
        omega
      · rw [upd_ne _ _ _ _ e] at ha; exact hR.seek a p k ha j hjk
  · intro e
    rw [show m.joined = true from e] at hj'; cases hj'
  · intro i hin hpk hf ht
    have := hi.pn i hin hpk hf ht
    cases hpe : pend i with
    | none => rw [hpe, hun] at this; cases this
    | some j => rw [hpe] at this; exact this
  · have h := hi.mn
    have g1 := h.iss
    have g2 := h.tk
    rw [hr] at g1 g2
    refine ⟨?_, ?_, fun _ => hw', fun e => absurd e hmk, ?_, ?_, fun e => absurd e hmk⟩
    · show s.issued.length = w'.passed + if m.round s.task then 1 else 0
      rw [hr', hw]; exact g1
    · show if m.round s.task = true ∨ _ then _ else _
      rw [hr', if_pos (.inl rfl)]; rw [if_pos (.inl rfl)] at g2; exact g2
    · intro e
      exfalso
      show False
      have e : m.clean s.task = true := e
      cases hm : m <;> rw [hm] at e hr' <;> simp [MPc.clean, MPc.round] at e hr'
      rw [e] at hr'; simp at hr'
    · intro e
      exfalso
      rcases e with e | e <;> rw [show m = _ from e] at hr' <;> cases hr'
  · intro e; rw [show m.post = true from e] at hnp; cases hnp
  · intro _ e; rw [show m.round s.task = false from e] at hr'; cases hr'
  · intro e; rw [show m = _ from e] at hj'; cases hj'
  · intro b e; rcases e with ⟨_, _, e⟩ | ⟨_, e⟩ <;> rw [show m = _ from e] at hj' <;> cases hj'
  · intro b k e; rw [show m = _ from e] at hj'; cases hj'
  · intro b k half e; rw [show m = _ from e] at hj'; cases hj'

theorem Inv.set (hi : Inv s w c pl bat pend) (h : s.main = .setting) : Inv { s with main := if 0 < s.np then .starting 0 (.seek 0) else .ran } w c pl bat pend := by
  have hm : s.main ≠ .making := by rw [h]; simp
  have hf := hi.fin (by rw [h]; simp)
  have hw := hi.mn.wpc (by rw [h]; simp)
  have hout : ¬(w.pc ≠ .out) := fun e => by have := hw.1 e; rw [h] at this; cases this
  by_cases hn : 0 < s.np
  · rw [if_pos hn]
    refine hi.onward (m := .starting 0 (.seek 0)) hm (by rw [h]; rfl) hf rfl rfl ⟨fun e => absurd e hout, (fun e => by cases e)⟩ (by rw [h]; rfl) rfl ?_ ?_ rfl ?_ (by simp [St.unparks, h, St.starter, MPc.starter, unparksIn])
    · rintro p sub ⟨⟩; exact hn
    · rintro p k ⟨⟩; exact ⟨rfl, hn⟩
    · intro p _
      rw [h]
      simp [MPc.has, Sub.isUnpark]; omega
  · rw [if_neg hn]
    refine hi.onward (m := .ran) hm (by rw [h]; rfl) hf rfl rfl ⟨fun e => absurd e hout, (fun e => by cases e)⟩ (by rw [h]; rfl) rfl ?_ ?_ rfl ?_ (by simp [St.unparks, h, St.starter, MPc.starter, unparksIn])
    · rintro p sub ⟨⟩
    · rintro p k ⟨⟩
    · intro p hp; omega

theorem Inv.leave (hi : Inv s w c pl bat pend) (h : s.main = .scope ∨ s.main = .ran) : Inv { s with main := .ending } w c pl bat pend := by
  have hw := hi.mn.wpc (by rcases h with h | h <;> rw [h] <;> simp)
  have hout : ¬(w.pc ≠ .out) := fun e => by have := hw.1 e; rcases h with h | h <;> rw [h] at this <;> cases this
  rcases h with h | h
  · have g1 := hi.mn.iss
    have g2 := hi.mn.tk
    rw [h] at g1 g2
    have ht : s.task = none := g2
    refine hi.calm (m := .ending) (t := s.task) (by rw [h]; simp) (by rw [h]; rfl) (by rw [h]; rfl) (by simp) (by simp) rfl (by rw [ht]; rfl) rfl (by rw [h]; rfl) ?_
    exact ⟨by rw [ht]; exact g1, by rw [ht]; rfl, fun _ => ⟨fun e => absurd e hout, (fun e => by cases e)⟩, (fun e => by cases e), fun _ => hi.mn.clean (by rw [h]; rfl),
      (fun e => by rcases e with e | e <;> cases e), (fun e => by cases e)⟩
  · have g2 := hi.mn.tk
    rw [h] at g2
    have ht : s.task.isSome = true := by
      have := g2.1
      cases hk : s.task with
      | none => exact absurd hk this
      | some k => rfl
    refine hi.onward (m := .ending) (by rw [h]; simp) (by rw [h]; rfl) (hi.fin (by rw [h]; simp)) rfl rfl ⟨fun e => absurd e hout, (fun e => by cases e)⟩ (by rw [h]; rfl) rfl ?_ ?_ ht ?_ (by simp [St.unparks, h, St.starter, MPc.starter, unparksIn])
    · rintro p sub ⟨⟩
    · rintro p k ⟨⟩
    · intro p hp; rw [h]; simp [MPc.has]

theorem Inv.endIdle (hi : Inv s w c pl bat pend) (h : s.main = .ending) (ht : s.task = none) : Inv { s with main := .idle (some .done) } w c pl bat pend := by
  have hw := hi.mn.wpc (by rw [h]; simp)
  have hout : ¬(w.pc ≠ .out) := fun e => by have := hw.1 e; rw [h] at this; cases this
  have g1 := hi.mn.iss
  rw [h, ht] at g1
  refine hi.calm (m := .idle (some .done)) (t := s.task) (by rw [h]; simp) (by rw [h, ht]; rfl) (by rw [h]; rfl) (by simp) (by simp) rfl rfl rfl (by rw [h]; rfl) ?_
  exact ⟨g1, by rw [ht]; rfl, fun _ => ⟨fun e => absurd e hout, (fun e => by cases e)⟩, (fun e => by cases e), fun _ => hi.mn.clean (by rw [h, ht]; rfl),
    (fun e => by rcases e with e | e <;> cases e), (fun e => by cases e)⟩

/-- The look at the end latch. -/
theorem Inv.wait (hi : Inv s w c pl bat pend) {a : CountDown.Act} (h : (s.main = .ending ∧ s.task.isSome = true ∧ a = .wait 0) ∨ (s.main = .waiting ∧ a = .wake 0)) :
    ∃ fin' w', CountDown.step s.fin a = some (.ok fin') ∧ Fin fin' w' ∧ Inv (s.looked fin') w' c pl bat pend := by
  have hm : s.main ≠ .making := by rcases h with ⟨h, _⟩ | ⟨h, _⟩ <;> rw [h] <;> simp
  have hno : s.main ≠ .over := by rcases h with ⟨h, _⟩ | ⟨h, _⟩ <;> rw [h] <;> simp
  have hr : s.main.round s.task = true := by
    rcases h with ⟨h, ht, _⟩ | ⟨h, _⟩ <;> rw [h]
    · exact ht
    · rfl
  have hj := round_joined hr
  have hw := hi.mn.wpc hno
  have hst0 : s.main.starter = none := by rcases h with ⟨h, _⟩ | ⟨h, _⟩ <;> rw [h] <;> rfl
  have hun : s.unparks none = none := by rcases h with ⟨h, _⟩ | ⟨h, _⟩ <;> simp [St.unparks, h, St.starter, MPc.starter, unparksIn]
  have hhas : ∀ p, ¬s.main.has p := by intro p; rcases h with ⟨h, _⟩ | ⟨h, _⟩ <;> rw [h] <;> simp [MPc.has]
  obtain ⟨fin', w', h1, h2, h3, h4⟩ := (hi.fin hno).look (a := a) (by
    rcases h with ⟨h, _, ha⟩ | ⟨h, ha⟩
    · left; refine ⟨ha, ?_⟩
      by_cases e : w.pc = .out
      · exact e
      · have := hw.1 e; rw [h] at this; cases this
    · right; exact ⟨ha, hw.2 h⟩)
  refine ⟨fin', w', h1, h2, ?_⟩
  rcases h4 with ⟨h4, h5, h6⟩ | ⟨h4, h5, _⟩
  · have he : s.looked fin' = { s with fin := fin', main := .passed } := by simp [St.looked, h2.w0, h4]
    rw [he]
    have hdone : ∀ i, i < s.n → s.pc i ≠ .gone → (c i).passed ≠ w.passed := by
      intro i hin hg
      have := h6 (i + 1) (c i) (hi.cs i hin) ((hi.thr i hin).live.2 hg)
      omega
    have hb : ∀ i, i < s.n → (s.pc i).busy = false := by
      intro i hin
      cases hb : (s.pc i).busy with
      | false => rfl
      | true =>
        rcases (hi.thr i hin).act hb with ⟨_, e⟩ | e
        · exact absurd e (hdone i hin (by intro e; rw [e] at hb; cases hb))
        · rw [hj] at e; cases e
    have hf : ∀ i, i < s.n → s.flag i = false := by
      intro i hin
      cases hb : s.flag i with
      | false => rfl
      | true =>
        rcases (hi.thr i hin).fl hb with ⟨_, e, e'⟩ | e
        · exact absurd e (hdone i hin (by intro e; rw [e] at e'; cases e'))
        · rw [hj] at e; cases e
    have hse : ({ s with fin := fin', main := .passed } : St).starter = s.starter := starter_same rfl (by rw [hst0]; rfl)
    refine hi.mainTo rfl rfl rfl rfl rfl rfl rfl rfl hm (by simp) (fun _ => h2) h3 ?_ ?_ ?_ ?_ ?_ ?_ ?_ ?_ ?_ ?_ ?_ ?_
    · intro i hin
      exact (hi.thr i hin).still (hb i hin) (hf i hin) (fun hg => by
        rcases (hi.thr i hin).ex (.inr hg) with e | e
        · exact .inl e
        · rw [hj] at e; cases e) (.inl rfl)
    · rw [hse]; exact hi.q hm
    · intro e; cases e
    · intro e; cases e
    · intro i hin _ e _
      have := hf i hin
      rw [show s.flag i = true from e] at this; cases this
    · have g1 := hi.mn.iss
      have g2 := hi.mn.tk
      rw [hr] at g1 g2
      refine ⟨by simpa [MPc.round, h5] using g1, ?_, fun _ => ⟨fun e => absurd h4 e, (fun e => by cases e)⟩, (fun e => by cases e), (fun e => by cases e),
        (fun e => by rcases e with e | e <;> cases e), (fun e => by cases e)⟩
      rw [if_pos (.inl rfl)] at g2
      rw [if_pos (.inr rfl)]; exact g2
    · intro _ i hin
      cases hp : pl i with
      | out => rfl
      | _ =>
        have := ((hi.rnd hr).fresh i hin).1 (by rw [hp]; simp)
        exact absurd this.2.1 (hdone i hin ((hi.thr i hin).live.1 this.1))
    · intro e; cases e
    · intro e; cases e
    · intro b e; rcases e with ⟨_, _, e⟩ | ⟨_, e⟩ <;> cases e
    · intro b k e; cases e
    · intro b k half e; cases e
  · have he : s.looked fin' = { s with main := .waiting, fin := fin' } := by simp [St.looked, h2.w0, h4]
    rw [he]
    refine hi.onward (m := .waiting) hm hr h2 h3 h5 ⟨fun _ => rfl, fun _ => h4⟩ (by rw [hst0]; rfl) rfl ?_ ?_ rfl ?_ hun
    · rintro p sub ⟨⟩
    · rintro p k ⟨⟩
    · intro p _; exact ⟨fun e => e.elim, fun e => (hhas p e).elim⟩

theorem Inv.out (hi : Inv s w c pl bat pend) (ho : s.main ≠ .over) (h : s.main ≠ .waiting) : ¬(w.pc ≠ .out) := fun e => h ((hi.mn.wpc ho).1 e)

theorem Inv.clear (hi : Inv s w c pl bat pend) (h : s.main = .passed) : Inv { s with task := none, main := .clearing } w c pl bat pend := by
  have hout := hi.out (by rw [h]; simp) (by rw [h]; simp)
  have g1 := hi.mn.iss
  rw [h] at g1
  refine hi.calm (m := .clearing) (t := none) (by rw [h]; simp) (by rw [h]; rfl) (by rw [h]; rfl) (by simp) (by simp) rfl rfl rfl (by rw [h]; rfl) ?_
  exact ⟨g1, rfl, fun _ => ⟨fun e => absurd e hout, (fun e => by cases e)⟩, (fun e => by cases e), (fun e => by cases e), (fun e => by rcases e with e | e <;> cases e), (fun e => by cases e)⟩

theorem Inv.reset (hi : Inv s w c pl bat pend) (h : s.main = .clearing) :
    (∀ q, s.ready q = []) ∧ Inv { s with ready := s.done, done := s.ready, main := .resetting } w c (fun _ => .ready) bat pend := by
  have hm : s.main ≠ .making := by rw [h]; simp
  have hr : s.main.round s.task = false := by rw [h]; rfl
  have hj : s.main.joined = false := by rw [h]; rfl
  have hno : s.main ≠ .over := by rw [h]; simp
  have hpl := hi.post (by rw [h]; rfl)
  have hst := hi.noStart hr hj
  have hQ := hi.q hm
  have hem : ∀ q, s.ready q = [] := by
    intro q
    apply List.eq_nil_iff_forall_not_mem.2
    intro i hc
    obtain ⟨h1, h2, _⟩ := (hQ.rdy i q).1 hc
    rw [hpl i h1] at h2; cases h2
  refine ⟨hem, ?_⟩
  have hse : ({ s with ready := s.done, done := s.ready, main := .resetting } : St).starter = s.starter := starter_same rfl (by rw [h]; rfl)
  have hout := hi.out hno (by rw [h]; simp)
  refine hi.mainTo rfl rfl rfl rfl rfl rfl rfl rfl hm (by simp) (fun _ => hi.fin hno) rfl ?_ ?_ ?_ ?_ ?_ ?_ ?_ ?_ ?_ ?_ ?_ ?_
  · intro i hin
    have hq := hi.quiet hr hj hin
    exact (hi.thr i hin).still hq.1 hq.2 (fun hg => by
      rcases (hi.thr i hin).ex (.inr hg) with e | e
      · exact .inl e
      · rw [hj] at e; cases e) (.inl rfl)
  · rw [hse]
    refine ⟨?_, ?_, ?_, hQ.nd, hQ.nr, hQ.lp, ?_, ?_, ?_, ?_, ?_⟩
    · intro i q
      show i ∈ s.done q ↔ _
      rw [hQ.dn i q]
      constructor
      · rintro ⟨h1, h2⟩; rw [hpl i h1] at h2; exact ⟨h1, rfl, h2⟩
      · rintro ⟨h1, _, h2⟩; rw [hpl i h1]; exact ⟨h1, h2⟩
    · intro i q
      show i ∈ s.ready q ↔ _
      rw [hem q]; simp [isDone]
    · intro i a; rw [hst a]; simp [heldIn]
    all_goals intro a; rw [hst a]; intros; contradiction
  · intro e; cases e
  · intro e; cases e
  · intro i hin _ hf _
    have := (hi.quiet hr hj hin).2
    rw [show s.flag i = true from hf] at this; cases this
  · have g1 := hi.mn.iss
    have g2 := hi.mn.tk
    rw [h] at g1 g2
    exact ⟨g1, g2, fun _ => ⟨fun e => absurd e hout, (fun e => by cases e)⟩, (fun e => by cases e), (fun e => by cases e), (fun e => by rcases e with e | e <;> cases e), (fun e => by cases e)⟩
  · intro e; cases e
  · intro _ _ _ i _; rfl
  · intro e; cases e
  · intro b e; rcases e with ⟨_, _, e⟩ | ⟨_, e⟩ <;> cases e
  · intro b k e; cases e
  · intro b k half e; cases e

theorem Inv.resetDone (hi : Inv s w c pl bat pend) (h : s.main = .resetting) : Inv { s with main := .checking } w c pl bat pend := by
  have hout := hi.out (by rw [h]; simp) (by rw [h]; simp)
  have g1 := hi.mn.iss
  have g2 := hi.mn.tk
  rw [h] at g1 g2
  refine hi.calm (m := .checking) (t := s.task) (by rw [h]; simp) (by rw [h]; rfl) (by rw [h]; rfl) (by simp) (by simp) rfl rfl rfl (by rw [h]; rfl) ?_
  exact ⟨g1, g2, fun _ => ⟨fun e => absurd e hout, (fun e => by cases e)⟩, (fun e => by cases e), (fun e => by cases e), (fun e => by rcases e with e | e <;> cases e), (fun e => by cases e)⟩

theorem Inv.checked (hi : Inv s w c pl bat pend) (h : s.main = .checking) : Inv { s with main := .idle (some (if s.poisoned then .crashed else .done)) } w c pl bat pend := by
  have hout := hi.out (by rw [h]; simp) (by rw [h]; simp)
  have g1 := hi.mn.iss
  have g2 := hi.mn.tk
  rw [h] at g1 g2
  refine hi.calm (m := .idle (some (if s.poisoned then .crashed else .done))) (t := s.task) (by rw [h]; simp) (by rw [h]; rfl) (by rw [h]; rfl) (by simp) (by simp) rfl rfl rfl (by rw [h]; rfl) ?_
  refine ⟨g1, g2, fun _ => ⟨fun e => absurd e hout, (fun e => by cases e)⟩, (fun e => by cases e), ?_, ?_, (fun e => by cases e)⟩
  · cases hp : s.poisoned <;> simp [MPc.clean]
  · cases hp : s.poisoned <;> simp

/-- The pool is dropped: all the queues are full. -/
theorem Inv.joinStart (hi : Inv s w c pl bat pend) {res : Option Res} (h : s.main = .idle res) :
    s.task = none ∧ Inv { s with main := if 0 < s.n then .unparking (!s.poisoned) 0 false else .joining (!s.poisoned) 0 } w c pl bat pend := by
  have hm : s.main ≠ .making := by rw [h]; simp
  have hr : s.main.round s.task = false := by rw [h]; rfl
  have hj : s.main.joined = false := by rw [h]; rfl
  have hno : s.main ≠ .over := by rw [h]; simp
  have hpl := hi.idle (by rw [h]; rfl) hr hj
  have hst := hi.noStart hr hj
  have hQ := hi.q hm
  have hout := hi.out hno (by rw [h]; simp)
  have g1 := hi.mn.iss
  have g2 := hi.mn.tk
  rw [h] at g1 g2
  have ht : s.task = none := g2
  refine ⟨ht, ?_⟩
  have hmm : ∃ m, m = (if 0 < s.n then MPc.unparking (!s.poisoned) 0 false else .joining (!s.poisoned) 0) ∧ m.joined = true ∧ m ≠ .over ∧ m ≠ .making ∧ m ≠ .waiting ∧ m ≠ .passed ∧ m.starter = none ∧
      (∀ b, (∃ k half, m = .unparking b k half) ∨ (∃ k, m = .joining b k) → b = !s.poisoned) ∧ (∀ i, i < s.n → ¬m.unparked i) ∧ (∀ b k, m = .joining b k → k = 0) ∧
      (∀ b k half, m = .unparking b k half → k < s.n) := by
    refine ⟨_, rfl, ?_⟩
    by_cases hn : 0 < s.n
    · rw [if_pos hn]
      refine ⟨rfl, by simp, by simp, by simp, by simp, rfl, ?_, ?_, ?_, ?_⟩
      · intro b e; rcases e with ⟨_, _, e⟩ | ⟨_, e⟩ <;> cases e; rfl
      · intro i _; simp [MPc.unparked]
      · intro b k e; cases e
      · intro b k half e; cases e; exact hn
    · rw [if_neg hn]
      refine ⟨rfl, by simp, by simp, by simp, by simp, rfl, ?_, ?_, ?_, ?_⟩
      · intro b e; rcases e with ⟨_, _, e⟩ | ⟨_, e⟩ <;> cases e; rfl
      · intro i hin; omega
      · intro b k e; cases e; rfl
      · intro b k half e; cases e
  obtain ⟨m, em, m1, m2, m3, m4, m4', m5, m6, m7, m8, m9⟩ := hmm
  rw [← em]
  have hse : ({ s with main := m } : St).starter = s.starter := starter_same rfl (by rw [h]; exact m5)
  have hr' := joined_round (t := s.task) m1
  refine hi.mainTo rfl rfl rfl rfl rfl rfl rfl rfl hm m3 (fun _ => hi.fin hno) rfl ?_ ?_ ?_ ?_ ?_ ?_ ?_ ?_ ?_ ?_ ?_ ?_
  · intro i hin
    have hq := hi.quiet hr hj hin
    exact (hi.thr i hin).still hq.1 hq.2 (fun _ => .inr m1) (.inl rfl)
  · rw [hse]; exact hQ
  · intro e; rw [show m.round s.task = true from e] at hr'; cases hr'
  · intro _
    rw [hse]
    refine ⟨?_, ?_, ?_, ?_, ?_⟩
    · intro p hp
      unfold popCount
      rw [List.countP_eq_length_filter]
      apply List.Nodup.length_le_of_subset
      · exact List.Pairwise.filter _ List.nodup_range
      · intro i hc
        rw [List.mem_filter, Bool.and_eq_true, decide_eq_true_eq] at hc
        have hin := List.mem_range.1 hc.1
        exact (hQ.rdy i p).2 ⟨hin, hpl i hin, hc.2.1⟩
    · intro a p k e; rw [hst a] at e; cases e
    · intro a p k q e; rw [hst a] at e; cases e
    · intro a p k q e; rw [hst a] at e; cases e
    · intro i hin hu; exact absurd hu (m7 i hin)
  · intro i hin _ hf _
    have := (hi.quiet hr hj hin).2
    rw [show s.flag i = true from hf] at this; cases this
  · refine ⟨?_, ?_, fun _ => ⟨fun e => absurd e hout, fun e => absurd e m4⟩, fun e => absurd e m3, ?_, ?_, fun e => absurd e m3⟩
    · show s.issued.length = w.passed + if m.round s.task then 1 else 0
      rw [hr']; exact g1
    · show if m.round s.task = true ∨ m = .passed then _ else _
      rw [hr', if_neg (by simp [m4'])]; exact ht
    · intro e
      have e : m.clean s.task = true := e
      cases hmc : m <;> rw [hmc] at e m1 <;> simp [MPc.clean, MPc.joined] at e m1
    · intro e
      rcases e with e | e <;> rw [show m = _ from e] at m1 <;> cases m1
  · intro e
    have e : m.post = true := e
    cases hmc : m <;> rw [hmc] at e m1 <;> simp [MPc.post, MPc.joined] at e m1
  · intro _ _ e; rw [show m.joined = false from e] at m1; cases m1
  · exact fun e => absurd e m2
  · intro b hb ht i hin
    have := m6 b hb
    rw [ht] at this
    have hps : s.poisoned = false := by
      cases hp : s.poisoned with
      | false => rfl
      | true => rw [hp] at this; cases this
    have hth := hi.thr i hin
    have hq := hi.quiet hr hj hin
    cases hc : s.crashed i with
    | false => rfl
    | true =>
      rcases hth.cr1 hc with ⟨_, _, e⟩ | e | e | e
      · rw [e] at hq; cases hq.1
      · rw [e] at hq; cases hq.1
      · rw [e] at hq; cases hq.1
      · have := hth.cr2 hc (.inr e); rw [hps] at this; cases this
  · intro b k e j hjk; have := m8 b k e; omega
  · exact m9

/-- A step in `join`. -/
theorem Inv.inJoin (hi : Inv s w c pl bat pend) (hj : s.main.joined = true) (hno : s.main ≠ .over) {m : MPc} {f : Nat → Bool} {t : Nat → Bool} {pend' : Nat → Agent}
    (hj' : m.joined = true) (ho : m ≠ .over)
    (hf : ∀ i, i < s.n → s.flag i = true → f i = true) (hsig : ∀ i, i < s.n → m.unparked i → s.main.unparked i ∨ f i = true)
    (hpn : ∀ i, i < s.n → s.pc i = .park → f i = true → t i = false → ({ s with main := m, flag := f, token := t } : St).unparks (pend' i) = some i)
    (hck : ∀ b, (∃ k half, m = .unparking b k half) ∨ (∃ k, m = .joining b k) → (∃ k half, s.main = .unparking b k half) ∨ (∃ k, s.main = .joining b k))
    (hjoins : ∀ b k, m = .joining b k → ∀ j, j < k → j < s.n → s.pc j = .gone) (hunp : ∀ b k half, m = .unparking b k half → k < s.n) :
    Inv { s with main := m, flag := f, token := t } w c pl bat pend' := by
  have hm : s.main ≠ .making := by intro e; rw [e] at hj; cases hj
  have hm' : m ≠ .making := by intro e; rw [e] at hj'; cases hj'
  have hmw : m ≠ .waiting := by intro e; rw [e] at hj'; cases hj'
  have hout := hi.out hno (by intro e; rw [e] at hj; cases hj)
  have hr := joined_round (t := s.task) hj
  have hr' := joined_round (t := s.task) hj'
  have hst : s.main.starter = none := by cases hmc : s.main <;> rw [hmc] at hj <;> simp [MPc.joined] at hj <;> rfl
  have hst' : m.starter = none := by cases hmc : m <;> rw [hmc] at hj' <;> simp [MPc.joined] at hj' <;> rfl
  have hse : ({ s with main := m, flag := f, token := t } : St).starter = s.starter := starter_same rfl (by rw [hst]; exact hst')
  refine hi.mainTo rfl rfl rfl rfl rfl rfl rfl rfl hm hm' (fun _ => hi.fin hno) rfl ?_ ?_ ?_ ?_ hpn ?_ ?_ ?_ ?_ ?_ hjoins hunp
  · intro i hin
    have h := hi.thr i hin
    rw [hr, hj] at h
    show TInv (m.round s.task) m.joined _ _ _ _ _ _ _ _ _
    rw [hr', hj']
    exact { h with fl := fun _ => .inr rfl }
  · rw [hse]; exact hi.q hm
  · intro e; rw [show m.round s.task = true from e] at hr'; cases hr'
  · intro _
    have hJ := hi.jn hj
    rw [hse]
    refine ⟨hJ.cnt, hJ.k0, hJ.own1, hJ.own2, ?_⟩
    intro i hin hu
    rcases hsig i hin hu with e | e
    · rcases hJ.sig i hin e with e | e
      · exact .inl (hf i hin e)
      · exact .inr e
    · exact .inl e
  · have g1 := hi.mn.iss
    have g2 := hi.mn.tk
    rw [hr] at g1 g2
    refine ⟨?_, ?_, fun _ => ⟨fun e => absurd e hout, fun e => absurd e hmw⟩, fun e => absurd e hm', ?_, ?_, fun e => absurd e hm'⟩
    · show s.issued.length = w.passed + if m.round s.task then 1 else 0
      rw [hr']; exact g1
    · show if m.round s.task = true ∨ m = .passed then _ else _
      rw [if_neg (by simp; intro e; rw [e] at hj; cases hj)] at g2
      rw [hr', if_neg (by simp; intro e; rw [e] at hj'; cases hj')]; exact g2
    · intro e
      have e : m.clean s.task = true := e
      cases hmc : m <;> rw [hmc] at e hj' <;> simp [MPc.clean, MPc.joined] at e hj'
    · intro e
      rcases e with e | e <;> rw [show m = _ from e] at hj' <;> cases hj'
  · intro e
    have e : m.post = true := e
    cases hmc : m <;> rw [hmc] at e hj' <;> simp [MPc.post, MPc.joined] at e hj'
  · intro _ _ e; rw [show m.joined = false from e] at hj'; cases hj'
  · exact fun e => absurd e ho
  · intro b hb
    exact hi.check b (hck b hb)

theorem Inv.signal (hi : Inv s w c pl bat pend) {b : Bool} {k : Nat} (h : s.main = .unparking b k false) :
    Inv { s with flag := upd s.flag k true, main := .unparking b k true } w c pl bat (upd pend k none) := by
  have hk := hi.unp b k false h
  refine hi.inJoin (m := .unparking b k true) (f := upd s.flag k true) (t := s.token) (by rw [h]; rfl) (by rw [h]; simp) rfl (by simp) ?_ ?_ ?_ ?_ ?_ ?_
  · intro i _ e
    by_cases ei : i = k
    · subst ei; exact upd_same _ _ _
    · rw [upd_ne _ _ _ _ ei]; exact e
  · intro i _ hu
    rw [h]
    by_cases ei : i = k
    · subst ei; right; exact upd_same _ _ _
    · left; simp only [MPc.unparked] at hu ⊢; omega
  · intro i hin hp hf ht
    by_cases ei : i = k
    · subst ei; rw [upd_same]; rfl
    · rw [upd_ne _ _ _ _ ei] at hf ⊢
      have := hi.pn i hin hp hf ht
      cases hpe : pend i with
      | none => rw [hpe] at this; simp [St.unparks, h, St.starter, MPc.starter, unparksIn] at this
      | some j => rw [hpe] at this; exact this
  · intro b' e
    left
    rcases e with ⟨_, _, e⟩ | ⟨_, e⟩ <;> cases e
    exact ⟨_, _, h⟩
  · intro b' k' e; cases e
  · intro b' k' half e; cases e; exact hk

theorem Inv.signalled (hi : Inv s w c pl bat pend) {b : Bool} {k : Nat} (h : s.main = .unparking b k true) :
    Inv { s with token := upd s.token k true, main := if k + 1 < s.n then .unparking b (k + 1) false else .joining b 0 } w c pl bat pend := by
  have hk := hi.unp b k true h
  have hmm : ∃ m, m = (if k + 1 < s.n then MPc.unparking b (k + 1) false else .joining b 0) ∧ m.joined = true ∧ m ≠ .over ∧
      (∀ b', (∃ k half, m = .unparking b' k half) ∨ (∃ k, m = .joining b' k) → b' = b) ∧ (∀ i, i < s.n → m.unparked i → i < k + 1) ∧ (∀ b k, m = .joining b k → k = 0) ∧
      (∀ b k half, m = .unparking b k half → k < s.n) ∧ (∀ b k, m ≠ .unparking b k true) := by
    refine ⟨_, rfl, ?_⟩
    by_cases hn : k + 1 < s.n
    · rw [if_pos hn]
      refine ⟨rfl, by simp, ?_, ?_, ?_, ?_, ?_⟩
      · intro b' e; rcases e with ⟨_, _, e⟩ | ⟨_, e⟩ <;> cases e; rfl
      · intro i _; simp [MPc.unparked]
      · intro b k e; cases e
      · intro b k half e; cases e; exact hn
      · intro b k e; cases e
    · rw [if_neg hn]
      refine ⟨rfl, by simp, ?_, ?_, ?_, ?_, ?_⟩
      · intro b e; rcases e with ⟨_, _, e⟩ | ⟨_, e⟩ <;> cases e; rfl
      · intro i hin _; omega
      · intro b k e; cases e; rfl
      · intro b k half e; cases e
      · intro b k e; cases e
  obtain ⟨m, em, m1, m2, m6, m7, m8, m9, m10⟩ := hmm
  rw [← em]
  refine hi.inJoin (m := m) (f := s.flag) (t := upd s.token k true) (by rw [h]; rfl) (by rw [h]; simp) m1 m2 (fun _ _ e => e) ?_ ?_ ?_ ?_ m9
  · intro i hin hu
    have := m7 i hin hu
    left
    rw [h]; simp only [MPc.unparked, and_true]; omega
  · intro i hin hp hf ht
    by_cases ei : i = k
    · subst ei; rw [upd_same] at ht; cases ht
    · rw [upd_ne _ _ _ _ ei] at ht
      have := hi.pn i hin hp hf ht
      cases hpe : pend i with
      | none =>
        rw [hpe] at this
        simp [St.unparks, h] at this
        exact absurd this.symm ei
      | some j => rw [hpe] at this; exact this
  · intro b' e
    rw [m6 b' e]
    exact .inl ⟨_, _, h⟩
  · intro b' k' e j hjk; have := m8 b' k' e; omega

theorem Inv.joinOne (hi : Inv s w c pl bat pend) {b : Bool} {k : Nat} (h : s.main = .joining b k) (hk : k < s.n) (hg : s.pc k = .gone) :
    (b && s.crashed k) = false ∧ Inv { s with main := .joining b (k + 1) } w c pl bat pend := by
  refine ⟨?_, ?_⟩
  · cases hb : b with
    | false => rfl
    | true => rw [hi.check b (.inr ⟨k, h⟩) hb k hk]; rfl
  · refine hi.inJoin (m := .joining b (k + 1)) (f := s.flag) (t := s.token) (by rw [h]; rfl) (by rw [h]; simp) rfl (by simp) (fun _ _ e => e) ?_ ?_ ?_ ?_ ?_
    · intro i _ _; rw [h]; exact .inl trivial
    · intro i hin hp hf ht
      have := hi.pn i hin hp hf ht
      cases hpe : pend i with
      | none => rw [hpe] at this; simp [St.unparks, h, St.starter, MPc.starter, unparksIn] at this
      | some j => rw [hpe] at this; exact this
    · intro b' e
      right
      rcases e with ⟨_, _, e⟩ | ⟨_, e⟩ <;> cases e
      exact ⟨_, h⟩
    · intro b' k' e j hjk hjn
      cases e
      by_cases ej : j = k
      · subst ej; exact hg
      · exact hi.joins b k h j (by omega) hjn
    · intro b' k' half e; cases e

theorem Inv.joinEnd (hi : Inv s w c pl bat pend) {b : Bool} {k : Nat} (h : s.main = .joining b k) (hk : ¬k < s.n) :
    ∃ fin', CountDown.step s.fin (.dropWaiter 0) = some (.ok fin') ∧ Inv { s with fin := fin', main := .over } w c pl bat pend := by
  have hm : s.main ≠ .making := by rw [h]; simp
  have hj : s.main.joined = true := by rw [h]; rfl
  have hno : s.main ≠ .over := by rw [h]; simp
  have hout : w.pc = .out := by
    by_cases e : w.pc = .out
    · exact e
    · exact absurd e (hi.out hno (by rw [h]; simp))
  obtain ⟨fin', h1, h2, _⟩ := (hi.fin hno).dropWaiter hout
  refine ⟨fin', h1, ?_⟩
  have hg : ∀ i, i < s.n → s.pc i = .gone := fun i hin => hi.joins b k h i (by omega) hin
  have hse : ({ s with fin := fin', main := .over } : St).starter = s.starter := starter_same rfl (by rw [h]; rfl)
  refine hi.mainTo rfl rfl rfl rfl rfl rfl rfl rfl hm (by simp) (fun e => absurd rfl e) h2 ?_ ?_ ?_ ?_ ?_ ?_ ?_ ?_ ?_ ?_ ?_ ?_
  · intro i hin
    have ht := hi.thr i hin
    rw [h] at ht; exact ht
  · rw [hse]; exact hi.q hm
  · intro e; cases e
  · intro _
    have hJ := hi.jn hj
    rw [hse]
    refine ⟨hJ.cnt, hJ.k0, hJ.own1, hJ.own2, ?_⟩
    intro i hin _; right; rw [hg i hin]; rfl
  · intro i hin hp; rw [hg i hin] at hp; cases hp
  · have g1 := hi.mn.iss
    have g2 := hi.mn.tk
    rw [h] at g1 g2
    exact ⟨g1, g2, fun e => absurd rfl e, (fun e => by cases e), (fun e => by cases e), (fun e => by rcases e with e | e <;> cases e), (fun e => by cases e)⟩
  · intro e; cases e
  · intro _ _ e; cases e
  · exact fun _ => hg
  · intro b e; rcases e with ⟨_, _, e⟩ | ⟨_, e⟩ <;> cases e
  · intro b k e; cases e
  · intro b k half e; cases e

end Shadow.Pool.Bounded
