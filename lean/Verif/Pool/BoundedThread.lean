import Verif.Pool.BoundedSubOk

/-!
# The thread pool of the thread-per-host scheduler: the steps of a thread keep the invariant
-/
namespace Shadow.Pool.Bounded

open Shadow.Base Shadow.Latch

variable {s : St} {w : CountDown.Waiter} {c : Nat → CountDown.Counter} {pl : Nat → Place} {bat : Nat → Option Agent} {pend : Nat → Agent}

theorem round_joined {m : MPc} {t : Option Nat} : m.round t = true → m.joined = false := by cases m <;> simp [MPc.round, MPc.joined]

theorem Inv.notOver (hi : Inv s w c pl bat pend) {i : Nat} (hin : i < s.n) (hg : s.pc i ≠ .gone) : s.main ≠ .over :=
  fun h => hg (hi.over h i hin)

/-- A step that does not touch the end latch. -/
theorem Inv.local' (hi : Inv s w c pl bat pend) {i : Nat} (hin : i < s.n) {s' : St} {x : TPc} {f t : Bool} {rn : List Nat} {cr ps : Bool}
    (e : s' = { s with pc := upd s.pc i x, flag := upd s.flag i f, token := upd s.token i t, ran := upd s.ran i rn, crashed := upd s.crashed i cr, poisoned := ps })
    (hm : s.main ≠ .making)
    (hps : s.poisoned = true → ps = true) (hps2 : ps = true → s.poisoned = true ∨ (cr = true ∧ s.main.round s.task = true))
    (hthr : TInv (s.main.round s.task) s.main.joined ps s.issued w.passed x f (s.lpi i) rn cr (c i))
    (hcr : s.crashed i = true → cr = true) (hck : cr = true → s.crashed i = true ∨ s.main.round s.task = true)
    (hhold : heldIn (s.pc i).starter = none) (hun : unparksIn (s.pc i).starter = none) (hgone : s.pc i ≠ .gone)
    (hx : heldIn x.starter = none) (hxp : ∀ p sub, x.starter = some (p, sub) → p < s.np) (hxk : ∀ p k, x.starter = some (p, .seek k) → k = 0)
    (hfr : s.main.round s.task = true → (c i).passed = w.passed →
      ((f = false ∧ x.rest = true) ↔ (s.flag i = false ∧ (s.pc i).rest = true)))
    (hac : s.main.round s.task = true → x.active f = (s.pc i).active (s.flag i))
    (hpop : s.main.joined = true → x.toPop = true → (s.pc i).toPop = true)
    (hsig : s.main.joined = true → (s.flag i = true ∨ (s.pc i).rest = false) → (f = true ∨ x.rest = false))
    (hpn : x = .park → f = true → False) : Inv s' w c pl bat pend := by
  have := hi.local hin (fin' := s.fin) (c' := c i) (w' := w) e hm hi.fin rfl Iff.rfl (set_self (hi.cs i hin)).symm hps hps2 hthr hcr hck hhold hun hgone hx hxp hxk
    (fun hr => by
      constructor
      · rintro ⟨h1, h2, h3, h4⟩; exact ⟨h1, h2, (hfr hr h2).1 ⟨h3, h4⟩⟩
      · rintro ⟨h1, h2, h3, h4⟩; exact ⟨h1, h2, (hfr hr h2).2 ⟨h3, h4⟩⟩) hac hpop hsig hpn
  rw [upd_self] at this
  exact this

/-- The simplest steps: only the position, the flag and the token change. -/
theorem Inv.hop (hi : Inv s w c pl bat pend) {i : Nat} (hin : i < s.n) (hm : s.main ≠ .making) {x : TPc} {f t : Bool} {s' : St}
    (e : s' = { s.put i x with flag := upd s.flag i f, token := upd s.token i t })
    (hthr : TInv (s.main.round s.task) s.main.joined s.poisoned s.issued w.passed x f (s.lpi i) (s.ran i) (s.crashed i) (c i))
    (hst : (s.pc i).starter = none) (hgone : s.pc i ≠ .gone) (hx : x.starter = none)
    (hfr : s.main.round s.task = true → ((f = false ∧ x.rest = true) ↔ (s.flag i = false ∧ (s.pc i).rest = true)))
    (hac : s.main.round s.task = true → x.active f = (s.pc i).active (s.flag i))
    (hpop : s.main.joined = true → x.toPop = true → (s.pc i).toPop = true)
    (hsig : s.main.joined = true → (s.flag i = true ∨ (s.pc i).rest = false) → (f = true ∨ x.rest = false))
    (hpn : x = .park → f = true → False) : Inv s' w c pl bat pend := by
  refine hi.local' hin (x := x) (f := f) (t := t) (rn := s.ran i) (cr := s.crashed i) (ps := s.poisoned) ?_ hm id .inl hthr id .inl ?_ ?_ hgone ?_ ?_ ?_ (fun hr _ => hfr hr) hac hpop hsig hpn
  · rw [e]; simp only [St.put, upd_self]
  · rw [hst]; rfl
  · rw [hst]; rfl
  · rw [hx]; rfl
  · rw [hx]; rintro p sub ⟨⟩
  · rw [hx]; rintro p sub ⟨⟩

theorem Inv.checkFlag (hi : Inv s w c pl bat pend) {i : Nat} (hin : i < s.n) (hm : s.main ≠ .making) (hp : s.pc i = .check) :
    Inv (if s.flag i then { s.put i .got with flag := upd s.flag i false } else s.put i .park) w c pl bat pend := by
  have h := hi.thr i hin
  rw [hp] at h
  cases hf : s.flag i with
  | true =>
    rw [hf] at h
    refine hi.hop hin hm (x := .got) (f := false) (t := s.token i) (by simp [St.put, upd_self]) ?_ (by rw [hp]; rfl) (by rw [hp]; simp) rfl ?_ ?_ ?_ ?_ (by simp)
    · obtain ⟨h1, h2, h3, h4, h5, h6, h7, h8, h9, h10, h11, h12, h13, h14⟩ := h
      have h8 := h8 rfl
      constructor <;> simp_all [TPc.after, TPc.busy, TPc.rest, TPc.proc]
    · simp [hf, TPc.rest]
    · simp [hf, hp, TPc.active]
    · simp [hp, TPc.toPop]
    · simp [TPc.rest]
  | false =>
    rw [hf] at h
    refine hi.hop hin hm (x := .park) (f := false) (t := s.token i) (by rw [if_neg (by simp), ← hf, upd_self, upd_self]; rfl) ?_ (by rw [hp]; rfl) (by rw [hp]; simp) rfl ?_ ?_ ?_ ?_ (by simp)
    · obtain ⟨h1, h2, h3, h4, h5, h6, h7, h8, h9, h10, h11, h12, h13, h14⟩ := h
      constructor <;> simp_all [TPc.after, TPc.busy, TPc.rest, TPc.proc]
    · simp [hf, hp, TPc.rest]
    · simp [hf, hp, TPc.active]
    · simp [hp, TPc.toPop]
    · simp [hp, hf, TPc.rest]

theorem Inv.unpark (hi : Inv s w c pl bat pend) {i : Nat} (hin : i < s.n) (hm : s.main ≠ .making) (hp : s.pc i = .park) (t : Bool) :
    Inv { s.put i .check with token := upd s.token i t } w c pl bat pend := by
  have h := hi.thr i hin
  rw [hp] at h
  refine hi.hop hin hm (x := .check) (f := s.flag i) (t := t) (by simp [St.put, upd_self]) ?_ (by rw [hp]; rfl) (by rw [hp]; simp) rfl ?_ ?_ ?_ ?_ (by simp)
  · obtain ⟨h1, h2, h3, h4, h5, h6, h7, h8, h9, h10, h11, h12, h13, h14⟩ := h
    constructor <;> simp_all [TPc.after, TPc.busy, TPc.rest, TPc.proc]
  · simp [hp, TPc.rest]
  · simp [hp, TPc.active]
  · simp [hp, TPc.toPop]
  · simp [hp, TPc.rest]

theorem Inv.got (hi : Inv s w c pl bat pend) {i : Nat} (hin : i < s.n) (hm : s.main ≠ .making) (hp : s.pc i = .got) :
    s.main ≠ .resetting ∧ Inv (s.put i .load) w c pl bat pend := by
  have h := hi.thr i hin
  rw [hp] at h
  refine ⟨?_, ?_⟩
  · intro e
    have := h.act rfl
    rw [e] at this
    rcases this with ⟨h1, _⟩ | h1 <;> cases h1
  · refine hi.hop hin hm (x := .load) (f := s.flag i) (t := s.token i) (by simp [St.put, upd_self]) ?_ (by rw [hp]; rfl) (by rw [hp]; simp) rfl ?_ ?_ ?_ ?_ (by simp)
    · obtain ⟨h1, h2, h3, h4, h5, h6, h7, h8, h9, h10, h11, h12, h13, h14⟩ := h
      constructor <;> simp_all [TPc.after, TPc.busy, TPc.rest, TPc.proc]
    · simp [hp, TPc.rest]
    · simp [hp, TPc.active]
    · simp [hp, TPc.toPop]
    · simp [TPc.rest]

theorem Inv.load (hi : Inv s w c pl bat pend) {i : Nat} (hin : i < s.n) (hm : s.main ≠ .making) (hp : s.pc i = .load) :
    Inv (s.put i (.look (s.lpi i))) w c pl bat pend := by
  have h := hi.thr i hin
  rw [hp] at h
  refine hi.hop hin hm (x := .look (s.lpi i)) (f := s.flag i) (t := s.token i) (by simp [St.put, upd_self]) ?_ (by rw [hp]; rfl) (by rw [hp]; simp) rfl ?_ ?_ ?_ ?_ (by simp)
  · obtain ⟨h1, h2, h3, h4, h5, h6, h7, h8, h9, h10, h11, h12, h13, h14⟩ := h
    constructor <;> simp_all [TPc.after, TPc.busy, TPc.rest, TPc.proc]
  · simp [hp, TPc.rest]
  · simp [hp, TPc.active]
  · simp [hp, TPc.toPop]
  · simp [TPc.rest]

theorem Inv.notWriting (hi : Inv s w c pl bat pend) {i p : Nat} (hin : i < s.n) (hm : s.main ≠ .making) (hp : s.pc i = .look p) : s.main.writes = false := by
  have h := hi.thr i hin
  rw [hp] at h
  cases hw : s.main.writes with
  | false => rfl
  | true =>
    exfalso
    have hact := h.act rfl
    cases hmm : s.main <;> rw [hmm] at hw hact <;> simp [MPc.writes, MPc.round, MPc.joined] at hw hact
    have hR := hi.rnd (by rw [hmm]; rfl)
    have hl := (hi.q hm).lp i hin
    have h1 := (hR.bt none _ hl).1 (by simp [St.has, hmm, MPc.has])
    have h2 := (hR.bt (some i) _ hl).1 (by simp [St.has, hin, hp, TPc.active])
    rw [h1] at h2; cases h2

theorem take_last {l : List Nat} {n k : Nat} (h : l.length = n + 1) (hk : l.getLast? = some k) : l.take n ++ [k] = l := by
  have h1 : l ≠ [] := by rintro rfl; simp at h
  rw [List.getLast?_eq_some_getLast h1] at hk
  have h2 := List.dropLast_concat_getLast h1
  rw [List.dropLast_eq_take, h] at h2
  rw [Option.some.inj hk] at h2
  exact h2

theorem Inv.lookTask (hi : Inv s w c pl bat pend) {i p k : Nat} (hin : i < s.n) (hm : s.main ≠ .making) (hp : s.pc i = .look p) (hk : s.task = some k) :
    Inv { s.put i (.running p) with ran := upd s.ran i (s.ran i ++ [k]) } w c pl bat pend ∧ s.main.round s.task = true ∧ s.issued.getLast? = some k := by
  have h := hi.thr i hin
  rw [hp] at h
  have hmn := hi.mn
  have hr : s.main.round s.task = true := by
    rcases h.act rfl with ⟨h1, _⟩ | h1
    · exact h1
    · exfalso
      have := hmn.tk
      rw [joined_round h1, if_neg (by cases hmm : s.main <;> rw [hmm] at h1 <;> simp [MPc.joined] at h1 ⊢), hk] at this
      cases this
  have hj := round_joined hr
  have hpass : (c i).passed = w.passed := by
    rcases h.act rfl with ⟨_, h1⟩ | h1
    · exact h1
    · rw [hj] at h1; cases h1
  have hlen : s.issued.length = w.passed + 1 := by have := hmn.iss; rw [hr] at this; simpa using this
  have hlast : s.issued.getLast? = some k := by
    have := hmn.tk
    rw [hr, if_pos (.inl rfl)] at this
    rw [← this.2, hk]
  refine ⟨?_, hr, hlast⟩
  refine hi.local' hin (x := .running p) (f := s.flag i) (t := s.token i) (rn := s.ran i ++ [k]) (cr := s.crashed i) (ps := s.poisoned) ?_ hm id .inl ?_ id .inl
    (by rw [hp]; rfl) (by rw [hp]; rfl) (by rw [hp]; simp) rfl (by rintro p sub ⟨⟩) (by rintro p sub ⟨⟩) ?_ ?_ ?_ ?_ (by simp)
  · simp only [St.put, upd_self]
  · have hrn := h.rn (by simp)
    obtain ⟨h1, h2, h3, h4, h5, h6, h7, h8, h9, h10, h11, h12, h13, h14⟩ := h
    constructor
    case rn =>
      intro _
      rw [hrn, hpass]
      simp only [TPc.after, Nat.add_zero, if_true, Bool.false_eq_true, if_false]
      rw [take_last hlen hlast, List.take_of_length_le (by omega)]
    all_goals clear h3 hrn; simp_all [TPc.after, TPc.busy, TPc.rest, TPc.proc]
  · simp [hp, TPc.rest]
  · simp [hp, TPc.active]
  · simp [hj]
  · simp [hj]

theorem Inv.lookQuit (hi : Inv s w c pl bat pend) {i p : Nat} (hin : i < s.n) (hm : s.main ≠ .making) (hp : s.pc i = .look p) (hk : s.task = none) :
    Inv (s.put i (.starting .quit p (.seek 0))) w c pl bat pend ∧ s.main.joined = true := by
  have h := hi.thr i hin
  rw [hp] at h
  have hmn := hi.mn
  have hr : s.main.round s.task = false := by
    cases hr : s.main.round s.task with
    | false => rfl
    | true =>
      have := hmn.tk
      rw [hr, if_pos (.inl rfl)] at this
      exact absurd hk this.1
  have hj : s.main.joined = true := by
    rcases h.act rfl with ⟨h1, _⟩ | h1
    · rw [hr] at h1; cases h1
    · exact h1
  have hpl : p < s.np := by
    rw [h.proc p rfl]; exact (hi.q hm).lp i hin
  refine ⟨?_, hj⟩
  refine hi.local' hin (x := .starting .quit p (.seek 0)) (f := s.flag i) (t := s.token i) (rn := s.ran i) (cr := s.crashed i) (ps := s.poisoned) ?_ hm id .inl ?_ id .inl
    (by rw [hp]; rfl) (by rw [hp]; rfl) (by rw [hp]; simp) rfl (by rintro p sub ⟨⟩; exact hpl) (by rintro p sub ⟨⟩; rfl) ?_ ?_ ?_ ?_ (by simp)
  · simp only [St.put, upd_self]
  · obtain ⟨h1, h2, h3, h4, h5, h6, h7, h8, h9, h10, h11, h12, h13, h14⟩ := h
    constructor <;> simp_all [TPc.after, TPc.busy, TPc.rest, TPc.proc]
  · simp [hr]
  · simp [hr]
  · simp [hp, TPc.toPop]
  · simp [TPc.rest]

theorem Inv.finish (hi : Inv s w c pl bat pend) {i p : Nat} (hin : i < s.n) (hm : s.main ≠ .making) (hp : s.pc i = .running p) (b : Bool) :
    Inv { s.put i (.starting (if b then .crash else .ret) p (.seek 0)) with crashed := upd s.crashed i b } w c pl bat pend := by
  have h := hi.thr i hin
  rw [hp] at h
  have hr := (h.aft rfl).1
  have hj := round_joined hr
  have hpl : p < s.np := by
    rw [h.proc p rfl]; exact (hi.q hm).lp i hin
  have hc : s.crashed i = false := by
    cases hc : s.crashed i with
    | false => rfl
    | true => rcases h.cr1 hc with ⟨_, _, e⟩ | e | e | e <;> cases e
  refine hi.local' hin (x := .starting (if b then .crash else .ret) p (.seek 0)) (f := s.flag i) (t := s.token i) (rn := s.ran i) (cr := b) (ps := s.poisoned) ?_ hm id .inl ?_ (by simp [hc]) (fun _ => .inr hr)
    (by rw [hp]; rfl) (by rw [hp]; rfl) (by rw [hp]; simp) rfl (by rintro p sub ⟨⟩; exact hpl) (by rintro p sub ⟨⟩; rfl) ?_ ?_ ?_ ?_ (by simp)
  · simp only [St.put, upd_self]
  · obtain ⟨h1, h2, h3, h4, h5, h6, h7, h8, h9, h10, h11, h12, h13, h14⟩ := h
    cases b <;> constructor <;> simp_all [TPc.after, TPc.busy, TPc.rest, TPc.proc]
  · simp [hp, TPc.rest]
  · simp [hp, TPc.active, Sub.isUnpark]
  · simp [hj]
  · simp [hj]

theorem Inv.poisoning (hi : Inv s w c pl bat pend) {i : Nat} (hin : i < s.n) (hm : s.main ≠ .making) (hp : s.pc i = .poisoning) :
    Inv { s.put i .exiting with poisoned := true } w c pl bat pend := by
  have h := hi.thr i hin
  rw [hp] at h
  have hr := (h.aft rfl).1
  have hj := round_joined hr
  have hc : s.crashed i = true := h.cr3 0 (.seek 0) (.inr rfl)
  refine hi.local' hin (x := .exiting) (f := s.flag i) (t := s.token i) (rn := s.ran i) (cr := s.crashed i) (ps := true) ?_ hm (fun _ => rfl) (fun _ => .inr ⟨hc, hr⟩) ?_ id .inl
    (by rw [hp]; rfl) (by rw [hp]; rfl) (by rw [hp]; simp) rfl (by rintro p sub ⟨⟩) (by rintro p sub ⟨⟩) ?_ ?_ ?_ ?_ (by simp)
  · simp only [St.put, upd_self]
  · obtain ⟨h1, h2, h3, h4, h5, h6, h7, h8, h9, h10, h11, h12, h13, h14⟩ := h
    constructor <;> simp_all [TPc.after, TPc.busy, TPc.rest, TPc.proc]
  · simp [hp, TPc.rest]
  · simp [hp, TPc.active]
  · simp [hj]
  · simp [hj]

theorem Inv.counting (hi : Inv s w c pl bat pend) {i : Nat} (hin : i < s.n) (hm : s.main ≠ .making) (hp : s.pc i = .counting) :
    ∃ fin' c', CountDown.step s.fin (.countDown (i + 1)) = some (.ok fin') ∧ fin'.cs[i + 1]? = some c' ∧
      Inv { s.put i (if c'.pending then .notifying else .check) with fin := fin' } w (upd c i c') pl bat pend := by
  have h := hi.thr i hin
  rw [hp] at h
  have hno := hi.notOver hin (by rw [hp]; simp)
  obtain ⟨hr, hpass⟩ := h.aft rfl
  have hj := round_joined hr
  have hcs := hi.cs i hin
  obtain ⟨fin', c', h1, h2, h3, h4, h5⟩ := (hi.fin hno).countDown hcs (h.live.2 (by simp)) (by
    cases hpd : (c i).pending with
    | false => rfl
    | true => have := h.pend.1 hpd; cases this) hpass
  have hlen : s.issued.length = w.passed + 1 := by have := hi.mn.iss; rw [hr] at this; simpa using this
  have hf : s.flag i = false := by
    cases hf : s.flag i with
    | false => rfl
    | true =>
      rcases h.fl hf with ⟨_, _, e⟩ | e
      · cases e
      · rw [hj] at e; cases e
  have hc : s.crashed i = false := by
    cases hc : s.crashed i with
    | false => rfl
    | true => rcases h.cr1 hc with ⟨_, _, e⟩ | e | e | e <;> cases e
  refine ⟨fin', c', h1, by rw [h3]; exact getElem?_set_self' hcs, ?_⟩
  have hrn := h.rn (by simp)
  refine hi.local hin (x := if c'.pending then .notifying else .check) (f := s.flag i) (t := s.token i) (rn := s.ran i) (cr := s.crashed i) (ps := s.poisoned) (c' := c') (fin' := fin') (w' := w)
    ?_ hm (fun _ => h2) rfl Iff.rfl h3 id .inl ?_ id .inl
    (by rw [hp]; rfl) (by rw [hp]; rfl) (by rw [hp]; simp) (by split <;> rfl) (by intro p sub e; split at e <;> cases e) (by intro p sub e; split at e <;> cases e) ?_ ?_ ?_ ?_ ?_
  · simp only [St.put, upd_self]
  · cases hpd : c'.pending
    all_goals
      constructor
      case rn =>
        intro _
        rw [hrn, h5]
        simp [TPc.after]
      all_goals clear hrn; simp_all [TPc.after, TPc.busy, TPc.rest, TPc.proc]
  · intro _; simp [h5, hpass, hp, TPc.rest]
  · intro _; split <;> simp [hp, hf, TPc.active]
  · simp [hj]
  · simp [hj]
  · intro e; split at e <;> cases e

theorem Inv.notifying (hi : Inv s w c pl bat pend) {i : Nat} (hin : i < s.n) (hm : s.main ≠ .making) (hp : s.pc i = .notifying) :
    ∃ fin' c' w', CountDown.step s.fin (.notify (i + 1)) = some (.ok fin') ∧ Inv { s.put i .check with fin := fin' } w' (upd c i c') pl bat pend := by
  have h := hi.thr i hin
  rw [hp] at h
  have hno := hi.notOver hin (by rw [hp]; simp)
  have hcs := hi.cs i hin
  obtain ⟨fin', h1, h2, h3⟩ := (hi.fin hno).notify hcs (h.pend.2 rfl)
  obtain ⟨e1, e2, e3, e4, e5⟩ := CountDown.notify_fields w
  refine ⟨fin', { c i with pending := false }, w.notify, h1, ?_⟩
  refine hi.local hin (x := .check) (f := s.flag i) (t := s.token i) (rn := s.ran i) (cr := s.crashed i) (ps := s.poisoned) (c' := { c i with pending := false }) (fin' := fin') (w' := w.notify)
    ?_ hm (fun _ => h2) e2 (not_congr e4) h3 id .inl ?_ id .inl
    (by rw [hp]; rfl) (by rw [hp]; rfl) (by rw [hp]; simp) rfl (by intro p sub e; cases e) (by intro p sub e; cases e) ?_ ?_ ?_ ?_ (by simp)
  · simp only [St.put, upd_self]
  · obtain ⟨h1, h2, h3, h4, h5, h6, h7, h8, h9, h10, h11, h12, h13, h14⟩ := h
    constructor <;> simp_all [TPc.after, TPc.busy, TPc.rest, TPc.proc]
  · simp [hp, TPc.rest]
  · simp [hp, TPc.active]
  · simp [hp, TPc.toPop]
  · simp [hp, TPc.rest]

theorem Inv.exiting (hi : Inv s w c pl bat pend) {i : Nat} (hin : i < s.n) (hm : s.main ≠ .making) (hp : s.pc i = .exiting) :
    ∃ fin' c' w', CountDown.step s.fin (.dropCounter (i + 1)) = some (.ok fin') ∧ Inv { s.put i .gone with fin := fin' } w' (upd c i c') pl bat pend := by
  have h := hi.thr i hin
  rw [hp] at h
  have hno := hi.notOver hin (by rw [hp]; simp)
  have hcs := hi.cs i hin
  obtain ⟨fin', w', h1, h2, h3, h4, h5⟩ := (hi.fin hno).dropCounter hcs (h.live.2 (by simp)) (by
    cases hpd : (c i).pending with
    | false => rfl
    | true => have := h.pend.1 hpd; cases this)
  have hle := ((hi.fin hno).range hcs (h.live.2 (by simp))).1
  have hran : s.ran i = s.issued := by
    rw [h.rn (by simp)]
    have hiss := hi.mn.iss
    apply List.take_of_length_le
    cases hc : s.crashed i with
    | true =>
      obtain ⟨hr, _⟩ := h.aft hc
      rw [hr] at hiss
      simp [TPc.after] at hiss ⊢
      omega
    | false =>
      have hj : s.main.joined = true := by
        rcases h.ex (.inl rfl) with e | e
        · rw [hc] at e; cases e
        · exact e
      rw [joined_round hj] at hiss
      simp [TPc.after] at hiss ⊢
      omega
  refine ⟨fin', { c i with live := false }, w', h1, ?_⟩
  refine hi.local hin (x := .gone) (f := s.flag i) (t := s.token i) (rn := s.ran i) (cr := s.crashed i) (ps := s.poisoned) (c' := { c i with live := false }) (fin' := fin') (w' := w')
    ?_ hm (fun _ => h2) h4 (not_congr h5) h3 id .inl ?_ id .inl
    (by rw [hp]; rfl) (by rw [hp]; rfl) (by rw [hp]; simp) rfl (by intro p sub e; cases e) (by intro p sub e; cases e) ?_ ?_ ?_ ?_ (by simp)
  · simp only [St.put, upd_self]
  · obtain ⟨h1, h2, h3, h4, h5, h6, h7, h8, h9, h10, h11, h12, h13, h14⟩ := h
    constructor <;> simp_all [TPc.after, TPc.busy, TPc.rest, TPc.proc]
  · simp [hp, TPc.rest]
  · simp [hp, TPc.active]
  · simp [TPc.toPop]
  · simp [TPc.rest]

/-- The next step of a thread does not panic and keeps the invariant. -/
theorem Inv.thread (hi : Inv s w c pl bat pend) {i : Nat} (hin : i < s.n) (hm : s.main ≠ .making) {r : R St} (h : threadStep s i = some r) :
    ∃ s' w' c' pl' bat' pend', Inv s' w' c' pl' bat' pend' ∧ r = .ok s' := by
  cases hp : s.pc i with
  | check => simp only [threadStep, hp] at h; cases h; exact ⟨_, _, _, _, _, _, hi.checkFlag hin hm hp, rfl⟩
  | park =>
    simp only [threadStep, hp] at h
    split at h
    · cases h; exact ⟨_, _, _, _, _, _, hi.unpark hin hm hp _, rfl⟩
    · cases h
  | got =>
    obtain ⟨h1, h2⟩ := hi.got hin hm hp
    simp only [threadStep, hp, if_neg h1] at h; cases h; exact ⟨_, _, _, _, _, _, h2, rfl⟩
  | load =>
    have h1 := (hi.q hm).lp i hin
    simp only [threadStep, hp, if_pos h1] at h; cases h; exact ⟨_, _, _, _, _, _, hi.load hin hm hp, rfl⟩
  | look p =>
    have h1 := hi.notWriting hin hm hp
    cases hk : s.task with
    | some k =>
      simp only [threadStep, hp, h1, hk, Bool.false_eq_true, if_false] at h
      cases h
      exact ⟨_, _, _, _, _, _, (hi.lookTask hin hm hp hk).1, rfl⟩
    | none =>
      simp only [threadStep, hp, h1, hk, Bool.false_eq_true, if_false] at h
      cases h
      exact ⟨_, _, _, _, _, _, (hi.lookQuit hin hm hp hk).1, rfl⟩
  | running p => simp only [threadStep, hp] at h; cases h
  | gone => simp only [threadStep, hp] at h; cases h
  | starting why p sub =>
    obtain ⟨s1, r1, pl', bat', pend', h1, h2, h3⟩ := hi.subStep (a := some i) (p := p) (sub := sub) (by simp [St.starter, hp, TPc.starter])
    simp only [threadStep, hp, h3, R.bind_ok, R.pure_eq] at h
    cases h
    refine ⟨_, _, _, _, _, _, h1, ?_⟩
    simp only [St.goOn, h2, hp]
    cases r1 <;> rfl
  | counting =>
    obtain ⟨fin', c', h1, h2, h3⟩ := hi.counting hin hm hp
    simp only [threadStep, hp, St.onFin, h1, Option.map_some, R.bind_ok, R.pure_eq, h2, Option.any] at h
    cases h
    exact ⟨_, _, _, _, _, _, h3, rfl⟩
  | notifying =>
    obtain ⟨fin', c', w', h1, h3⟩ := hi.notifying hin hm hp
    simp only [threadStep, hp, St.onFin, h1, Option.map_some, R.bind_ok, R.pure_eq] at h
    cases h
    exact ⟨_, _, _, _, _, _, h3, rfl⟩
  | poisoning => simp only [threadStep, hp] at h; cases h; exact ⟨_, _, _, _, _, _, hi.poisoning hin hm hp, rfl⟩
  | exiting =>
    obtain ⟨fin', c', w', h1, h3⟩ := hi.exiting hin hm hp
    simp only [threadStep, hp, St.onFin, h1, Option.map_some, R.bind_ok, R.pure_eq] at h
    cases h
    exact ⟨_, _, _, _, _, _, h3, rfl⟩

end Shadow.Pool.Bounded
