import Verif.Wake.CoreSteps

/-!
The parts of a step and the rest of the invariant (C67).
-/

namespace Shadow.Wake

open Shadow.Base

/-- Fewer exceptions. -/
theorem Rest.mono {s : St} {X Y : Ex} (h : Rest s X) (h0 : ∀ c, X.tm c → Y.tm c) (h1 : ∀ c, X.cnd c → Y.cnd c) (h2 : ∀ u, X.uid u → Y.uid u)
    (h3 : ∀ p, X.pid p → Y.pid p) (h4 : ∀ p, X.thr p → Y.thr p) : Rest s Y where
  uns := by grind [→ h.uns]
  arm := h.arm
  dl := fun c x hc => h.dl c x (fun e => hc (h0 c e))
  ord := h.ord
  one := h.one
  thr := fun ho x p y t hp => h.thr ho x p y t (fun e => hp (h4 p e))
  eid := h.eid
  exn := h.exn
  bits := fun c o m hc => h.bits c o m (fun e => hc (h1 c e))
  notif := fun c hc => h.notif c (fun e => hc (h1 c e))
  nfk := h.nfk
  hld := h.hld
  tsig := by
    intro t c g hu ht hc hn hg hb
    have := h.tsig t c g (fun e => hu (h2 _ e)) ht hc hn hg hb
    grind
  psig := by
    intro p g t hp hg ht htp hb
    obtain ⟨t', a1, a2, a3, a4⟩ := h.psig p g t (fun e => hp (h3 p e)) hg ht htp hb
    exact ⟨t', a1, a2, a3, by grind⟩
  lg := h.lg

theorem schedSt_rest {s : St} {X : Ex} (h : Rest s X) (hC : Cds s) {c : Nat} (hl : (s.conds c).listening = true)
    (_ : (s.conds c).sched = false) : Rest (schedSt s c) { X with cnd := fun d => X.cnd d ∧ d ≠ c } := by
  have hnc := not_freed hC hl
  constructor
  · intro t ht hx hc hu
    obtain ⟨x, hq⟩ := h.uns t ht hx hc hu
    exact ⟨x, by simp [hq]⟩
  · grind [→ h.arm]
  · intro d x hx
    have := h.dl d x hx
    grind
  · simp only [schedSt_queue, List.pairwise_append]
    refine ⟨?_, by simp, ?_⟩
    · refine h.ord.imp ?_
      intro a b hab d p x
      have := hab d p x
      grind
    · grind
  · intro ho p
    have := h.one ho p
    simpa [List.countP_append, Task.execOf] using this
  · intro ho x p y t hp hq ht
    exact h.thr ho x p y t hp (by simpa using hq) ht
  · grind [→ h.eid]
  · intro x p y t hq
    exact h.exn x p y t (by simpa using hq)
  · intro d o m hx
    have := h.bits d o m
    grind
  · intro d hx
    have := h.notif d
    grind
  · grind [→ h.nfk]
  · grind [→ h.hld]
  · intro t d g hu ht hc hn hg hb
    have := h.tsig t d g hu ht hc hn hg hb
    grind
  · intro p g t hp hg ht htp hb
    obtain ⟨t', a1, a2, a3, a4⟩ := h.psig p g t hp hg ht htp hb
    exact ⟨t', a1, a2, a3, by grind⟩
  · intro d
    have := h.lg d
    grind

/-- A thread that has not run goes on. -/
theorem goSt_rest {s : St} {X : Ex} (h : Rest s X) (hI : Ids s) {t : Th} (ht : t ∈ s.ths) (hn : s.cur = none)
    (hc : t.cond = none) : Rest (goSt s t.uid .start) X := by
  constructor
  · intro t' ht' hx hc' hu
    exact h.uns t' ht' hx hc' (by rw [hn]; simp)
  · exact h.arm
  · exact h.dl
  · exact h.ord
  · exact h.one
  · intro ho x p y t' hp hq ht' hpp
    obtain ⟨a, a1, a2, a3, a4, a5⟩ := h.thr ho x p y t' hp hq ht' hpp
    refine ⟨a, a1, a2, a3, a4, ?_⟩
    intro e
    simp at e
    have := hI.uniq t a ht a1 e
    subst this
    exact a4 hc
  · exact h.eid
  · intro x p y t' hq ht' hp hy
    have := h.exn x p y t' hq ht' hp hy
    grind
  · exact h.bits
  · exact h.notif
  · exact h.nfk
  · exact h.hld
  · intro t' d g hu ht' hc' _ hg hb
    exact h.tsig t' d g hu ht' hc' (by rw [hn]; simp) hg hb
  · intro p g t' hp hg ht' htp hb
    obtain ⟨a, a1, a2, a3, a4⟩ := h.psig p g t' hp hg ht' htp hb
    exact ⟨a, a1, a2, a3, by grind⟩
  · intro d
    have := h.lg d
    simpa [List.countP_append] using this

/-- A thread that waited goes on. -/
theorem runSt_rest {s : St} {X : Ex} (h : Rest s X) (hI : Ids s) (hC : Cds s) {t : Th} {c : Nat} (ht : t ∈ s.ths)
    (hn : s.cur = none) (hc : t.cond = some c) (why : Why)
    (hx : s.odd = false → ∀ x p y, (x, Task.exec p y) ∈ s.queue → ¬ (t.pid = p ∧ t.tid = y))
    (hw : ∀ d, why = .wake d → d < s.nc ∧ (s.conds d).sched = false ∧ (d = c ∨ (s.conds d).listening = false) ∧
      s.log.countP (fun e => e.2 = .wake d) = 0) :
    Rest (runSt s c t.uid why)
      { tm := fun d => X.tm d ∧ d ≠ c, cnd := fun d => X.cnd d ∧ d ≠ c, uid := fun u => X.uid u ∧ u ≠ t.uid
        pid := X.pid, thr := X.thr } := by
  have ho := hC.own t c ht hc
  constructor
  · intro t' ht' hx hc' hu
    refine h.uns t' ht' (fun e => hx ⟨e, ?_⟩) hc' (by rw [hn]; simp)
    intro e
    have := hI.uniq t' t ht' ht e
    subst this
    rw [hc] at hc'; cases hc'
  · grind [→ h.arm]
  · intro d x hx
    have := h.dl d x
    grind
  · refine h.ord.imp ?_
    intro a b hab d p x
    have := hab d p x
    grind
  · exact h.one
  · intro hodd x p y t' hp hq ht' hpp
    obtain ⟨a, a1, a2, a3, a4, a5⟩ := h.thr hodd x p y t' hp hq ht' hpp
    refine ⟨a, a1, a2, a3, a4, ?_⟩
    intro e
    simp at e
    have := hI.uniq t a ht a1 e
    subst this
    exact hx hodd x p y hq ⟨a2, a3⟩
  · exact h.eid
  · intro x p y t' hq ht' hp hy
    have := h.exn x p y t' hq ht' hp hy
    grind
  · intro d o m hX
    have := h.bits d o m
    grind
  · intro d hX
    have := h.notif d
    grind
  · grind [→ h.nfk]
  · grind [→ h.hld]
  · intro t' d g hu ht' hc' hcu hg hb
    have h2 : t'.uid ≠ t.uid := fun e => hcu (by simp [e])
    have := h.tsig t' d g (fun e => hu ⟨e, h2⟩) ht' hc' (by rw [hn]; simp) hg hb
    have h5 := hC.own t' d ht' hc'
    grind
  · intro p g t' hp hg ht' htp hb
    obtain ⟨a, a1, a2, a3, a4⟩ := h.psig p g t' hp hg ht' htp hb
    refine ⟨a, a1, a2, a3, ?_⟩
    by_cases he : a.uid = t.uid
    · left; simp [he]
    · right
      intro d hd
      have h5 := hC.own a d a1 hd
      have hdc : d ≠ c := by grind
      have := a4.resolve_left (by rw [hn]; simp) d hd
      grind
  · intro d
    have h1 := h.lg d
    have h2 := hw d
    simp only [runSt_log, List.countP_append, List.countP_cons, List.countP_nil, runSt_nc, runSt_conds]
    by_cases hd : why = .wake d
    · have h3 := h2 hd
      simp [hd, h3.2.2.2]
      grind
    · simp only [hd, decide_false, Bool.false_eq_true, if_false, Nat.add_zero]
      grind

/-- A thread that has not run leaves. -/
theorem leaveSt_rest {s : St} {X : Ex} (h : Rest s X) (hI : Ids s) {t : Th} (ht : t ∈ s.ths) (hc : t.cond = none)
    (hX : X.pid t.pid ∧ X.thr t.pid) : Rest (leaveSt s t.uid) X := by
  constructor
  · grind [→ h.uns]
  · exact h.arm
  · exact h.dl
  · exact h.ord
  · exact h.one
  · intro ho x p y t' hp hq ht' hpp
    simp at ht'
    obtain ⟨a, a1, a2, a3, a4, a5⟩ := h.thr ho x p y t' hp hq ht'.1 hpp
    refine ⟨a, ?_, a2, a3, a4, a5⟩
    grind [→ hI.uniq]
  · exact h.eid
  · intro x p y t' hq ht'
    simp at ht'
    exact h.exn x p y t' hq ht'.1
  · exact h.bits
  · exact h.notif
  · exact h.nfk
  · exact h.hld
  · grind [→ h.tsig]
  · intro p g t' hp hg ht' htp hb
    simp at ht'
    obtain ⟨a, a1, a2, a3, a4⟩ := h.psig p g t' hp hg ht'.1 htp hb
    refine ⟨a, ?_, a2, a3, a4⟩
    grind [→ hI.uniq]
  · exact h.lg

/-- A waiting thread leaves. -/
theorem dropSt_rest {s : St} {X : Ex} (h : Rest s X) (hI : Ids s) (hC : Cds s) {t : Th} {c : Nat} (ht : t ∈ s.ths)
    (hc : t.cond = some c) (hX : X.pid t.pid ∧ X.thr t.pid) : Rest (dropSt s c t.uid) X := by
  have ho := hC.own t c ht hc
  have hne : ∀ t' d, t' ∈ s.ths → t'.uid ≠ t.uid → t'.cond = some d → d ≠ c := by
    intro t' d h1 h2 h3
    have := hC.own t' d h1 h3
    grind
  constructor
  · grind [→ h.uns]
  · grind [→ h.arm]
  · intro d x hx
    have := h.dl d x hx
    grind
  · refine h.ord.imp ?_
    intro a b hab d p x
    have := hab d p x
    grind
  · exact h.one
  · intro ho x p y t' hp hq ht' hpp
    simp at ht'
    obtain ⟨a, a1, a2, a3, a4, a5⟩ := h.thr ho x p y t' hp hq ht'.1 hpp
    refine ⟨a, ?_, a2, a3, a4, a5⟩
    grind [→ hI.uniq]
  · exact h.eid
  · intro x p y t' hq ht'
    simp at ht'
    exact h.exn x p y t' hq ht'.1
  · intro d o m hx
    have := h.bits d o m hx
    grind
  · intro d hx
    have := h.notif d hx
    grind
  · grind [→ h.nfk]
  · grind [→ h.hld]
  · intro t' d g hu ht' hc' hcu hg hb
    simp at ht'
    have := h.tsig t' d g hu ht'.1 hc' hcu hg hb
    have := hne t' d ht'.1 ht'.2 hc'
    grind
  · intro p g t' hp hg ht' htp hb
    simp at ht'
    obtain ⟨a, a1, a2, a3, a4⟩ := h.psig p g t' hp hg ht'.1 htp hb
    have h6 : a.uid ≠ t.uid := by grind [→ hI.uniq]
    refine ⟨a, by simp [a1, h6], a2, a3, ?_⟩
    have := hne a
    grind
  · intro d
    have := h.lg d
    grind

/-- The running thread drops its old condition. -/
theorem oldSt_rest {s : St} {X : Ex} (h : Rest s X) (hI : Ids s) (hC : Cds s) {t : Th} {c : Nat} (ht : t ∈ s.ths)
    (hu : s.cur = some t.uid) (hc : t.cond = some c) : Rest (oldSt s c t.uid) X := by
  have ho := hC.own t c ht hc
  have hr := hC.runs t c ht hc hu
  have hne : ∀ t' d, t' ∈ s.ths → t'.uid ≠ t.uid → t'.cond = some d → d ≠ c := by
    intro t' d h1 h2 h3
    have := hC.own t' d h1 h3
    grind
  have hm : ∀ a, a ∈ (oldSt s c t.uid).ths → (a ∈ s.ths ∧ a.uid ≠ t.uid) ∨ a = { t with cond := none } := by
    intro a ha
    simp only [oldSt_ths, List.mem_map] at ha
    obtain ⟨b, hb, rfl⟩ := ha
    by_cases hx : b.uid = t.uid
    · have := hI.uniq b t hb ht hx
      subst this
      right; simp
    · left; simp [hx, hb]
  have hm2 : ∀ a, a ∈ s.ths → a.uid ≠ t.uid → a ∈ (oldSt s c t.uid).ths := by
    intro a ha hx
    simp only [oldSt_ths, List.mem_map]
    exact ⟨a, ha, by rw [if_neg hx]⟩
  have hm3 : { t with cond := none } ∈ (oldSt s c t.uid).ths := by
    simp only [oldSt_ths, List.mem_map]
    exact ⟨t, ht, by simp⟩
  constructor
  · intro a ha hx hcn hcu
    rcases hm a ha with ha | rfl
    · exact h.uns a ha.1 hx hcn hcu
    · exact absurd hu hcu
  · grind [→ h.arm]
  · intro d x hx
    have := h.dl d x hx
    grind
  · refine h.ord.imp ?_
    intro a b hab d p x
    have := hab d p x
    grind
  · exact h.one
  · intro ho x p y t' hp hq ht' hpp
    have h3 : ∃ b ∈ s.ths, b.pid = p := by
      rcases hm t' ht' with ha | rfl
      · exact ⟨t', ha.1, hpp⟩
      · exact ⟨t, ht, hpp⟩
    obtain ⟨b, b1, b2⟩ := h3
    obtain ⟨a, a1, a2, a3, a4, a5⟩ := h.thr ho x p y b hp hq b1 b2
    exact ⟨a, hm2 a a1 (by grind), a2, a3, a4, a5⟩
  · exact h.eid
  · intro x p y t' hq ht' hp hy
    rcases hm t' ht' with ha | rfl
    · exact h.exn x p y t' hq ha.1 hp hy
    · right; exact hu
  · intro d o m hx
    have := h.bits d o m hx
    grind
  · intro d hx
    have := h.notif d hx
    grind
  · grind [→ h.nfk]
  · grind [→ h.hld]
  · intro t' d g hx ht' hc' hcu hg hb
    rcases hm t' ht' with ha | rfl
    · have := h.tsig t' d g hx ha.1 hc' hcu hg hb
      have := hne t' d ha.1 ha.2 hc'
      grind
    · cases hc'
  · intro p g t' hp hg ht' htp hb
    have h3 : ∃ b ∈ s.ths, b.pid = p ∧ ¬ g ∈ b.blocked := by
      rcases hm t' ht' with ha | rfl
      · exact ⟨t', ha.1, htp, hb⟩
      · exact ⟨t, ht, htp, hb⟩
    obtain ⟨b, b1, b2, b3⟩ := h3
    obtain ⟨a, a1, a2, a3, a4⟩ := h.psig p g b hp hg b1 b2 b3
    by_cases h6 : a.uid = t.uid
    · have := hI.uniq a t a1 ht h6
      subst this
      exact ⟨_, hm3, a2, a3, Or.inl hu⟩
    · refine ⟨a, hm2 a a1 h6, a2, a3, ?_⟩
      have := hne a
      grind
  · intro d
    have := h.lg d
    grind

/-- The running thread leaves. -/
theorem quitSt_rest {s : St} {X : Ex} (h : Rest s X) (hI : Ids s) {t : Th} (ht : t ∈ s.ths)
    (hu : s.cur = some t.uid) (hps : X.pid t.pid ∨ s.pending t = false) : Rest (quitSt s t.uid) X := by
  constructor
  · intro a ha hx hcn hcu
    simp at ha
    exact h.uns a ha.1 hx hcn (by grind)
  · exact h.arm
  · exact h.dl
  · exact h.ord
  · exact h.one
  · intro ho x p y t' hp hq ht' hpp
    simp at ht'
    obtain ⟨a, a1, a2, a3, a4, a5⟩ := h.thr ho x p y t' hp hq ht'.1 hpp
    exact ⟨a, by grind, a2, a3, a4, by simp⟩
  · exact h.eid
  · intro x p y t' hq ht' hp hy
    simp at ht'
    have := h.exn x p y t' hq ht'.1 hp hy
    left
    rcases this with this | this
    · exact this
    · grind
  · exact h.bits
  · exact h.notif
  · exact h.nfk
  · exact h.hld
  · intro t' d g hx ht' hc' hcu hg hb
    simp at ht'
    exact h.tsig t' d g hx ht'.1 hc' (by grind) hg hb
  · intro p g t' hp hg ht' htp hb
    simp at ht'
    obtain ⟨a, a1, a2, a3, a4⟩ := h.psig p g t' hp hg ht'.1 htp hb
    by_cases h6 : a.uid = t.uid
    · have := hI.uniq a t a1 ht h6
      subst this
      exfalso
      rcases hps with hps | hps
      · rw [a2] at hps; exact hp hps
      · have h7 : s.pending a = true := by
          simp only [St.pending, Bool.or_eq_true, List.any_eq_true]
          right
          exact ⟨(p, g), hg, by simp [a2, a3]⟩
        rw [h7] at hps; cases hps
    · refine ⟨a, by simp [a1, h6], a2, a3, ?_⟩
      rcases a4 with a4 | a4
      · grind
      · exact Or.inr a4
  · exact h.lg

/-- The running thread waits.  `X.thr` may contain its process if it has an `execve` queued. -/
theorem wait_rest {s : St} {X : Ex} (h : Rest s X) (hI : Ids s) (hC : Cds s) {t t0 : Th} (ht : t0 ∈ s.ths)
    (hu : s.cur = some t0.uid) (e1 : t.uid = t0.uid) (e2 : t.pid = t0.pid) (e3 : t.tid = t0.tid) (trig : Trig)
    (timeout : Option Nat) (held : Bool) (hto : ∀ x, timeout = some x → s.now ≤ x)
    (hbits : ∀ o m, trig = .file o m → s.objs o &&& m = 0) (hh : held = true → timeout.isSome = true)
    (hp : held = false → s.pending t0 = false)
    (hthr : s.odd = false → ∀ x p y, X.thr p → (x, Task.exec p y) ∈ s.queue → p = t0.pid ∧ y = t0.tid) :
    Rest (s.wait t trig timeout held) { X with thr := fun _ => False } := by
  have hm : ∀ a, a ∈ (s.wait t trig timeout held).ths →
      (a ∈ s.ths ∧ a.uid ≠ t0.uid) ∨ a = { t0 with cond := some s.nc } := by
    intro a ha
    simp only [wait_ths, List.mem_map] at ha
    obtain ⟨b, hb, rfl⟩ := ha
    by_cases hx : b.uid = t0.uid
    · have := hI.uniq b t0 hb ht hx
      subst this
      right; simp [e1]
    · left; simp [hx, hb, e1]
  have hm2 : ∀ a, a ∈ s.ths → a.uid ≠ t0.uid → a ∈ (s.wait t trig timeout held).ths := by
    intro a ha hx
    simp only [wait_ths, List.mem_map]
    exact ⟨a, ha, by rw [if_neg (by omega)]⟩
  have hm3 : { t0 with cond := some s.nc } ∈ (s.wait t trig timeout held).ths := by
    simp only [wait_ths, List.mem_map]
    exact ⟨t0, ht, by simp [e1]⟩
  have hq1 : ∀ a, a ∈ s.queue → a ∈ (s.wait t trig timeout held).queue := by
    intro a ha
    rw [wait_queue]
    cases timeout with
    | none => exact ha
    | some x => exact List.mem_append_left _ ha
  have hq2 : ∀ a, a ∈ (s.wait t trig timeout held).queue → a ∈ s.queue ∨ ∃ x, timeout = some x ∧ a = (x, .timer s.nc) := by
    intro a ha
    rw [wait_queue] at ha
    cases timeout with
    | none => exact Or.inl ha
    | some x =>
      rcases List.mem_append.1 ha with ha | ha
      · exact Or.inl ha
      · simp at ha; exact Or.inr ⟨x, rfl, ha⟩
  have hown : ∀ a d, a ∈ s.ths → a.cond = some d → d ≠ s.nc := by
    intro a d h1 h2
    have := hC.own a d h1 h2
    omega
  have hpend : ∀ p g, held = false → (p, g) ∈ s.ppend → t0.pid = p → g ∈ t0.blocked := by
    intro p g h1 h2 h3
    have h4 := hp h1
    simp only [St.pending, Bool.or_eq_false_iff, List.any_eq_false] at h4
    have := h4.2 _ h2
    simp [h3] at this
    exact this
  have hpend2 : ∀ g, held = false → g ∈ t0.pend → g ∈ t0.blocked := by
    intro g h1 h2
    have h4 := hp h1
    simp only [St.pending, Bool.or_eq_false_iff, List.any_eq_false] at h4
    have := h4.1 _ h2
    simpa using this
  constructor
  · intro a ha hx hcn _
    rcases hm a ha with ha | rfl
    · obtain ⟨x, hx⟩ := h.uns a ha.1 hx hcn (by grind)
      exact ⟨x, hq1 _ hx⟩
    · cases hcn
  · intro d
    by_cases hd : d = s.nc
    · subst hd; simp [newCond]
    · simp only [wait_conds, if_neg hd]; exact h.arm d
  · intro d x hx hl hto'
    by_cases hd : d = s.nc
    · subst hd
      simp [newCond] at hto' ⊢
      subst hto'
      exact ⟨hto x rfl, by simp⟩
    · simp only [wait_conds, if_neg hd, wait_now] at hl hto' ⊢
      have := h.dl d x hx hl hto'
      exact ⟨this.1, fun e => hq1 _ (this.2.1 e), this.2.2⟩
  · have h2 : s.queue.Pairwise fun a b => ∀ c p x, a.2 = .wake c → b.2 = .exec p x →
        ((s.wait t trig timeout held).conds c).pid = p → ((s.wait t trig timeout held).conds c).tid = x →
        ((s.wait t trig timeout held).conds c).cut = true := by
      refine List.Pairwise.imp_of_mem ?_ h.ord
      intro a b ha hb hab d p x h1 h2
      have hdn : d ≠ s.nc := by
        rintro rfl
        have := hC.wk s.nc
        rw [hC.fresh s.nc (Nat.le_refl _)] at this
        simp [wakes] at this
        obtain ⟨a1, a2⟩ := a
        simp at h1
        subst h1
        exact this a1 _ ha rfl
      simp only [wait_conds, if_neg hdn]
      exact hab d p x h1 h2
    rw [wait_queue]
    cases timeout with
    | none => exact h2
    | some x =>
      rw [List.pairwise_append]
      exact ⟨h2, by simp, by intro a _ b hb; simp at hb; subst hb; simp⟩
  · intro ho p
    have := h.one ho p
    rw [wait_queue]
    cases timeout with
    | none => exact this
    | some x => simpa [List.countP_append, Task.execOf] using this
  · intro ho x p y a _ hq ha hap
    have hq' : (x, Task.exec p y) ∈ s.queue := by
      rcases hq2 _ hq with hq | ⟨x', _, hq⟩
      · exact hq
      · simp at hq
    by_cases hX : X.thr p
    · have := hthr ho x p y hX hq'
      exact ⟨_, hm3, this.1.symm, this.2.symm, by simp, by simp⟩
    · have h3 : ∃ b ∈ s.ths, b.pid = p := by
        rcases hm a ha with ha | rfl
        · exact ⟨a, ha.1, hap⟩
        · exact ⟨t0, ht, hap⟩
      obtain ⟨b, b1, b2⟩ := h3
      obtain ⟨a', a1, a2, a3, a4, a5⟩ := h.thr ho x p y b hX hq' b1 b2
      exact ⟨a', hm2 a' a1 (by grind), a2, a3, a4, by simp⟩
  · intro x p y hq
    rcases hq2 _ hq with hq | ⟨x', _, hq⟩
    · exact h.eid x p y hq
    · simp at hq
  · intro x p y a hq ha hp hy
    have hq' : (x, Task.exec p y) ∈ s.queue := by
      rcases hq2 _ hq with hq | ⟨x', _, hq⟩
      · exact hq
      · simp at hq
    rcases hm a ha with ha | rfl
    · have := h.exn x p y a hq' ha.1 hp hy
      left
      rcases this with this | this
      · exact this
      · grind
    · simp
  · intro d o m hx hl htr hb
    by_cases hd : d = s.nc
    · subst hd
      simp [newCond] at htr hb
      exact absurd (hbits o m htr) hb
    · simp only [wait_conds, if_neg hd, wait_objs] at hl htr hb ⊢
      exact h.bits d o m hx hl htr hb
  · intro d hx hl hn
    by_cases hd : d = s.nc
    · subst hd; simp [newCond] at hn
    · simp only [wait_conds, if_neg hd] at hl hn ⊢
      exact h.notif d hx hl hn
  · intro d hn
    by_cases hd : d = s.nc
    · subst hd; simp [newCond] at hn
    · simp only [wait_conds, if_neg hd] at hn ⊢
      exact h.nfk d hn
  · intro d hn
    by_cases hd : d = s.nc
    · subst hd
      simp [newCond] at hn ⊢
      exact Option.isSome_iff_exists.1 (hh hn)
    · simp only [wait_conds, if_neg hd] at hn ⊢
      exact h.hld d hn
  · intro a d g hx ha hc' _ hg hb
    rcases hm a ha with ha | rfl
    · have hd := hown a d ha.1 hc'
      simp only [wait_conds, if_neg hd]
      exact h.tsig a d g hx ha.1 hc' (by grind) hg hb
    · simp at hc'
      subst hc'
      cases hheld : held
      · exact absurd (hpend2 g hheld hg) hb
      · simp [newCond]
  · intro p g a hX hg ha hap hb
    have hother : ∀ b, b ∈ s.ths → b.uid ≠ t0.uid → (∀ c, b.cond = some c → (s.conds c).sched = true ∨
        (s.conds c).held = true ∨ X.cnd c) → ∀ c, b.cond = some c →
        ((s.wait t trig timeout held).conds c).sched = true ∨ ((s.wait t trig timeout held).conds c).held = true ∨ X.cnd c := by
      intro b hb _ hr c hc
      have hd := hown b c hb hc
      simp only [wait_conds, if_neg hd]
      exact hr c hc
    have h3 : ∃ b ∈ s.ths, b.pid = p ∧ ¬ g ∈ b.blocked := by
      rcases hm a ha with ha | rfl
      · exact ⟨a, ha.1, hap, hb⟩
      · exact ⟨t0, ht, hap, hb⟩
    obtain ⟨b, b1, b2, b3⟩ := h3
    obtain ⟨a', a1, a2, a3, a4⟩ := h.psig p g b hX hg b1 b2 b3
    by_cases h6 : a'.uid = t0.uid
    · have := hI.uniq a' t0 a1 ht h6
      subst this
      cases hheld : held
      · exact absurd (hpend p g hheld hg a2) a3
      · refine ⟨_, hm3, a2, a3, Or.inr ?_⟩
        intro c hc
        simp at hc
        subst hc
        simp [newCond]
    · refine ⟨a', hm2 a' a1 h6, a2, a3, Or.inr (hother a' a1 h6 ?_)⟩
      rcases a4 with a4 | a4
      · grind
      · exact a4
  · intro d
    have h1 := h.lg d
    refine ⟨h1.1, ?_⟩
    intro h2
    have h3 := h1.2 h2
    have hd : d ≠ s.nc := by omega
    simp only [wait_conds, if_neg hd, wait_nc]
    exact ⟨by omega, h3.2⟩

theorem sched_in {s : St} (h : Cds s) {c : Nat} (hs : (s.conds c).sched = true) : ∃ x, (x, Task.wake c) ∈ s.queue := by
  have h1 := h.wk c
  rw [hs] at h1
  have h2 : 0 < s.queue.countP (fun x => x.2 = .wake c) := by
    unfold wakes at h1
    rw [h1]; simp
  obtain ⟨⟨x, k⟩, h3, h4⟩ := List.countP_pos_iff.1 h2
  simp at h4
  subst h4
  exact ⟨x, h3⟩

/-- A task of the queue other than a wakeup is taken. -/
theorem popSt_rest {s : St} (h : Rest s {}) (hC : Cds s) (hQ : Que s) {q x k} (hp : Pop s q x k) :
    Rest (popSt s q x) { tm := fun c => k = .timer c ∧ (s.conds c).armed = true, uid := fun u => ∃ t ∈ s.ths, t.uid = u ∧ k = .start t.pid t.tid } := by
  have hx := hQ.qge _ hp.hd
  constructor
  · intro t ht hX hc hu
    obtain ⟨y, hy⟩ := h.uns t ht (by simp) hc hu
    refine ⟨y, hp.back _ hy ?_⟩
    intro e
    cases e
    exact hX ⟨t, ht, rfl, rfl⟩
  · exact h.arm
  · intro c y hX hl hto
    have h1 := h.dl c y (by simp) hl hto
    simp only [popSt_now, popSt_queue, popSt_conds]
    cases ha : (s.conds c).armed
    · have h2 := h1.2.2 ha
      obtain ⟨z, hz⟩ := sched_in hC h2.2
      have h3 := hp.mn _ hz
      have h4 := hQ.qeq _ hz (by simp)
      simp at h3 h4 hx
      exact ⟨by omega, by simp, fun _ => ⟨by omega, h2.2⟩⟩
    · have h2 := h1.2.1 ha
      refine ⟨hp.mn _ h2, fun _ => hp.back _ h2 ?_, by simp⟩
      intro e
      cases e
      exact hX ⟨rfl, ha⟩
  · exact h.ord.sublist hp.sub
  · intro ho p
    have := h.one ho p
    have h2 := hp.cnt (fun q => q.2.execOf p)
    simp only [popSt_queue]
    omega
  · intro ho y p z t hX hq ht hpp
    exact h.thr ho y p z t (by simp) (hp.mem _ hq) ht hpp
  · intro y p z hq
    exact h.eid y p z (hp.mem _ hq)
  · intro y p z t hq
    exact h.exn y p z t (hp.mem _ hq)
  · exact h.bits
  · exact h.notif
  · exact h.nfk
  · exact h.hld
  · intro t c g hX
    exact h.tsig t c g (by simp)
  · exact h.psig
  · exact h.lg

/-- A wakeup is taken. -/
theorem relSt_rest {s : St} (h : Rest s {}) (hC : Cds s) (hQ : Que s) {q x c} (hp : Pop s q x (.wake c)) :
    Rest (relSt s q x c) { tm := fun d => d = c, cnd := fun d => d = c } := by
  have hx := hQ.qge _ hp.hd
  constructor
  · intro t ht hX hc hu
    obtain ⟨y, hy⟩ := h.uns t ht (by simp) hc hu
    exact ⟨y, hp.back _ hy (by simp)⟩
  · grind [→ h.arm]
  · intro d y hX hl hto
    simp only [relSt_conds, if_neg hX] at hl hto ⊢
    have h1 := h.dl d y (by simp) hl hto
    simp only [relSt_now, relSt_queue]
    cases ha : (s.conds d).armed
    · have h2 := h1.2.2 ha
      obtain ⟨z, hz⟩ := sched_in hC h2.2
      have h3 := hp.mn _ hz
      have h4 := hQ.qeq _ hz (by simp)
      simp at h3 h4 hx
      exact ⟨by omega, by simp, fun _ => ⟨by omega, h2.2⟩⟩
    · have h2 := h1.2.1 ha
      exact ⟨hp.mn _ h2, fun _ => hp.back _ h2 (by simp), by simp⟩
  · refine (h.ord.sublist hp.sub).imp ?_
    intro a b hab d p y
    have := hab d p y
    grind
  · intro ho p
    have := h.one ho p
    have h2 := hp.cnt (fun q => q.2.execOf p)
    simp only [relSt_queue]
    omega
  · intro ho y p z t hX hq ht hpp
    exact h.thr ho y p z t (by simp) (hp.mem _ hq) ht hpp
  · intro y p z hq
    exact h.eid y p z (hp.mem _ hq)
  · intro y p z t hq
    exact h.exn y p z t (hp.mem _ hq)
  · intro d o m hX
    have := h.bits d o m
    grind
  · intro d hX
    have := h.notif d
    grind
  · grind [→ h.nfk]
  · grind [→ h.hld]
  · intro t d g hX ht hc hu hg hb
    have := h.tsig t d g (by simp) ht hc hu hg hb
    grind
  · intro p g t hX hg ht hpp hb
    obtain ⟨a, a1, a2, a3, a4⟩ := h.psig p g t (by simp) hg ht hpp hb
    exact ⟨a, a1, a2, a3, by grind⟩
  · intro d
    have := h.lg d
    grind

/-- The new program starts. -/
theorem execSt_rest {s : St} {X : Ex} (h : Rest s X) (hI : Ids s) (hC : Cds s) {t : Th} {c p : Nat} (ht : t ∈ s.ths)
    (hn : s.cur = none) (hc : t.cond = some c) (hp : t.pid = p) (hal : ∀ t' ∈ s.ths, t'.pid = p → t' = t)
    (hX : ∀ p', X.thr p' ∨ X.pid p' → p' = p)
    (hone : s.odd = false → ∀ x y, (x, Task.exec p y) ∉ s.queue) :
    Rest (execSt s c t.uid p) { X with pid := fun _ => False, thr := fun _ => False } := by
  have ho := hC.own t c ht hc
  have hne : ∀ t' d, t' ∈ s.ths → t'.uid ≠ t.uid → t'.cond = some d → d ≠ c := by
    intro t' d h1 h2 h3
    have := hC.own t' d h1 h3
    grind
  have hm : ∀ a, a ∈ (execSt s c t.uid p).ths ↔ (a ∈ s.ths ∧ a.uid ≠ t.uid) ∨ a = { t with tid := p } := by
    intro a
    simp only [execSt_ths, List.mem_map]
    constructor
    · rintro ⟨b, hb, rfl⟩
      by_cases hx : b.uid = t.uid
      · have := hI.uniq b t hb ht hx
        subst this
        simp
      · simp [hx, hb]
    · rintro (⟨ha, hx⟩ | rfl)
      · exact ⟨a, ha, by rw [if_neg hx]⟩
      · exact ⟨t, ht, by simp⟩
  have hcur : ∀ a : Th, a.uid ≠ t.uid → (execSt s c t.uid p).cur ≠ some a.uid := by
    intro a ha e
    simp at e
    exact ha e.symm
  constructor
  · intro a ha hx hcn hcu
    rcases (hm a).1 ha with ha | rfl
    · exact h.uns a ha.1 hx hcn (by rw [hn]; simp)
    · exact absurd rfl hcu
  · grind [→ h.arm]
  · intro d x hx
    have := h.dl d x hx
    grind
  · refine h.ord.imp ?_
    intro a b hab d p x
    have := hab d p x
    grind
  · exact h.one
  · intro hodd x p' y a _ hq ha hap
    by_cases he : p' = p
    · subst he
      exact absurd hq (hone hodd x y)
    · rcases (hm a).1 ha with ha | rfl
      · obtain ⟨b, b1, b2, b3, b4, b5⟩ := h.thr hodd x p' y a (fun e => he (hX p' (Or.inl e))) hq ha.1 hap
        have hbu : b.uid ≠ t.uid := by grind [→ hI.uniq]
        exact ⟨b, (hm b).2 (Or.inl ⟨b1, hbu⟩), b2, b3, b4, hcur b hbu⟩
      · exact absurd (hap.symm.trans hp) he
  · exact h.eid
  · intro x p' y a hq ha hap hay
    rcases (hm a).1 ha with ha | rfl
    · left
      have := h.exn x p' y a hq ha.1 hap hay
      rw [hn] at this
      simpa using this
    · right; rfl
  · intro d o m hx
    have := h.bits d o m hx
    grind
  · intro d hx
    have := h.notif d hx
    grind
  · grind [→ h.nfk]
  · grind [→ h.hld]
  · intro a d g hx ha hc' hcu hg hb
    rcases (hm a).1 ha with ha | rfl
    · have := h.tsig a d g hx ha.1 hc' (by rw [hn]; simp) hg hb
      have := hne a d ha.1 ha.2 hc'
      grind
    · exact absurd rfl hcu
  · intro p' g a _ hg ha hap hb
    rcases (hm a).1 ha with ha | rfl
    · have he : p' ≠ p := by
        intro e
        exact ha.2 (by rw [hal a ha.1 (hap.trans e)])
      obtain ⟨b, b1, b2, b3, b4⟩ := h.psig p' g a (fun e => he (hX p' (Or.inr e))) hg ha.1 hap hb
      have hbu : b.uid ≠ t.uid := by
        intro e
        have := hI.uniq b t b1 ht e
        subst this
        exact he (b2.symm.trans hp)
      refine ⟨b, (hm b).2 (Or.inl ⟨b1, hbu⟩), b2, b3, Or.inr ?_⟩
      intro d hd
      have h5 := hne b d b1 hbu hd
      have := b4.resolve_left (by rw [hn]; simp) d hd
      grind
    · exact ⟨_, ha, hap, hb, Or.inl rfl⟩
  · intro d
    have := h.lg d
    simp only [execSt_log, List.countP_append, List.countP_cons, List.countP_nil]
    simp only [reduceCtorEq, decide_false, Bool.false_eq_true, if_false, Nat.add_zero]
    grind

/-- The running thread queues an `execve`. -/
theorem pushSt_rest {s : St} (h : Rest s {}) (hI : Ids s) (hC : Cds s) {t : Th} (ht : t ∈ s.ths)
    (hu : s.cur = some t.uid) : Rest (pushSt s t.pid t.tid) { thr := fun p => p = t.pid } := by
  have hl := hI.lt t ht
  constructor
  · intro a ha hx hcn hcu
    obtain ⟨x, hx⟩ := h.uns a ha hx hcn hcu
    exact ⟨x, by simp [hx]⟩
  · exact h.arm
  · intro d x hx
    have := h.dl d x hx
    grind
  · simp only [pushSt_queue, List.pairwise_append]
    refine ⟨h.ord, by simp, ?_⟩
    intro a ha b hb d p x h1 h2 h3 h4
    simp at hb
    subst hb
    cases h2
    obtain ⟨a1, a2⟩ := a
    simp at h1
    subst h1
    have hw : (s.conds d).sched = true := by
      cases hx : (s.conds d).sched
      · have := hC.wk d
        rw [hx] at this
        simp [wakes] at this
        exact absurd rfl (this a1 _ ha)
      · rfl
    cases hod : owned s d
    · exact hC.orph d hod hw
    · obtain ⟨b, b1, b2⟩ := mem_owned.1 hod
      by_cases hb : s.cur = some b.uid
      · exact (hC.runs b d b1 b2 hb).2 hw
      · have h5 := hC.wait b d b1 b2 hb
        have h6 := hI.tids b t b1 ht (h5.1.symm.trans h4)
        subst h6
        exact absurd hu hb
  · intro ho p
    simp at ho
    have := h.one ho.1 p
    simp only [pushSt_queue, List.countP_append, List.countP_cons, List.countP_nil]
    by_cases hp : t.pid = p
    · subst hp
      have : s.queue.countP (fun q => q.2.execOf t.pid) = 0 := by
        rw [List.countP_eq_zero]
        intro a ha
        have := ho.2 a.1 a.2 ha
        simp [this]
      rw [this]
      split <;> simp
    · simp [Task.execOf, hp]
      exact this
  · intro ho x p y a hX hq ha hap
    simp at ho
    simp at hq
    rcases hq with hq | hq
    · exact h.thr ho.1 x p y a (by simp) hq ha hap
    · exact absurd hq.2.1 hX
  · intro x p y hq
    simp at hq
    rcases hq with hq | hq
    · exact h.eid x p y hq
    · simp; omega
  · intro x p y a hq ha hp hy
    simp at hq
    rcases hq with hq | hq
    · exact h.exn x p y a hq ha hp hy
    · right
      have := hI.tids a t ha ht (by omega)
      subst this
      exact hu
  · exact h.bits
  · exact h.notif
  · exact h.nfk
  · exact h.hld
  · exact h.tsig
  · exact h.psig
  · exact h.lg

/-- A new thread. -/
theorem addTh_rest {s : St} (h : Rest s {}) (p : Nat) (t : Th)
    (hp : p = s.next ∨ ∃ t0 ∈ s.ths, t0.pid = p) : Rest (s.addTh p t) {} := by
  constructor
  · intro a ha hx hcn hcu
    simp only [addTh_ths, List.mem_append, List.mem_singleton] at ha
    rcases ha with ha | rfl
    · obtain ⟨x, hx⟩ := h.uns a ha hx hcn hcu
      exact ⟨x, by simp [hx]⟩
    · exact ⟨s.now, by simp⟩
  · exact h.arm
  · intro d x hx
    have := h.dl d x hx
    grind
  · simp only [addTh_queue, List.pairwise_append]
    exact ⟨h.ord, by simp, by simp⟩
  · intro ho p'
    have := h.one ho p'
    simpa [List.countP_append, Task.execOf] using this
  · intro ho x p' y a hX hq ha hap
    simp at hq
    simp only [addTh_ths, List.mem_append, List.mem_singleton] at ha
    rcases ha with ha | rfl
    · obtain ⟨b, b1, b2⟩ := h.thr ho x p' y a (by simp) hq ha hap
      exact ⟨b, by simp [b1], b2⟩
    · simp only at hap
      subst hap
      rcases hp with hp | ⟨t0, h1, h2⟩
      · have := (h.eid x p y hq).1
        omega
      · obtain ⟨b, b1, b2⟩ := h.thr ho x p y t0 (by simp) hq h1 h2
        exact ⟨b, by simp [b1], b2⟩
  · intro x p' y hq
    simp at hq
    have := h.eid x p' y hq
    simp; omega
  · intro x p' y a hq ha hpp hy
    simp at hq
    simp only [addTh_ths, List.mem_append, List.mem_singleton] at ha
    rcases ha with ha | rfl
    · exact h.exn x p' y a hq ha hpp hy
    · have := h.eid x p' y hq
      simp at hy
      omega
  · exact h.bits
  · exact h.notif
  · exact h.nfk
  · exact h.hld
  · intro a d g hx ha hc
    simp only [addTh_ths, List.mem_append, List.mem_singleton] at ha
    rcases ha with ha | rfl
    · exact h.tsig a d g hx ha hc
    · cases hc
  · intro p' g a hx hg ha hap hb
    simp only [addTh_ths, List.mem_append, List.mem_singleton] at ha
    rcases ha with ha | rfl
    · obtain ⟨b, b1, b2⟩ := h.psig p' g a hx hg ha hap hb
      exact ⟨b, by simp [b1], b2⟩
    · exact ⟨_, by simp, hap, hb, Or.inr (by simp)⟩
  · exact h.lg

/-- A wakeup is queued: the condition needs no exception any more. -/
theorem Rest.done {s : St} {X : Ex} (h : Rest s X) {c : Nat} (hs : (s.conds c).sched = true) :
    Rest s { X with cnd := fun d => X.cnd d ∧ d ≠ c } := by
  constructor
  · exact h.uns
  · exact h.arm
  · exact h.dl
  · exact h.ord
  · exact h.one
  · exact h.thr
  · exact h.eid
  · exact h.exn
  · intro d o m hX
    by_cases hd : d = c
    · subst hd; intros; exact hs
    · exact h.bits d o m (fun e => hX ⟨e, hd⟩)
  · intro d hX
    by_cases hd : d = c
    · subst hd; intros; exact hs
    · exact h.notif d (fun e => hX ⟨e, hd⟩)
  · exact h.nfk
  · exact h.hld
  · intro t d g hX ht hc hu hg hb
    have := h.tsig t d g hX ht hc hu hg hb
    by_cases hd : d = c
    · subst hd; exact Or.inl hs
    · simpa [hd] using this
  · intro p g t hX hg ht hpp hb
    obtain ⟨a, a1, a2, a3, a4⟩ := h.psig p g t hX hg ht hpp hb
    refine ⟨a, a1, a2, a3, a4.imp id ?_⟩
    intro h5 d hd'
    by_cases hd : d = c
    · subst hd; exact Or.inl hs
    · simpa [hd] using h5 d hd'
  · exact h.lg

/-- The wakeup of a condition that waits is queued, at once or already. -/
theorem sched_inv {s : St} {X : Ex} (hC : Core s) (h : Rest s X) {c : Nat} (hl : (s.conds c).listening = true) :
    ∃ s', s.sched c = .ok s' ∧ Core s' ∧ Rest s' { X with cnd := fun d => X.cnd d ∧ d ≠ c } ∧
      (s'.conds c).sched = true ∧ s'.now = s.now ∧ s'.ths = s.ths ∧ s'.nc = s.nc ∧
      (∀ d, s'.conds d = { s.conds d with refs := (s'.conds d).refs, sched := (s'.conds d).sched }) ∧
      s'.cur = s.cur ∧ s'.log = s.log := by
  rcases sched_cases hC.toCds hl with ⟨h1, h2⟩ | ⟨h1, h2⟩
  · exact ⟨s, h2, hC, h.done h1, h1, rfl, rfl, rfl, fun _ => rfl, rfl, rfl⟩
  · refine ⟨schedSt s c, h2, schedSt_core hC hl h1, schedSt_rest h hC.toCds hl h1, by simp, rfl, rfl, rfl, ?_, rfl, rfl⟩
    intro d
    simp only [schedSt_conds]
    split
    · next e => subst e; rfl
    · rfl

/-- A timer of a condition needs no exception. -/
theorem Rest.fixTm {s : St} {X : Ex} (h : Rest s X)
    (hx : ∀ c x, X.tm c → (s.conds c).listening = true → (s.conds c).timeout = some x → s.now ≤ x ∧
      ((s.conds c).armed = true → (x, Task.timer c) ∈ s.queue) ∧
      ((s.conds c).armed = false → x ≤ s.now ∧ (s.conds c).sched = true)) :
    Rest s { X with tm := fun _ => False } := by
  constructor
  · exact h.uns
  · exact h.arm
  · intro c x _
    by_cases hX : X.tm c
    · exact hx c x hX
    · exact h.dl c x hX
  · exact h.ord
  · exact h.one
  · exact h.thr
  · exact h.eid
  · exact h.exn
  · exact h.bits
  · exact h.notif
  · exact h.nfk
  · exact h.hld
  · exact h.tsig
  · exact h.psig
  · exact h.lg

/-- A condition needs no exception if nothing that it waits for is there. -/
theorem Rest.fixCnd {s : St} {X : Ex} (h : Rest s X) (hC : Cds s) (hn : s.cur = none)
    (hx : ∀ c t, X.cnd c → t ∈ s.ths → t.cond = some c → s.statusIsValid (s.conds c) = false ∧ s.pending t = false) :
    Rest s { X with cnd := fun _ => False } := by
  have hp : ∀ t g, s.pending t = false → g ∈ t.pend → g ∈ t.blocked := by
    intro t g h1 h2
    simp [St.pending] at h1
    exact h1.1 g h2
  have hq : ∀ t p g, s.pending t = false → (p, g) ∈ s.ppend → t.pid = p → g ∈ t.blocked := by
    intro t p g h1 h2 h3
    simp [St.pending] at h1
    exact h1.2 p g h2 h3.symm
  constructor
  · exact h.uns
  · exact h.arm
  · exact h.dl
  · exact h.ord
  · exact h.one
  · exact h.thr
  · exact h.eid
  · exact h.exn
  · intro c o m _ hl ht hb
    by_cases hX : X.cnd c
    · obtain ⟨t, h1, h2⟩ := hC.lis c hl
      have h3 := (hx c t hX h1 h2).1
      simp [St.statusIsValid, ht] at h3
      exact absurd h3 hb
    · exact h.bits c o m hX hl ht hb
  · intro c _ hl hb
    by_cases hX : X.cnd c
    · obtain ⟨t, h1, h2⟩ := hC.lis c hl
      have h3 := (hx c t hX h1 h2).1
      rcases h.nfk c hb with h4 | h4 <;> simp [St.statusIsValid, h4] at h3
    · exact h.notif c hX hl hb
  · exact h.nfk
  · exact h.hld
  · intro t c g hX ht hc hu hg hb
    rcases h.tsig t c g hX ht hc hu hg hb with h1 | h1 | h1
    · exact Or.inl h1
    · exact Or.inr (Or.inl h1)
    · exact absurd (hp t g (hx c t h1 ht hc).2 hg) hb
  · intro p g t hX hg ht hpp hb
    obtain ⟨a, a1, a2, a3, a4⟩ := h.psig p g t hX hg ht hpp hb
    refine ⟨a, a1, a2, a3, Or.inr ?_⟩
    intro c hc
    rcases a4.resolve_left (by rw [hn]; simp) c hc with h1 | h1 | h1
    · exact Or.inl h1
    · exact Or.inr (Or.inl h1)
    · exact absurd (hq a p g (hx c a h1 a1 hc).2 hg a2) a3
  · exact h.lg

/-- A process without threads needs no exception. -/
theorem Rest.fixPid {s : St} {X : Ex} (h : Rest s X)
    (hx : ∀ p, X.pid p ∨ X.thr p → ∀ t ∈ s.ths, t.pid ≠ p) :
    Rest s { X with pid := fun _ => False, thr := fun _ => False } := by
  constructor
  · exact h.uns
  · exact h.arm
  · exact h.dl
  · exact h.ord
  · exact h.one
  · intro ho x p y t _ hq ht hp
    exact h.thr ho x p y t (fun e => hx p (Or.inr e) t ht hp) hq ht hp
  · exact h.eid
  · exact h.exn
  · exact h.bits
  · exact h.notif
  · exact h.nfk
  · exact h.hld
  · exact h.tsig
  · intro p g t _ hg ht hpp hb
    exact h.psig p g t (fun e => hx p (Or.inl e) t ht hpp) hg ht hpp hb
  · exact h.lg

/-- The ghost that marks two programs in one process. -/
def oddSt (s : St) (b : Bool) : St := { s with odd := s.odd || b }

theorem oddSt_core {s : St} (h : Core s) (b : Bool) : Core (oddSt s b) :=
  { uniq := h.uniq, lt := h.lt, tids := h.tids, lead := h.lead, tidOf := h.tidOf, cur := h.cur
    own := h.own, wait := h.wait, runs := h.runs, lis := h.lis, tim := h.tim, refs := h.refs, freed := h.freed
    fresh := h.fresh, wk := h.wk, orph := h.orph, gone := h.gone, clt := h.clt
    qge := h.qge, qeq := h.qeq, qtim := h.qtim, qstart := h.qstart, qlead := h.qlead, qone := h.qone
    qvirg := h.qvirg, qsid := h.qsid, nd := h.nd }

theorem oddSt_rest {s : St} {X : Ex} (h : Rest s X) (b : Bool) : Rest (oddSt s b) X := by
  have ho : (oddSt s b).odd = false → s.odd = false := by simp [oddSt]; intros; assumption
  exact
  { uns := h.uns, arm := h.arm, dl := h.dl, ord := h.ord, one := fun e => h.one (ho e), thr := fun e => h.thr (ho e)
    eid := h.eid, exn := h.exn, bits := h.bits, notif := h.notif, nfk := h.nfk, hld := h.hld, tsig := h.tsig
    psig := h.psig, lg := h.lg }

/-- Time passes. -/
def tickSt (s : St) (d : Nat) : St := { s with now := s.now + d }

theorem tickSt_core {s : St} (h : Core s) {d : Nat} (ha : ∀ q ∈ s.queue, s.now + d ≤ q.1) : Core (tickSt s d) :=
  { uniq := h.uniq, lt := h.lt, tids := h.tids, lead := h.lead, tidOf := h.tidOf, cur := h.cur
    own := h.own, wait := h.wait, runs := h.runs, lis := h.lis, tim := h.tim, refs := h.refs, freed := h.freed
    fresh := h.fresh, wk := h.wk, orph := h.orph, gone := h.gone, clt := h.clt
    qge := ha, qeq := fun q hq hn => Nat.le_trans (h.qeq q hq hn) (Nat.le_add_right _ _)
    qtim := h.qtim, qstart := h.qstart, qlead := h.qlead, qone := h.qone, qvirg := h.qvirg, qsid := h.qsid, nd := h.nd }

theorem tickSt_rest {s : St} (h : Rest s {}) (hC : Cds s) (hQ : Que s) {d : Nat} (ha : ∀ q ∈ s.queue, s.now + d ≤ q.1) :
    Rest (tickSt s d) {} := by
  refine
  { uns := h.uns, arm := h.arm, dl := ?_, ord := h.ord, one := h.one, thr := h.thr
    eid := h.eid, exn := h.exn, bits := h.bits, notif := h.notif, nfk := h.nfk, hld := h.hld, tsig := h.tsig
    psig := h.psig, lg := h.lg }
  intro c x hX hl hto
  have h1 := h.dl c x hX hl hto
  simp only [tickSt]
  cases hr : (s.conds c).armed
  · have h2 := h1.2.2 hr
    obtain ⟨z, hz⟩ := sched_in hC h2.2
    have h3 := ha _ hz
    have h4 := hQ.qeq _ hz (by simp)
    simp at h3 h4
    exact ⟨by omega, by simp, fun _ => ⟨by omega, h2.2⟩⟩
  · have h2 := h1.2.1 hr
    exact ⟨ha _ h2, fun _ => h2, by simp⟩

/-- The state of a file is set. -/
def objSt (s : St) (o : Nat) (v : BitVec 16) : St := { s with objs := fun i => if i = o then v else s.objs i }

theorem objSt_core {s : St} (h : Core s) (o : Nat) (v : BitVec 16) : Core (objSt s o v) :=
  { uniq := h.uniq, lt := h.lt, tids := h.tids, lead := h.lead, tidOf := h.tidOf, cur := h.cur
    own := h.own, wait := h.wait, runs := h.runs, lis := h.lis, tim := h.tim, refs := h.refs, freed := h.freed
    fresh := h.fresh, wk := h.wk, orph := h.orph, gone := h.gone, clt := h.clt
    qge := h.qge, qeq := h.qeq, qtim := h.qtim, qstart := h.qstart, qlead := h.qlead, qone := h.qone
    qvirg := h.qvirg, qsid := h.qsid, nd := h.nd }

/-- Must this condition be told of the change? -/
def mustTell (s : St) (o : Nat) (old new : BitVec 16) (c : Nat) : Prop :=
  ∃ m, (s.conds c).trig = .file o m ∧ (s.conds c).listening = true ∧ shouldNotify m new (old ^^^ new) = true

theorem same_bits {m old new : BitVec 16} (h1 : new &&& m ≠ 0) (h2 : shouldNotify m new (old ^^^ new) = false) :
    old &&& m ≠ 0 := by
  intro h3
  simp only [shouldNotify, Bool.and_eq_false_iff, decide_eq_false_iff_not, ne_eq, Decidable.not_not] at h2
  rcases h2 with h2 | h2
  · apply h1
    ext i hi
    have e1 := congrArg (fun b => b[i]'hi) h2
    have e2 := congrArg (fun b => b[i]'hi) h3
    simp at e1 e2 ⊢
    cases ha : new[i] <;> cases hb : m[i] <;> simp_all
  · exact h1 (by rw [BitVec.and_comm]; exact h2)

theorem objSt_rest {s : St} (h : Rest s {}) (hC : Cds s) (o : Nat) (v : BitVec 16) :
    Rest (objSt s o v) { cnd := fun c => c ∈ List.range s.nc ∧ mustTell s o (s.objs o) v c } := by
  refine
  { uns := h.uns, arm := h.arm, dl := h.dl, ord := h.ord, one := h.one, thr := h.thr
    eid := h.eid, exn := h.exn, bits := ?_, notif := ?_, nfk := h.nfk, hld := h.hld, tsig := ?_
    psig := ?_, lg := h.lg }
  · intro c o' m hX hl ht hb
    simp only [objSt] at hl ht hb ⊢
    by_cases ho : o' = o
    · subst ho
      rw [if_pos rfl] at hb
      have hc : c ∈ List.range s.nc := List.mem_range.2 (not_freed hC hl).1
      cases hsn : shouldNotify m v (s.objs o' ^^^ v)
      · exact h.bits c o' m (by simp) hl ht (same_bits hb hsn)
      · exact absurd ⟨hc, m, ht, hl, hsn⟩ hX
    · rw [if_neg ho] at hb
      exact h.bits c o' m (by simp) hl ht hb
  · intro c hX
    exact h.notif c (by simp)
  · intro t c g hX ht hc hu hg hb
    have := h.tsig t c g hX ht hc hu hg hb
    simp only [objSt, or_false] at this ⊢
    exact this.elim Or.inl (fun e => Or.inr (Or.inl e))
  · intro p g t hX hg ht hpp hb
    obtain ⟨a, a1, a2, a3, a4⟩ := h.psig p g t hX hg ht hpp hb
    refine ⟨a, a1, a2, a3, a4.imp id ?_⟩
    intro h5 d hd
    have := h5 d hd
    simp only [objSt, or_false] at this ⊢
    exact this.elim Or.inl (fun e => Or.inr (Or.inl e))

theorem tell_inv (o : Nat) (old new : BitVec 16) (s0 : St) : ∀ (L : List Nat) (s : St), Core s →
    Rest s { cnd := fun c => c ∈ L ∧ mustTell s0 o old new c } →
    (∀ d, (s.conds d).trig = (s0.conds d).trig ∧ (s.conds d).listening = (s0.conds d).listening) →
    ∃ s', s.tell o old new L = .ok s' ∧ Core s' ∧ Rest s' {}
  | [], s, hC, hR, _ => ⟨s, rfl, hC, hR.mono (by simp) (by simp) (by simp) (by simp) (by simp)⟩
  | c :: cs, s, hC, hR, he => by
    have hno : ¬ mustTell s0 o old new c → ∃ s', s.tell o old new cs = .ok s' ∧ Core s' ∧ Rest s' {} := by
      intro hm
      refine tell_inv o old new s0 cs s hC (hR.mono (by simp) ?_ (by simp) (by simp) (by simp)) he
      rintro d ⟨h1, h2⟩
      refine ⟨?_, h2⟩
      rcases List.mem_cons.1 h1 with rfl | h1
      · exact absurd h2 hm
      · exact h1
    cases ht : (s.conds c).trig with
    | file o' m =>
      simp only [St.tell, ht]
      split
      · next hb =>
        simp only [Bool.and_eq_true, decide_eq_true_eq] at hb
        obtain ⟨s', h1, h2, h3, h4, h5, h6, h7, h8, _⟩ := sched_inv hC hR hb.1.1
        rw [h1, R.bind_ok]
        refine tell_inv o old new s0 cs s' h2 (h3.mono (by simp) ?_ (by simp) (by simp) (by simp)) ?_
        · rintro d ⟨⟨e1, e2⟩, e3⟩
          refine ⟨?_, e2⟩
          rcases List.mem_cons.1 e1 with rfl | e1
          · exact absurd rfl e3
          · exact e1
        · intro d
          rw [h8 d]
          exact he d
      · next hb =>
        rw [R.bind_ok]
        apply hno
        rintro ⟨m', e1, e2, e3⟩
        rw [← (he c).1, ht] at e1
        cases e1
        rw [← (he c).2] at e2
        simp [e2, e3] at hb
    | none =>
      simp only [St.tell, ht, R.bind_ok]
      apply hno
      rintro ⟨m', e1, e2, e3⟩
      rw [← (he c).1, ht] at e1
      cases e1
    | futex =>
      simp only [St.tell, ht, R.bind_ok]
      apply hno
      rintro ⟨m', e1, e2, e3⟩
      rw [← (he c).1, ht] at e1
      cases e1
    | child =>
      simp only [St.tell, ht, R.bind_ok]
      apply hno
      rintro ⟨m', e1, e2, e3⟩
      rw [← (he c).1, ht] at e1
      cases e1

/-- `notified` and `armed` of a condition change. -/
theorem upd_core {s : St} (h : Core s) {c : Nat} (hc : c < s.nc) {f : Cond → Cond}
    (hf : ∀ k, f k = { k with armed := (f k).armed, notified := (f k).notified }) : Core (s.upd c f) := by
  have hd : ∀ d, (s.upd c f).conds d = { s.conds d with
      armed := ((s.upd c f).conds d).armed, notified := ((s.upd c f).conds d).notified } := by
    intro d
    simp only [upd_conds]
    split
    · next e => subst e; exact hf _
    · rfl
  exact
  { uniq := h.uniq, lt := h.lt, tids := h.tids, lead := h.lead, tidOf := h.tidOf, cur := h.cur
    own := fun t d => by rw [hd d]; exact h.own t d
    wait := fun t d => by rw [hd d]; exact h.wait t d
    runs := fun t d => by rw [hd d]; exact h.runs t d
    lis := fun d => by rw [hd d]; exact h.lis d
    tim := fun d => by rw [hd d]; exact h.tim d
    refs := fun d => by rw [hd d]; exact h.refs d
    freed := fun d => by rw [hd d]; exact h.freed d
    fresh := fun d hdd => by
      have : d ≠ c := by simp at hdd; omega
      simp only [upd_conds, if_neg this]
      exact h.fresh d hdd
    wk := fun d => by rw [hd d]; exact h.wk d
    orph := fun d => by rw [hd d]; exact h.orph d
    gone := fun d => by rw [hd d]; exact h.gone d
    clt := fun d => by rw [hd d]; exact h.clt d
    qge := h.qge, qeq := h.qeq
    qtim := fun x d => by rw [hd d]; exact h.qtim x d
    qstart := h.qstart, qlead := h.qlead, qone := h.qone
    qvirg := fun x p y d => by rw [hd d]; exact h.qvirg x p y d
    qsid := h.qsid, nd := h.nd }

theorem notified_rest {s : St} (h : Rest s {}) {c : Nat} (hk : (s.conds c).trig = .futex ∨ (s.conds c).trig = .child) :
    Rest (s.upd c fun k => { k with notified := true }) { cnd := fun d => d = c } := by
  constructor
  · exact h.uns
  · grind [→ h.arm]
  · intro d x hx
    have := h.dl d x hx
    grind
  · refine h.ord.imp ?_
    intro a b hab d p x
    have := hab d p x
    grind
  · exact h.one
  · exact h.thr
  · exact h.eid
  · exact h.exn
  · intro d o m hx
    have := h.bits d o m
    grind
  · intro d hx
    have := h.notif d
    grind
  · intro d hx
    have := h.nfk d
    grind
  · grind [→ h.hld]
  · intro a d g hx ha hc' hcu hg hb
    have := h.tsig a d g hx ha hc' hcu hg hb
    grind
  · intro p' g a hX hg ha hap hb
    obtain ⟨b, b1, b2, b3, b4⟩ := h.psig p' g a hX hg ha hap hb
    refine ⟨b, b1, b2, b3, b4.imp id ?_⟩
    intro h5 d hd
    have := h5 d hd
    grind
  · intro d
    have := h.lg d
    grind

theorem disarm_rest {s : St} {X : Ex} (h : Rest s X) {c : Nat} :
    Rest (s.upd c fun k => { k with armed := false }) { X with tm := fun d => X.tm d ∨ d = c } := by
  constructor
  · exact h.uns
  · grind [→ h.arm]
  · intro d x hx
    have := h.dl d x
    grind
  · refine h.ord.imp ?_
    intro a b hab d p x
    have := hab d p x
    grind
  · exact h.one
  · exact h.thr
  · exact h.eid
  · exact h.exn
  · intro d o m hx
    have := h.bits d o m
    grind
  · intro d hx
    have := h.notif d
    grind
  · intro d hx
    have := h.nfk d
    grind
  · grind [→ h.hld]
  · intro a d g hx ha hc' hcu hg hb
    have := h.tsig a d g hx ha hc' hcu hg hb
    grind
  · intro p' g a hX hg ha hap hb
    obtain ⟨b, b1, b2, b3, b4⟩ := h.psig p' g a hX hg ha hap hb
    refine ⟨b, b1, b2, b3, b4.imp id ?_⟩
    intro h5 d hd
    have := h5 d hd
    grind
  · intro d
    have := h.lg d
    grind

/-- Signals of threads or processes change. -/
theorem sigSt_rest {s : St} (h : Rest s {}) {f : Th → Th} (hf : SigOnly f) {pp : List (Nat × Nat)} {C : Nat → Prop}
    (ht : ∀ t ∈ s.ths, ∀ c g, t.cond = some c → s.cur ≠ some t.uid → g ∈ (f t).pend → ¬ g ∈ (f t).blocked →
      (g ∈ t.pend ∧ ¬ g ∈ t.blocked) ∨ C c)
    (hp : ∀ p g t, (p, g) ∈ pp → t ∈ s.ths → t.pid = p → ¬ g ∈ (f t).blocked →
      ∃ t' ∈ s.ths, t'.pid = p ∧ ¬ g ∈ (f t').blocked ∧
        (s.cur = some t'.uid ∨ ∀ c, t'.cond = some c → (s.conds c).sched = true ∨ (s.conds c).held = true ∨ C c)) :
    Rest (sigSt s f pp) { cnd := C } := by
  have hm : ∀ t, t ∈ (sigSt s f pp).ths → ∃ a ∈ s.ths, f a = t := by
    intro t ht
    simpa using ht
  have hm' : ∀ t ∈ s.ths, f t ∈ (sigSt s f pp).ths := by
    intro t ht
    simp only [sigSt_ths, List.mem_map]
    exact ⟨t, ht, rfl⟩
  constructor
  · intro t ht hX hc hu
    obtain ⟨a, ha, rfl⟩ := hm t ht
    obtain ⟨f1, f2, f3, f4⟩ := hf a
    rw [f2, f3]
    exact h.uns a ha (by simp) (by rw [← f4]; exact hc) (by rw [← f1]; exact hu)
  · exact h.arm
  · exact h.dl
  · exact h.ord
  · exact h.one
  · intro ho x p y t hX hq ht hpp
    obtain ⟨a, ha, rfl⟩ := hm t ht
    obtain ⟨f1, f2, f3, f4⟩ := hf a
    obtain ⟨b, b1, b2, b3, b4, b5⟩ := h.thr ho x p y a (by simp) hq ha (by rw [← f2]; exact hpp)
    obtain ⟨g1, g2, g3, g4⟩ := hf b
    exact ⟨f b, hm' b b1, by rw [g2]; exact b2, by rw [g3]; exact b3, by rw [g4]; exact b4, by rw [g1]; exact b5⟩
  · exact h.eid
  · intro x p y t hq ht hpp hy
    obtain ⟨a, ha, rfl⟩ := hm t ht
    obtain ⟨f1, f2, f3, f4⟩ := hf a
    rw [f4, f1]
    exact h.exn x p y a hq ha (by rw [← f2]; exact hpp) (by rw [← f3]; exact hy)
  · exact fun c o m _ => h.bits c o m (by simp)
  · exact fun c _ => h.notif c (by simp)
  · exact h.nfk
  · exact h.hld
  · intro t c g hX ht' hc hu hg hb
    obtain ⟨a, ha, rfl⟩ := hm t ht'
    obtain ⟨f1, f2, f3, f4⟩ := hf a
    rw [f4] at hc
    rw [f1] at hu
    rcases ht a ha c g hc hu hg hb with ⟨e1, e2⟩ | e
    · have := h.tsig a c g (by simp) ha hc hu e1 e2
      simp only [or_false] at this
      exact this.elim Or.inl (fun e => Or.inr (Or.inl e))
    · exact Or.inr (Or.inr e)
  · intro p g t hX hg ht hpp hb
    obtain ⟨a, ha, rfl⟩ := hm t ht
    obtain ⟨f1, f2, f3, f4⟩ := hf a
    obtain ⟨b, b1, b2, b3, b4⟩ := hp p g a hg ha (by rw [← f2]; exact hpp) hb
    obtain ⟨g1, g2, g3, g4⟩ := hf b
    refine ⟨f b, hm' b b1, by rw [g2]; exact b2, b3, ?_⟩
    rw [g1, g4]
    exact b4
  · exact h.lg

end Shadow.Wake
