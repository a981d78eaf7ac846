import Verif.Pool.BoundedMain

/-!
# The thread pool of the thread-per-host scheduler: every step keeps the invariant
-/
namespace Shadow.Pool.Bounded

open Shadow.Base Shadow.Latch

variable {s : St} {w : CountDown.Waiter} {c : Nat → CountDown.Counter} {pl : Nat → Place} {bat : Nat → Option Agent} {pend : Nat → Agent}

/-- A thread at the start. -/
theorem TInv.new {r j ps : Bool} {W q : Nat} {d : CountDown.Counter} (h1 : d.live = true) (h2 : d.pending = false) (h3 : d.passed = 0) :
    TInv r j ps [] W .check false q [] false d := by
  constructor <;> simp [h1, h2, h3, TPc.busy, TPc.after, TPc.proc]

theorem Inv.new (hi : Inv s w c pl bat pend) (h : s.main = .making) {i : Nat} (hin : i < s.n) : (c i).live = true ∧ (c i).pending = false ∧ (c i).passed = 0 := by
  have ht := hi.thr i hin
  obtain ⟨h1, _⟩ := hi.fresh h i
  rw [h1] at ht
  have hiss := hi.mn.making h
  have := ht.le (by simp)
  rw [hiss] at this
  refine ⟨ht.live.2 (by simp), ?_, by simpa using this⟩
  cases hp : (c i).pending with
  | false => rfl
  | true => have := ht.pend.1 hp; cases this

theorem Inv.spawn (hi : Inv s w c pl bat pend) (h : s.main = .making) (hn : s.n + 2 < CountDown.U) :
    ∃ fin' c', CountDown.step s.fin (.cloneCounter 0) = some (.ok fin') ∧ Inv { s with fin := fin', n := s.n + 1 } w c' (fun _ => .ready) bat pend := by
  have hout : w.pc = .out := by
    by_cases e : w.pc = .out
    · exact e
    · exact absurd e (hi.out (by rw [h]; simp) (by rw [h]; simp))
  obtain ⟨d, h1, h2, h3, h4⟩ := hi.c0
  have h2' : d.live = true := by rw [h2, h]; rfl
  have hlen := hi.len
  obtain ⟨fin', f1, f2, f3⟩ := (hi.fin (by rw [h]; simp)).cloneCounter (by omega) h1 h2' h3 hout
  refine ⟨fin', upd c s.n d, f1, ?_⟩
  have hiss := hi.mn.making h
  constructor
  case fin => exact fun _ => f2
  case len => simp [f3, hlen]
  case c0 =>
    refine ⟨d, ?_, h2, h3, h4⟩
    show fin'.cs[0]? = _
    rw [f3, List.getElem?_append_left (by omega)]; exact h1
  case cs =>
    intro i hin
    have hin : i < s.n + 1 := hin
    show fin'.cs[i + 1]? = _
    rw [f3]
    by_cases e : i = s.n
    · subst e; rw [upd_same, List.getElem?_append_right (by omega)]; simp [hlen]
    · rw [upd_ne _ _ _ _ e, List.getElem?_append_left (by omega)]; exact hi.cs i (by omega)
  case thr =>
    intro i hin
    have hin : i < s.n + 1 := hin
    obtain ⟨g1, g2, g3, g4, _⟩ := hi.fresh h i
    show TInv _ _ _ s.issued _ (s.pc i) (s.flag i) _ (s.ran i) (s.crashed i) _
    rw [g1, g2, g3, g4, hiss]
    by_cases e : i = s.n
    · subst e; rw [upd_same]; exact TInv.new h2' h3 h4
    · rw [upd_ne _ _ _ _ e]
      obtain ⟨k1, k2, k3⟩ := hi.new h (i := i) (by omega)
      exact TInv.new k1 k2 k3
  case outr => intro i _; exact (hi.fresh h i).1
  case fresh => exact fun _ => hi.fresh h
  case q => exact fun e => absurd h e
  case rnd => intro e; rw [show ({ s with fin := fin', n := s.n + 1 } : St).main = .making from h] at e; cases e
  case jn => intro e; rw [show ({ s with fin := fin', n := s.n + 1 } : St).main = .making from h] at e; cases e
  case pn => intro i _ e; have := (hi.fresh h i).1; rw [show s.pc i = .park from e] at this; cases this
  case mn => exact hi.mn
  case post => intro e; rw [show ({ s with fin := fin', n := s.n + 1 } : St).main = .making from h] at e; cases e
  case idle => intros; rfl
  case blame => intro e; have := hi.mn.pois h; rw [show s.poisoned = true from e] at this; cases this
  case over => intro e; have := h.symm.trans e; cases this
  case check => intro b e; rcases e with ⟨_, _, e⟩ | ⟨_, e⟩ <;> (have := h.symm.trans e; cases this)
  case joins => intro b k e; have := h.symm.trans e; cases this
  case unp => intro b k half e; have := h.symm.trans e; cases this
  case aff => intro i _; exact .inl (hi.fresh h i).2.2.2.2.1

theorem Inv.made (hi : Inv s w c pl bat pend) (h : s.main = .making) (cpus : List (Option Nat)) (hc : cpus ≠ [] ∨ s.n = 0) :
    ∃ fin' w', CountDown.step s.fin (.dropCounter 0) = some (.ok fin') ∧
      Inv { s with fin := fin', main := .idle none, cpus := cpus.take s.n, lpi := fun i => i % (cpus.take s.n).length,
                   ready := fun q => if q < (cpus.take s.n).length then (List.range s.n).filter (fun i => i % (cpus.take s.n).length = q) else [] }
        w' c (fun _ => .ready) bat pend := by
  have hno : s.main ≠ .over := by rw [h]; simp
  have hout := hi.out hno (by rw [h]; simp)
  obtain ⟨d, h1, h2, h3, h4⟩ := hi.c0
  have h2' : d.live = true := by rw [h2, h]; rfl
  obtain ⟨fin', w', f1, f2, f3, f4, f5⟩ := (hi.fin hno).dropCounter h1 h2' h3
  refine ⟨fin', w', f1, ?_⟩
  have hout' : w'.pc = .out := f5.2 (by
    by_cases e : w.pc = .out
    · exact e
    · exact absurd e hout)
  have hiss := hi.mn.making h
  have hps := hi.mn.pois h
  have g2 := hi.mn.tk
  have g1 := hi.mn.iss
  rw [h] at g2 g1
  have hlen := hi.len
  have hpos : ∀ i, i < s.n → 0 < (cpus.take s.n).length := by
    intro i hin
    rcases hc with e | e
    · have : 0 < cpus.length := List.length_pos_iff.2 e
      rw [List.length_take]; omega
    · omega
  generalize hP : cpus.take s.n = cp at *
  have hst0 : ∀ s' : St, s'.main = .idle none → s'.pc = s.pc → ∀ a, s'.starter a = none := by
    intro s' hm hp a
    cases a with
    | none => simp [St.starter, hm, MPc.starter]
    | some i => simp [St.starter, hp, (hi.fresh h i).1, TPc.starter]
  constructor
  case fin => exact fun _ => f2
  case len => show fin'.cs.length = _; rw [f3, List.length_set]; exact hlen
  case c0 =>
    refine ⟨{ d with live := false }, ?_, rfl, h3, h4⟩
    show fin'.cs[0]? = _
    rw [f3]; exact getElem?_set_self' h1
  case cs =>
    intro i hin
    show fin'.cs[i + 1]? = _
    rw [f3, List.getElem?_set_ne (by omega)]; exact hi.cs i hin
  case thr =>
    intro i hin
    obtain ⟨g1, g2, g3, g4, _⟩ := hi.fresh h i
    show TInv _ _ _ s.issued _ (s.pc i) (s.flag i) _ (s.ran i) (s.crashed i) _
    rw [g1, g2, g3, g4, hiss]
    obtain ⟨k1, k2, k3⟩ := hi.new h hin
    exact TInv.new k1 k2 k3
  case outr => intro i _; exact (hi.fresh h i).1
  case fresh => intro e; cases e
  case q =>
    intro _
    refine ⟨?_, ?_, ?_, ?_, ?_, ?_, ?_, ?_, ?_, ?_, ?_⟩
    · intro i q
      show i ∈ (if q < cp.length then (List.range s.n).filter (fun i => i % cp.length = q) else []) ↔ _
      by_cases hq : q < cp.length
      · rw [if_pos hq, List.mem_filter, List.mem_range]; simp
      · rw [if_neg hq]
        simp only [List.not_mem_nil, false_iff]
        rintro ⟨hin, _, e⟩
        have := Nat.mod_lt i (hpos i hin)
        have e : i % cp.length = q := e
        omega
    · intro i q
      show i ∈ s.done q ↔ _
      rw [(hi.fresh h q).2.2.2.2.2.2]; simp [isDone]
    · intro i a; rw [hst0 _ ?_ ?_ a]; simp [heldIn]; all_goals rfl
    · intro q
      show (if q < cp.length then _ else _ : List Nat).Nodup
      split
      · exact List.Pairwise.filter _ List.nodup_range
      · exact List.nodup_nil
    · intro q
      show (s.done q).Nodup
      rw [(hi.fresh h q).2.2.2.2.2.2]; exact List.nodup_nil
    · intro i hin; exact Nat.mod_lt i (hpos i hin)
    all_goals intro a; rw [hst0 _ ?_ ?_ a]; (intros; contradiction); all_goals rfl
  case rnd => intro e; cases e
  case jn => intro e; cases e
  case pn => intro i _ e; have := (hi.fresh h i).1; rw [show s.pc i = .park from e] at this; cases this
  case mn =>
    refine ⟨?_, g2, fun _ => ⟨fun e => absurd hout' e, (fun e => by cases e)⟩, (fun e => by cases e), (fun e => by cases e), (fun e => by rcases e with e | e <;> cases e), (fun e => by cases e)⟩
    rw [f4]; exact g1
  case post => intro e; cases e
  case idle => intros; rfl
  case blame => intro e; rw [show s.poisoned = true from e] at hps; cases hps
  case over => intro e; cases e
  case check => intro b e; rcases e with ⟨_, _, e⟩ | ⟨_, e⟩ <;> cases e
  case joins => intro b k e; cases e
  case unp => intro b k half e; cases e
  case aff => intro i _; exact .inl (hi.fresh h i).2.2.2.2.1

theorem Inv.main (hi : Inv s w c pl bat pend) {r : R St} (h : mainStep s = some r) :
    ∃ s' w' c' pl' bat' pend', Inv s' w' c' pl' bat' pend' ∧ r = .ok s' := by
  cases hm : s.main with
  | setting => simp only [mainStep, hm] at h; cases h; exact ⟨_, _, _, _, _, _, hi.set hm, rfl⟩
  | starting k sub =>
    obtain ⟨s1, r1, pl', bat', pend', h1, h2, h3⟩ := hi.subStep (a := none) (p := k) (sub := sub) (by simp [St.starter, hm, MPc.starter])
    simp only [mainStep, hm, h3, R.bind_ok, R.pure_eq] at h
    cases h
    exact ⟨_, _, _, _, _, _, h1, rfl⟩
  | ending =>
    simp only [mainStep, hm] at h
    cases ht : s.task with
    | some k =>
      rw [ht] at h
      obtain ⟨fin', w', h1, h2, h3⟩ := hi.wait (a := .wait 0) (.inl ⟨hm, by rw [ht]; rfl, rfl⟩)
      simp only [Option.isSome_some, if_true, St.onFin, h1, Option.map_some, R.bind_ok, R.pure_eq] at h
      cases h
      exact ⟨_, _, _, _, _, _, h3, rfl⟩
    | none => simp only [ht, Option.isSome_none, Bool.false_eq_true, if_false] at h; cases h; exact ⟨_, _, _, _, _, _, hi.endIdle hm ht, by rw [ht]⟩
  | passed =>
    have hb := (hi.noBorrow (by rw [hm]; rfl) (by rw [hm]; rfl)).1
    simp only [mainStep, hm, hb, Bool.false_eq_true, if_false] at h; cases h; exact ⟨_, _, _, _, _, _, hi.clear hm, rfl⟩
  | clearing =>
    have hb := (hi.noBorrow (by rw [hm]; rfl) (by rw [hm]; rfl)).2
    obtain ⟨h1, h2⟩ := hi.reset hm
    have ha : ((List.range s.np).all fun q => (s.ready q).isEmpty) = true := by rw [List.all_eq_true]; intro q _; rw [h1 q]; rfl
    simp only [mainStep, hm, hb, St.reset, ha, Bool.false_eq_true, if_false, R.assert_true, R.bind_ok, R.pure_eq] at h; cases h; exact ⟨_, _, _, _, _, _, h2, rfl⟩
  | resetting => simp only [mainStep, hm] at h; cases h; exact ⟨_, _, _, _, _, _, hi.resetDone hm, rfl⟩
  | checking => simp only [mainStep, hm] at h; cases h; exact ⟨_, _, _, _, _, _, hi.checked hm, rfl⟩
  | unparking b k half =>
    cases half with
    | false => simp only [mainStep, hm] at h; cases h; exact ⟨_, _, _, _, _, _, hi.signal hm, rfl⟩
    | true => simp only [mainStep, hm] at h; cases h; exact ⟨_, _, _, _, _, _, hi.signalled hm, rfl⟩
  | joining b k =>
    simp only [mainStep, hm] at h
    by_cases hk : k < s.n
    · rw [if_pos hk] at h
      by_cases hg : s.pc k = .gone
      · obtain ⟨h1, h2⟩ := hi.joinOne hm hk hg
        simp only [if_pos hg, h1, Bool.false_eq_true, if_false] at h; cases h; exact ⟨_, _, _, _, _, _, h2, rfl⟩
      · rw [if_neg hg] at h; cases h
    · obtain ⟨fin', h1, h2⟩ := hi.joinEnd hm hk
      simp only [if_neg hk, St.onFin, h1, Option.map_some, R.bind_ok, R.pure_eq] at h; cases h; exact ⟨_, _, _, _, _, _, h2, rfl⟩
  | _ => simp only [mainStep, hm] at h; cases h

/-- A step does not panic and keeps the invariant. -/
theorem inv_step (hi : Inv s w c pl bat pend) {a : Act} (ha : allowed s a) {r : R St} (h : step s a = some r) :
    ∃ s' w' c' pl' bat' pend', Inv s' w' c' pl' bat' pend' ∧ r = .ok s' := by
  cases a with
  | spawn =>
    simp only [step] at h
    split at h
    · next hm =>
      obtain ⟨fin', c', h1, h2⟩ := hi.spawn hm ha
      simp only [St.onFin, h1, Option.map_some, R.bind_ok, R.pure_eq] at h; cases h; exact ⟨_, _, _, _, _, _, h2, rfl⟩
    · cases h
  | made cpus =>
    simp only [step] at h
    split at h
    · next hm =>
      obtain ⟨fin', w', h1, h2⟩ := hi.made hm cpus ha
      simp only [St.onFin, h1, Option.map_some, R.bind_ok, R.pure_eq] at h; cases h; exact ⟨_, _, _, _, _, _, h2, rfl⟩
    · cases h
  | enter =>
    simp only [step] at h
    split at h
    · next hm => cases h; exact ⟨_, _, _, _, _, _, hi.enter hm, rfl⟩
    · cases h
  | run t =>
    simp only [step] at h
    split at h
    · next hm =>
      have hb := (hi.noBorrow (by rw [hm]; rfl) (by rw [hm]; rfl)).1
      simp only [hb, Bool.false_eq_true, if_false] at h; cases h; exact ⟨_, _, _, _, _, _, hi.run hm t, rfl⟩
    · cases h
  | leave =>
    simp only [step] at h
    split at h
    · next hm => cases h; exact ⟨_, _, _, _, _, _, hi.leave hm, rfl⟩
    · cases h
  | join =>
    simp only [step] at h
    split at h
    · next hm =>
      obtain ⟨h1, h2⟩ := hi.joinStart hm
      simp only [if_pos h1] at h; cases h; exact ⟨_, _, _, _, _, _, h2, rfl⟩
    · cases h
  | main => exact hi.main h
  | wake =>
    simp only [step] at h
    split at h
    · next hm =>
      obtain ⟨fin', w', h1, h2, h3⟩ := hi.wait (a := .wake 0) (.inr ⟨hm, rfl⟩)
      simp only [St.onFin, h1, Option.map_some, R.bind_ok, R.pure_eq] at h; cases h; exact ⟨_, _, _, _, _, _, h3, rfl⟩
    · cases h
  | thread i =>
    simp only [step] at h
    split at h
    · next hc => exact hi.thread hc.1 hc.2 h
    · cases h
  | spurious i =>
    simp only [step] at h
    split at h
    · next hc =>
      have hm : s.main ≠ .making := by
        intro e
        have := (hi.fresh e i).1
        rw [hc.2] at this; cases this
      have := hi.unpark hc.1 hm hc.2 (s.token i)
      rw [upd_self] at this
      cases h; exact ⟨_, _, _, _, _, _, this, rfl⟩
    · cases h
  | finish i =>
    simp only [step] at h
    split at h
    · next p hp =>
      have hin : i < s.n := by
        rcases Nat.lt_or_ge i s.n with e | e
        · exact e
        · rw [hi.outr i e] at hp; cases hp
      have hm : s.main ≠ .making := by
        intro e
        have := (hi.fresh e i).1
        rw [hp] at this; cases this
      have hc : s.crashed i = false := by
        cases hc : s.crashed i with
        | false => rfl
        | true => rcases (hi.thr i hin).cr1 hc with ⟨_, _, e⟩ | e | e | e <;> rw [e] at hp <;> cases hp
      have := hi.finish hin hm hp false
      rw [← hc, upd_self] at this
      simp only [hc, Bool.false_eq_true, if_false] at this
      cases h; exact ⟨_, _, _, _, _, _, this, rfl⟩
    · cases h
  | crash i =>
    simp only [step] at h
    split at h
    · next p hp =>
      have hin : i < s.n := by
        rcases Nat.lt_or_ge i s.n with e | e
        · exact e
        · rw [hi.outr i e] at hp; cases hp
      have hm : s.main ≠ .making := by
        intro e
        have := (hi.fresh e i).1
        rw [hp] at this; cases this
      cases h; exact ⟨_, _, _, _, _, _, hi.finish hin hm hp true, rfl⟩
    · cases h

theorem run_inv (h : Run s) : ∃ w c pl bat pend, Inv s w c pl bat pend := by
  induction h with
  | init => exact ⟨_, _, _, _, _, inv_init⟩
  | step _ ha e ih =>
    obtain ⟨w, c, pl, bat, pend, hi⟩ := ih
    obtain ⟨s', w', c', pl', bat', pend', h1, h2⟩ := inv_step hi ha e
    cases h2
    exact ⟨_, _, _, _, _, h1⟩

end Shadow.Pool.Bounded
