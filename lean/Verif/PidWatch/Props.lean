import Verif.PidWatch.Model

/-!
# C61: a callback runs once, after the exit of its process, and not after it was unregistered
-/
namespace Shadow.PidWatch

open Shadow.Base

/-! ## Specification -/

/-- The callbacks that were registered, for which process, and whether they may still run; the processes that have exited; whether the watcher
is gone. -/
structure Spec where
  reg : Nat → Option (Nat × Bool)
  exited : Nat → Bool
  over : Bool

/-- What may happen next, and what is the case afterwards; `none` is "this must not happen". -/
def Spec.next (m : Spec) : Ev → Option Spec
  | .pid p dead => some { m with exited := fun q => if q = p then dead else m.exited q }
  | .exited p => some { m with exited := fun q => if q = p then true else m.exited q }
  -- Every handle is new, and not zero.
  | .registered p h => if m.reg h = none ∧ h ≠ 0 then some { m with reg := fun k => if k = h then some (p, true) else m.reg k } else none
  | .unregistered p h =>
      some { m with reg := fun k => if k = h ∧ m.reg h = some (p, true) then some (p, false) else m.reg k }
  -- A callback runs if it may still run and its process has exited, and then it may not run any more.
  | .ran p h =>
      if m.reg h = some (p, true) ∧ m.exited p = true ∧ m.over = false then
        some { m with reg := fun k => if k = h then some (p, false) else m.reg k }
      else none
  | .dropped => some { m with over := true }

def Spec.replay (m : Spec) : List Ev → Option Spec
  | [] => some m
  | e :: l => match m.next e with
    | some m' => m'.replay l
    | none => none

def Spec.start : Spec := ⟨fun _ => none, fun _ => false, false⟩

theorem replay_append (m m' : Spec) : ∀ (l l' : List Ev), m.replay l = some m' → m.replay (l ++ l') = m'.replay l'
  | [], l', h => by simp only [Spec.replay, Option.some.injEq] at h; subst h; rfl
  | e :: l, l', h => by
      simp only [Spec.replay, List.cons_append] at h ⊢
      split at h
      · rename_i m1 h1
        exact replay_append m1 m' l l' h
      · cases h

/-! ## The invariant -/

structure Inv (s : St) (m : Spec) : Prop where
  ex : ∀ p, m.exited p = s.exited p
  live : ∀ h p, m.reg h = some (p, true) ↔ ∃ d, s.pids p = some d ∧ h ∈ d.cbs
  fresh : ∀ h, m.reg h ≠ none → h < s.next
  pos : 0 < s.next
  nodup : ∀ p d, s.pids p = some d → d.cbs.Nodup
  dead : ∀ p d, s.pids p = some d → d.fd = false → s.exited p = true
  asked : ∀ p d, s.pids p = some d → d.unreg = true → s.asked p = true

/-- The commands that are still to be handled. -/
structure Queue (s : St) (cmds : List Cmd) : Prop where
  run : ∀ l1 p l2, cmds = l1 ++ .run p :: l2 → .unreg p ∉ l1 ∧ ∃ d, s.pids p = some d ∧ d.fd = false ∧ d.unreg = false
  pending : ∀ p d, s.pids p = some d → d.fd = false → d.cbs ≠ [] → .run p ∈ cmds
  unreg : ∀ p, .unreg p ∈ cmds → s.pids p ≠ none → s.asked p = true
  fin : .finish ∈ cmds → s.dropping = true

structure Good (s : St) (m : Spec) : Prop where
  inv : Inv s m
  queue : s.pc ≠ .done → Queue s s.cmds
  notify : s.pc ≠ .done → s.cmds ≠ [] → s.notify = true
  got : ∀ evs, s.pc = .got evs → evs.Nodup ∧ ∀ p ∈ evs, ∃ d, s.pids p = some d ∧ d.fd = true ∧ s.exited p = true
  done : s.pc = .done → s.dropping = true
  over : m.over = true → s.pc = .done

theorem good_new : Good .new .start := by
  refine ⟨⟨?_, ?_, ?_, ?_, ?_, ?_, ?_⟩, fun _ => ⟨?_, ?_, ?_, ?_⟩, ?_, ?_, ?_, ?_⟩ <;> simp [St.new, Spec.start]

/-! ### Running the callbacks of a process -/

theorem setPid_setPid (s : St) (p : Nat) (a b : Option PidData) : (s.setPid p a).setPid p b = s.setPid p b := by
  unfold St.setPid
  simp only [St.mk.injEq, and_true]
  funext q
  by_cases h : q = p <;> simp [h]

theorem setPid_same (s : St) (p : Nat) (a : Option PidData) : (s.setPid p a).pids p = a := by simp [St.setPid]

theorem setPid_other (s : St) (p q : Nat) (a : Option PidData) (h : q ≠ p) : (s.setPid p a).pids q = s.pids q := by simp [St.setPid, h]

/-- What is left of a process after its callbacks have run. -/
def rest (d : PidData) : Option PidData := if d.unreg then none else some ⟨[], false, false⟩

theorem event_eq (s : St) (p : Nat) (d : PidData) (h : s.pids p = some d) :
    s.event p = .ok (s.setPid p (rest d), d.cbs.map (.ran p)) := by
  have h1 : s.unwatch p = s.setPid p (some { d with fd := false }) := by simp [St.unwatch, h]
  simp only [St.event, h1, St.runCallbacks, setPid_same, R.unwrap_some, R.bind_ok, R.pure_eq, setPid_setPid, St.maybeRemove, true_and]
  cases hu : d.unreg <;> simp [R.bind_ok, rest, hu]

theorem runCmd_eq (s : St) (p : Nat) (d : PidData) (h : s.pids p = some d) (hf : d.fd = false) (hu : d.unreg = false) :
    s.runCmd p = .ok (s.setPid p (some ⟨[], false, false⟩), d.cbs.map (.ran p)) := by
  simp [St.runCmd, h, hf, St.runCallbacks, St.maybeRemove, setPid_same, R.unwrap_some, R.bind_ok, R.pure_eq, hu]

theorem replay_ran (p : Nat) : ∀ (l : List Nat) (m : Spec), l.Nodup → (∀ h ∈ l, m.reg h = some (p, true)) → m.exited p = true → m.over = false →
    ∃ m', m.replay (l.map (.ran p)) = some m' ∧ (∀ h, m'.reg h = if h ∈ l then some (p, false) else m.reg h) ∧ m'.exited = m.exited ∧ m'.over = false
  | [], m, _, _, _, ho => ⟨m, rfl, by simp, rfl, ho⟩
  | x :: l, m, hn, hr, he, ho => by
      rw [List.nodup_cons] at hn
      have hx := hr x (List.mem_cons_self ..)
      obtain ⟨m', h1, h2, h3, h4⟩ := replay_ran p l { m with reg := fun k => if k = x then some (p, false) else m.reg k } hn.2
        (fun h hh => by
          have : h ≠ x := fun e => hn.1 (e ▸ hh)
          simp only [this, if_false]
          exact hr h (List.mem_cons_of_mem _ hh)) he ho
      refine ⟨m', ?_, ?_, h3, h4⟩
      · simp only [List.map_cons, Spec.replay, Spec.next]
        rw [if_pos ⟨hx, he, ho⟩]
        exact h1
      · intro h
        rw [h2 h]
        by_cases e : h = x
        · subst e; simp
        · simp [e]

/-- The callbacks of a process that has exited run. -/
theorem drain {s : St} {m : Spec} (h : Inv s m) (ho : m.over = false) {p : Nat} {d : PidData} (hp : s.pids p = some d) (he : s.exited p = true)
    (o : Option PidData) (hob : ∀ d', o = some d' → d'.cbs = [] ∧ d'.unreg = d.unreg) :
    ∃ m', m.replay (d.cbs.map (.ran p)) = some m' ∧ Inv (s.setPid p o) m' ∧ m'.over = false := by
  obtain ⟨m', h1, h2, h3, h4⟩ := replay_ran p d.cbs m (h.nodup p d hp) (fun k hk => (h.live k p).2 ⟨d, hp, hk⟩) (by rw [h.ex]; exact he) ho
  refine ⟨m', h1, ⟨?_, ?_, ?_, h.pos, ?_, ?_, ?_⟩, h4⟩
  · intro q; rw [h3]; exact h.ex q
  · intro k q
    rw [h2 k]
    by_cases e : q = p
    · subst e
      rw [setPid_same]
      constructor
      · intro hk
        split at hk
        · cases hk
        · rename_i hn
          obtain ⟨d', hd', hk'⟩ := (h.live k q).1 hk
          rw [hp] at hd'; cases hd'
          exact absurd hk' hn
      · rintro ⟨d', hd', hk⟩
        rw [(hob d' hd').1] at hk
        cases hk
    · rw [setPid_other _ _ _ _ e]
      split
      · rename_i hk
        constructor
        · intro hc; cases hc
        · intro hd'
          have := (h.live k q).2 hd'
          rw [(h.live k p).2 ⟨d, hp, hk⟩] at this
          cases this
          exact absurd rfl e
      · exact h.live k q
  · intro k hk
    rw [h2 k] at hk
    split at hk
    · rename_i hk'
      exact h.fresh k (by rw [(h.live k p).2 ⟨d, hp, hk'⟩]; simp)
    · exact h.fresh k hk
  · intro q d' hd'
    by_cases e : q = p
    · subst e
      rw [setPid_same] at hd'
      rw [(hob d' hd').1]
      exact List.nodup_nil
    · rw [setPid_other _ _ _ _ e] at hd'
      exact h.nodup q d' hd'
  · intro q d' hd' hf
    by_cases e : q = p
    · subst e; exact he
    · rw [setPid_other _ _ _ _ e] at hd'
      exact h.dead q d' hd' hf
  · intro q d' hd' hu
    by_cases e : q = p
    · subst e
      rw [setPid_same] at hd'
      rw [(hob d' hd').2] at hu
      exact h.asked q d hp hu
    · rw [setPid_other _ _ _ _ e] at hd'
      exact h.asked q d' hd' hu

theorem rest_cbs (d : PidData) : ∀ d', rest d = some d' → d'.cbs = [] ∧ d'.unreg = d.unreg := by
  intro d' h
  unfold rest at h
  split at h
  · cases h
  · cases h; simp_all

/-- What stays the same while the watcher thread works. -/
structure Same (s s' : St) : Prop where
  next : s'.next = s.next
  cmds : s'.cmds = s.cmds
  exited : s'.exited = s.exited
  asked : s'.asked = s.asked
  dropping : s'.dropping = s.dropping

theorem events_ok : ∀ (evs : List Nat) {s : St} {m : Spec} {cmds : List Cmd}, Inv s m → m.over = false → Queue s cmds → evs.Nodup →
    (∀ p ∈ evs, ∃ d, s.pids p = some d ∧ d.fd = true ∧ s.exited p = true) →
    ∃ s' e, s.events evs = .ok (s', e) ∧ (∃ m', m.replay e = some m' ∧ Inv s' m' ∧ m'.over = false) ∧ Queue s' cmds ∧ Same s s' ∧
      (∀ q, q ∉ evs → s'.pids q = s.pids q) ∧
      (∀ p ∈ evs, ∀ d, s.pids p = some d → (∀ h ∈ d.cbs, .ran p h ∈ e) ∧ ∀ d', s'.pids p = some d' → d'.fd = false ∧ d'.cbs = [])
  | [], s, m, cmds, h, ho, hq, _, _ => ⟨s, [], rfl, ⟨m, rfl, h, ho⟩, hq, ⟨rfl, rfl, rfl, rfl, rfl⟩, fun _ _ => rfl, by simp⟩
  | p :: l, s, m, cmds, h, ho, hq, hn, he => by
      rw [List.nodup_cons] at hn
      obtain ⟨d, hd, hf, hx⟩ := he p (List.mem_cons_self ..)
      obtain ⟨m1, h1, h2, h3⟩ := drain h ho hd hx (rest d) (rest_cbs d)
      have hq' : Queue (s.setPid p (rest d)) cmds := by
        refine ⟨?_, ?_, ?_, hq.fin⟩
        · intro l1 q l2 hc
          obtain ⟨a1, d', hd', hf', hu'⟩ := hq.run l1 q l2 hc
          have : q ≠ p := by rintro rfl; rw [hd] at hd'; cases hd'; rw [hf] at hf'; cases hf'
          exact ⟨a1, d', by rw [setPid_other _ _ _ _ this]; exact hd', hf', hu'⟩
        · intro q d' hd' hf' hc
          by_cases e : q = p
          · subst e
            rw [setPid_same] at hd'
            exact absurd (rest_cbs d d' hd').1 hc
          · rw [setPid_other _ _ _ _ e] at hd'
            exact hq.pending q d' hd' hf' hc
        · intro q hc hne
          by_cases e : q = p
          · subst e; exact hq.unreg q hc (by rw [hd]; simp)
          · rw [setPid_other _ _ _ _ e] at hne
            exact hq.unreg q hc hne
      obtain ⟨s', e, g1, ⟨m2, g2, g3, g4⟩, g5, g6, g7, g8⟩ := events_ok l (s := s.setPid p (rest d)) (m := m1) (cmds := cmds) h2 h3 hq' hn.2
        (fun q hq1 => by
          have : q ≠ p := fun e => hn.1 (e ▸ hq1)
          rw [setPid_other _ _ _ _ this]
          exact he q (List.mem_cons_of_mem _ hq1))
      refine ⟨s', d.cbs.map (.ran p) ++ e, ?_, ⟨m2, ?_, g3, g4⟩, g5, ⟨g6.next, g6.cmds, g6.exited, g6.asked, g6.dropping⟩, ?_, ?_⟩
      · simp only [St.events, event_eq s p d hd, R.bind_ok, g1, R.pure_eq]
      · rw [replay_append _ _ _ _ h1]; exact g2
      · intro q hq1
        rw [List.mem_cons, not_or] at hq1
        rw [g7 q hq1.2, setPid_other _ _ _ _ hq1.1]
      · intro q hq1 d' hd'
        by_cases e' : q = p
        · subst e'
          rw [hd] at hd'; cases hd'
          refine ⟨fun k hk => List.mem_append_left _ (List.mem_map.2 ⟨k, hk, rfl⟩), ?_⟩
          intro d' hd'
          rw [g7 q hn.1, setPid_same] at hd'
          unfold rest at hd'
          split at hd'
          · cases hd'
          · cases hd'; exact ⟨rfl, rfl⟩
        · have hql : q ∈ l := (List.mem_cons.1 hq1).resolve_left e'
          obtain ⟨a1, a2⟩ := g8 q hql d' (by rw [setPid_other _ _ _ _ e']; exact hd')
          exact ⟨fun k hk => List.mem_append_right _ (a1 k hk), a2⟩

theorem maybeRemove_set (s : St) (p : Nat) (d : PidData) :
    (s.setPid p (some d)).maybeRemove p = .ok (s.setPid p (if d.cbs = [] ∧ d.unreg = true then none else some d)) := by
  simp only [St.maybeRemove, setPid_same, R.unwrap_some, R.bind_ok, R.pure_eq]
  split <;> simp [setPid_setPid]

/-- A process is marked as unregistered, and forgotten if no callback is left. -/
theorem inv_unreg {s : St} {m : Spec} (h : Inv s m) {p : Nat} {d : PidData} (hp : s.pids p = some d) (ha : s.asked p = true) (o : Option PidData)
    (ho : (o = none ∧ d.cbs = []) ∨ o = some { d with unreg := true }) : Inv (s.setPid p o) m := by
  refine ⟨h.ex, ?_, h.fresh, h.pos, ?_, ?_, ?_⟩
  · intro k q
    rw [h.live k q]
    by_cases e : q = p
    · subst e
      rw [setPid_same, hp]
      rcases ho with ⟨rfl, hc⟩ | rfl
      · simp [hc]
      · simp
    · rw [setPid_other _ _ _ _ e]
  · intro q d' hd'
    by_cases e : q = p
    · subst e
      rw [setPid_same] at hd'
      rcases ho with ⟨rfl, hc⟩ | rfl
      · cases hd'
      · cases hd'; exact h.nodup q d hp
    · rw [setPid_other _ _ _ _ e] at hd'; exact h.nodup q d' hd'
  · intro q d' hd' hf
    by_cases e : q = p
    · subst e
      rw [setPid_same] at hd'
      rcases ho with ⟨rfl, hc⟩ | rfl
      · cases hd'
      · cases hd'; exact h.dead q d hp hf
    · rw [setPid_other _ _ _ _ e] at hd'; exact h.dead q d' hd' hf
  · intro q d' hd' hu
    by_cases e : q = p
    · subst e; exact ha
    · rw [setPid_other _ _ _ _ e] at hd'; exact h.asked q d' hd' hu

theorem commands_ok : ∀ (cmds : List Cmd) {s : St} {m : Spec}, Inv s m → m.over = false → Queue s cmds →
    ∃ s' e, s.commands cmds = .ok (s', e) ∧ (∃ m', m.replay e = some m' ∧ Inv s' m' ∧ m'.over = false) ∧ Same s s' ∧ s'.notify = s.notify ∧
      ((.finish ∉ cmds ∧ s'.pc = .wait ∧ Queue s' []) ∨ (.finish ∈ cmds ∧ s'.pc = .done)) ∧
      (∀ p d, s.pids p = some d → d.fd = false → .finish ∉ cmds → ∀ h ∈ d.cbs, .ran p h ∈ e) ∧
      (∀ p d', s'.pids p = some d' → ∃ d, s.pids p = some d ∧ d'.fd = d.fd ∧ ∀ h ∈ d'.cbs, h ∈ d.cbs)
  | [], s, m, h, ho, hq => by
      refine ⟨_, _, rfl, ⟨m, rfl, ⟨h.ex, h.live, h.fresh, h.pos, h.nodup, h.dead, h.asked⟩, ho⟩, ⟨rfl, rfl, rfl, rfl, rfl⟩, rfl, ?_, ?_, ?_⟩
      · exact .inl ⟨by simp, rfl, hq.run, hq.pending, hq.unreg, hq.fin⟩
      · intro p d hp hf _ k hk
        have := hq.pending p d hp hf (List.ne_nil_of_mem hk)
        cases this
      · intro p d' hd'
        exact ⟨d', hd', rfl, fun _ hk => hk⟩
  | .run p :: l, s, m, h, ho, hq => by
      obtain ⟨_, d, hd, hf, hu⟩ := hq.run [] p l rfl
      obtain ⟨m1, h1, h2, h3⟩ := drain h ho hd (h.dead p d hd hf) (some ⟨[], false, false⟩) (fun d' e => by cases e; exact ⟨rfl, hu.symm⟩)
      have hq' : Queue (s.setPid p (some ⟨[], false, false⟩)) l := by
        refine ⟨?_, ?_, ?_, fun hc => hq.fin (List.mem_cons_of_mem _ hc)⟩
        · intro l1 q l2 hc
          obtain ⟨a1, d', hd', hf', hu'⟩ := hq.run (.run p :: l1) q l2 (by rw [hc]; rfl)
          refine ⟨fun hc => a1 (List.mem_cons_of_mem _ hc), ?_⟩
          by_cases e : q = p
          · subst e; exact ⟨_, setPid_same _ _ _, rfl, rfl⟩
          · exact ⟨d', by rw [setPid_other _ _ _ _ e]; exact hd', hf', hu'⟩
        · intro q d' hd' hf' hc
          by_cases e : q = p
          · subst e; rw [setPid_same] at hd'; cases hd'; exact absurd rfl hc
          · rw [setPid_other _ _ _ _ e] at hd'
            have := hq.pending q d' hd' hf' hc
            rcases List.mem_cons.1 this with e' | e'
            · cases e'; exact absurd rfl e
            · exact e'
        · intro q hc hne
          by_cases e : q = p
          · subst e; exact hq.unreg q (List.mem_cons_of_mem _ hc) (by rw [hd]; simp)
          · rw [setPid_other _ _ _ _ e] at hne
            exact hq.unreg q (List.mem_cons_of_mem _ hc) hne
      obtain ⟨s', e, g1, ⟨m2, g2, g3, g4⟩, g5, g6, g7, g8, g9⟩ := commands_ok l h2 h3 hq'
      refine ⟨s', d.cbs.map (.ran p) ++ e, ?_, ⟨m2, ?_, g3, g4⟩, ⟨g5.next, g5.cmds, g5.exited, g5.asked, g5.dropping⟩, g6, ?_, ?_, ?_⟩
      · simp only [St.commands, runCmd_eq s p d hd hf hu, R.bind_ok, g1, R.pure_eq]
      · rw [replay_append _ _ _ _ h1]; exact g2
      · simpa using g7
      · intro q d' hd' hf' hfin k hk
        by_cases e' : q = p
        · subst e'
          rw [hd] at hd'; cases hd'
          exact List.mem_append_left _ (List.mem_map.2 ⟨k, hk, rfl⟩)
        · exact List.mem_append_right _ (g8 q d' (by rw [setPid_other _ _ _ _ e']; exact hd') hf' (fun hc => hfin (List.mem_cons_of_mem _ hc)) k hk)
      · intro q d' hd'
        obtain ⟨d1, a1, a2, a3⟩ := g9 q d' hd'
        by_cases e' : q = p
        · subst e'
          rw [setPid_same] at a1; cases a1
          exact ⟨d, hd, by rw [a2, hf], fun k hk => by cases a3 k hk⟩
        · rw [setPid_other _ _ _ _ e'] at a1
          exact ⟨d1, a1, a2, a3⟩
  | .unreg p :: l, s, m, h, ho, hq => by
      cases hp : s.pids p with
      | none =>
        have hq' : Queue s l := by
          refine ⟨?_, ?_, fun q hc => hq.unreg q (List.mem_cons_of_mem _ hc), fun hc => hq.fin (List.mem_cons_of_mem _ hc)⟩
          · intro l1 q l2 hc
            obtain ⟨a1, a2⟩ := hq.run (.unreg p :: l1) q l2 (by rw [hc]; rfl)
            exact ⟨fun hc => a1 (List.mem_cons_of_mem _ hc), a2⟩
          · intro q d' hd' hf' hc
            rcases List.mem_cons.1 (hq.pending q d' hd' hf' hc) with e' | e'
            · cases e'
            · exact e'
        obtain ⟨s', e, g1, g2, g3, g4, g5, g6, g7⟩ := commands_ok l h ho hq'
        refine ⟨s', e, ?_, g2, g3, g4, by simpa using g5, ?_, g7⟩
        · simp only [St.commands, St.unregCmd, hp, R.bind_ok, g1]
        · exact fun q d' hd' hf' hfin => g6 q d' hd' hf' (fun hc => hfin (List.mem_cons_of_mem _ hc))
      | some d =>
        have ha : s.asked p = true := hq.unreg p (List.mem_cons_self ..) (by rw [hp]; simp)
        obtain ⟨o, hoeq, hocase⟩ : ∃ o, s.unregCmd p = .ok (s.setPid p o) ∧ ((o = none ∧ d.cbs = []) ∨ o = some { d with unreg := true }) := by
          simp only [St.unregCmd, hp, maybeRemove_set]
          by_cases hc : d.cbs = []
          · exact ⟨none, by simp [hc], .inl ⟨rfl, hc⟩⟩
          · exact ⟨some { d with unreg := true }, by simp [hc], .inr rfl⟩
        have h2 := inv_unreg h hp ha o hocase
        have hq' : Queue (s.setPid p o) l := by
          refine ⟨?_, ?_, ?_, fun hc => hq.fin (List.mem_cons_of_mem _ hc)⟩
          · intro l1 q l2 hc
            obtain ⟨a1, d', hd', hf', hu'⟩ := hq.run (.unreg p :: l1) q l2 (by rw [hc]; rfl)
            refine ⟨fun hc => a1 (List.mem_cons_of_mem _ hc), ?_⟩
            have : q ≠ p := by rintro rfl; exact a1 (List.mem_cons_self ..)
            exact ⟨d', by rw [setPid_other _ _ _ _ this]; exact hd', hf', hu'⟩
          · intro q d' hd' hf' hc
            by_cases e : q = p
            · subst e
              rw [setPid_same] at hd'
              rcases hocase with ⟨rfl, _⟩ | rfl
              · cases hd'
              · cases hd'
                rcases List.mem_cons.1 (hq.pending q d hp hf' hc) with e' | e'
                · cases e'
                · exact e'
            · rw [setPid_other _ _ _ _ e] at hd'
              rcases List.mem_cons.1 (hq.pending q d' hd' hf' hc) with e' | e'
              · cases e'
              · exact e'
          · intro q hc hne
            by_cases e : q = p
            · subst e; exact ha
            · rw [setPid_other _ _ _ _ e] at hne
              exact hq.unreg q (List.mem_cons_of_mem _ hc) hne
        obtain ⟨s', e, g1, g2, g3, g4, g5, g6, g7⟩ := commands_ok l h2 ho hq'
        refine ⟨s', e, ?_, g2, ⟨g3.next, g3.cmds, g3.exited, g3.asked, g3.dropping⟩, g4, by simpa using g5, ?_, ?_⟩
        · simp only [St.commands, hoeq, R.bind_ok, g1]
        · intro q d' hd' hf' hfin k hk
          have hfin' : Cmd.finish ∉ l := fun hc => hfin (List.mem_cons_of_mem _ hc)
          by_cases e' : q = p
          · subst e'
            rw [hp] at hd'; cases hd'
            rcases hocase with ⟨_, hc⟩ | rfl
            · rw [hc] at hk; cases hk
            · exact g6 q _ (setPid_same _ _ _) hf' hfin' k hk
          · exact g6 q d' (by rw [setPid_other _ _ _ _ e']; exact hd') hf' hfin' k hk
        · intro q d' hd'
          obtain ⟨d1, a1, a2, a3⟩ := g7 q d' hd'
          by_cases e' : q = p
          · subst e'
            rw [setPid_same] at a1
            rcases hocase with ⟨rfl, _⟩ | rfl
            · cases a1
            · cases a1; exact ⟨d, hp, a2, a3⟩
          · rw [setPid_other _ _ _ _ e'] at a1
            exact ⟨d1, a1, a2, a3⟩
  | .finish :: l, s, m, h, ho, hq => by
      refine ⟨_, _, rfl, ⟨m, rfl, ⟨h.ex, h.live, h.fresh, h.pos, h.nodup, h.dead, h.asked⟩, ho⟩, ⟨rfl, rfl, rfl, rfl, rfl⟩, rfl, .inr ⟨by simp, rfl⟩, ?_, ?_⟩
      · intro p d _ _ hc
        exact absurd (List.mem_cons_self ..) hc
      · intro p d' hd'
        exact ⟨d', hd', rfl, fun _ hk => hk⟩

theorem process_ok {s : St} {m : Spec} (h : Good s m) {evs : List Nat} (hpc : s.pc = .got evs) :
    ∃ s' e, s.process evs = .ok (s', e) ∧ (∃ m', m.replay e = some m' ∧ Good s' m') ∧
      (∀ p d, s.pids p = some d → s.dropping = false → (p ∈ evs ∨ d.fd = false) → ∀ k ∈ d.cbs, .ran p k ∈ e) ∧
      (∀ p ∈ evs, s'.ready p = false) ∧ (∀ p, s'.ready p = true → s.ready p = true) ∧ (s.dropping = false → s'.pc = .wait) := by
  have ho : m.over = false := by
    cases hc : m.over
    · rfl
    · have := h.over hc; rw [hpc] at this; cases this
  obtain ⟨hn, hg⟩ := h.got evs hpc
  obtain ⟨s1, e1, g1, ⟨m1, g2, g3, g4⟩, g5, g6, g7, g8⟩ := events_ok evs h.inv ho (h.queue (by rw [hpc]; simp)) hn hg
  have g3' : Inv { s1 with cmds := [], notify := false } m1 := ⟨g3.ex, g3.live, g3.fresh, g3.pos, g3.nodup, g3.dead, g3.asked⟩
  have g5' : Queue { s1 with cmds := [], notify := false } s.cmds := ⟨g5.run, g5.pending, g5.unreg, g5.fin⟩
  obtain ⟨s2, e2, k1, ⟨m2, k2, k3, k4⟩, k5, k6, k7, k8, k9⟩ := commands_ok s.cmds g3' g4 g5'
  have hready : ∀ p, s2.ready p = true → p ∉ evs ∧ s.ready p = true := by
    intro p hp
    unfold St.ready at hp
    split at hp
    · rename_i d' hd'
      obtain ⟨d1, a1, a2, _⟩ := k9 p d' hd'
      simp only [Bool.and_eq_true] at hp
      have hpe : p ∉ evs := by
        intro hc
        obtain ⟨d0, hd0, _⟩ := hg p hc
        have := ((g8 p hc d0 hd0).2 d1 a1).1
        rw [a2, this] at hp
        cases hp.1
      refine ⟨hpe, ?_⟩
      have a1 : s1.pids p = some d1 := a1
      rw [g7 p hpe] at a1
      unfold St.ready
      rw [a1]
      simp only [Bool.and_eq_true]
      refine ⟨by rw [← a2]; exact hp.1, ?_⟩
      have := hp.2
      rw [k5.exited] at this
      have e3 : ({ s1 with cmds := [], notify := false } : St).exited = s1.exited := rfl
      rw [e3, g6.exited] at this
      exact this
    · cases hp
  have hdrop : s2.dropping = s.dropping := by rw [k5.dropping]; exact g6.dropping
  refine ⟨s2, e1 ++ e2, ?_, ⟨m2, ?_, ?_⟩, ?_, ?_, ?_, ?_⟩
  · simp only [St.process, g1, R.bind_ok, g6.cmds, k1, R.pure_eq]
  · rw [replay_append _ _ _ _ g2]; exact k2
  · have hc2 : s2.cmds = [] := by rw [k5.cmds]
    refine ⟨k3, ?_, ?_, ?_, ?_, ?_⟩
    · intro hpc2
      rw [hc2]
      rcases k7 with ⟨_, _, hq⟩ | ⟨_, hd⟩
      · exact hq
      · exact absurd hd hpc2
    · intro _ hne; exact absurd hc2 hne
    · intro evs' hpc2
      rcases k7 with ⟨_, hw, _⟩ | ⟨_, hd⟩
      · rw [hw] at hpc2; cases hpc2
      · rw [hd] at hpc2; cases hpc2
    · intro hpc2
      rw [hdrop]
      rcases k7 with ⟨_, hw, _⟩ | ⟨hf, _⟩
      · rw [hw] at hpc2; cases hpc2
      · exact (h.queue (by rw [hpc]; simp)).fin hf
    · intro hc; rw [k4] at hc; cases hc
  · intro p d hp hdr hcase k hk
    have hfin : Cmd.finish ∉ s.cmds := fun hc => by
      have := (h.queue (by rw [hpc]; simp)).fin hc
      rw [hdr] at this; cases this
    by_cases hc : p ∈ evs
    · exact List.mem_append_left _ ((g8 p hc d hp).1 k hk)
    · refine List.mem_append_right _ (k8 p d ?_ (hcase.resolve_left hc) hfin k hk)
      show s1.pids p = some d
      rw [g7 p hc]; exact hp
  · intro p hp
    cases hr : s2.ready p
    · rfl
    · exact absurd hp (hready p hr).1
  · intro p hp; exact (hready p hp).2
  · intro hdr
    rcases k7 with ⟨_, hw, _⟩ | ⟨hf, _⟩
    · exact hw
    · have := (h.queue (by rw [hpc]; simp)).fin hf
      rw [hdr] at this; cases this

/-! ### Calls -/

theorem good_send {s : St} {m : Spec} (h : Good s m) (hd : s.dropping = false) (c : Cmd)
    (hrun : ∀ p, c = .run p → .unreg p ∉ s.cmds ∧ ∃ d, s.pids p = some d ∧ d.fd = false ∧ d.unreg = false)
    (hun : ∀ p, c = .unreg p → s.pids p ≠ none → s.asked p = true) (hf : c ≠ .finish) : Good (s.send c) m := by
  have hpc : s.pc ≠ .done := fun e => by have := h.done e; rw [hd] at this; cases this
  have hq := h.queue hpc
  refine ⟨⟨h.inv.ex, h.inv.live, h.inv.fresh, h.inv.pos, h.inv.nodup, h.inv.dead, h.inv.asked⟩, fun _ => ⟨?_, ?_, ?_, ?_⟩, fun _ _ => rfl, h.got, h.done, h.over⟩
  · intro l1 p l2 hc
    have hc : s.cmds ++ [c] = l1 ++ .run p :: l2 := hc
    rcases List.eq_nil_or_concat l2 with rfl | ⟨l3, x, rfl⟩
    · have := List.append_inj' hc rfl
      obtain ⟨rfl, e⟩ := this
      exact hrun p (by simpa using e)
    · have h2 : s.cmds ++ [c] = (l1 ++ .run p :: l3) ++ [x] := by rw [hc]; simp
      obtain ⟨e1, e2⟩ := List.append_inj' h2 rfl
      exact hq.run l1 p l3 e1
  · intro p d hp hf' hc
    exact List.mem_append_left _ (hq.pending p d hp hf' hc)
  · intro p hc hne
    rcases List.mem_append.1 hc with e | e
    · exact hq.unreg p e hne
    · exact hun p (by simpa using (List.mem_singleton.1 e).symm) hne
  · intro hc
    rcases List.mem_append.1 hc with e | e
    · exact hq.fin e
    · exact absurd (List.mem_singleton.1 e).symm hf

/-- One process gets other data. -/
theorem good_set {s : St} {m m' : Spec} (h : Good s m) {p : Nat} {d d' : PidData} (hp : s.pids p = some d) (next : Nat)
    (hinv : Inv { s.setPid p (some d') with next := next } m') (hfd : d'.fd = d.fd) (hun : d'.unreg = d.unreg)
    (hc : d.fd = false → d'.cbs ≠ [] → d.cbs ≠ []) (ho : m'.over = m.over) : Good { s.setPid p (some d') with next := next } m' := by
  refine ⟨hinv, fun hpc => ⟨?_, ?_, ?_, (h.queue hpc).fin⟩, h.notify, ?_, h.done, by rw [ho]; exact h.over⟩
  · intro l1 q l2 hcm
    obtain ⟨a1, d1, a2, a3, a4⟩ := (h.queue hpc).run l1 q l2 hcm
    refine ⟨a1, ?_⟩
    by_cases e : q = p
    · subst e
      rw [hp] at a2; cases a2
      exact ⟨d', setPid_same _ _ _, by rw [hfd]; exact a3, by rw [hun]; exact a4⟩
    · exact ⟨d1, (setPid_other _ _ _ _ e).trans a2, a3, a4⟩
  · intro q d1 hd1 hf1 hc1
    by_cases e : q = p
    · subst e
      have hd1 : some d' = some d1 := (setPid_same s q (some d')).symm.trans hd1
      cases hd1
      exact (h.queue hpc).pending q d hp (by rw [← hfd]; exact hf1) (hc (by rw [← hfd]; exact hf1) hc1)
    · exact (h.queue hpc).pending q d1 ((setPid_other s p q _ e).symm.trans hd1) hf1 hc1
  · intro q hcm hne
    by_cases e : q = p
    · subst e; exact (h.queue hpc).unreg q hcm (by rw [hp]; simp)
    · exact (h.queue hpc).unreg q hcm (by rw [← setPid_other s p q (some d') e]; exact hne)
  · intro evs hpc
    obtain ⟨a1, a2⟩ := h.got evs hpc
    refine ⟨a1, ?_⟩
    intro q hq
    obtain ⟨d1, a3, a4, a5⟩ := a2 q hq
    by_cases e : q = p
    · subst e
      rw [hp] at a3; cases a3
      exact ⟨d', setPid_same _ _ _, by rw [hfd]; exact a4, a5⟩
    · exact ⟨d1, (setPid_other _ _ _ _ e).trans a3, a4, a5⟩

theorem good_step {s : St} {m : Spec} (h : Good s m) (a : Act) (ha : allowed s a) (r : R (St × List Ev)) (hs : step s a = some r) :
    ∃ s' e, r = .ok (s', e) ∧ ∃ m', m.replay e = some m' ∧ Good s' m' := by
  cases a with
  | registerPid p dead =>
    simp only [step] at hs
    split at hs
    · cases hs
    · rename_i hd
      obtain ⟨hpn, huc⟩ := ha
      cases hs
      refine ⟨_, _, by simp only [St.registerPid, hpn, Option.isNone_none, R.assert_true, R.bind_ok, R.pure_eq]; rfl, _, rfl, ?_⟩
      have hi := h.inv
      have hpids : ∀ q, q ≠ p → (s.setPid p (some ⟨[], true, false⟩)).pids q = s.pids q := fun q hq => setPid_other _ _ _ _ hq
      have hself := setPid_same s p (some ⟨[], true, false⟩)
      refine ⟨⟨?_, ?_, hi.fresh, hi.pos, ?_, ?_, ?_⟩, fun hpc => ⟨?_, ?_, ?_, (h.queue hpc).fin⟩, h.notify, ?_, h.done, h.over⟩
      · intro q
        simp only
        rw [hi.ex]
      · intro k q
        show m.reg k = some (q, true) ↔ ∃ d, (s.setPid p (some ⟨[], true, false⟩)).pids q = some d ∧ k ∈ d.cbs
        rw [hi.live k q]
        by_cases e : q = p
        · subst e; rw [hself, hpn]; simp
        · rw [hpids q e]
      · intro q d hq
        by_cases e : q = p
        · subst e; rw [show _ = _ from hself] at hq; cases hq; exact List.nodup_nil
        · exact hi.nodup q d ((hpids q e).symm.trans hq)
      · intro q d hq hf
        by_cases e : q = p
        · subst e; rw [show _ = _ from hself] at hq; cases hq; cases hf
        · simp only [e, if_false]
          exact hi.dead q d ((hpids q e).symm.trans hq) hf
      · intro q d hq hu
        by_cases e : q = p
        · subst e; rw [show _ = _ from hself] at hq; cases hq; cases hu
        · simp only [e, if_false]
          exact hi.asked q d ((hpids q e).symm.trans hq) hu
      · intro l1 q l2 hcm
        obtain ⟨a1, d1, a2, a3, a4⟩ := (h.queue hpc).run l1 q l2 hcm
        have e : q ≠ p := by rintro rfl; rw [hpn] at a2; cases a2
        exact ⟨a1, d1, (hpids q e).trans a2, a3, a4⟩
      · intro q d hq hf hc
        by_cases e : q = p
        · subst e; rw [show _ = _ from hself] at hq; cases hq; cases hf
        · exact (h.queue hpc).pending q d ((hpids q e).symm.trans hq) hf hc
      · intro q hcm hne
        by_cases e : q = p
        · subst e; exact absurd hcm huc
        · simp only [e, if_false]
          exact (h.queue hpc).unreg q hcm (by rw [← hpids q e]; exact hne)
      · intro evs hpc
        obtain ⟨a1, a2⟩ := h.got evs hpc
        refine ⟨a1, ?_⟩
        intro q hq
        obtain ⟨d1, a3, a4, a5⟩ := a2 q hq
        have e : q ≠ p := by rintro rfl; rw [hpn] at a3; cases a3
        refine ⟨d1, (hpids q e).trans a3, a4, ?_⟩
        simp only [e, if_false]
        exact a5
  | unregisterPid p =>
    simp only [step] at hs
    split at hs
    · cases hs
    · rename_i hd
      have hd : s.dropping = false := by simpa using hd
      cases hs
      refine ⟨_, _, rfl, m, rfl, ?_⟩
      have h0 : Good { s with asked := fun q => if q = p then true else s.asked q } m := by
        have hi := h.inv
        refine ⟨⟨hi.ex, hi.live, hi.fresh, hi.pos, hi.nodup, hi.dead, ?_⟩,
          fun hpc => ⟨(h.queue hpc).run, (h.queue hpc).pending, ?_, (h.queue hpc).fin⟩, h.notify, h.got, h.done, h.over⟩
        · intro q d hq hu
          simp only
          split
          · rfl
          · exact hi.asked q d hq hu
        · intro q hc hne
          simp only
          split
          · rfl
          · exact (h.queue hpc).unreg q hc hne
      exact good_send h0 hd (.unreg p) (fun q e => by cases e) (fun q e _ => by cases e; simp) (by simp)
  | register p =>
    simp only [step] at hs
    split at hs
    · cases hs
    · rename_i hd
      have hd : s.dropping = false := by simpa using hd
      obtain ⟨hpn, hask⟩ := ha
      cases hs
      cases hp : s.pids p with
      | none => exact absurd hp hpn
      | some d =>
        have hi := h.inv
        have hu : d.unreg = false := by
          cases hc : d.unreg
          · rfl
          · have := hi.asked p d hp hc; rw [hask] at this; cases this
        have hfr : m.reg s.next = none := by
          cases hc : m.reg s.next
          · rfl
          · have := hi.fresh s.next (by rw [hc]; simp); omega
        have hnew : ∀ q d, s.pids q = some d → s.next ∉ d.cbs := by
          intro q d' hq hc
          have := (hi.live s.next q).2 ⟨d', hq, hc⟩
          rw [hfr] at this; cases this
        have hinv : Inv { s.setPid p (some { d with cbs := d.cbs ++ [s.next] }) with next := s.next + 1 }
            { m with reg := fun k => if k = s.next then some (p, true) else m.reg k } := by
          have hpids : ∀ q, q ≠ p → (s.setPid p (some { d with cbs := d.cbs ++ [s.next] })).pids q = s.pids q := fun q hq => setPid_other _ _ _ _ hq
          have hself := setPid_same s p (some { d with cbs := d.cbs ++ [s.next] })
          refine ⟨hi.ex, ?_, ?_, by simp, ?_, ?_, ?_⟩
          · intro k q
            show (if k = s.next then some (p, true) else m.reg k) = some (q, true) ↔
              ∃ d', (s.setPid p (some { d with cbs := d.cbs ++ [s.next] })).pids q = some d' ∧ k ∈ d'.cbs
            by_cases e : q = p
            · subst e
              rw [hself]
              by_cases ek : k = s.next
              · subst ek; simp
              · rw [if_neg ek, hi.live k q, hp]
                simp [ek]
            · rw [hpids q e]
              by_cases ek : k = s.next
              · subst ek
                rw [if_pos rfl]
                constructor
                · intro hc; cases hc; exact absurd rfl e
                · rintro ⟨d', hd', hk⟩; exact absurd hk (hnew q d' hd')
              · rw [if_neg ek]; exact hi.live k q
          · intro k hk
            simp only at hk ⊢
            split at hk
            · omega
            · have := hi.fresh k hk; omega
          · intro q d' hq
            by_cases e : q = p
            · subst e
              rw [show _ = _ from hself] at hq; cases hq
              simp only
              rw [List.nodup_append]
              refine ⟨hi.nodup q d hp, by simp, ?_⟩
              intro a ha b hb
              simp only [List.mem_singleton] at hb
              rintro rfl
              subst hb
              exact hnew q d hp ha
            · exact hi.nodup q d' ((hpids q e).symm.trans hq)
          · intro q d' hq hf
            by_cases e : q = p
            · subst e
              rw [show _ = _ from hself] at hq; cases hq
              exact hi.dead q d hp hf
            · exact hi.dead q d' ((hpids q e).symm.trans hq) hf
          · intro q d' hq hu'
            by_cases e : q = p
            · subst e
              rw [show _ = _ from hself] at hq; cases hq
              exact hi.asked q d hp hu'
            · exact hi.asked q d' ((hpids q e).symm.trans hq) hu'
        have hpos := hi.pos
        have hrep : m.replay [.registered p s.next] = some { m with reg := fun k => if k = s.next then some (p, true) else m.reg k } := by
          simp only [Spec.replay, Spec.next]
          rw [if_pos ⟨hfr, by omega⟩]
        cases hf : d.fd with
        | true =>
          refine ⟨{ s.setPid p (some { d with cbs := d.cbs ++ [s.next] }) with next := s.next + 1 }, [.registered p s.next], ?_, _, hrep, ?_⟩
          · simp [St.register, hp, hu, hf, R.unwrap_some, R.bind_ok, R.pure_eq]
          · exact good_set h hp (s.next + 1) hinv rfl rfl (fun e => by rw [hf] at e; cases e) rfl
        | false =>
          refine ⟨{ s.setPid p (some { d with cbs := d.cbs ++ [s.next] }) with next := s.next + 1 }.send (.run p), [.registered p s.next], ?_, _, hrep, ?_⟩
          · simp [St.register, hp, hu, hf, R.unwrap_some, R.bind_ok, R.pure_eq]
          · have hpc : s.pc ≠ .done := fun e => by have := h.done e; rw [hd] at this; cases this
            have hq := h.queue hpc
            have hself := setPid_same s p (some { d with cbs := d.cbs ++ [s.next] })
            refine ⟨⟨hinv.ex, hinv.live, hinv.fresh, hinv.pos, hinv.nodup, hinv.dead, hinv.asked⟩, fun _ => ⟨?_, ?_, ?_, ?_⟩, fun _ _ => rfl, ?_, h.done, h.over⟩
            · intro l1 q l2 hc
              have hc : s.cmds ++ [.run p] = l1 ++ .run q :: l2 := hc
              have key : .unreg q ∉ l1 ∧ ∃ d', s.pids q = some d' ∧ d'.fd = false ∧ d'.unreg = false := by
                rcases List.eq_nil_or_concat l2 with rfl | ⟨l3, x, rfl⟩
                · obtain ⟨rfl, e⟩ := List.append_inj' hc rfl
                  have e : p = q := by simpa using e
                  subst e
                  refine ⟨?_, d, hp, hf, hu⟩
                  intro hc
                  have := hq.unreg p hc (by rw [hp]; simp)
                  rw [hask] at this; cases this
                · have h2 : s.cmds ++ [.run p] = (l1 ++ .run q :: l3) ++ [x] := by rw [hc]; simp
                  obtain ⟨e1, e2⟩ := List.append_inj' h2 rfl
                  exact hq.run l1 q l3 e1
              refine ⟨key.1, ?_⟩
              by_cases e : q = p
              · subst e; exact ⟨_, hself, hf, hu⟩
              · obtain ⟨d', k1, k2, k3⟩ := key.2
                exact ⟨d', (setPid_other s p q _ e).trans k1, k2, k3⟩
            · intro q d' hd' hf' hc
              by_cases e : q = p
              · subst e; exact List.mem_append_right _ (by simp)
              · exact List.mem_append_left _ (hq.pending q d' ((setPid_other s p q _ e).symm.trans hd') hf' hc)
            · intro q hc hne
              rcases List.mem_append.1 hc with e | e
              · by_cases e' : q = p
                · subst e'; exact hq.unreg q e (by rw [hp]; simp)
                · exact hq.unreg q e (by rw [← setPid_other s p q _ e']; exact hne)
              · simp at e
            · intro hc
              rcases List.mem_append.1 hc with e | e
              · exact hq.fin e
              · simp at e
            · intro evs hpc'
              obtain ⟨a1, a2⟩ := h.got evs hpc'
              refine ⟨a1, ?_⟩
              intro q hq'
              obtain ⟨d1, a3, a4, a5⟩ := a2 q hq'
              have e : q ≠ p := by rintro rfl; rw [hp] at a3; cases a3; rw [hf] at a4; cases a4
              exact ⟨d1, (setPid_other _ _ _ _ e).trans a3, a4, a5⟩
  | unregister p k =>
    simp only [step] at hs
    split at hs
    · cases hs
    · rename_i hd
      cases hs
      have hi := h.inv
      cases hp : s.pids p with
      | none =>
        refine ⟨s, [.unregistered p k], by simp only [St.unregister, hp], m, ?_, h⟩
        have hn : m.reg k ≠ some (p, true) := by
          intro hc
          obtain ⟨d, hd', _⟩ := (hi.live k p).1 hc
          rw [hp] at hd'; cases hd'
        simp only [Spec.replay, Spec.next, hn, and_false, if_false]
      | some d =>
        have hask : s.asked p = false := ha.resolve_left (by rw [hp]; simp)
        have hu : d.unreg = false := by
          cases hc : d.unreg
          · rfl
          · have := hi.asked p d hp hc; rw [hask] at this; cases this
        refine ⟨s.setPid p (some { d with cbs := d.cbs.filter (· ≠ k) }), [.unregistered p k], ?_, _, rfl, ?_⟩
        · simp only [St.unregister, hp, maybeRemove_set, hu, Bool.false_eq_true, and_false, if_false, R.bind_ok, R.pure_eq]
        · have hself := setPid_same s p (some { d with cbs := d.cbs.filter (· ≠ k) })
          have hpids : ∀ q, q ≠ p → (s.setPid p (some { d with cbs := d.cbs.filter (· ≠ k) })).pids q = s.pids q := fun q hq => setPid_other _ _ _ _ hq
          refine good_set h hp s.next (d' := { d with cbs := d.cbs.filter (· ≠ k) }) ?_ rfl rfl ?_ rfl
          · refine ⟨hi.ex, ?_, ?_, hi.pos, ?_, ?_, ?_⟩
            · intro j q
              show (if j = k ∧ m.reg k = some (p, true) then some (p, false) else m.reg j) = some (q, true) ↔
                ∃ d', (s.setPid p (some { d with cbs := d.cbs.filter (· ≠ k) })).pids q = some d' ∧ j ∈ d'.cbs
              have hl := hi.live j q
              by_cases e : q = p
              · subst e
                rw [hself]
                rw [hp] at hl
                by_cases ej : j = k
                · subst ej
                  by_cases hr : m.reg j = some (q, true)
                  · rw [if_pos ⟨rfl, hr⟩]; simp
                  · rw [if_neg (fun c => hr c.2)]; simp [hr]
                · rw [if_neg (fun c => ej c.1), hl]
                  simp [ej]
              · rw [hpids q e]
                by_cases ej : j = k ∧ m.reg k = some (p, true)
                · rw [if_pos ej]
                  obtain ⟨rfl, hr⟩ := ej
                  constructor
                  · intro hc; cases hc
                  · intro hc
                    have := hl.2 hc
                    rw [hr] at this; cases this
                    exact absurd rfl e
                · rw [if_neg ej]; exact hl
            · intro j hj
              simp only at hj
              split at hj
              · rename_i e
                exact hi.fresh j (by rw [e.1, e.2]; simp)
              · exact hi.fresh j hj
            · intro q d' hq
              by_cases e : q = p
              · subst e
                rw [show _ = _ from hself] at hq; cases hq
                exact (List.filter_sublist).nodup (hi.nodup q d hp)
              · exact hi.nodup q d' ((hpids q e).symm.trans hq)
            · intro q d' hq hf
              by_cases e : q = p
              · subst e
                rw [show _ = _ from hself] at hq; cases hq
                exact hi.dead q d hp hf
              · exact hi.dead q d' ((hpids q e).symm.trans hq) hf
            · intro q d' hq hu'
              by_cases e : q = p
              · subst e
                rw [show _ = _ from hself] at hq; cases hq
                exact hi.asked q d hp hu'
              · exact hi.asked q d' ((hpids q e).symm.trans hq) hu'
          · intro _ hne hc
            exact hne (by rw [hc]; rfl)
  | drop =>
    simp only [step] at hs
    split at hs
    · cases hs
    · rename_i hd
      have hd : s.dropping = false := by simpa using hd
      cases hs
      have hi := h.inv
      refine ⟨_, _, rfl, m, rfl, ⟨⟨hi.ex, hi.live, hi.fresh, hi.pos, hi.nodup, hi.dead, hi.asked⟩, fun hpc => ⟨?_, ?_, ?_, fun _ => rfl⟩, fun _ _ => rfl, h.got, fun _ => rfl, h.over⟩⟩
      · intro l1 p l2 hc
        have hc : s.cmds ++ [.finish] = l1 ++ .run p :: l2 := hc
        rcases List.eq_nil_or_concat l2 with rfl | ⟨l3, x, rfl⟩
        · obtain ⟨_, e⟩ := List.append_inj' hc rfl
          simp at e
        · have h2 : s.cmds ++ [.finish] = (l1 ++ .run p :: l3) ++ [x] := by rw [hc]; simp
          obtain ⟨e1, e2⟩ := List.append_inj' h2 rfl
          exact (h.queue hpc).run l1 p l3 e1
      · intro p d hp hf' hc
        exact List.mem_append_left _ ((h.queue hpc).pending p d hp hf' hc)
      · intro p hc hne
        rcases List.mem_append.1 hc with e | e
        · exact (h.queue hpc).unreg p e hne
        · simp at e
  | join =>
    simp only [step] at hs
    split at hs
    · rename_i hc
      cases hs
      have hi := h.inv
      exact ⟨_, _, rfl, _, rfl, ⟨hi.ex, hi.live, hi.fresh, hi.pos, hi.nodup, hi.dead, hi.asked⟩, h.queue, h.notify, h.got, h.done, fun _ => hc.2⟩
    · cases hs
  | exit p =>
    simp only [step] at hs
    split at hs
    · cases hs
    · cases hs
      have hi := h.inv
      refine ⟨_, _, rfl, _, rfl, ⟨?_, hi.live, hi.fresh, hi.pos, hi.nodup, ?_, hi.asked⟩,
        fun hpc => ⟨(h.queue hpc).run, (h.queue hpc).pending, (h.queue hpc).unreg, (h.queue hpc).fin⟩, h.notify, ?_, h.done, h.over⟩
      · intro q; simp only; rw [hi.ex]
      · intro q d hq hf
        simp only
        split
        · rfl
        · exact hi.dead q d hq hf
      · intro evs hpc
        obtain ⟨a1, a2⟩ := h.got evs hpc
        refine ⟨a1, ?_⟩
        intro q hq
        obtain ⟨d1, a3, a4, a5⟩ := a2 q hq
        refine ⟨d1, a3, a4, ?_⟩
        simp only
        split
        · rfl
        · exact a5
  | wait evs =>
    simp only [step] at hs
    split at hs
    · rename_i hc
      cases hs
      obtain ⟨hpc, hr, hn, _, _⟩ := hc
      have hi := h.inv
      refine ⟨_, _, rfl, m, rfl, ⟨hi.ex, hi.live, hi.fresh, hi.pos, hi.nodup, hi.dead, hi.asked⟩, fun _ => ?_, fun _ => h.notify (by rw [hpc]; simp), ?_,
        (fun e => by cases e), (fun e => by have := h.over e; rw [hpc] at this; cases this)⟩
      · have hq := h.queue (by rw [hpc]; simp)
        exact ⟨hq.run, hq.pending, hq.unreg, hq.fin⟩
      · intro evs' he
        cases he
        refine ⟨hn, ?_⟩
        intro p hp
        rw [List.all_eq_true] at hr
        have := hr p hp
        unfold St.ready at this
        split at this
        · rename_i d hd
          simp only [Bool.and_eq_true] at this
          exact ⟨d, hd, this.1, this.2⟩
        · cases this
    · cases hs
  | process =>
    simp only [step] at hs
    split at hs
    · rename_i evs hpc
      cases hs
      obtain ⟨s', e, h1, ⟨m', h2, h3⟩, _⟩ := process_ok h hpc
      exact ⟨s', e, h1, m', h2, h3⟩
    · cases hs

theorem run_good {s : St} {tr : List Ev} (h : Run s tr) : ∃ m, Spec.start.replay tr = some m ∧ Good s m := by
  induction h with
  | init => exact ⟨_, rfl, good_new⟩
  | step h1 h2 h3 ih =>
    obtain ⟨m, h4, h5⟩ := ih
    obtain ⟨s', e, he, m', h6, h7⟩ := good_step h5 _ h2 _ h3
    cases he
    exact ⟨m', by rw [replay_append _ _ _ _ h4]; exact h6, h7⟩

/-! ## Theorems -/

/-- **C61 (a).**  Within the contract no check fails, and all that is observed is what the specification allows: a callback runs at most once, after
its process has exited, not after `unregister_callback` has returned and not after the watcher was dropped; all handles are different and
not zero. -/
theorem C61_callbacks {s : St} {tr : List Ev} (h : Run s tr) :
    (∃ m, Spec.start.replay tr = some m) ∧ ∀ a, allowed s a → step s a ≠ some .panic := by
  obtain ⟨m, h1, h2⟩ := run_good h
  refine ⟨⟨m, h1⟩, ?_⟩
  intro a ha hs
  obtain ⟨s', e, he, _⟩ := good_step h2 a ha _ hs
  cases he

/-- **C61 (b).**  A callback whose process has exited is not forgotten: while the watcher thread waits, either the wait may return the process,
or the eventfd is readable. -/
theorem C61_awake {s : St} {tr : List Ev} (h : Run s tr) (hpc : s.pc = .wait) {p k : Nat} {d : PidData} (hp : s.pids p = some d) (hk : k ∈ d.cbs)
    (he : s.exited p = true) : s.ready p = true ∨ (d.fd = false ∧ s.notify = true) := by
  obtain ⟨m, _, h2⟩ := run_good h
  cases hf : d.fd with
  | true => exact .inl (by simp [St.ready, hp, hf, he])
  | false =>
    have := (h2.queue (by rw [hpc]; simp)).pending p d hp hf (List.ne_nil_of_mem hk)
    exact .inr ⟨rfl, h2.notify (by rw [hpc]; simp) (List.ne_nil_of_mem this)⟩

/-- **C61 (c).**  When the watcher thread handles events, unless the watcher is being dropped, it runs all callbacks of the processes that the
wait returned and of those whose exit it had seen before.  The processes that the wait returned are not ready any more, and no process
becomes ready: so each round brings the remaining ones nearer. -/
theorem C61_round {s : St} {tr : List Ev} (h : Run s tr) {evs : List Nat} (hpc : s.pc = .got evs) :
    ∃ s' e, step s .process = some (.ok (s', e)) ∧
      (∀ p d, s.pids p = some d → s.dropping = false → (p ∈ evs ∨ d.fd = false) → ∀ k ∈ d.cbs, .ran p k ∈ e) ∧
      (∀ p ∈ evs, s'.ready p = false) ∧ (∀ p, s'.ready p = true → s.ready p = true) ∧ (s.dropping = false → s'.pc = .wait) := by
  obtain ⟨m, _, h2⟩ := run_good h
  obtain ⟨s', e, h3, _, h4⟩ := process_ok h2 hpc
  exact ⟨s', e, by simp only [step, hpc, h3], h4⟩

/-- **C61 (d), finding.**  `unregister_callback` may remove the data of a process between the wait and the moment when the watcher thread takes the
mutex; then the watcher thread panics.  (A process with one callback is unregistered; it exits; the wait returns it; the callback is
unregistered; the events are handled.) -/
theorem C61_stale_event : ∃ s e,
    exec .new [.registerPid 5 false, .register 5, .unregisterPid 5, .wait [], .process, .exit 5, .wait [5], .unregister 5 1] = some (s, e) ∧
      step s .process = some .panic := ⟨_, _, rfl, rfl⟩

/-- **C61 (e), finding.**  `unregister_pid` only asks the watcher thread to forget the process: when a new process with the same id is registered
before it has done so, `register_pid` panics. -/
theorem C61_reregister : ∃ s e,
    exec .new [.registerPid 5 true, .unregisterPid 5] = some (s, e) ∧ step s (.registerPid 5 false) = some .panic := ⟨_, _, rfl, rfl⟩

/-! ### Examples -/

/-- Two callbacks before the exit, one of them unregistered, and one after it. -/
example : (exec .new [.registerPid 5 false, .register 5, .register 5, .unregister 5 1, .exit 5, .wait [5], .process, .register 5, .unregisterPid 5, .wait [],
      .process, .drop, .wait [], .process, .join]).map (·.2) =
    some [.pid 5 false, .registered 5 1, .registered 5 2, .unregistered 5 1, .exited 5, .ran 5 2, .registered 5 3, .ran 5 3, .dropped] := by decide

/-- The hypotheses of the theorems are met by a run. -/
example : ∃ s tr, Run s tr ∧ s.pc = .got [5] ∧ s.dropping = false ∧ s.pids 5 = some ⟨[1], true, false⟩ ∧ allowed s (.unregister 5 1) := by
  refine ⟨_, _, Run.step (a := .wait [5]) (Run.step (a := .exit 5) (Run.step (a := .register 5) (Run.step (a := .registerPid 5 false) .init ?_ rfl) ?_ rfl) trivial rfl) trivial rfl,
    rfl, rfl, rfl, ?_⟩
  · exact ⟨rfl, by simp [St.new]⟩
  · exact ⟨by simp [St.setPid], rfl⟩
  · exact .inr rfl

end Shadow.PidWatch
