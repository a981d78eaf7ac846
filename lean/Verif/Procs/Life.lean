import Verif.Procs.Props

/-!
# Processes of a host: the life of a process (C54)
-/
namespace Shadow.Procs
open Shadow.Base

theorem dying_mem {s : St} {p : Proc} (h : Tree 0 s) (hp : p ∈ s.procs) {x evs} {c : Proc} :
    c ∈ (dying s p x evs).procs ↔ (c ∈ s.procs ∧ c.pid ≠ p.pid) ∨ c = { p with zombie := some x } := by
  show c ∈ (s.update p.pid fun q => { q with zombie := some x }).procs ↔ _
  rw [mem_update]
  constructor
  · rintro ⟨q, hq, rfl⟩
    by_cases h1 : q.pid = p.pid
    · have := unique h.sorted hq hp h1
      subst this
      rw [if_pos rfl]; exact .inr rfl
    · rw [if_neg h1]; exact .inl ⟨hq, h1⟩
  · rintro (⟨h1, h2⟩ | rfl)
    · exact ⟨c, h1, by rw [if_neg h2]⟩
    · exact ⟨p, hp, by rw [if_pos rfl]⟩

/-- Where the processes of the next state come from: each was there with the same pid (and, if it had
ended, with the same status; if it ends in this step, it is by `exit` with the status), or is the one
new process. -/
theorem step_old {s : St} (h : Inv s) {a : Act} {s' r evs} (hs : step s a = some (.ok (s', r, evs))) :
    s.next ≤ s'.next ∧ ∀ c' ∈ s'.procs,
      (∃ c ∈ s.procs, c'.pid = c.pid ∧ (c'.zombie = c.zombie ∨
        (c.zombie = none ∧ ∃ x, a = .exit c.pid x ∧ c'.zombie = some x))) ∨
      (c'.pid = s.next ∧ c'.zombie = none ∧ s'.next = s.next + 1) := by
  have hsame : ∀ s1 : St, s1.next = s.next → (∀ c' ∈ s1.procs, ∃ c ∈ s.procs, c'.pid = c.pid ∧ c'.zombie = c.zombie) →
      s.next ≤ s1.next ∧ ∀ c' ∈ s1.procs,
      (∃ c ∈ s.procs, c'.pid = c.pid ∧ (c'.zombie = c.zombie ∨
        (c.zombie = none ∧ ∃ x, a = .exit c.pid x ∧ c'.zombie = some x))) ∨
      (c'.pid = s.next ∧ c'.zombie = none ∧ s1.next = s.next + 1) := by
    intro s1 h1 h2
    refine ⟨by omega, fun c' hc' => .inl ?_⟩
    obtain ⟨c, hc, h3, h4⟩ := h2 c' hc'
    exact ⟨c, hc, h3, .inl h4⟩
  have hupd : ∀ (pid : Nat) (f : Proc → Proc), (∀ p, (f p).pid = p.pid ∧ (f p).zombie = p.zombie) →
      ∀ c' ∈ (s.update pid f).procs, ∃ c ∈ s.procs, c'.pid = c.pid ∧ c'.zombie = c.zombie := by
    intro pid f hf c' hc'
    obtain ⟨c, hc, rfl⟩ := mem_update.1 hc'
    refine ⟨c, hc, ?_⟩
    split
    · exact hf c
    · exact ⟨rfl, rfl⟩
  have hwait : ∀ {s1 : St} {me : Proc} {call : Call}, Inv s1 → s1.procs = s.procs → s1.next = s.next →
      me ∈ s1.procs → me.zombie = none → runWait s1 me call = .ok (s', r, evs) →
      s'.next = s.next ∧ ∀ c' ∈ s'.procs, ∃ c ∈ s.procs, c'.pid = c.pid ∧ c'.zombie = c.zombie := by
    intro s1 me call h0 h1 h2 h3 h4 h5
    obtain ⟨-, out, rem, -, -, h6, h7, -⟩ := wait_inv h0 h3 h4 call h5
    refine ⟨by omega, fun c' hc' => ⟨c', ?_, rfl, rfl⟩⟩
    rw [h7] at hc'
    rw [← h1]
    cases rem with
    | none => exact hc'
    | some z => exact (List.mem_filter.1 hc').1
  cases a with
  | spawn =>
    simp only [step, newId, Option.some.injEq] at hs
    obtain ⟨⟨pid, s1⟩, h1, h2⟩ := (R.bind_eq_ok ..).1 hs
    obtain ⟨-, -, h1⟩ := (R.bind_eq_ok ..).1 h1
    cases h1
    cases h2
    refine ⟨Nat.le_succ _, fun c' hc' => ?_⟩
    rcases List.mem_append.1 hc' with hc' | hc'
    · exact .inl ⟨c', hc', rfl, .inl rfl⟩
    · rw [List.mem_singleton] at hc'
      subst hc'
      exact .inr ⟨rfl, rfl, rfl⟩
  | thread =>
    simp only [step, newId, Option.some.injEq] at hs
    obtain ⟨⟨pid, s1⟩, h1, h2⟩ := (R.bind_eq_ok ..).1 hs
    obtain ⟨-, -, h1⟩ := (R.bind_eq_ok ..).1 h1
    cases h1
    cases h2
    exact ⟨Nat.le_succ _, fun c' hc' => .inl ⟨c', hc', rfl, .inl rfl⟩⟩
  | fork me cp es ig =>
    simp only [step, newId] at hs
    obtain ⟨p, hp, hs⟩ := Option.map_eq_some_iff.1 hs
    obtain ⟨⟨pid, s1⟩, h1, h2⟩ := (R.bind_eq_ok ..).1 hs
    obtain ⟨-, -, h1⟩ := (R.bind_eq_ok ..).1 h1
    cases h1
    cases h2
    refine ⟨Nat.le_succ _, fun c' hc' => ?_⟩
    rcases List.mem_append.1 hc' with hc' | hc'
    · exact .inl ⟨c', hc', rfl, .inl rfl⟩
    · rw [List.mem_singleton] at hc'
      subst hc'
      exact .inr ⟨rfl, rfl, rfl⟩
  | setpgid me pid pgid =>
    simp only [step] at hs
    obtain ⟨p, hp, hs⟩ := Option.map_eq_some_iff.1 hs
    obtain ⟨hp1, -⟩ := (running_iff h.tree.sorted).1 hp
    cases hs
    obtain ⟨k1, k2, k3, -⟩ := C54_setpgid h hp1 pid pgid
    cases hn : (setpgid s p pid pgid).1 with
    | some e =>
      rw [k2 (by rw [hn]; simp)]
      exact hsame s rfl fun c hc => ⟨c, hc, rfl, rfl⟩
    | none =>
      obtain ⟨q, hq, -⟩ := k1.1 hn
      rw [k3 q hq hn]
      exact hsame _ rfl (hupd _ _ fun _ => ⟨rfl, rfl⟩)
  | setsid me =>
    simp only [step] at hs
    obtain ⟨p, hp, hs⟩ := Option.map_eq_some_iff.1 hs
    cases hs
    unfold setsid
    split
    · exact hsame _ rfl fun c hc => ⟨c, hc, rfl, rfl⟩
    · exact hsame _ rfl (hupd _ _ fun _ => ⟨rfl, rfl⟩)
  | ignore me sigs =>
    simp only [step] at hs
    obtain ⟨p, hp, hs⟩ := Option.map_eq_some_iff.1 hs
    cases hs
    exact hsame _ rfl (hupd _ _ fun _ => ⟨rfl, rfl⟩)
  | deathSignal me sig =>
    simp only [step] at hs
    obtain ⟨p, hp, hs⟩ := Option.map_eq_some_iff.1 hs
    cases hs
    exact hsame _ rfl (hupd _ _ fun _ => ⟨rfl, rfl⟩)
  | wait me call =>
    simp only [step] at hs
    obtain ⟨p, hp, hs⟩ := Option.map_eq_some_iff.1 hs
    obtain ⟨hp1, -, hp3⟩ := (running_iff h.tree.sorted).1 hp
    obtain ⟨k1, k2⟩ := hwait h rfl rfl hp1 hp3 hs
    exact hsame _ k1 k2
  | again i =>
    simp only [step] at hs
    split at hs
    · cases hs
    · rename_i w hw
      obtain ⟨p, hp, hs⟩ := Option.map_eq_some_iff.1 hs
      obtain ⟨hp1, -, hp3⟩ := (running_iff h.tree.sorted).1 hp
      obtain ⟨k1, k2⟩ := hwait (leave_inv h i) rfl rfl hp1 hp3 hs
      exact hsame _ k1 k2
  | leave i =>
    simp only [step] at hs
    split at hs
    · cases hs
    · cases hs; exact hsame _ rfl fun c hc => ⟨c, hc, rfl, rfl⟩
  | exit pid x =>
    simp only [step] at hs
    obtain ⟨p, hp, hs⟩ := Option.map_eq_some_iff.1 hs
    obtain ⟨hp1, hp2, hp3⟩ := (running_iff h.tree.sorted).1 hp
    obtain ⟨s1, e1, e2, h1, h2, h3, h4, -⟩ := die_spec h.tree hp1 hp3 x
    rw [h1] at hs
    cases hs
    have hnx : s1.next = s.next := h3.next
    refine ⟨Nat.le_of_eq hnx.symm, fun c' hc' => .inl ?_⟩
    obtain ⟨d, hd, hd'⟩ := (h3.procs c').1 hc'
    have hpz : c'.pid = d.pid ∧ c'.zombie = d.zombie := by
      rcases hd' with ⟨-, -, rfl⟩ | ⟨-, -, rfl⟩ | ⟨-, -, rfl⟩ <;> exact ⟨rfl, rfl⟩
    rcases (dying_mem h.tree hp1).1 hd with ⟨hd1, hd2⟩ | rfl
    · exact ⟨d, hd1, hpz.1, .inl hpz.2⟩
    · exact ⟨p, hp1, hpz.1, .inr ⟨hp3, x, by rw [hp2], hpz.2⟩⟩
  | late pid =>
    simp only [step] at hs
    split at hs
    · cases hs
    · rename_i p hp
      split at hs
      · cases hs
      · rename_i hz
        obtain ⟨hp1, -⟩ := (find_iff h.tree.sorted).1 hp
        have hz : p.zombie ≠ none := by
          intro he
          simp [Proc.running, he] at hz
        obtain ⟨s1, e1, h1, h2, -⟩ := bury_spec (h.tree.weaken p.pid) hp1 hz
        simp only [Option.some.injEq] at hs
        rw [h1] at hs
        cases hs
        refine hsame _ h2.next fun c' hc' => ?_
        obtain ⟨d, hd, hd'⟩ := (h2.procs c').1 hc'
        refine ⟨d, hd, ?_⟩
        rcases hd' with ⟨-, -, rfl⟩ | ⟨-, -, rfl⟩ | ⟨-, -, rfl⟩ <;> exact ⟨rfl, rfl⟩

theorem later_old {s s' : St} (h : Inv s) (hl : Later s s') :
    s.next ≤ s'.next ∧ ∀ c' ∈ s'.procs, c'.pid < s.next →
      ∃ c ∈ s.procs, c'.pid = c.pid ∧ (∀ x, c.zombie = some x → c'.zombie = some x) := by
  induction hl with
  | refl => exact ⟨Nat.le_refl _, fun c hc _ => ⟨c, hc, rfl, fun _ hx => hx⟩⟩
  | step hl hs ih =>
    have h1 := later_inv h hl
    obtain ⟨k1, k2⟩ := step_old h1 hs
    refine ⟨Nat.le_trans ih.1 k1, fun c' hc' hlt => ?_⟩
    rcases k2 c' hc' with ⟨c, hc, h3, h4⟩ | ⟨h3, -⟩
    · obtain ⟨b, hb, h5, h6⟩ := ih.2 c hc (by omega)
      refine ⟨b, hb, by omega, fun x hx => ?_⟩
      have := h6 x hx
      rcases h4 with h4 | ⟨h4, -⟩
      · rw [h4, this]
      · rw [h4] at this; cases this
    · omega

/-- **C54 (pids are not reused)**: a pid that has been given out and is not (or no longer) in the table
is never in the table again. -/
theorem C54_pids {s s' : St} (h : Reach s) (hl : Later s s') {pid : Nat} (hp : pid < s.next)
    (hgone : ∀ c ∈ s.procs, c.pid ≠ pid) : ∀ c' ∈ s'.procs, c'.pid ≠ pid := by
  intro c' hc' he
  obtain ⟨c, hc, h1, -⟩ := (later_old (reach_inv h) hl).2 c' hc' (by omega)
  exact hgone c hc (by omega)

/-- **C54 (one end)**: the status of a process that ended does not change while it is in the table. -/
theorem C54_status_kept {s s' : St} (h : Reach s) (hl : Later s s') {c c' : Proc} {x : Exit}
    (hc : c ∈ s.procs) (hz : c.zombie = some x) (hc' : c' ∈ s'.procs) (he : c'.pid = c.pid) :
    c'.zombie = some x := by
  have hi := reach_inv h
  have hr := hi.tree.range c hc
  obtain ⟨d, hd, h1, h2⟩ := (later_old hi hl).2 c' hc' (by omega)
  have := unique hi.tree.sorted hd hc (by omega)
  subst this
  exact h2 x hz

theorem report_rem {z : Proc} {x c out rem} (h : Report z x c out rem) : rem = none ∨ rem = some z := by
  cases h with
  | wait4 => exact .inr rfl
  | wait4Fault => exact .inl rfl
  | wait4Usage => exact .inl rfl
  | waitidFault => exact .inl rfl
  | waitidUsage => exact .inl rfl
  | waitid =>
    split
    · exact .inl rfl
    · exact .inr rfl

/-- A wait by `me` in `s` (made now or resumed) that gave `out` and collected `rem`. -/
def Waited (s : St) (a : Act) (me : Proc) (call : Call) (out : Out) (rem : Option Proc) : Prop :=
  (a = .wait me.pid call ∨ ∃ (i : Nat) (w : Waiter), a = .again i ∧ s.waiters[i]? = some w ∧ w.owner = me.pid ∧ w.call = call) ∧
  me ∈ s.procs ∧ me.zombie = none ∧ WaitSpec s me call out rem

/-- **C54 (where zombies go)**: a process that ended stays in the table, with its status and its parent,
until its parent collects it in a wait, its parent ends, or (see the findings) the exit of the process
is looked at once more when its parent ignores the exit signal. -/
theorem C54_zombie {s : St} (h : Reach s) {a : Act} {s' r evs} (hs : step s a = some (.ok (s', r, evs)))
    {c : Proc} {x : Exit} (hc : c ∈ s.procs) (hz : c.zombie = some x) :
    (∃ c' ∈ s'.procs, c'.pid = c.pid ∧ c'.zombie = some x ∧ c'.parent = c.parent ∧ c'.exitSignal = c.exitSignal) ∨
    (∃ me call out, Waited s a me call out (some c) ∧ c.parent = me.pid ∧ r = .waited out ∧ Report c x call out (some c)) ∨
    (∃ y, a = .exit c.parent y) ∨
    (a = .late c.pid ∧ ¬ Reapable s c) := by
  have h := reach_inv h
  have hupd : ∀ (pid : Nat) (f : Proc → Proc), (∀ p, (f p).pid = p.pid ∧ (f p).zombie = p.zombie ∧
        (f p).parent = p.parent ∧ (f p).exitSignal = p.exitSignal) →
      ∃ c' ∈ (s.update pid f).procs, c'.pid = c.pid ∧ c'.zombie = some x ∧ c'.parent = c.parent ∧
        c'.exitSignal = c.exitSignal := by
    intro pid f hf
    refine ⟨_, mem_update.2 ⟨c, hc, rfl⟩, ?_⟩
    split
    · have := hf c
      exact ⟨this.1, by rw [this.2.1, hz], this.2.2⟩
    · exact ⟨rfl, hz, rfl, rfl⟩
  have hwait : ∀ {s1 : St} {me : Proc} {call : Call}, Inv s1 → s1.procs = s.procs →
      (a = .wait me.pid call ∨ ∃ (i : Nat) (w : Waiter), a = .again i ∧ s.waiters[i]? = some w ∧ w.owner = me.pid ∧ w.call = call) →
      me ∈ s.procs → me.zombie = none → runWait s1 me call = .ok (s', r, evs) →
      (∃ c' ∈ s'.procs, c'.pid = c.pid ∧ c'.zombie = some x ∧ c'.parent = c.parent ∧ c'.exitSignal = c.exitSignal) ∨
      (∃ me call out, Waited s a me call out (some c) ∧ c.parent = me.pid ∧ r = .waited out ∧ Report c x call out (some c)) := by
    intro s1 me call h0 h1 ha h3 h4 h5
    obtain ⟨-, out, rem, h6, h7, -, h8, -⟩ := wait_inv h0 (h1 ▸ h3) h4 call h5
    have h6' : WaitSpec s me call out rem := by
      cases h6 with
      | invalid a => exact .invalid a
      | noChild a b => exact .noChild a (h1 ▸ b)
      | nothing a b c => exact .nothing a (h1 ▸ b) (h1 ▸ c)
      | found a b c d e f g => exact .found a b (h1 ▸ c) d e (h1 ▸ f) g
    rw [h1] at h8
    cases hr : rem with
    | none =>
      rw [hr] at h8
      exact .inl ⟨c, by rw [h8]; exact hc, rfl, hz, rfl, rfl⟩
    | some z =>
      by_cases hzc : c.pid = z.pid
      · subst hr
        cases h6' with
        | @found z' y _ _ a1 a2 a3 a4 a5 a6 a7 =>
          have hzz : z = z' := by
            rcases report_rem a7 with h | h
            · cases h
            · exact Option.some.inj h
          subst hzz
          have hcz := unique h.tree.sorted hc a3 hzc
          subst hcz
          rw [hz] at a5
          cases a5
          exact .inr ⟨me, call, out, ⟨ha, h3, h4, .found a1 a2 a3 a4 hz a6 a7⟩, a4.1, h7, a7⟩
      · rw [hr] at h8
        exact .inl ⟨c, by rw [h8]; exact List.mem_filter.2 ⟨hc, by simpa using hzc⟩, rfl, hz, rfl, rfl⟩
  have hstay : ∃ c' ∈ s.procs, c'.pid = c.pid ∧ c'.zombie = some x ∧ c'.parent = c.parent ∧
      c'.exitSignal = c.exitSignal := ⟨c, hc, rfl, hz, rfl, rfl⟩
  cases a with
  | spawn =>
    simp only [step, newId, Option.some.injEq] at hs
    obtain ⟨⟨pid, s1⟩, h1, h2⟩ := (R.bind_eq_ok ..).1 hs
    obtain ⟨-, -, h1⟩ := (R.bind_eq_ok ..).1 h1
    cases h1
    cases h2
    exact .inl ⟨c, List.mem_append_left _ hc, rfl, hz, rfl, rfl⟩
  | thread =>
    simp only [step, newId, Option.some.injEq] at hs
    obtain ⟨⟨pid, s1⟩, h1, h2⟩ := (R.bind_eq_ok ..).1 hs
    obtain ⟨-, -, h1⟩ := (R.bind_eq_ok ..).1 h1
    cases h1
    cases h2
    exact .inl hstay
  | fork me cp es ig =>
    simp only [step, newId] at hs
    obtain ⟨p, hp, hs⟩ := Option.map_eq_some_iff.1 hs
    obtain ⟨⟨pid, s1⟩, h1, h2⟩ := (R.bind_eq_ok ..).1 hs
    obtain ⟨-, -, h1⟩ := (R.bind_eq_ok ..).1 h1
    cases h1
    cases h2
    exact .inl ⟨c, List.mem_append_left _ hc, rfl, hz, rfl, rfl⟩
  | setpgid me pid pgid =>
    simp only [step] at hs
    obtain ⟨p, hp, hs⟩ := Option.map_eq_some_iff.1 hs
    obtain ⟨hp1, -⟩ := (running_iff h.tree.sorted).1 hp
    cases hs
    obtain ⟨k1, k2, k3, -⟩ := C54_setpgid h hp1 pid pgid
    cases hn : (setpgid s p pid pgid).1 with
    | some e =>
      rw [k2 (by rw [hn]; simp)]
      exact .inl hstay
    | none =>
      obtain ⟨q, hq, -⟩ := k1.1 hn
      rw [k3 q hq hn]
      exact .inl (hupd _ _ fun _ => ⟨rfl, rfl, rfl, rfl⟩)
  | setsid me =>
    simp only [step] at hs
    obtain ⟨p, hp, hs⟩ := Option.map_eq_some_iff.1 hs
    cases hs
    unfold setsid
    split
    · exact .inl hstay
    · exact .inl (hupd _ _ fun _ => ⟨rfl, rfl, rfl, rfl⟩)
  | ignore me sigs =>
    simp only [step] at hs
    obtain ⟨p, hp, hs⟩ := Option.map_eq_some_iff.1 hs
    cases hs
    exact .inl (hupd _ _ fun _ => ⟨rfl, rfl, rfl, rfl⟩)
  | deathSignal me sig =>
    simp only [step] at hs
    obtain ⟨p, hp, hs⟩ := Option.map_eq_some_iff.1 hs
    cases hs
    exact .inl (hupd _ _ fun _ => ⟨rfl, rfl, rfl, rfl⟩)
  | wait me call =>
    simp only [step] at hs
    obtain ⟨p, hp, hs⟩ := Option.map_eq_some_iff.1 hs
    obtain ⟨hp1, hp2, hp3⟩ := (running_iff h.tree.sorted).1 hp
    rcases hwait h rfl (.inl (by rw [hp2])) hp1 hp3 hs with k | k
    · exact .inl k
    · exact .inr (.inl k)
  | again i =>
    simp only [step] at hs
    split at hs
    · cases hs
    · rename_i w hw
      obtain ⟨p, hp, hs⟩ := Option.map_eq_some_iff.1 hs
      obtain ⟨hp1, hp2, hp3⟩ := (running_iff h.tree.sorted).1 hp
      rcases hwait (leave_inv h i) rfl (.inr ⟨i, w, rfl, hw, hp2.symm, rfl⟩) hp1 hp3 hs with k | k
      · exact .inl k
      · exact .inr (.inl k)
  | leave i =>
    simp only [step] at hs
    split at hs
    · cases hs
    · cases hs; exact .inl hstay
  | exit pid y =>
    simp only [step] at hs
    obtain ⟨p, hp, hs⟩ := Option.map_eq_some_iff.1 hs
    obtain ⟨hp1, hp2, hp3⟩ := (running_iff h.tree.sorted).1 hp
    obtain ⟨s1, e1, e2, h1, h2, h3, h4, -⟩ := die_spec h.tree hp1 hp3 y
    rw [h1] at hs
    cases hs
    by_cases hpar : c.parent = p.pid
    · exact .inr (.inr (.inl ⟨y, by rw [hpar, hp2]⟩))
    · have hne : c.pid ≠ p.pid := by
        intro he
        have := unique h.tree.sorted hc hp1 he
        subst this
        rw [hz] at hp3; cases hp3
      exact .inl ⟨c, (h3.procs c).2 ⟨c, (dying_mem h.tree hp1).2 (.inl ⟨hc, hne⟩), .inr (.inl ⟨hpar, hne, rfl⟩)⟩,
        rfl, hz, rfl, rfl⟩
  | late pid =>
    simp only [step] at hs
    split at hs
    · cases hs
    · rename_i p hp
      split at hs
      · cases hs
      · rename_i hzz
        obtain ⟨hp1, hp2⟩ := (find_iff h.tree.sorted).1 hp
        have hzz : p.zombie ≠ none := by
          intro he
          simp [Proc.running, he] at hzz
        obtain ⟨s1, e1, h1, h2, -⟩ := bury_spec (h.tree.weaken p.pid) hp1 hzz
        simp only [Option.some.injEq] at hs
        rw [h1] at hs
        cases hs
        by_cases he : c.pid = p.pid
        · have := unique h.tree.sorted hc hp1 he
          subst this
          by_cases hre : Reapable s c
          · exact .inl ⟨c, (h2.procs c).2 ⟨c, hc, .inr (.inr ⟨rfl, hre, rfl⟩)⟩, rfl, hz, rfl, rfl⟩
          · exact .inr (.inr (.inr ⟨by rw [hp2], hre⟩))
        · have hpar : c.parent ≠ p.pid := by
            intro hpar
            rcases (h.tree.parent c hc).2 with h3 | ⟨q, h3, h4, h5⟩
            · have := h.tree.range p hp1
              omega
            · have := unique h.tree.sorted h3 hp1 (by omega)
              subst this
              rcases h5 with h5 | h5
              · exact hzz h5
              · have := h.tree.range q h3
                omega
          exact .inl ⟨c, (h2.procs c).2 ⟨c, hc, .inr (.inl ⟨hpar, he, rfl⟩)⟩, rfl, hz, rfl, rfl⟩

/-- **C54 (collected at most once)**: after a wait that reported the end of a process and removed it, no
wait of anybody reports it again. -/
theorem C54_once {s s1 s2 : St} (h : Reach s) {a : Act} {r evs} (hs : step s a = some (.ok (s1, r, evs)))
    {me : Proc} {call : Call} {out : Out} {z : Proc}
    (ha : a = .wait me.pid call ∨ ∃ (i : Nat) (w : Waiter), a = .again i ∧ s.waiters[i]? = some w ∧ w.owner = me.pid ∧ w.call = call)
    (hme : me ∈ s.procs) (hw : waitCall s me call = .ok (out, some z)) (hl : Later s1 s2) :
    z ∈ s.procs ∧ (∀ c ∈ s2.procs, c.pid ≠ z.pid) ∧
    ∀ me2 call2 out2 rem2, WaitSpec s2 me2 call2 out2 rem2 → ∀ z2, rem2 = some z2 → z2.pid ≠ z.pid := by
  have hi := reach_inv h
  -- the wait of this step
  have hrun : ∃ s0 : St, s0.procs = s.procs ∧ s0.next = s.next ∧ runWait s0 me call = .ok (s1, r, evs) ∧ Inv s0 := by
    rcases ha with rfl | ⟨i, w, rfl, h1, h2, rfl⟩
    · simp only [step] at hs
      obtain ⟨p, hp, hs⟩ := Option.map_eq_some_iff.1 hs
      obtain ⟨hp1, hp2, hp3⟩ := (running_iff hi.tree.sorted).1 hp
      have := unique hi.tree.sorted hp1 hme hp2
      exact ⟨s, rfl, rfl, this ▸ hs, hi⟩
    · simp only [step, h1] at hs
      obtain ⟨p, hp, hs⟩ := Option.map_eq_some_iff.1 hs
      obtain ⟨hp1, hp2, hp3⟩ := (running_iff hi.tree.sorted).1 hp
      have := unique hi.tree.sorted hp1 hme (by omega)
      exact ⟨{ s with waiters := s.waiters.eraseIdx i }, rfl, rfl, this ▸ hs, leave_inv hi i⟩
  obtain ⟨s0, h1, h2, h3, h4⟩ := hrun
  have hw0 : waitCall s0 me call = waitCall s me call := by
    unfold waitCall waitInternal
    simp only [h1]
  unfold runWait at h3
  rw [hw0, hw] at h3
  simp only [R.bind_ok, R.ok.injEq, Prod.mk.injEq] at h3
  have hprocs : s1.procs = s.procs.filter (·.pid ≠ z.pid) ∧ s1.next = s.next := by
    rw [← h3.1]
    split
    · exact ⟨by simp only [h1], h2⟩
    · exact ⟨by simp only [h1], h2⟩
  have hz : z ∈ s.procs := by
    have hsp := C54_wait hi.tree.sorted hw
    cases hsp with
    | found a1 a2 a3 a4 a5 a6 a7 =>
      rcases report_rem a7 with k | k
      · cases k
      · cases k; exact a3
  have hgone : ∀ c ∈ s2.procs, c.pid ≠ z.pid := by
    refine C54_pids (.step h hs) hl ?_ ?_
    · rw [hprocs.2]; exact (hi.tree.range z hz).2
    · intro c hc
      rw [hprocs.1] at hc
      simpa using (List.mem_filter.1 hc).2
  refine ⟨hz, hgone, ?_⟩
  intro me2 call2 out2 rem2 hsp z2 hz2
  cases hsp with
  | invalid => cases hz2
  | noChild => cases hz2
  | nothing => cases hz2
  | found a1 a2 a3 a4 a5 a6 a7 =>
    rcases report_rem a7 with k | k
    · rw [k] at hz2; cases hz2
    · rw [k] at hz2; cases hz2; exact hgone _ a3

/-- **C54 (the tree)**: pids are distinct and have been given out; the parent of each process is the
init process of the system or a *running* process that is older; a process that ended and is still in
the table has a running parent. -/
theorem C54_tree {s : St} (h : Reach s) :
    s.procs.Pairwise (·.pid < ·.pid) ∧ (∀ p ∈ s.procs, p.pid < s.next) ∧
    (∀ p ∈ s.procs, p.parent < p.pid ∧ (p.parent = 1 ∨ ∃ q ∈ s.procs, q.pid = p.parent ∧ q.zombie = none)) ∧
    (∀ p ∈ s.procs, p.zombie ≠ none → ∃ q ∈ s.procs, q.pid = p.parent ∧ q.zombie = none) := by
  have hi := (reach_inv h).tree
  have hpar : ∀ p ∈ s.procs, p.parent < p.pid ∧ (p.parent = 1 ∨ ∃ q ∈ s.procs, q.pid = p.parent ∧ q.zombie = none) := by
    intro p hp
    obtain ⟨h1, h2⟩ := hi.parent p hp
    refine ⟨h1, ?_⟩
    rcases h2 with h2 | ⟨q, h2, h3, h4⟩
    · exact .inl h2
    · rcases h4 with h4 | h4
      · exact .inr ⟨q, h2, h3, h4⟩
      · have := hi.range q h2; omega
  refine ⟨hi.sorted, fun p hp => (hi.range p hp).2, hpar, fun p hp hz => ?_⟩
  rcases hi.zombie p hp hz with h1 | h1
  · rcases (hpar p hp).2 with h2 | h2
    · exact absurd h2 h1
    · exact h2
  · have := hi.range p hp; omega

/-- **C54 (no lost wake-up)**: while a wait sleeps and has not been woken, some child that it asks for
is running and none has ended. (`Certain`: the wait asks for children that send SIGCHLD, by pid or for
any child.) -/
theorem C54_wake {s : St} (h : Reach s) {w : Waiter} (hw : w ∈ s.waiters) (ha : w.woken = false)
    (hc : Certain w.call) (grp : Nat) :
    (∃ c ∈ s.procs, Asks w.owner grp w.call c ∧ c.zombie = none) ∧
    ∀ c ∈ s.procs, Asks w.owner grp w.call c → c.zombie = none := by
  obtain ⟨⟨c, h1, h2, h3⟩, h4⟩ := (reach_inv h).tree.asleep w hw ha hc
  exact ⟨⟨c, h1, hc.group rfl rfl rfl h2, h3⟩, fun c hc' hq => h4 c hc' (hc.group rfl rfl rfl hq)⟩

/-- **C54 (groups)**: all processes of a group are in one session, also with the process after which the
group is named; the leader of a session leads a group. -/
theorem C54_groups {s : St} (h : Reach s) :
    (∀ p ∈ s.procs, ∀ q ∈ s.procs, p.group = q.group → p.session = q.session) ∧
    (∀ p ∈ s.procs, ∀ q ∈ s.procs, q.group = p.pid → q.session = p.session) ∧
    (∀ p ∈ s.procs, p.session = p.pid → p.group = p.pid) :=
  ⟨(reach_inv h).groups.one, (reach_inv h).groups.own, (reach_inv h).groups.leader⟩

/-- **C54 (exit)**: the end of a process never panics; its parent is told as `Told` says; afterwards the
process is a zombie if it has a reaper and gone otherwise, its running children have been given to init
and its zombie children are gone, every other process is as before; each running child that asked for a
signal at the death of its parent gets exactly that. -/
theorem C54_exit {s : St} (h : Reach s) {p : Proc} (hp : p ∈ s.procs) (hz : p.zombie = none) (x : Exit) :
    ∃ s' evs evs', step s (.exit p.pid x) = some (.ok (s', .none, evs ++ evs')) ∧ Told s p x evs ∧
      evs' = ((s.procs.filter fun c => c.parent = p.pid ∧ c.zombie = none).filterMap fun c =>
        c.deathSignal.map fun sig => .signal c.pid sig ⟨sig, p.pid, 0, 0⟩) ∧
      s'.next = s.next ∧ s'.procs.Pairwise (·.pid < ·.pid) ∧
      ∀ c', c' ∈ s'.procs ↔
        (∃ c ∈ s.procs, c.parent = p.pid ∧ c.zombie = none ∧ c' = { c with parent := 1 }) ∨
        (c' ∈ s.procs ∧ c'.parent ≠ p.pid ∧ c'.pid ≠ p.pid) ∨
        (Reapable s p ∧ c' = { p with zombie := some x }) := by
  have hi := (reach_inv h).tree
  obtain ⟨s', e1, e2, h1, h2, h3, h4, h5⟩ := die_spec hi hp hz x
  have hrun : s.running p.pid = some p := (running_iff hi.sorted).2 ⟨hp, rfl, hz⟩
  refine ⟨s', e1, e2, ?_, h2, h5, h3.next, h3.sorted, fun c' => ?_⟩
  · simp only [step, hrun, Option.map_some, h1, R.bind_ok]
  have hre : Reapable (dying s p x e1) { p with zombie := some x } ↔ Reapable s p := by
    constructor
    · rintro ⟨a1, q, a2, a3, a4⟩
      rcases (dying_mem hi hp).1 a2 with ⟨b1, -⟩ | rfl
      · exact ⟨a1, q, b1, a3, a4⟩
      · exact ⟨a1, p, hp, a3, a4⟩
    · rintro ⟨a1, q, a2, a3, a4⟩
      by_cases hq : q.pid = p.pid
      · have := unique hi.sorted a2 hp hq
        subst this
        exact ⟨a1, _, (dying_mem hi hp).2 (.inr rfl), a3, a4⟩
      · exact ⟨a1, q, (dying_mem hi hp).2 (.inl ⟨a2, hq⟩), a3, a4⟩
  have hself := (hi.parent p hp).1
  rw [h3.procs c']
  constructor
  · rintro ⟨c, hc, h6⟩
    rcases (dying_mem hi hp).1 hc with ⟨hc, hne⟩ | rfl
    · rcases h6 with ⟨a1, a2, rfl⟩ | ⟨a1, a2, rfl⟩ | ⟨a1, a2, rfl⟩
      · exact .inl ⟨c, hc, a1, a2, rfl⟩
      · exact .inr (.inl ⟨hc, a1, a2⟩)
      · exact absurd a1 hne
    · rcases h6 with ⟨a1, a2, -⟩ | ⟨a1, a2, -⟩ | ⟨a1, a2, rfl⟩
      · cases a2
      · exact absurd rfl a2
      · exact .inr (.inr ⟨hre.1 a2, rfl⟩)
  · rintro (⟨c, hc, a1, a2, rfl⟩ | ⟨a0, a1, a2⟩ | ⟨a1, rfl⟩)
    · refine ⟨c, (dying_mem hi hp).2 (.inl ⟨hc, ?_⟩), .inl ⟨a1, a2, rfl⟩⟩
      have := (hi.parent c hc).1
      omega
    · exact ⟨c', (dying_mem hi hp).2 (.inl ⟨a0, a2⟩), .inr (.inl ⟨a1, a2, rfl⟩)⟩
    · exact ⟨_, (dying_mem hi hp).2 (.inr rfl), .inr (.inr ⟨rfl, hre.2 a1, rfl⟩)⟩

/-- **C54 (fork)**: the child gets a pid never used before, the group and session of its creator, and as
parent the creator (or, with `CLONE_PARENT`, the parent of the creator); the creator gets that pid and
nothing else changes. -/
theorem C54_fork {s : St} (h : Reach s) (hlt : s.next < 2 ^ 31) {p : Proc} (hp : p ∈ s.procs) (hz : p.zombie = none)
    (cp : Bool) (es : Option Nat) (ig : List Nat) :
    ∃ s' c, step s (.fork p.pid cp es ig) = some (.ok (s', .pid c.pid, [])) ∧ s'.procs = s.procs ++ [c] ∧
      s'.waiters = s.waiters ∧ (∀ q ∈ s.procs, q.pid < c.pid) ∧ c.pid < s'.next ∧
      c.group = p.group ∧ c.session = p.session ∧ c.parent = (if cp = true then p.parent else p.pid) ∧
      c.exitSignal = es ∧ c.zombie = none := by
  have hi := (reach_inv h).tree
  have hrun : s.running p.pid = some p := (running_iff hi.sorted).2 ⟨hp, rfl, hz⟩
  have hnew : newId s = .ok (s.next, { s with next := s.next + 1 }) := by
    unfold newId
    rw [decide_eq_true hlt]; rfl
  simp only [step, hrun, Option.map_some, hnew, R.bind_ok]
  exact ⟨_, { pid := s.next, parent := if cp then p.parent else p.pid, group := p.group, session := p.session, exitSignal := es, ignored := ig },
    rfl, rfl, rfl, fun q hq => (hi.range q hq).2, Nat.lt_succ_self _, rfl, rfl, rfl, rfl, rfl⟩

/-- **C54 (no panic)**: a step panics only if the pids are used up or for one of the two waits named by
`C54_wait_panics`. -/
theorem C54_no_panic {s : St} (h : Reach s) {a : Act} (hs : step s a = some .panic) :
    2 ^ 31 ≤ s.next ∨ ∃ me ∈ s.procs, ∃ call, waitCall s me call = .panic ∧
      (a = .wait me.pid call ∨ ∃ (i : Nat) (w : Waiter), a = .again i ∧ s.waiters[i]? = some w ∧ w.owner = me.pid ∧ w.call = call) := by
  have hi := reach_inv h
  have hnew : newId s = .panic → 2 ^ 31 ≤ s.next := by
    intro hn
    unfold newId at hn
    by_cases hlt : s.next < 2 ^ 31
    · rw [decide_eq_true hlt, R.assert_true] at hn; cases hn
    · omega
  cases a with
  | spawn =>
    simp only [step, Option.some.injEq] at hs
    cases hn : newId s with
    | panic => exact .inl (hnew hn)
    | ok v => rw [hn] at hs; cases hs
  | thread =>
    simp only [step, Option.some.injEq] at hs
    cases hn : newId s with
    | panic => exact .inl (hnew hn)
    | ok v => rw [hn] at hs; cases hs
  | fork me cp es ig =>
    simp only [step] at hs
    obtain ⟨p, hp, hs⟩ := Option.map_eq_some_iff.1 hs
    cases hn : newId s with
    | panic => exact .inl (hnew hn)
    | ok v => rw [hn] at hs; cases hs
  | setpgid me pid pgid =>
    simp only [step] at hs
    obtain ⟨p, hp, hs⟩ := Option.map_eq_some_iff.1 hs
    cases hs
  | setsid me =>
    simp only [step] at hs
    obtain ⟨p, hp, hs⟩ := Option.map_eq_some_iff.1 hs
    cases hs
  | ignore me sigs =>
    simp only [step] at hs
    obtain ⟨p, hp, hs⟩ := Option.map_eq_some_iff.1 hs
    cases hs
  | deathSignal me sig =>
    simp only [step] at hs
    obtain ⟨p, hp, hs⟩ := Option.map_eq_some_iff.1 hs
    cases hs
  | wait me call =>
    simp only [step] at hs
    obtain ⟨p, hp, hs⟩ := Option.map_eq_some_iff.1 hs
    obtain ⟨hp1, hp2, hp3⟩ := (running_iff hi.tree.sorted).1 hp
    refine .inr ⟨p, hp1, call, ?_, .inl (by rw [hp2])⟩
    unfold runWait at hs
    cases hw : waitCall s p call with
    | panic => rfl
    | ok v => rw [hw] at hs; cases hs
  | again i =>
    simp only [step] at hs
    split at hs
    · cases hs
    · rename_i w hw
      obtain ⟨p, hp, hs⟩ := Option.map_eq_some_iff.1 hs
      obtain ⟨hp1, hp2, hp3⟩ := (running_iff hi.tree.sorted).1 hp
      refine .inr ⟨p, hp1, w.call, ?_, .inr ⟨i, w, rfl, hw, hp2.symm, rfl⟩⟩
      unfold runWait at hs
      have hsame : waitCall { s with waiters := s.waiters.eraseIdx i } p w.call = waitCall s p w.call := rfl
      rw [hsame] at hs
      cases hw : waitCall s p w.call with
      | panic => rfl
      | ok v => rw [hw] at hs; cases hs
  | leave i =>
    simp only [step] at hs
    split at hs <;> cases hs
  | exit pid x =>
    simp only [step] at hs
    obtain ⟨p, hp, hs⟩ := Option.map_eq_some_iff.1 hs
    obtain ⟨hp1, hp2, hp3⟩ := (running_iff hi.tree.sorted).1 hp
    obtain ⟨s1, e1, e2, h1, -⟩ := die_spec hi.tree hp1 hp3 x
    rw [h1] at hs
    cases hs
  | late pid =>
    simp only [step] at hs
    split at hs
    · cases hs
    · rename_i p hp
      split at hs
      · cases hs
      · rename_i hz
        obtain ⟨hp1, -⟩ := (find_iff hi.tree.sorted).1 hp
        have hz : p.zombie ≠ none := by
          intro he
          simp [Proc.running, he] at hz
        obtain ⟨s1, e1, h1, -⟩ := bury_spec (hi.tree.weaken p.pid) hp1 hz
        simp only [Option.some.injEq] at hs
        rw [h1] at hs
        cases hs

end Shadow.Procs
