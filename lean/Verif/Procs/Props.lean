import Verif.Procs.Tree

/-!
# Processes of a host: properties over executions (C54)
-/
namespace Shadow.Procs
open Shadow.Base

/-- Groups and sessions. -/
structure Groups (s : St) : Prop where
  /-- a group lies within one session -/
  one : ∀ p ∈ s.procs, ∀ q ∈ s.procs, p.group = q.group → p.session = q.session
  /-- also with the process that it is named after -/
  own : ∀ p ∈ s.procs, ∀ q ∈ s.procs, q.group = p.pid → q.session = p.session
  /-- the leader of a session leads a group -/
  leader : ∀ p ∈ s.procs, p.session = p.pid → p.group = p.pid
  small : ∀ p ∈ s.procs, p.group < s.next ∧ p.session < s.next
  first : ∀ p ∈ s.procs, p.group = init → p.session = init

structure Inv (s : St) : Prop where
  tree : Tree 0 s
  groups : Groups s

theorem groups_sub {s s' : St} (h : Groups s) (hn : s'.next = s.next)
    (hp : ∀ c' ∈ s'.procs, ∃ c ∈ s.procs, c'.pid = c.pid ∧ c'.group = c.group ∧ c'.session = c.session) :
    Groups s' := by
  refine ⟨?_, ?_, ?_, ?_, ?_⟩
  · intro p' hp' q' hq' he
    obtain ⟨p, h1, -, h2, h3⟩ := hp p' hp'
    obtain ⟨q, k1, -, k2, k3⟩ := hp q' hq'
    rw [h3, k3]; exact h.one p h1 q k1 (by rw [← h2, ← k2, he])
  · intro p' hp' q' hq' he
    obtain ⟨p, h1, h0, h2, h3⟩ := hp p' hp'
    obtain ⟨q, k1, -, k2, k3⟩ := hp q' hq'
    rw [h3, k3]; exact h.own p h1 q k1 (by rw [← h0, ← k2, he])
  · intro p' hp' he
    obtain ⟨p, h1, h0, h2, h3⟩ := hp p' hp'
    rw [h2, h0]; exact h.leader p h1 (by rw [← h3, he, h0])
  · intro p' hp'
    obtain ⟨p, h1, h0, h2, h3⟩ := hp p' hp'
    rw [hn, h2, h3]; exact h.small p h1
  · intro p' hp' he
    obtain ⟨p, h1, h0, h2, h3⟩ := hp p' hp'
    rw [h3]; exact h.first p h1 (by rw [← h2, he])

theorem groups_new {s s' : St} {c : Proc} (ht : Tree 0 s) (h : Groups s) (hp : s'.procs = s.procs ++ [c])
    (hn : s'.next = s.next + 1) (hc : c.pid = s.next)
    (hg : (c.group = init ∧ c.session = init) ∨ ∃ p ∈ s.procs, c.group = p.group ∧ c.session = p.session) :
    Groups s' := by
  have hmem : ∀ q, q ∈ s'.procs ↔ q ∈ s.procs ∨ q = c := by
    intro q; rw [hp]; simp
  have hnx := ht.next
  have hcs : c.group < s.next ∧ c.session < s.next := by
    rcases hg with ⟨h1, h2⟩ | ⟨p, h1, h2, h3⟩
    · rw [h1, h2]; exact ⟨hnx, hnx⟩
    · rw [h2, h3]; exact h.small p h1
  have hone : ∀ q ∈ s.procs, c.group = q.group → c.session = q.session := by
    intro q hq he
    rcases hg with ⟨h1, h2⟩ | ⟨p, h1, h2, h3⟩
    · rw [h2]; exact (h.first q hq (by rw [← he, h1])).symm
    · rw [h3]; exact h.one p h1 q hq (by rw [← h2, he])
  refine ⟨?_, ?_, ?_, ?_, ?_⟩
  · intro p hp' q hq he
    rcases (hmem p).1 hp' with hp' | rfl
    · rcases (hmem q).1 hq with hq | rfl
      · exact h.one p hp' q hq he
      · exact (hone p hp' he.symm).symm
    · rcases (hmem q).1 hq with hq | rfl
      · exact hone q hq he
      · rfl
  · intro p hp' q hq he
    rcases (hmem p).1 hp' with hp' | rfl
    · rcases (hmem q).1 hq with hq | rfl
      · exact h.own p hp' q hq he
      · rcases hg with ⟨h1, h2⟩ | ⟨r, h1, h2, h3⟩
        · have := ht.range p hp'; omega
        · rw [h3]; exact h.own p hp' r h1 (by rw [← h2, he])
    · rcases (hmem q).1 hq with hq | rfl
      · have := h.small q hq; omega
      · rfl
  · intro p hp' he
    rcases (hmem p).1 hp' with hp' | rfl
    · exact h.leader p hp' he
    · omega
  · intro p hp'
    rw [hn]
    rcases (hmem p).1 hp' with hp' | rfl
    · have := h.small p hp'; omega
    · omega
  · intro p hp' he
    rcases (hmem p).1 hp' with hp' | rfl
    · exact h.first p hp' he
    · rcases hg with ⟨h1, h2⟩ | ⟨r, h1, h2, h3⟩
      · exact h2
      · rw [h3]; exact h.first r h1 (by rw [← h2, he])

theorem group_session {s : St} {g sid : Nat} (h : sessionOfGroup s g = some sid) :
    ∃ q ∈ s.procs, q.group = g ∧ q.session = sid := by
  unfold sessionOfGroup at h
  obtain ⟨q, h1, h2⟩ := Option.map_eq_some_iff.1 h
  exact ⟨q, List.mem_of_find?_eq_some h1, by simpa using List.find?_some h1, h2⟩

theorem group_some {s : St} (h : Groups s) {g : Nat} {q : Proc} (hq : q ∈ s.procs) (hg : q.group = g) :
    sessionOfGroup s g = some q.session := by
  unfold sessionOfGroup
  cases hf : s.procs.find? (·.group = g) with
  | none =>
    have := List.find?_eq_none.1 hf q hq
    simp [hg] at this
  | some r =>
    have h1 : r.group = g := by simpa using List.find?_some hf
    rw [Option.map_some, h.one r (List.mem_of_find?_eq_some hf) q hq (by rw [h1, hg])]

theorem group_none {s : St} {g : Nat} (h : sessionOfGroup s g = none) : ∀ q ∈ s.procs, q.group ≠ g := by
  unfold sessionOfGroup at h
  rw [Option.map_eq_none_iff] at h
  intro q hq he
  have := List.find?_eq_none.1 h q hq
  simp [he] at this

/-- A process enters a group of its session, or the one named after it. -/
theorem groups_enter {s : St} {p : Proc} {g : Nat} (ht : Tree 0 s) (h : Groups s) (hp : p ∈ s.procs)
    (hnl : p.session ≠ p.pid) (hg : sessionOfGroup s g = some p.session ∨ g = p.pid) :
    Groups (s.update p.pid fun q => { q with group := g }) := by
  have hmem : ∀ q', q' ∈ (s.update p.pid fun q => { q with group := g }).procs →
      (q' ∈ s.procs ∧ q'.pid ≠ p.pid) ∨ q' = { p with group := g } := by
    intro q' hq'
    obtain ⟨c, hc, rfl⟩ := mem_update.1 hq'
    by_cases h1 : c.pid = p.pid
    · have := unique ht.sorted hc hp h1
      subst this
      rw [if_pos rfl]; exact .inr rfl
    · rw [if_neg h1]; exact .inl ⟨hc, h1⟩
  -- everybody in the group is in the session of `p`
  have hin : ∀ q ∈ s.procs, q.group = g → q.session = p.session := by
    intro q hq he
    rcases hg with hg | hg
    · rw [group_some h hq he] at hg; exact Option.some.inj hg
    · exact h.own p hp q hq (by rw [he, hg])
  have hown : ∀ x ∈ s.procs, x.pid = g → x.session = p.session := by
    intro x hx he
    rcases hg with hg | hg
    · obtain ⟨q, h1, h2, h3⟩ := group_session hg
      rw [← h3]; exact (h.own x hx q h1 (by rw [h2, he])).symm
    · rw [unique ht.sorted hx hp (by rw [he, hg])]
  have hpr := ht.range p hp
  refine ⟨?_, ?_, ?_, ?_, ?_⟩
  · intro a ha b hb he
    rcases hmem a ha with ⟨ha, -⟩ | rfl
    · rcases hmem b hb with ⟨hb, -⟩ | rfl
      · exact h.one a ha b hb he
      · exact hin a ha he
    · rcases hmem b hb with ⟨hb, -⟩ | rfl
      · exact (hin b hb he.symm).symm
      · rfl
  · intro a ha b hb he
    rcases hmem a ha with ⟨ha, -⟩ | rfl
    · rcases hmem b hb with ⟨hb, -⟩ | rfl
      · exact h.own a ha b hb he
      · exact (hown a ha he.symm).symm
    · rcases hmem b hb with ⟨hb, -⟩ | rfl
      · exact h.own p hp b hb he
      · rfl
  · intro a ha he
    rcases hmem a ha with ⟨ha, -⟩ | rfl
    · exact h.leader a ha he
    · exact absurd he hnl
  · intro a ha
    rcases hmem a ha with ⟨ha, -⟩ | rfl
    · exact h.small a ha
    · refine ⟨?_, (h.small p hp).2⟩
      rcases hg with hg | rfl
      · obtain ⟨q, h1, h2, h3⟩ := group_session hg
        rw [← h2]; exact (h.small q h1).1
      · exact hpr.2
  · intro a ha he
    rcases hmem a ha with ⟨ha, -⟩ | rfl
    · exact h.first a ha he
    · have he : g = init := he
      rcases hg with hg | hg
      · obtain ⟨q, h1, h2, h3⟩ := group_session hg
        show p.session = init
        rw [← h3]; exact h.first q h1 (by rw [h2, he])
      · omega

/-- **C54 (setsid)**: fails exactly if there is a group named after the caller; otherwise the caller
leads a new session and a new group, in which it is alone. -/
theorem C54_setsid {s : St} (h : Inv s) {me : Proc} (hme : me ∈ s.procs) :
    ((∃ q ∈ s.procs, q.group = me.pid) → setsid s me = (some .EPERM, s)) ∧
    ((∀ q ∈ s.procs, q.group ≠ me.pid) → ∃ s', setsid s me = (none, s') ∧ Inv s' ∧
      (∀ q', q' ∈ s'.procs ↔ (q' ∈ s.procs ∧ q'.pid ≠ me.pid) ∨ q' = { me with session := me.pid, group := me.pid }) ∧
      s'.waiters = s.waiters ∧ s'.next = s.next) := by
  unfold setsid
  constructor
  · rintro ⟨q, h1, h2⟩
    rw [group_some h.groups h1 h2]; rfl
  · intro hno
    have hn : sessionOfGroup s me.pid = none := by
      cases hs : sessionOfGroup s me.pid with
      | none => rfl
      | some sid =>
        obtain ⟨q, h1, h2, -⟩ := group_session hs
        exact absurd h2 (hno q h1)
    rw [hn]
    have hiff : ∀ q', q' ∈ (s.update me.pid fun q => { q with session := me.pid, group := me.pid }).procs ↔
        (q' ∈ s.procs ∧ q'.pid ≠ me.pid) ∨ q' = { me with session := me.pid, group := me.pid } := by
      intro q'
      rw [mem_update]
      constructor
      · rintro ⟨c, hc, rfl⟩
        by_cases h1 : c.pid = me.pid
        · have := unique h.tree.sorted hc hme h1
          subst this
          rw [if_pos rfl]; exact .inr rfl
        · rw [if_neg h1]; exact .inl ⟨hc, h1⟩
      · rintro (⟨h1, h2⟩ | rfl)
        · exact ⟨q', h1, by rw [if_neg h2]⟩
        · exact ⟨me, hme, by rw [if_pos rfl]⟩
    have hr := h.tree.range me hme
    have hg := h.groups
    refine ⟨_, rfl, ⟨tree_update h.tree fun p => ⟨rfl, rfl, rfl, rfl⟩, ?_, ?_, ?_, ?_, ?_⟩, hiff, rfl, rfl⟩
    · intro a ha b hb he
      rcases (hiff a).1 ha with ⟨ha, -⟩ | rfl
      · rcases (hiff b).1 hb with ⟨hb, -⟩ | rfl
        · exact hg.one a ha b hb he
        · exact absurd he (hno a ha)
      · rcases (hiff b).1 hb with ⟨hb, -⟩ | rfl
        · exact absurd he.symm (hno b hb)
        · rfl
    · intro a ha b hb he
      rcases (hiff a).1 ha with ⟨ha, hane⟩ | rfl
      · rcases (hiff b).1 hb with ⟨hb, -⟩ | rfl
        · exact hg.own a ha b hb he
        · exact absurd he.symm hane
      · rcases (hiff b).1 hb with ⟨hb, -⟩ | rfl
        · exact absurd he (hno b hb)
        · rfl
    · intro a ha he
      rcases (hiff a).1 ha with ⟨ha, -⟩ | rfl
      · exact hg.leader a ha he
      · rfl
    · intro a ha
      rcases (hiff a).1 ha with ⟨ha, -⟩ | rfl
      · exact hg.small a ha
      · exact ⟨hr.2, hr.2⟩
    · intro a ha he
      rcases (hiff a).1 ha with ⟨ha, -⟩ | rfl
      · exact hg.first a ha he
      · have : me.pid = init := he
        omega

/-- The process that `setpgid(pid, …)` of `me` is about: itself or a child. -/
def Subject (s : St) (me : Proc) (pid : Int) (p : Proc) : Prop :=
  ((pid = 0 ∨ pid = me.pid) ∧ p = me) ∨ (0 < pid ∧ p ∈ s.procs ∧ (p.pid : Int) = pid ∧ p.parent = me.pid)

/-- **C54 (setpgid)**: succeeds exactly for the caller or a child, in the session of the caller and not
its leader, and for group 0 or an existing group of that session; then the group of that process
changes and nothing else does. -/
theorem C54_setpgid {s : St} (h : Inv s) {me : Proc} (hme : me ∈ s.procs) (pid pgid : Int) :
    ((setpgid s me pid pgid).1 = none ↔ ∃ p, Subject s me pid p ∧ p.session = me.session ∧
      p.session ≠ p.pid ∧ (pgid = 0 ∨ (0 < pgid ∧ ∃ q ∈ s.procs, (q.group : Int) = pgid ∧ q.session = p.session))) ∧
    ((setpgid s me pid pgid).1 ≠ none → (setpgid s me pid pgid).2 = s) ∧
    (∀ p, Subject s me pid p → (setpgid s me pid pgid).1 = none →
      (setpgid s me pid pgid).2 = s.update p.pid fun q =>
        { q with group := if pgid = 0 then p.pid else pgid.toNat }) ∧
    Inv (setpgid s me pid pgid).2 := by
  have hr := h.tree.range me hme
  have huniq : ∀ p, Subject s me pid p → pgidTarget s me pid = .ok p := by
    intro p hp
    unfold pgidTarget
    rcases hp with ⟨h1, rfl⟩ | ⟨h1, h2, h3, h4⟩
    · rw [if_pos h1]
    · by_cases hs : pid = 0 ∨ pid = me.pid
      · rcases hs with hs | hs
        · omega
        · have := unique h.tree.sorted h2 hme (by omega)
          subst this
          rw [if_pos (.inr hs)]
      · rw [if_neg hs]
        have : toPid pid = some p.pid := by
          unfold toPid
          rw [if_neg (by omega)]
          congr 1; omega
        rw [this]
        simp only [(find_iff h.tree.sorted).2 ⟨h2, rfl⟩]
  have htarget : ∀ p, pgidTarget s me pid = .ok p → p ∈ s.procs ∧
      ((p.pid = me.pid ∨ p.parent = me.pid) ↔ Subject s me pid p) := by
    intro p hp
    unfold pgidTarget at hp
    by_cases hs : pid = 0 ∨ pid = me.pid
    · rw [if_pos hs] at hp
      cases hp
      exact ⟨hme, fun _ => .inl ⟨hs, rfl⟩, fun _ => .inl rfl⟩
    · rw [if_neg hs] at hp
      cases htp : toPid pid with
      | none => rw [htp] at hp; cases hp
      | some q =>
        rw [htp] at hp
        have hq : 0 ≤ pid ∧ (q : Int) = pid := by
          unfold toPid at htp
          split at htp
          · cases htp
          · have := Option.some.inj htp
            omega
        simp only at hp
        cases hf : s.find q with
        | none => rw [hf] at hp; cases hp
        | some r =>
          rw [hf] at hp
          cases hp
          obtain ⟨h1, h2⟩ := (find_iff h.tree.sorted).1 hf
          refine ⟨h1, ?_, ?_⟩
          · rintro (h3 | h3)
            · omega
            · exact .inr ⟨by omega, h1, by omega, h3⟩
          · rintro (⟨h3, -⟩ | ⟨-, -, -, h3⟩)
            · exact absurd h3 hs
            · exact .inr h3
  unfold setpgid
  cases ht : pgidTarget s me pid with
  | error e =>
    simp only [reduceCtorEq, false_iff, false_implies, implies_true, true_and, ne_eq, not_false_eq_true]
    refine ⟨?_, h⟩
    rintro ⟨p, hp, -⟩
    rw [huniq p hp] at ht; cases ht
  | ok p =>
    obtain ⟨hp, hsub⟩ := htarget p ht
    have honly : ∀ r, Subject s me pid r → r = p := by
      intro r hr
      rw [huniq r hr] at ht
      cases ht; rfl
    simp only
    by_cases hneg : pgid < 0
    · rw [if_pos hneg]
      simp only [reduceCtorEq, false_iff, false_implies, implies_true, true_and, ne_eq, not_false_eq_true]
      refine ⟨?_, h⟩
      rintro ⟨r, -, -, -, h1 | ⟨h1, -⟩⟩ <;> omega
    rw [if_neg hneg]
    by_cases hch : p.pid ≠ me.pid ∧ p.parent ≠ me.pid
    · rw [if_pos hch]
      simp only [reduceCtorEq, false_iff, false_implies, implies_true, true_and, ne_eq, not_false_eq_true]
      refine ⟨?_, h⟩
      rintro ⟨r, h1, -⟩
      have := honly r h1
      subst this
      rcases hsub.2 h1 with h2 | h2
      · exact hch.1 h2
      · exact hch.2 h2
    rw [if_neg hch]
    have hsubj : Subject s me pid p := hsub.1 (by
      apply Classical.byContradiction
      intro hn
      exact hch ⟨fun h => hn (.inl h), fun h => hn (.inr h)⟩)
    by_cases hgr : pgid ≠ 0 ∧ sessionOfGroup s pgid.toNat ≠ some p.session
    · rw [if_pos hgr]
      simp only [reduceCtorEq, false_iff, false_implies, implies_true, true_and, ne_eq, not_false_eq_true]
      refine ⟨?_, h⟩
      rintro ⟨r, h1, -, -, h2⟩
      have := honly r h1
      subst this
      rcases h2 with h2 | ⟨h2, q, h3, h4, h5⟩
      · exact hgr.1 h2
      · refine hgr.2 ?_
        rw [group_some h.groups h3 (by omega), h5]
    rw [if_neg hgr]
    by_cases hse : p.session ≠ me.session
    · rw [if_pos hse]
      simp only [reduceCtorEq, false_iff, false_implies, implies_true, true_and, ne_eq, not_false_eq_true]
      refine ⟨?_, h⟩
      rintro ⟨r, h1, h2, -⟩
      have := honly r h1
      subst this
      exact hse h2
    rw [if_neg hse]
    by_cases hle : p.session = p.pid
    · rw [if_pos hle]
      simp only [reduceCtorEq, false_iff, false_implies, implies_true, true_and, ne_eq, not_false_eq_true]
      refine ⟨?_, h⟩
      rintro ⟨r, h1, -, h2, -⟩
      have := honly r h1
      subst this
      exact h2 hle
    rw [if_neg hle]
    by_cases h0 : pgid ≠ 0
    · rw [if_pos h0]
      have hso : sessionOfGroup s pgid.toNat = some p.session := by
        apply Classical.byContradiction
        intro hn
        exact hgr ⟨h0, hn⟩
      refine ⟨⟨fun _ => ?_, fun _ => rfl⟩, fun hn => absurd rfl hn, ?_, ?_⟩
      · obtain ⟨q, h1, h2, h3⟩ := group_session hso
        exact ⟨p, hsubj, Classical.not_not.1 hse, hle, .inr ⟨by omega, q, h1, by omega, h3⟩⟩
      · intro r h1 _
        have := honly r h1
        subst this
        rw [if_neg h0]
      · exact ⟨tree_update h.tree fun p => ⟨rfl, rfl, rfl, rfl⟩, groups_enter h.tree h.groups hp hle (.inl hso)⟩
    · rw [if_neg h0]
      have h0 : pgid = 0 := Classical.not_not.1 h0
      refine ⟨⟨fun _ => ⟨p, hsubj, Classical.not_not.1 hse, hle, .inl h0⟩, fun _ => rfl⟩, fun hn => absurd rfl hn, ?_, ?_⟩
      · intro r h1 _
        have := honly r h1
        subst this
        rw [if_pos h0]
      · exact ⟨tree_update h.tree fun p => ⟨rfl, rfl, rfl, rfl⟩, groups_enter h.tree h.groups hp hle (.inr rfl)⟩

/-! ## One step -/

/-- The processes without the one that was collected. -/
def without (l : List Proc) : Option Proc → List Proc
  | some z => l.filter (·.pid ≠ z.pid)
  | none => l

theorem wait_inv {s : St} (h : Inv s) {me : Proc} (hme : me ∈ s.procs) (hz : me.zombie = none) (c : Call)
    {s' r evs} (hr : runWait s me c = .ok (s', r, evs)) :
    Inv s' ∧ ∃ out rem, WaitSpec s me c out rem ∧ r = .waited out ∧ s'.next = s.next ∧
      s'.procs = without s.procs rem ∧
      (∀ z, rem = some z → z ∈ s.procs ∧ z.zombie ≠ none) := by
  unfold runWait at hr
  obtain ⟨⟨out, rem⟩, h1, h2⟩ := (R.bind_eq_ok ..).1 hr
  simp only [R.ok.injEq, Prod.mk.injEq] at h2
  obtain ⟨h2, rfl, rfl⟩ := h2
  have hw := C54_wait h.tree.sorted h1
  have hrem : ∀ z, rem = some z → z ∈ s.procs ∧ z.zombie ≠ none := by
    intro z hz
    cases hw with
    | invalid => cases hz
    | noChild => cases hz
    | nothing => cases hz
    | @found z' x _ _ a1 a2 a3 a4 a5 a6 a7 =>
      have : z = z' := by
        cases a7 with
        | wait4 => cases hz; rfl
        | wait4Fault => cases hz
        | wait4Usage => cases hz
        | waitidFault => cases hz
        | waitidUsage => cases hz
        | waitid =>
          split at hz
          · cases hz
          · cases hz; rfl
      subst this
      exact ⟨a3, by rw [a5]; simp⟩
  -- the table without the zombie
  obtain ⟨s1, hs1⟩ : ∃ s1 : St, s1 = { s with procs := without s.procs rem } := ⟨_, rfl⟩
  have h2 : (if out.ret = .blocked then { s1 with waiters := s1.waiters ++ [⟨me.pid, c, false⟩] } else s1) = s' := by
    rw [← h2, hs1]
    cases rem <;> rfl
  have hnx : s1.next = s.next := by rw [hs1]
  have hwt : s1.waiters = s.waiters := by rw [hs1]
  have hpr : s1.procs = without s.procs rem := by rw [hs1]
  have hsubp : ∀ q ∈ s1.procs, q ∈ s.procs := by
    intro q hq
    rw [hpr] at hq
    cases rem with
    | none => exact hq
    | some z => exact (List.mem_filter.1 hq).1
  have ht1 : Tree 0 s1 := by
    cases rem with
    | none => rw [hs1]; exact h.tree
    | some z => exact tree_remove h.tree (hrem z rfl).1 (hrem z rfl).2 hpr hnx hwt
  have hg1 : Groups s1 := groups_sub h.groups hnx fun c hc => ⟨c, hsubp c hc, rfl, rfl, rfl⟩
  by_cases hb : out.ret = .blocked
  · rw [if_pos hb] at h2
    subst h2
    have hnone : rem = none ∧ (∃ p ∈ s.procs, Asks me.pid me.group c p) ∧
        (c.ended = false ∨ ∀ p ∈ s.procs, Asks me.pid me.group c p → p.zombie = none) := by
      cases hw with
      | invalid => cases hb
      | noChild => cases hb
      | nothing _ a b => exact ⟨rfl, a, b⟩
      | found _ _ _ _ _ _ a7 => cases a7 <;> cases hb
    obtain ⟨rfl, ⟨p, hp, hpa⟩, hnz⟩ := hnone
    have hs1 : s1 = s := hs1
    subst hs1
    refine ⟨⟨?_, groups_sub h.groups rfl fun c hc => ⟨c, hc, rfl, rfl, rfl⟩⟩, out, none, hw, rfl, rfl, rfl, hrem⟩
    refine tree_waiters h.tree rfl rfl ?_
    intro w hw'
    rcases List.mem_append.1 hw' with hw' | hw'
    · exact .inl hw'
    · rw [List.mem_singleton] at hw'
      subst hw'
      refine .inr ⟨⟨me, hme, rfl, hz⟩, ?_⟩
      intro _ hcert
      have hend : c.ended = true := by
        cases c with
        | wait4 => rfl
        | waitid => exact hcert.2.1
      have hnz : ∀ p ∈ s1.procs, Asks me.pid me.group c p → p.zombie = none := by
        rcases hnz with hnz | hnz
        · rw [hend] at hnz; cases hnz
        · exact hnz
      exact ⟨⟨p, hp, hcert.group rfl rfl rfl hpa, hnz p hp hpa⟩,
        fun q hq hqa => hnz q hq (hcert.group rfl rfl rfl hqa)⟩
  · rw [if_neg hb] at h2
    subst h2
    exact ⟨⟨ht1, hg1⟩, out, rem, hw, rfl, hnx, hpr, hrem⟩

theorem leave_inv {s : St} (h : Inv s) (i : Nat) : Inv { s with waiters := s.waiters.eraseIdx i } := by
  refine ⟨tree_waiters h.tree rfl rfl fun w hw => .inl ?_, groups_sub h.groups rfl fun c hc => ⟨c, hc, rfl, rfl, rfl⟩⟩
  exact List.mem_of_mem_eraseIdx hw

theorem buried_groups {s s' : St} {p : Proc} (h : Groups s) (hb : Buried s p s') : Groups s' := by
  refine groups_sub h hb.next fun c' hc' => ?_
  obtain ⟨c, hc, ⟨_, _, rfl⟩ | ⟨_, _, rfl⟩ | ⟨_, _, rfl⟩⟩ := (hb.procs c').1 hc'
  · exact ⟨c, hc, rfl, rfl, rfl⟩
  · exact ⟨c', hc, rfl, rfl, rfl⟩
  · exact ⟨c', hc, rfl, rfl, rfl⟩

/-- The effect of a successful step on the processes. -/
theorem step_inv {s : St} (h : Inv s) {a : Act} {s' r evs} (hs : step s a = some (.ok (s', r, evs))) : Inv s' := by
  cases a with
  | spawn =>
    simp only [step, newId, Option.some.injEq] at hs
    obtain ⟨⟨pid, s1⟩, h1, h2⟩ := (R.bind_eq_ok ..).1 hs
    obtain ⟨-, -, h1⟩ := (R.bind_eq_ok ..).1 h1
    cases h1
    cases h2
    exact ⟨tree_new h.tree rfl rfl rfl rfl rfl (.inl rfl), groups_new h.tree h.groups rfl rfl rfl (.inl ⟨rfl, rfl⟩)⟩
  | thread =>
    simp only [step, newId, Option.some.injEq] at hs
    obtain ⟨⟨pid, s1⟩, h1, h2⟩ := (R.bind_eq_ok ..).1 hs
    obtain ⟨-, -, h1⟩ := (R.bind_eq_ok ..).1 h1
    cases h1
    cases h2
    have ht := h.tree
    have hg := h.groups
    refine ⟨⟨ht.sorted, fun p hp => ?_, ?_, ht.parent, ht.zombie, ht.owner, ht.asleep⟩,
      ⟨hg.one, hg.own, hg.leader, fun p hp => ?_, hg.first⟩⟩
    · have := ht.range p hp
      exact ⟨this.1, Nat.lt_succ_of_lt this.2⟩
    · exact Nat.lt_succ_of_lt ht.next
    · have := hg.small p hp
      exact ⟨Nat.lt_succ_of_lt this.1, Nat.lt_succ_of_lt this.2⟩
  | fork me cp es ig =>
    simp only [step, newId] at hs
    obtain ⟨p, hp, hs⟩ := Option.map_eq_some_iff.1 hs
    obtain ⟨hp1, hp2, hp3⟩ := (running_iff h.tree.sorted).1 hp
    obtain ⟨⟨pid, s1⟩, h1, h2⟩ := (R.bind_eq_ok ..).1 hs
    obtain ⟨-, -, h1⟩ := (R.bind_eq_ok ..).1 h1
    cases h1
    cases h2
    refine ⟨tree_new h.tree rfl rfl rfl rfl rfl ?_, groups_new h.tree h.groups rfl rfl rfl (.inr ⟨p, hp1, rfl, rfl⟩)⟩
    cases cp with
    | false => exact .inr ⟨p, hp1, rfl, hp3⟩
    | true =>
      show p.parent = init ∨ ∃ q ∈ s.procs, q.pid = p.parent ∧ q.zombie = none
      rcases (h.tree.parent p hp1).2 with h1 | ⟨q, h1, h2, h3⟩
      · exact .inl h1
      · rcases h3 with h3 | h3
        · exact .inr ⟨q, h1, h2, h3⟩
        · have := h.tree.range q h1; omega
  | setpgid me pid pgid =>
    simp only [step] at hs
    obtain ⟨p, hp, hs⟩ := Option.map_eq_some_iff.1 hs
    obtain ⟨hp1, -⟩ := (running_iff h.tree.sorted).1 hp
    cases hs
    exact (C54_setpgid h hp1 pid pgid).2.2.2
  | setsid me =>
    simp only [step] at hs
    obtain ⟨p, hp, hs⟩ := Option.map_eq_some_iff.1 hs
    obtain ⟨hp1, -⟩ := (running_iff h.tree.sorted).1 hp
    cases hs
    by_cases hg : ∃ q ∈ s.procs, q.group = p.pid
    · rw [(C54_setsid h hp1).1 hg]; exact h
    · obtain ⟨s', h1, h2, -⟩ := (C54_setsid h hp1).2 fun q hq he => hg ⟨q, hq, he⟩
      rw [h1]; exact h2
  | ignore me sigs =>
    simp only [step] at hs
    obtain ⟨p, hp, hs⟩ := Option.map_eq_some_iff.1 hs
    cases hs
    refine ⟨tree_update h.tree fun p => ⟨rfl, rfl, rfl, rfl⟩, groups_sub h.groups rfl fun c' hc' => ?_⟩
    obtain ⟨c, hc, rfl⟩ := mem_update.1 hc'
    refine ⟨c, hc, ?_⟩
    split <;> exact ⟨rfl, rfl, rfl⟩
  | deathSignal me sig =>
    simp only [step] at hs
    obtain ⟨p, hp, hs⟩ := Option.map_eq_some_iff.1 hs
    cases hs
    refine ⟨tree_update h.tree fun p => ⟨rfl, rfl, rfl, rfl⟩, groups_sub h.groups rfl fun c' hc' => ?_⟩
    obtain ⟨c, hc, rfl⟩ := mem_update.1 hc'
    refine ⟨c, hc, ?_⟩
    split <;> exact ⟨rfl, rfl, rfl⟩
  | wait me call =>
    simp only [step] at hs
    obtain ⟨p, hp, hs⟩ := Option.map_eq_some_iff.1 hs
    obtain ⟨hp1, -, hp3⟩ := (running_iff h.tree.sorted).1 hp
    exact (wait_inv h hp1 hp3 call hs).1
  | again i =>
    simp only [step] at hs
    split at hs
    · cases hs
    · rename_i w hw
      obtain ⟨p, hp, hs⟩ := Option.map_eq_some_iff.1 hs
      obtain ⟨hp1, -, hp3⟩ := (running_iff h.tree.sorted).1 hp
      exact (wait_inv (leave_inv h i) hp1 hp3 w.call hs).1
  | leave i =>
    simp only [step] at hs
    split at hs
    · cases hs
    · cases hs; exact leave_inv h i
  | exit pid x =>
    simp only [step] at hs
    obtain ⟨p, hp, hs⟩ := Option.map_eq_some_iff.1 hs
    obtain ⟨hp1, -, hp3⟩ := (running_iff h.tree.sorted).1 hp
    obtain ⟨s1, e1, e2, h1, h2, h3, h4, -⟩ := die_spec h.tree hp1 hp3 x
    rw [h1] at hs
    cases hs
    refine ⟨h4, buried_groups (s := dying s p x e1) (groups_sub (s := s) h.groups rfl fun c' hc' => ?_) h3⟩
    obtain ⟨c, hc, rfl⟩ := mem_update.1 hc'
    refine ⟨c, hc, ?_⟩
    split <;> exact ⟨rfl, rfl, rfl⟩
  | late pid =>
    simp only [step] at hs
    split at hs
    · cases hs
    · rename_i p hp
      split at hs
      · cases hs
      · rename_i hz
        obtain ⟨hp1, -⟩ := (find_iff h.tree.sorted).1 hp
        have hz : p.zombie ≠ none := by
          intro he
          simp [Proc.running, he] at hz
        obtain ⟨s1, e1, h1, h2, -⟩ := bury_spec (h.tree.weaken p.pid) hp1 hz
        simp only [Option.some.injEq] at hs
        rw [h1] at hs
        cases hs
        exact ⟨bury_tree (h.tree.weaken p.pid) hp1 hz h2, buried_groups h.groups h2⟩

/-- An execution. -/
inductive Later (s : St) : St → Prop where
  | refl : Later s s
  | step {s1 s2 a r evs} : Later s s1 → step s1 a = some (.ok (s2, r, evs)) → Later s s2

/-- The states of a host: all that come after the empty table. -/
def Reach (s : St) : Prop := Later {} s

theorem later_inv {s s' : St} (h : Inv s) (hl : Later s s') : Inv s' := by
  induction hl with
  | refl => exact h
  | step _ hs ih => exact step_inv ih hs

theorem reach_inv {s : St} (h : Reach s) : Inv s := by
  refine later_inv ⟨⟨.nil, ?_, by decide, ?_, ?_, ?_, ?_⟩, ⟨?_, ?_, ?_, ?_, ?_⟩⟩ h
  all_goals intro p hp; cases hp

end Shadow.Procs
