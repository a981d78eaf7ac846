import Verif.Lazy.Model

/-!
# C58: a lazily initialized value is made once, and seen by everyone
-/
namespace Shadow.Lazy

set_option linter.unusedSimpArgs false

open Shadow.Base

/-! ## The specification: what may be observed -/

/-- What must have been observed before an event. -/
def Before (past : List Ev) : Ev → Prop
  | .start _ => ∀ u, Ev.start u ∉ past
  | .made t _ => Ev.start t ∈ past ∧ ∀ u v, Ev.made u v ∉ past
  | .ret _ => ∃ u v, Ev.made u v ∈ past
  | .read _ v => ∃ u, Ev.made u v ∈ past

/-- The initializer starts at most once and returns at most once; no call of `force` returns before it has; every read gives its value. -/
def Good (tr : List Ev) : Prop := ∀ a e b, tr = a ++ e :: b → Before a e

theorem good_nil : Good [] := by
  intro a e b h
  cases a <;> cases h

theorem good_snoc {tr : List Ev} {e : Ev} (h : Good tr) (he : Before tr e) : Good (tr ++ [e]) := by
  intro a x b hab
  rcases List.eq_nil_or_concat b with rfl | ⟨b', y, rfl⟩
  · have := List.append_inj' hab rfl
    obtain ⟨rfl, h2⟩ := this
    cases h2
    exact he
  · have h1 : tr ++ [e] = (a ++ x :: b') ++ [y] := by simpa using hab
    have := List.append_inj' h1 rfl
    obtain ⟨h2, -⟩ := this
    exact h a x b' h2

/-! ## The invariant -/

def owner (h : Th) : Bool := decide (h.pc = .won) || decide (h.pc = .running) || decide (h.pc = .made) || decide (h.pc = .dead)

def waking (h : Th) : Bool := decide (h.pc = .wake)

/-- What is true of a thread. -/
structure TI (word : Word) (init some wk st : Bool) (h : Th) : Prop where
  won : h.pc = .won → init = true ∧ some = false
  running : h.pc = .running → init = false ∧ some = false ∧ st = true
  dead : h.pc = .dead → init = false ∧ some = false
  made : h.pc = .made → some = true ∧ h.sees = true
  linitd : h.pc = .loop .initd → word = .initd ∧ h.sees = true
  lsleep : h.pc = .loop .sleepers → word = .sleepers ∨ word = .initd
  lining : h.pc = .loop .initing → word ≠ .uninit
  wake : h.pc = .wake → word = .initd ∧ h.sees = true
  asleep : h.pc = .asleep → word = .sleepers ∨ (word = .initd ∧ wk = true)
  got : h.got = true → h.sees = true
  sees : h.sees = true → some = true

/-- How many threads have the initialization lock. -/
def owners : Word → Nat
  | .initing => 1
  | .sleepers => 1
  | _ => 0

structure Inv (s : St) (tr : List Ev) : Prop where
  own : s.ths.countP owner = owners s.word
  un : s.word = .uninit → s.init = true ∧ s.value.isSome = false
  initd : s.word = .initd → s.init = false ∧ s.value.isSome = true ∧ s.rel = true
  rel : s.rel = true → s.word = .initd
  val : s.value.isSome = true → s.init = false
  ths : ∀ t h, s.ths[t]? = some h → TI s.word s.init s.value.isSome (decide (0 < s.ths.countP waking)) (decide (.start t ∈ tr)) h
  good : Good tr
  starts : s.init = true → ∀ u, Ev.start u ∉ tr
  mades : ∀ u v, Ev.made u v ∈ tr → s.value = some v
  value : ∀ v, s.value = some v → ∃ u, Ev.made u v ∈ tr

theorem owner_unique {l : List Th} (hc : l.countP owner ≤ 1) {i j : Nat} {p q : Th} (hi : l[i]? = some p) (hj : l[j]? = some q) (hp : owner p = true)
    (hq : owner q = true) : i = j := by
  by_cases e : i = j
  · exact e
  · have h1 := countP_set owner l i p ⟨.idle, false, false⟩ hi
    have h2 : (l.set i ⟨.idle, false, false⟩).countP owner = 0 := by
      rw [hp] at h1
      have : owner ⟨.idle, false, false⟩ = false := rfl
      rw [this] at h1
      simp only [Bool.toNat_true, Bool.toNat_false] at h1
      omega
    have h3 : (l.set i ⟨.idle, false, false⟩)[j]? = some q := by rw [List.getElem?_set_ne e]; exact hj
    have := (countP_zero owner _).1 h2 q (List.mem_of_getElem? h3)
    rw [this] at hq
    cases hq

theorem inv_new (n : Nat) : Inv (St.new n) [] := by
  have hp : ∀ p ∈ (St.new n).ths, p = ⟨.idle, false, false⟩ := by
    intro p hp
    exact (List.mem_replicate.1 hp).2
  refine ⟨?_, fun _ => ⟨rfl, rfl⟩, (fun h => by cases h), (fun h => by cases h), (fun h => by cases h), ?_, good_nil, (by simp), (by simp), (fun v h => by cases h)⟩
  · show _ = 0
    rw [countP_zero]
    intro p hm
    rw [hp p hm]
    rfl
  · intro t h ht
    have := hp h (List.mem_of_getElem? ht)
    subst this
    constructor <;> intro h <;> cases h

/-- Replacing thread `t`: what remains to be shown. -/
theorem inv_put {s : St} {tr : List Ev} {s' : St} {e : List Ev} {t : Nat} {h h' : Th} (hi : Inv s tr) (ht : s.ths[t]? = some h)
    (hths : s'.ths = s.ths.set t h')
    (own : owners s.word + (owner h').toNat = owners s'.word + (owner h).toNat)
    (un : s'.word = .uninit → s'.init = true ∧ s'.value.isSome = false)
    (initd : s'.word = .initd → s'.init = false ∧ s'.value.isSome = true ∧ s'.rel = true)
    (rel : s'.rel = true → s'.word = .initd)
    (val : s'.value.isSome = true → s'.init = false)
    (self : ∀ wk, (waking h' = true → wk = true) → (h.pc = h'.pc → 0 < s.ths.countP waking → wk = true) →
      TI s'.word s'.init s'.value.isSome wk (decide (.start t ∈ tr ++ e)) h')
    (others : ∀ u g wk, u ≠ t → s.ths[u]? = some g → (owner h = true → owner g = false) → (s.word = .uninit ∨ s.word = .initd → owner g = false) →
      (waking h = true → wk = true) →
      TI s.word s.init s.value.isSome (decide (0 < s.ths.countP waking)) (decide (.start u ∈ tr)) g →
      (waking h' = true → wk = true) → (0 < s.ths.countP waking → waking h = false → wk = true) →
      TI s'.word s'.init s'.value.isSome wk (decide (.start u ∈ tr ++ e)) g)
    (hw : waking h = true → waking h' = true)
    (good : Good (tr ++ e))
    (starts : s'.init = true → ∀ u, Ev.start u ∉ tr ++ e)
    (mades : ∀ u v, Ev.made u v ∈ tr ++ e → s'.value = some v)
    (value : ∀ v, s'.value = some v → ∃ u, Ev.made u v ∈ tr ++ e) : Inv s' (tr ++ e) := by
  have hc := countP_set owner s.ths t h h' ht
  have hwc := countP_set waking s.ths t h h' ht
  have hge : s.ths.countP waking ≤ (s.ths.set t h').countP waking := by
    cases hx : waking h
    · rw [hx] at hwc
      simp only [Bool.toNat_false] at hwc
      omega
    · rw [hx, hw hx] at hwc
      omega
  have hpos : waking h' = true → 0 < (s.ths.set t h').countP waking := by
    intro hx
    rw [countP_pos]
    exact ⟨t, h', getElem?_set_self' ht, hx⟩
  refine ⟨?_, un, initd, rel, val, ?_, good, starts, mades, value⟩
  · rw [hths]
    have := hi.own
    omega
  · intro u g hu
    rw [hths] at hu ⊢
    by_cases e : u = t
    · subst e
      rw [getElem?_set_self' ht] at hu
      cases hu
      exact self _ (fun hx => by simpa using hpos hx) (fun _ hx => decide_eq_true (by omega))
    · rw [List.getElem?_set_ne (Ne.symm e)] at hu
      refine others u g _ e hu ?_ ?_ ?_ (hi.ths u g hu) (fun hx => by simpa using hpos hx) (fun hx _ => decide_eq_true (by omega))
      · intro ho
        cases hg : owner g
        · rfl
        · exfalso
          apply e
          refine owner_unique ?_ hu ht hg ho
          rw [hi.own]
          cases s.word <;> decide
      · intro hww
        have h0 : s.ths.countP owner = 0 := by
          rw [hi.own]
          rcases hww with hww | hww <;> rw [hww] <;> rfl
        exact (countP_zero owner _).1 h0 g (List.mem_of_getElem? hu)
      · intro hx
        simpa using hpos (hw hx)


theorem TI.mono {word : Word} {init sm wk wk' st st' : Bool} {h : Th} (hw : wk = true → wk' = true) (hs : st = true → st' = true)
    (t : TI word init sm wk st h) : TI word init sm wk' st' h :=
  ⟨t.won, fun e => ⟨(t.running e).1, (t.running e).2.1, hs (t.running e).2.2⟩, t.dead, t.made, t.linitd, t.lsleep, t.lining, t.wake,
    fun e => (t.asleep e).imp_right (fun g => ⟨g.1, hw g.2⟩), t.got, t.sees⟩

/-- Thread `t` moves to another place; nothing else changes. -/
theorem inv_move {s : St} {tr : List Ev} {t : Nat} {h h' : Th} {e : List Ev} (hi : Inv s tr) (ht : s.ths[t]? = some h)
    (ho : owner h' = owner h) (hw : waking h = true → waking h' = true)
    (self : ∀ wk, (h.pc = h'.pc → 0 < s.ths.countP waking → wk = true) → TI s.word s.init s.value.isSome wk (decide (.start t ∈ tr ++ e)) h')
    (hev : e = [] ∨ e = [.ret t] ∧ s.value.isSome = true) : Inv (s.put t h') (tr ++ e) := by
  have hns : ∀ u, Ev.start u ∈ tr ++ e ↔ Ev.start u ∈ tr := by
    intro u
    rcases hev with rfl | ⟨rfl, -⟩ <;> simp
  have hnm : ∀ u v, Ev.made u v ∈ tr ++ e ↔ Ev.made u v ∈ tr := by
    intro u v
    rcases hev with rfl | ⟨rfl, -⟩ <;> simp
  refine inv_put (s' := s.put t h') hi ht rfl (by rw [ho]; rfl) hi.un hi.initd hi.rel hi.val (fun wk _ h2 => self wk h2) ?_ hw ?_ ?_ ?_ ?_
  · intro u g wk _ _ _ _ h4 h5 h6 h7
    refine h5.mono ?_ ?_
    · intro hx
      have hx := of_decide_eq_true hx
      cases hy : waking h
      · exact h7 hx hy
      · exact h4 hy
    · intro hx
      exact decide_eq_true ((hns u).2 (of_decide_eq_true hx))
  · rcases hev with rfl | ⟨rfl, hv⟩
    · rw [List.append_nil]
      exact hi.good
    · refine good_snoc hi.good ?_
      obtain ⟨v, hv⟩ := Option.isSome_iff_exists.1 hv
      obtain ⟨u, hu⟩ := hi.value v hv
      exact ⟨u, v, hu⟩
  · intro hx u
    rw [hns]
    exact hi.starts hx u
  · intro u v hx
    exact hi.mades u v ((hnm u v).1 hx)
  · intro v hv
    obtain ⟨u, hu⟩ := hi.value v hv
    exact ⟨u, (hnm u v).2 hu⟩

theorem inv_load {s : St} {tr : List Ev} {t : Nat} {h : Th} (hi : Inv s tr) (ht : s.ths[t]? = some h) (ho : owner h = false) (hw : waking h = false) :
    Inv (s.put t { acquire s h with pc := .loop s.word }) (tr ++ []) := by
  have T := hi.ths t h ht
  have hrel := hi.rel
  have hini := hi.initd
  refine inv_move hi ht ?_ (by simp [hw]) ?_ (Or.inl rfl)
  · rw [ho]
    simp [owner]
  · intro wk _
    have h1 := T.got
    have h2 := T.sees
    constructor <;> simp only [acquire, reduceCtorEq, false_imp_iff, Pc.loop.injEq, Bool.or_eq_true] <;> grind

theorem inv_step {s : St} {tr : List Ev} (hi : Inv s tr) {a : Act} {r : R (St × List Ev)} (h : step s a = some r) :
    ∃ s' e, r = .ok (s', e) ∧ Inv s' (tr ++ e) := by
  cases a with
  | call t =>
    simp only [step] at h
    split at h
    · rename_i g hg
      split at h
      · rename_i hpc
        cases h
        refine ⟨_, _, rfl, ?_⟩
        have T := hi.ths t g hg
        refine inv_move hi hg (by simp [owner, hpc]) (by simp [waking, hpc]) ?_ (Or.inl rfl)
        intro wk _
        have h1 := T.got
        have h2 := T.sees
        constructor <;> simp only [reduceCtorEq, false_imp_iff] <;> assumption
      · cases h
    · cases h
  | intr t =>
    simp only [step] at h
    split at h
    · rename_i g hg
      split at h
      · rename_i hpc
        cases h
        refine ⟨_, _, rfl, ?_⟩
        have T := hi.ths t g hg
        refine inv_move hi hg (by simp [owner, hpc]) (by simp [waking, hpc]) ?_ (Or.inl rfl)
        intro wk _
        have h1 := T.got
        have h2 := T.sees
        constructor <;> simp only [reduceCtorEq, false_imp_iff] <;> assumption
      · cases h
    · cases h
  | fail t =>
    simp only [step] at h
    split at h
    · rename_i g hg
      split at h
      · rename_i hpc
        cases h
        refine ⟨_, _, rfl, ?_⟩
        have T := hi.ths t g hg
        refine inv_move hi hg (by simp [owner, hpc]) (by simp [waking, hpc]) ?_ (Or.inl rfl)
        intro wk _
        have h1 := T.got
        have h2 := T.sees
        have h3 := T.running hpc
        constructor <;> simp only [reduceCtorEq, false_imp_iff] <;> grind
      · cases h
    · cases h
  | read t =>
    simp only [step] at h
    split at h
    · rename_i g hg
      split at h
      · rename_i hgot
        cases h
        have T := hi.ths t g hg
        have h1 := T.got hgot
        have h2 := T.sees h1
        obtain ⟨v, hv⟩ := Option.isSome_iff_exists.1 h2
        refine ⟨s, [.read t v], by simp [St.deref, h1, hv], ?_⟩
        refine ⟨hi.own, hi.un, hi.initd, hi.rel, hi.val, ?_, good_snoc hi.good (hi.value v hv), ?_, ?_, ?_⟩
        · intro u k hu
          exact (hi.ths u k hu).mono (fun x => x) (fun x => by simpa using x)
        · intro hx u
          simpa using hi.starts hx u
        · intro u w hx
          exact hi.mades u w (by simpa using hx)
        · intro w hw
          obtain ⟨u, hu⟩ := hi.value w hw
          exact ⟨u, by simp [hu]⟩
      · cases h
    · cases h
  | make t v =>
    simp only [step] at h
    split at h
    · rename_i g hg
      split at h
      · rename_i hpc
        cases h
        refine ⟨_, _, rfl, ?_⟩
        have T := hi.ths t g hg
        have hrun := T.running hpc
        have hno : s.word ≠ .uninit ∧ s.word ≠ .initd := by
          constructor
          · intro e
            have := (hi.un e).1
            rw [hrun.1] at this
            cases this
          · intro e
            have := (hi.initd e).2.1
            rw [hrun.2.1] at this
            cases this
        have hnov : ∀ u w, Ev.made u w ∉ tr := by
          intro u w hm
          have := hi.mades u w hm
          rw [this] at hrun
          cases hrun.2.1
        refine inv_put hi hg (h' := { g with pc := .made, sees := true }) rfl ?_ (fun e => absurd e hno.1) (fun e => absurd e hno.2) hi.rel (fun _ => hrun.1) ?_ ?_ ?_ ?_ ?_ ?_ ?_
        · simp [owner, hpc, St.put]
        · intro wk _ _
          constructor <;> simp [St.put]
        · intro u k wk _ _ ho _ _ T2 _ _
          have ho := ho (by simp [owner, hpc])
          simp only [owner, Bool.or_eq_false_iff, decide_eq_false_iff_not] at ho
          have := T2.lsleep
          have := T2.lining
          have := T2.linitd
          have := T2.wake
          have := T2.asleep
          have := T2.got
          constructor <;> (try simp only [St.put, Option.isSome_some]) <;> grind
        · simp [waking, hpc]
        · exact good_snoc hi.good ⟨of_decide_eq_true hrun.2.2, hnov⟩
        · intro e
          rw [show (St.put { s with value := some v } t { g with pc := .made, sees := true }).init = s.init from rfl, hrun.1] at e
          cases e
        · intro u w e
          rcases List.mem_append.1 e with e | e
          · exact absurd e (hnov u w)
          · simp at e
            rw [e.2]
            rfl
        · intro w e
          cases e
          exact ⟨t, by simp⟩
      · cases h
    · cases h
  | go t =>
    simp only [step] at h
    split at h
    · rename_i g hg
      have T := hi.ths t g hg
      unfold St.go at h
      split at h <;> rename_i hpc
      · cases h
        exact ⟨_, _, rfl, inv_load hi hg (by simp [owner, hpc]) (by simp [waking, hpc])⟩
      · cases h
        refine ⟨(s.goUninit t g).1, (s.goUninit t g).2, rfl, ?_⟩
        unfold St.goUninit
        split
        · rename_i hw
          have hun := hi.un hw
          refine inv_put hi hg (h' := { g with pc := .won }) (e := []) rfl ?_ ?_ ?_ ?_ hi.val ?_ ?_ ?_ ?_ ?_ ?_ ?_
          · simp [owner, hpc, hw, St.put, owners]
          · intro e
            cases e
          · intro e
            cases e
          · intro e
            have := hi.rel e
            rw [hw] at this
            cases this
          · intro wk _ _
            have h1 := T.got
            have h2 := T.sees
            constructor <;> (try simp only [St.put, reduceCtorEq, false_imp_iff]) <;> grind
          · intro u k wk _ _ _ ho _ T2 _ _
            have ho := ho (Or.inl hw)
            simp only [owner, Bool.or_eq_false_iff, decide_eq_false_iff_not] at ho
            have := T2.lsleep
            have := T2.linitd
            have := T2.wake
            have := T2.asleep
            have := T2.got
            have := T2.sees
            constructor <;> (try simp only [St.put]) <;> grind
          · simp [waking, hpc]
          · rw [List.append_nil]
            exact hi.good
          · rw [List.append_nil]
            exact hi.starts
          · rw [List.append_nil]
            exact hi.mades
          · rw [List.append_nil]
            exact hi.value
        · exact inv_load hi hg (by simp [owner, hpc]) (by simp [waking, hpc])
      · cases h
        refine ⟨(s.goIniting t g).1, (s.goIniting t g).2, rfl, ?_⟩
        unfold St.goIniting
        split
        · rename_i hw
          refine inv_put hi hg (h' := { g with pc := .loop .sleepers }) (e := []) rfl ?_ ?_ ?_ ?_ hi.val ?_ ?_ ?_ ?_ ?_ ?_ ?_
          · simp [owner, hpc, hw, St.put, owners]
          · intro e
            cases e
          · intro e
            cases e
          · intro e
            have := hi.rel e
            rw [hw] at this
            cases this
          · intro wk _ _
            have h1 := T.got
            have h2 := T.sees
            constructor <;> (try simp only [St.put, reduceCtorEq, false_imp_iff]) <;> grind
          · intro u k wk _ _ _ ho _ T2 _ _
            have := T2.won
            have := T2.running
            have := T2.dead
            have := T2.made
            have := T2.lsleep
            have := T2.linitd
            have := T2.wake
            have := T2.asleep
            have := T2.got
            have := T2.sees
            constructor <;> (try simp only [St.put]) <;> grind
          · simp [waking, hpc]
          · rw [List.append_nil]
            exact hi.good
          · rw [List.append_nil]
            exact hi.starts
          · rw [List.append_nil]
            exact hi.mades
          · rw [List.append_nil]
            exact hi.value
        · exact inv_load hi hg (by simp [owner, hpc]) (by simp [waking, hpc])
      · cases h
        refine ⟨(s.goWait t g).1, (s.goWait t g).2, rfl, ?_⟩
        unfold St.goWait
        have h1 := T.got
        have h2 := T.sees
        split
        · refine inv_move hi hg (by simp [owner, hpc]) (by simp [waking, hpc]) ?_ (Or.inl rfl)
          intro wk _
          constructor <;> (try simp only [reduceCtorEq, false_imp_iff]) <;> grind
        · refine inv_move hi hg (by simp [owner, hpc]) (by simp [waking, hpc]) ?_ (Or.inl rfl)
          intro wk _
          constructor <;> (try simp only [reduceCtorEq, false_imp_iff]) <;> grind
      · cases h
        refine ⟨_, _, rfl, ?_⟩
        have h1 := T.linitd hpc
        refine inv_move hi hg (by simp [owner, hpc]) (by simp [waking, hpc]) ?_ (Or.inr ⟨rfl, (hi.initd h1.1).2.1⟩)
        intro wk _
        have h2 := T.sees
        constructor <;> (try simp only [reduceCtorEq, false_imp_iff]) <;> grind
      · have hwon := T.won hpc
        refine ⟨{ s with init := false }.put t { g with pc := .running }, [.start t], by cases h; simp only [St.goTake, hwon.1, R.assert_true, R.bind_ok, R.pure_eq], ?_⟩
        refine inv_put hi hg (h' := { g with pc := .running }) rfl ?_ ?_ ?_ hi.rel (fun _ => rfl) ?_ ?_ ?_ ?_ ?_ ?_ ?_
        · simp [owner, hpc, St.put]
        · intro e
          exfalso
          have : s.ths.countP owner = 0 := by
            rw [hi.own]
            rw [show s.word = .uninit from e]
            rfl
          have := (countP_zero owner _).1 this g (List.mem_of_getElem? hg)
          simp [owner, hpc] at this
        · intro e
          have := (hi.initd e).1
          rw [hwon.1] at this
          cases this
        · intro wk _ _
          have h1 := T.got
          have h2 := T.sees
          constructor <;> (try simp only [St.put, reduceCtorEq, false_imp_iff]) <;> grind
        · intro u k wk _ _ ho _ _ T2 _ _
          have ho := ho (by simp [owner, hpc])
          simp only [owner, Bool.or_eq_false_iff, decide_eq_false_iff_not] at ho
          have := T2.lsleep
          have := T2.lining
          have := T2.linitd
          have := T2.wake
          have := T2.asleep
          have := T2.got
          have := T2.sees
          constructor <;> (try simp only [St.put]) <;> grind [waking]
        · simp [waking, hpc]
        · exact good_snoc hi.good (hi.starts hwon.1)
        · intro e
          cases e
        · intro u v hx
          exact hi.mades u v (by simpa using hx)
        · intro v hv
          obtain ⟨u, hu⟩ := hi.value v hv
          exact ⟨u, by simp [hu]⟩
      · have hm := T.made hpc
        cases h
        have hne : s.word ≠ .uninit ∧ s.word ≠ .initd := by
          have h0 : 0 < s.ths.countP owner := (countP_pos _ _).2 ⟨t, g, hg, by simp [owner, hpc]⟩
          rw [hi.own] at h0
          constructor <;> intro e <;> rw [e] at h0 <;> simp [owners] at h0
        have key : ∀ (h' : Th) (e : List Ev), owner h' = false → waking h' = true ∨ s.word = .initing →
            TI .initd s.init s.value.isSome true (decide (.start t ∈ tr ++ e)) h' → h'.pc ≠ .asleep →
            (e = [] ∨ e = [.ret t]) → Inv ({ s with word := .initd, rel := s.rel || g.sees }.put t h') (tr ++ e) := by
          intro h' e ho' hw' hT hna he
          have hns : ∀ u, Ev.start u ∈ tr ++ e ↔ Ev.start u ∈ tr := by
            intro u
            rcases he with rfl | rfl <;> simp
          have hnm : ∀ u v, Ev.made u v ∈ tr ++ e ↔ Ev.made u v ∈ tr := by
            intro u v
            rcases he with rfl | rfl <;> simp
          have hv := hi.val hm.1
          refine inv_put hi hg (h' := h') rfl ?_ ?_ ?_ ?_ hi.val ?_ ?_ ?_ ?_ ?_ ?_ ?_
          · have : owner g = true := by simp [owner, hpc]
            rw [this, ho']
            revert hne
            cases hww : s.word <;> simp [owners, St.put]
          · intro e
            cases e
          · intro _
            exact ⟨hv, hm.1, by simp [St.put, hm.2]⟩
          · intro _
            rfl
          · intro wk _ _
            exact ⟨hT.won, hT.running, hT.dead, hT.made, hT.linitd, hT.lsleep, hT.lining, hT.wake, fun h => absurd h hna, hT.got, hT.sees⟩
          · intro u k wk _ _ ho _ _ T2 h1 h2
            have ho := ho (by simp [owner, hpc])
            simp only [owner, Bool.or_eq_false_iff, decide_eq_false_iff_not] at ho
            have := T2.asleep
            have := T2.got
            have := T2.sees
            have := T2.lsleep
            have := T2.linitd
            have := T2.wake
            constructor <;> (try simp only [St.put]) <;> grind [waking]
          · simp [waking, hpc]
          · rcases he with rfl | rfl
            · rw [List.append_nil]
              exact hi.good
            · refine good_snoc hi.good ?_
              obtain ⟨v, hv⟩ := Option.isSome_iff_exists.1 hm.1
              obtain ⟨u, hu⟩ := hi.value v hv
              exact ⟨u, v, hu⟩
          · intro hx u
            rw [hns]
            exact hi.starts hx u
          · intro u v hx
            exact hi.mades u v ((hnm u v).1 hx)
          · intro v hv
            obtain ⟨u, hu⟩ := hi.value v hv
            exact ⟨u, (hnm u v).2 hu⟩
        unfold St.goSwap
        simp only
        split
        · rename_i hw
          refine ⟨_, _, rfl, key _ _ rfl (Or.inr hw) ?_ (by simp) (Or.inr rfl)⟩
          constructor <;> (try simp only [reduceCtorEq, false_imp_iff]) <;> grind
        · rename_i hw
          refine ⟨_, _, rfl, key _ _ rfl (Or.inl rfl) ?_ (by simp) (Or.inl rfl)⟩
          constructor <;> (try simp only [reduceCtorEq, false_imp_iff]) <;> grind
        · rename_i h1 h2
          exfalso
          revert hne h1 h2
          cases s.word <;> simp
      · cases h
        refine ⟨_, _, rfl, ?_⟩
        have hwk := T.wake hpc
        have hin := hi.initd hwk.1
        have hmap : (s.ths.map wakeUp)[t]? = some g := by
          rw [List.getElem?_map, hg]
          simp [wakeUp, hpc]
        have hown : (s.ths.map wakeUp).countP owner = s.ths.countP owner := by
          rw [List.countP_map]
          congr 1
          funext k
          simp only [Function.comp, wakeUp]
          split
          · rename_i hk
            simp [owner, hk]
          · rfl
        have h0 : s.ths.countP owner = 0 := by
          rw [hi.own, hwk.1]
          rfl
        refine ⟨?_, hi.un, hi.initd, hi.rel, hi.val, ?_, good_snoc hi.good ?_, ?_, ?_, ?_⟩
        · have h1 := countP_set owner _ t g { g with pc := .idle, got := true } hmap
          have h2 : owner g = false := by simp [owner, hpc]
          have h3 : owner { g with pc := .idle, got := true } = false := by simp [owner]
          rw [h2, h3, hown] at h1
          show ((s.ths.map wakeUp).set t _).countP owner = _
          simp only [Bool.toNat_false, Nat.add_zero] at h1
          rw [h1, h0]
          show 0 = owners s.word
          rw [hwk.1]
          rfl
        · intro u k hu
          have hu : ((s.ths.map wakeUp).set t { g with pc := .idle, got := true })[u]? = some k := hu
          show TI s.word s.init s.value.isSome _ _ k
          by_cases e : u = t
          · subst e
            rw [getElem?_set_self' hmap] at hu
            cases hu
            constructor <;> (try simp only [reduceCtorEq, false_imp_iff]) <;> grind
          · rw [List.getElem?_set_ne (Ne.symm e), List.getElem?_map] at hu
            obtain ⟨k', hk', rfl⟩ := Option.map_eq_some_iff.1 hu
            have T2 := hi.ths u k' hk'
            have ho := (countP_zero owner _).1 h0 k' (List.mem_of_getElem? hk')
            simp only [owner, Bool.or_eq_false_iff, decide_eq_false_iff_not] at ho
            have := T2.linitd
            have := T2.wake
            have := T2.got
            have := T2.sees
            unfold wakeUp
            split <;> constructor <;> (try simp only [reduceCtorEq, false_imp_iff]) <;> grind
        · obtain ⟨v, hv⟩ := Option.isSome_iff_exists.1 hin.2.1
          obtain ⟨u, hu⟩ := hi.value v hv
          exact ⟨u, v, hu⟩
        · intro hx u
          simpa using hi.starts hx u
        · intro u v hx
          exact hi.mades u v (by simpa using hx)
        · intro v hv
          obtain ⟨u, hu⟩ := hi.value v hv
          exact ⟨u, by simp [hu]⟩
      · cases h
      · cases h
      · cases h
      · cases h
    · cases h

theorem run_inv {n : Nat} {s : St} {tr : List Ev} (h : Run n s tr) : Inv s tr := by
  induction h with
  | init => exact inv_new n
  | step _ hs ih =>
    obtain ⟨s1, e1, h1, h2⟩ := inv_step ih hs
    cases h1
    exact h2

/-! ## Progress -/

theorem sum_set (f : Th → Nat) : ∀ (l : List Th) (i : Nat) (p q : Th), l[i]? = some p → ((l.set i q).map f).sum + f p = (l.map f).sum + f q
  | [], _, _, _, h => by simp at h
  | x :: l, 0, p, q, h => by
      simp only [List.getElem?_cons_zero, Option.some.injEq] at h
      subst h
      simp
      omega
  | x :: l, i + 1, p, q, h => by
      simp only [List.getElem?_cons_succ] at h
      have := sum_set f l i p q h
      simp only [List.set_cons_succ, List.map_cons, List.sum_cons]
      omega

theorem sum_le (f g : Th → Nat) (h : ∀ x, f x ≤ g x) : ∀ l : List Th, (l.map f).sum ≤ (l.map g).sum
  | [] => Nat.le_refl _
  | x :: l => by
      have := sum_le f g h l
      have := h x
      simp
      omega

theorem sum_const (f : Th → Nat) (c : Nat) (h : ∀ x, f x ≤ c) : ∀ l : List Th, (l.map f).sum ≤ c * l.length
  | [] => Nat.le_refl _
  | x :: l => by
      have h1 := sum_const f c h l
      have h2 := h x
      simp only [List.map_cons, List.sum_cons, List.length_cons, Nat.mul_add, Nat.mul_one]
      omega

/-- How many steps a thread can make while the word stays the same. -/
def rk (w : Word) : Pc → Nat
  | .idle => 0
  | .dead => 0
  | .won => 4
  | .running => 3
  | .made => 2
  | .wake => 1
  | .asleep => match w with
    | .initd => 9
    | _ => 10
  | .load => match w with
    | .sleepers => 12
    | .initd => 5
    | _ => 3
  | .loop v => match w, v with
    | .sleepers, .sleepers => 11
    | .sleepers, _ => 12
    | .initd, .initd => 1
    | .initd, .sleepers => 6
    | .initd, _ => 2
    | .initing, .initing => 2
    | .initing, _ => 3
    | .uninit, .uninit => 2
    | .uninit, _ => 3

def rank (w : Word) (h : Th) : Nat := rk w h.pc

theorem rank_le (w : Word) (h : Th) : rank w h ≤ 13 := by
  unfold rank
  cases h.pc with
  | loop v => cases w <;> cases v <;> decide
  | _ => cases w <;> decide

def wordRank : Word → Nat
  | .uninit => 3
  | .initing => 2
  | .sleepers => 1
  | .initd => 0

/-- A bound on the steps that the calls in progress still make. -/
def work (s : St) : Nat := wordRank s.word * (14 * s.ths.length) + (s.ths.map (rank s.word)).sum

/-- The steps that the threads make themselves. -/
def own : Act → Bool
  | .go _ => true
  | .make _ _ => true
  | _ => false

theorem work_le (s : St) : work s ≤ 55 * s.ths.length := by
  have h1 := sum_const (rank s.word) 13 (rank_le s.word) s.ths
  have h2 : wordRank s.word ≤ 3 := by cases s.word <;> decide
  have h3 : wordRank s.word * (14 * s.ths.length) ≤ 3 * (14 * s.ths.length) := Nat.mul_le_mul_right _ h2
  unfold work
  omega

theorem step_length {s s' : St} {a : Act} {e : List Ev} (h : step s a = some (.ok (s', e))) : s'.ths.length = s.ths.length := by
  cases a with
  | go t =>
    simp only [step] at h
    split at h
    · unfold St.go St.goTake St.goSwap St.goLoad St.goUninit St.goIniting St.goWait St.goWake St.back at h
      split at h <;> (try cases h) <;> (try simp [St.put]) <;> grind [St.put, R.assert, R.bind_ok, R.bind_panic, R.pure_eq]
    · cases h
  | read t =>
    simp only [step] at h
    split at h
    · split at h
      · unfold St.deref at h
        simp only [Option.some.injEq, R.bind_eq_ok] at h
        obtain ⟨_, _, _, _, h⟩ := h
        cases h
        rfl
      · cases h
    · cases h
  | _ =>
    simp only [step] at h
    grind [St.put]

/-- The word changes: everything else is outweighed. -/
theorem work_word {s s' : St} (hl : s'.ths.length = s.ths.length) (hw : wordRank s'.word < wordRank s.word) (hp : 0 < s.ths.length) : work s' < work s := by
  have h1 := sum_const (rank s'.word) 13 (rank_le s'.word) s'.ths
  have h3 : (wordRank s'.word + 1) * (14 * s.ths.length) ≤ wordRank s.word * (14 * s.ths.length) := Nat.mul_le_mul_right _ hw
  rw [Nat.add_mul] at h3
  unfold work
  rw [hl] at h1 ⊢
  omega

theorem work_put {s s' : St} {t : Nat} {g g' : Th} (ht : s.ths[t]? = some g) (hs : s'.ths = s.ths.set t g') (hw : s'.word = s.word) (hr : rank s.word g' < rank s.word g) :
    work s' < work s := by
  have h1 := sum_set (rank s.word) s.ths t g g' ht
  unfold work
  rw [hs, hw, List.length_set]
  omega

theorem work_step {s s' : St} {tr : List Ev} (hi : Inv s tr) {a : Act} (ha : own a = true) {e : List Ev} (h : step s a = some (.ok (s', e))) : work s' < work s := by
  have hlen := step_length h
  cases a <;> simp only [own] at ha <;> (try cases ha) <;> simp only [step] at h
  · rename_i t
    split at h
    · rename_i g hg
      have T := hi.ths t g hg
      have hpos : 0 < s.ths.length := by
        have := (List.getElem?_eq_some_iff.1 hg).1
        omega
      unfold St.go at h
      split at h <;> rename_i hpc
      · cases h
        refine work_put hg rfl rfl ?_
        show rk _ _ < rk _ g.pc
        rw [hpc]
        cases s.word <;> simp [rk]
      · simp only [Option.some.injEq, R.ok.injEq] at h
        unfold St.goUninit at h
        split at h
        · rename_i hw
          cases h
          refine work_word (by simp [St.put]) ?_ hpos
          rw [hw]
          simp [rk, wordRank, St.put, St.back]
        · rename_i hw
          cases h
          refine work_put hg rfl rfl ?_
          show rk _ _ < rk _ g.pc
          rw [hpc]
          revert hw
          cases s.word <;> simp [rk]
      · simp only [Option.some.injEq, R.ok.injEq] at h
        have hl := T.lining hpc
        unfold St.goIniting at h
        split at h
        · rename_i hw
          cases h
          refine work_word (by simp [St.put]) ?_ hpos
          rw [hw]
          simp [rk, wordRank, St.put, St.back]
        · rename_i hw
          cases h
          refine work_put hg rfl rfl ?_
          show rk _ _ < rk _ g.pc
          rw [hpc]
          revert hw hl
          cases s.word <;> simp [rk]
      · simp only [Option.some.injEq, R.ok.injEq] at h
        have hl := T.lsleep hpc
        unfold St.goWait at h
        split at h
        · rename_i hw
          cases h
          refine work_put hg rfl rfl ?_
          show rk _ _ < rk _ g.pc
          rw [hpc, hw]
          simp [rk, wordRank, St.put, St.back]
        · rename_i hw
          cases h
          refine work_put hg rfl rfl ?_
          show rk _ _ < rk _ g.pc
          rw [hpc]
          rcases hl with hl | hl
          · exact absurd hl hw
          · rw [hl]
            simp [rk, wordRank, St.put, St.back]
      · cases h
        have hl := T.linitd hpc
        refine work_put hg rfl rfl ?_
        show rk _ _ < rk _ g.pc
        rw [hpc, hl.1]
        simp [rk, wordRank, St.put, St.back]
      · unfold St.goTake at h
        have hl := T.won hpc
        rw [hl.1] at h
        cases h
        refine work_put hg rfl rfl ?_
        show rk _ _ < rk _ g.pc
        rw [hpc]
        simp [rk, wordRank, St.put, St.back]
      · unfold St.goSwap at h
        simp only at h
        split at h
        · rename_i hw
          cases h
          refine work_word hlen ?_ hpos
          rw [hw]
          simp [rk, wordRank, St.put, St.back]
        · rename_i hw
          cases h
          refine work_word hlen ?_ hpos
          rw [hw]
          simp [rk, wordRank, St.put, St.back]
        · cases h
      · cases h
        have hl := T.wake hpc
        have hmap : (s.ths.map wakeUp)[t]? = some g := by
          rw [List.getElem?_map, hg]
          simp [wakeUp, hpc]
        have h1 := sum_set (rank s.word) _ t g { g with pc := .idle, got := true } hmap
        have h2 : ((s.ths.map wakeUp).map (rank s.word)).sum ≤ (s.ths.map (rank s.word)).sum := by
          rw [List.map_map]
          refine sum_le _ _ ?_ _
          intro k
          simp only [Function.comp, wakeUp]
          split
          · rename_i hk
            show rk _ _ ≤ rk _ k.pc
            rw [hk, hl.1]
            simp [rk, wordRank, St.put, St.back]
          · exact Nat.le_refl _
        have h3 : rank s.word g = 1 := by
          show rk _ g.pc = 1
          rw [hpc]
          rfl
        have h4 : rank s.word { g with pc := .idle, got := true } = 0 := rfl
        show wordRank s.word * (14 * ((s.ths.map wakeUp).set t _).length) + (((s.ths.map wakeUp).set t _).map (rank s.word)).sum < work s
        unfold work
        rw [List.length_set, List.length_map]
        omega
      · cases h
      · cases h
      · cases h
      · cases h
    · cases h
  · rename_i t v
    split at h
    · rename_i g hg
      split at h
      · rename_i hpc
        cases h
        refine work_put hg rfl rfl ?_
        show rk _ _ < rk _ g.pc
        rw [hpc]
        simp [rk, wordRank, St.put, St.back]
      · cases h
    · cases h

theorem run_exec {n : Nat} : ∀ {as : List Act} {s s' : St} {tr e : List Ev}, Run n s tr → exec s as = some (.ok (s', e)) → Run n s' (tr ++ e)
  | [], s, s', tr, e, h, he => by
      cases he
      rw [List.append_nil]
      exact h
  | a :: as, s, s', tr, e, h, he => by
      unfold exec at he
      split at he
      · cases he
      · cases he
      · rename_i s1 e1 h1
        split at he
        · cases he
        · cases he
        · rename_i s2 e2 h2
          cases he
          rw [← List.append_assoc]
          exact run_exec (.step h h1) h2

/-! ## The property -/

/-- A run of three threads: the first makes the value, the second sleeps until it is there, the third comes later. -/
def exActs : List Act := [.call 0, .go 0, .call 1, .go 0, .go 1, .go 1, .go 1, .go 0, .make 0 7, .go 0, .go 0, .go 1, .go 1, .read 1, .call 2, .go 2, .go 2, .read 2]

def exTrace : List Ev := [.start 0, .made 0 7, .ret 0, .ret 1, .read 1 7, .ret 2, .read 2 7]

def exEnd : St := ⟨.initd, true, false, some 7, [⟨.idle, true, true⟩, ⟨.idle, true, true⟩, ⟨.idle, true, true⟩]⟩

example : exec (St.new 3) exActs = some (.ok (exEnd, exTrace)) := by decide

theorem ex_run : Run 3 exEnd exTrace := run_exec (tr := []) .init (as := exActs) (by decide)

/-- While the second thread sleeps. -/
def exSleep : St := ⟨.sleepers, false, false, none, [⟨.running, false, false⟩, ⟨.asleep, false, false⟩]⟩

theorem ex_sleep : Run 2 exSleep [.start 0] := run_exec (tr := []) .init (as := [.call 0, .go 0, .call 1, .go 0, .go 1, .go 1, .go 1, .go 0]) (by decide)

/-- Whatever the order in which the steps of the threads interleave: the initializer starts at most once and returns at most once, no call of
`force` returns before it has returned, and every read gives the value that it returned. -/
theorem C58_once {n : Nat} {s : St} {tr : List Ev} (h : Run n s tr) : Good tr := (run_inv h).good

example : Good exTrace := C58_once ex_run

/-- No step panics: the initializer is there when it is taken, the state is the expected one at the swap, and no thread reads the value without
being ordered after its write. -/
theorem C58_no_panic {n : Nat} {s : St} {tr : List Ev} (h : Run n s tr) (a : Act) : step s a ≠ some .panic := by
  intro hs
  obtain ⟨s1, e1, h1, -⟩ := inv_step (run_inv h) hs
  cases h1

example : step exEnd (.read 1) ≠ some .panic := C58_no_panic ex_run _
example : step exEnd (.read 1) = some (.ok (exEnd, [.read 1 7])) := by decide

/-- A thread to which `force` has returned can read the value that the initializer returned, at any time. -/
theorem C58_read {n : Nat} {s : St} {tr : List Ev} (h : Run n s tr) {t u v : Nat} (hr : Ev.ret t ∈ tr) (hm : Ev.made u v ∈ tr) :
    ∃ s', step s (.read t) = some (.ok (s', [.read t v])) := by
  have hgot : ∀ {s : St} {tr : List Ev}, Run n s tr → Ev.ret t ∈ tr → ∃ g, s.ths[t]? = some g ∧ g.got = true := by
    intro s tr h
    induction h with
    | init => intro e; cases e
    | step h0 hs ih =>
      rename_i s s' tr e a
      intro hmem
      have keep : ∀ g, s.ths[t]? = some g → g.got = true → ∃ g', s'.ths[t]? = some g' ∧ g'.got = true := by
        intro g hg hgt
        cases a with
        | go u =>
          simp only [step] at hs
          split at hs
          · rename_i k hk
            unfold St.go St.goTake St.goSwap St.goLoad St.goUninit St.goIniting St.goWait St.goWake St.back acquire at hs
            by_cases eut : u = t
            · subst eut
              rw [hg] at hk
              cases hk
              have hset : ∀ x, (s.ths.set u x)[u]? = some x := fun x => getElem?_set_self' hg
              have hset2 : ∀ x, ((s.ths.map wakeUp).set u x)[u]? = some x := fun x => getElem?_set_self' (p := wakeUp g) (by rw [List.getElem?_map, hg]; rfl)
              split at hs <;> grind [St.put, R.assert, R.bind_ok, R.bind_panic, R.pure_eq]
            · have hset : ∀ x, (s.ths.set u x)[t]? = some g := fun x => by rw [List.getElem?_set_ne eut]; exact hg
              have hset2 : ∀ x, ((s.ths.map wakeUp).set u x)[t]? = some (wakeUp g) := fun x => by rw [List.getElem?_set_ne eut, List.getElem?_map, hg]; rfl
              have hwk : (wakeUp g).got = true := by
                unfold wakeUp
                split <;> exact hgt
              split at hs <;> grind [St.put, R.assert, R.bind_ok, R.bind_panic, R.pure_eq]
          · cases hs
        | read u =>
          simp only [step] at hs
          split at hs
          · split at hs
            · unfold St.deref at hs
              simp only [Option.some.injEq, R.bind_eq_ok] at hs
              obtain ⟨_, _, _, _, hs⟩ := hs
              cases hs
              exact ⟨g, hg, hgt⟩
            · cases hs
          · cases hs
        | _ =>
          simp only [step] at hs
          grind [St.put]
      rcases List.mem_append.1 hmem with hmem | hmem
      · obtain ⟨g, h1, h2⟩ := ih hmem
        exact keep g h1 h2
      · cases a with
        | go u =>
          simp only [step] at hs
          split at hs
          · rename_i k hk
            have hset : ∀ x, (s.ths.set u x)[u]? = some x := fun x => getElem?_set_self' hk
            have hset2 : ∀ x, ((s.ths.map wakeUp).set u x)[u]? = some x := fun x => getElem?_set_self' (p := wakeUp k) (by rw [List.getElem?_map, hk]; rfl)
            unfold St.go St.goTake St.goSwap St.goLoad St.goUninit St.goIniting St.goWait St.goWake St.back acquire at hs
            split at hs <;> grind [St.put, R.assert, R.bind_ok, R.bind_panic, R.pure_eq]
          · cases hs
        | read u =>
          simp only [step] at hs
          split at hs
          · split at hs
            · unfold St.deref at hs
              simp only [Option.some.injEq, R.bind_eq_ok] at hs
              obtain ⟨_, _, _, _, hs⟩ := hs
              cases hs
              simp at hmem
            · cases hs
          · cases hs
        | _ =>
          simp only [step] at hs
          grind
  obtain ⟨g, hg, hgt⟩ := hgot h hr
  have hi := run_inv h
  have T := hi.ths t g hg
  have hv := hi.mades u v hm
  refine ⟨s, ?_⟩
  simp only [step, hg, hgt, if_true, St.deref, T.got hgt, hv, R.assert_true, R.unwrap_some, R.bind_ok, R.pure_eq]

example : ∃ s', step exEnd (.read 2) = some (.ok (s', [.read 2 7])) := C58_read ex_run (u := 0) (by decide) (by decide)

/-- The threads never all wait: as long as no initializer has panicked and a call is in progress, some thread can make a step of its own. -/
theorem C58_progress {n : Nat} {s : St} {tr : List Ev} (h : Run n s tr) (hd : ∀ g ∈ s.ths, g.pc ≠ .dead) (hb : ∃ g ∈ s.ths, g.pc ≠ .idle) :
    ∃ a s' e, own a = true ∧ step s a = some (.ok (s', e)) := by
  have hi := run_inv h
  have go : ∀ (t : Nat) (g : Th), s.ths[t]? = some g → g.pc ≠ .idle → g.pc ≠ .asleep → ∃ a s' e, own a = true ∧ step s a = some (.ok (s', e)) := by
    intro t g hg h1 h2
    have h3 := hd g (List.mem_of_getElem? hg)
    by_cases h4 : g.pc = .running
    · exact ⟨.make t 0, _, _, rfl, by simp only [step, hg, h4, if_true]; rfl⟩
    · have : ∃ r, step s (.go t) = some r := by
        simp only [step, hg]
        unfold St.go
        split <;> first | exact ⟨_, rfl⟩ | (rename_i hp; exact absurd hp (by assumption))
      obtain ⟨r, hr⟩ := this
      obtain ⟨s1, e1, rfl, -⟩ := inv_step hi hr
      exact ⟨.go t, s1, e1, rfl, hr⟩
  obtain ⟨g, hg, hne⟩ := hb
  obtain ⟨t, ht⟩ := List.getElem?_of_mem hg
  by_cases hs : g.pc = .asleep
  · rcases (hi.ths t g ht).asleep hs with hw | ⟨-, hw⟩
    · have : 0 < s.ths.countP owner := by
        rw [hi.own, hw]
        decide
      obtain ⟨i, p, hp, ho⟩ := (countP_pos _ _).1 this
      refine go i p hp ?_ ?_ <;> intro e <;> simp [owner, e] at ho
    · obtain ⟨i, p, hp, ho⟩ := (countP_pos _ _).1 (of_decide_eq_true hw)
      refine go i p hp ?_ ?_ <;> intro e <;> simp [waking, e] at ho
  · exact go t g ht hne hs

example : ∃ a s' e, own a = true ∧ step exSleep a = some (.ok (s', e)) :=
  C58_progress ex_sleep (by decide) ⟨⟨.asleep, false, false⟩, by decide⟩

/-- The calls in progress end: with `n` threads they make at most `55 n` steps of their own, however the steps interleave.  With
`C58_progress`: unless the initializer panics or never returns, every call of `force` returns, and no thread sleeps forever. -/
theorem C58_returns {n : Nat} {s : St} {tr : List Ev} (h : Run n s tr) {as : List Act} (ho : ∀ a ∈ as, own a = true) {s' : St} {e : List Ev}
    (he : exec s as = some (.ok (s', e))) : as.length ≤ 55 * n := by
  have hn : ∀ {s : St} {tr : List Ev}, Run n s tr → s.ths.length = n := by
    intro s tr h
    induction h with
    | init => simp [St.new]
    | step _ hs ih => rw [step_length hs, ih]
  have key : ∀ (as : List Act) (s : St) (tr : List Ev), Run n s tr → (∀ a ∈ as, own a = true) → ∀ s' e, exec s as = some (.ok (s', e)) → as.length ≤ work s := by
    intro as
    induction as with
    | nil => intro s tr _ _ _ _ _; exact Nat.zero_le _
    | cons a as ih =>
      intro s tr h ho s' e he
      unfold exec at he
      split at he
      · cases he
      · cases he
      · rename_i s1 e1 h1
        split at he
        · cases he
        · cases he
        · rename_i s2 e2 h2
          have hlt := work_step (run_inv h) (ho a List.mem_cons_self) h1
          have := ih s1 _ (.step h h1) (fun b hb => ho b (List.mem_cons_of_mem _ hb)) _ _ h2
          simp only [List.length_cons]
          omega
  have h1 := key as s tr h ho s' e he
  have h2 := work_le s
  rw [hn h] at h2
  omega

example : [Act.make 0 7, .go 0, .go 0, .go 1, .go 1].length ≤ 55 * 2 :=
  C58_returns ex_sleep (by decide) (s' := ⟨.initd, true, false, some 7, [⟨.idle, true, true⟩, ⟨.idle, true, true⟩]⟩) (e := [.made 0 7, .ret 0, .ret 1]) (by decide)

/-- When no call is in progress, `initd` is true exactly when the initializer has returned, and dropping the lock drops exactly the value
that the initializer returned. -/
theorem C58_drop {n : Nat} {s : St} {tr : List Ev} (h : Run n s tr) (hq : ∀ g ∈ s.ths, g.pc = .idle ∨ g.pc = .dead) (v : Nat) :
    (s.initd = true ↔ ∃ u w, Ev.made u w ∈ tr) ∧ (s.drop = some v ↔ ∃ u, Ev.made u v ∈ tr) := by
  have hi := run_inv h
  have hw : s.value.isSome = true → s.word = .initd := by
    intro hv
    have hnw := hi.val hv
    have h0 : s.ths.countP owner = 0 := by
      rw [countP_zero]
      intro g hg
      obtain ⟨t, ht⟩ := List.getElem?_of_mem hg
      rcases hq g hg with e | e
      · simp [owner, e]
      · have := ((hi.ths t g ht).dead e).2
        rw [hv] at this
        cases this
    rw [hi.own] at h0
    cases hww : s.word
    · have := (hi.un hww).1
      rw [hnw] at this
      cases this
    · rfl
    · rw [hww] at h0
      cases h0
    · rw [hww] at h0
      cases h0
  constructor
  · constructor
    · intro hd
      have hd : s.word = .initd := of_decide_eq_true hd
      obtain ⟨w, hv⟩ := Option.isSome_iff_exists.1 (hi.initd hd).2.1
      obtain ⟨u, hu⟩ := hi.value w hv
      exact ⟨u, w, hu⟩
    · rintro ⟨u, w, hm⟩
      exact decide_eq_true (hw (by rw [hi.mades u w hm]; rfl))
  · unfold St.drop
    constructor
    · intro hd
      split at hd
      · exact hi.value v hd
      · cases hd
    · rintro ⟨u, hm⟩
      have := hi.mades u v hm
      rw [if_pos (hw (by rw [this]; rfl))]
      exact this

example : exEnd.drop = some 7 := (C58_drop ex_run (by decide) 7).2.2 ⟨0, by decide⟩

/-- After the initializer has panicked no call of `force` ever returns: the lock is not poisoned and not released, and everyone who needs the
value waits forever. -/
theorem C58_after_panic {n : Nat} {s : St} {tr : List Ev} (h : Run n s tr) (hd : ∃ g ∈ s.ths, g.pc = .dead) {as : List Act} {s' : St} {e : List Ev}
    (he : exec s as = some (.ok (s', e))) (t : Nat) : Ev.ret t ∉ e ∧ (∃ g ∈ s'.ths, g.pc = .dead) := by
  have hdead : ∀ {s : St} {tr : List Ev}, Run n s tr → (∃ g ∈ s.ths, g.pc = .dead) → Ev.ret t ∉ tr := by
    intro s tr h ⟨g, hg, hpc⟩ hr
    have hi := run_inv h
    obtain ⟨i, hgi⟩ := List.getElem?_of_mem hg
    have h1 := ((hi.ths i g hgi).dead hpc).2
    obtain ⟨a, b, rfl⟩ := List.append_of_mem hr
    obtain ⟨u, v, hm⟩ := hi.good a _ b rfl
    have := hi.mades u v (by simp [hm])
    rw [this] at h1
    cases h1
  have keep : ∀ {s s' : St} {a : Act} {e : List Ev}, step s a = some (.ok (s', e)) → (∃ g ∈ s.ths, g.pc = .dead) → ∃ g ∈ s'.ths, g.pc = .dead := by
    intro s s' a e hs ⟨g, hg, hpc⟩
    obtain ⟨i, hgi⟩ := List.getElem?_of_mem hg
    suffices hsuf : ∃ g', s'.ths[i]? = some g' ∧ g'.pc = .dead by
      obtain ⟨g', h1, h2⟩ := hsuf
      exact ⟨g', List.mem_of_getElem? h1, h2⟩
    cases a with
    | go u =>
      simp only [step] at hs
      split at hs
      · rename_i k hk
        by_cases eut : u = i
        · subst eut
          rw [hgi] at hk
          cases hk
          unfold St.go at hs
          rw [hpc] at hs
          cases hs
        · unfold St.go St.goTake St.goSwap St.goLoad St.goUninit St.goIniting St.goWait St.goWake St.back acquire at hs
          have hset : ∀ x, (s.ths.set u x)[i]? = some g := fun x => by rw [List.getElem?_set_ne eut]; exact hgi
          have hset2 : ∀ x, ((s.ths.map wakeUp).set u x)[i]? = some (wakeUp g) := fun x => by rw [List.getElem?_set_ne eut, List.getElem?_map, hgi]; rfl
          have hwk : (wakeUp g).pc = .dead := by
            unfold wakeUp
            simp [hpc]
          split at hs <;> grind [St.put, R.assert, R.bind_ok, R.bind_panic, R.pure_eq]
      · cases hs
    | read u =>
      simp only [step] at hs
      split at hs
      · split at hs
        · unfold St.deref at hs
          simp only [Option.some.injEq, R.bind_eq_ok] at hs
          obtain ⟨_, _, _, _, hs⟩ := hs
          cases hs
          exact ⟨g, hgi, hpc⟩
        · cases hs
      · cases hs
    | _ =>
      simp only [step] at hs
      grind [St.put]
  have keepAll : ∀ (as : List Act) (s s' : St) (e : List Ev), exec s as = some (.ok (s', e)) → (∃ g ∈ s.ths, g.pc = .dead) → ∃ g ∈ s'.ths, g.pc = .dead := by
    intro as
    induction as with
    | nil =>
      intro s s' e he hd
      cases he
      exact hd
    | cons a as ih =>
      intro s s' e he hd
      unfold exec at he
      split at he
      · cases he
      · cases he
      · rename_i s1 e1 h1
        split at he
        · cases he
        · cases he
        · rename_i s2 e2 h2
          cases he
          exact ih _ _ _ h2 (keep h1 hd)
  have hd' := keepAll as s s' e he hd
  have hr := run_exec h he
  have := hdead hr hd'
  exact ⟨fun hx => this (List.mem_append.2 (Or.inr hx)), hd'⟩

/-- The initializer panics in the first thread; the second sleeps. -/
def exDead : St := ⟨.sleepers, false, false, none, [⟨.dead, false, false⟩, ⟨.asleep, false, false⟩]⟩

theorem ex_dead : Run 2 exDead [.start 0] := run_exec (tr := []) .init (as := [.call 0, .go 0, .call 1, .go 0, .go 1, .go 1, .go 1, .go 0, .fail 0]) (by decide)

/-- A signal wakes the second thread, and it goes back to sleep. -/
example (t : Nat) : Ev.ret t ∉ ([] : List Ev) := (C58_after_panic ex_dead (by decide) (as := [.intr 1, .go 1, .go 1]) (s' := exDead) (e := []) (by decide) t).1

end Shadow.Lazy
