import Verif.Sim.Global

/-!
# Worker threads: bookkeeping of the next event time and of the least latency
-/
namespace Shadow.Sim
open Shadow.Ev

set_option linter.unusedSectionVars false
set_option linter.unusedSimpArgs false

variable {H P : Type} [DecidableEq P]

/-- The thread has recorded a time of at most `x`. -/
def LowT (th : Thread) (x : Nat) : Prop := ∃ t, (th.acc = some t ∨ th.pkt = some t) ∧ t ≤ x

/-- Some thread has recorded a time of at most `x`. -/
def Low (ts : List Thread) (x : Nat) : Prop := ∃ (i : Nat) (th : Thread), ts[i]? = some th ∧ LowT th x

/-- The recorded times bound the queues of finished hosts, and are times of queued events that
    will not be executed in this round. -/
structure TInv (n re : Nat) (hs : Nat → Host H P) (ts : List Thread) : Prop where
  low : ∀ id, id < n → (hs id).phase = .done → ∀ e ∈ (hs id).queue.events, Low ts e.time
  real : ∀ (i : Nat) (th : Thread), ts[i]? = some th → ∀ t, (th.acc = some t ∨ th.pkt = some t) →
    re ≤ t ∧ ∃ id, id < n ∧ ∃ e ∈ (hs id).queue.events, e.time = t

/-- Which thread runs which host. -/
structure OInv (n : Nat) (hs : Nat → Host H P) (ts : List Thread) : Prop where
  own : ∀ (i : Nat) (th : Thread) (id : Nat), ts[i]? = some th → th.cur = some id →
    id < n ∧ (hs id).phase ≠ .waiting ∧ (hs id).phase ≠ .done
  uniq : ∀ (i j : Nat) (thi thj : Thread) (id : Nat), ts[i]? = some thi → ts[j]? = some thj → thi.cur = some id →
    thj.cur = some id → i = j
  has : ∀ id, id < n → (hs id).phase ≠ .waiting → (hs id).phase ≠ .done →
    ∃ (i : Nat) (th : Thread), ts[i]? = some th ∧ th.cur = some id

/-- The latencies known: the one stored before the round, and those used in it. -/
def Used (n : Nat) (mu0 : Option Nat) (hs : Nat → Host H P) (l : Nat) : Prop :=
  mu0 = some l ∨ ∃ j, j < n ∧ ∃ x ∈ (hs j).sent, x.2.2.1 = l

/-- `m` is the least element of the set `S`. -/
def Least (S : Nat → Prop) (m : Nat) : Prop := S m ∧ ∀ x, S x → m ≤ x

structure MInv (cfg : Cfg) (mu0 : Option Nat) (hs : Nat → Host H P) (mu : Option Nat) : Prop where
  dyn : cfg.ra.dynamic = true → ∀ m, mu = some m ↔ Least (Used cfg.n mu0 hs) m
  static : cfg.ra.dynamic = false → mu = mu0

structure RInv (cfg : Cfg) (prog : Prog H P) (lo re : Nat) (r : Nat → Host H P)
    (mu0 : Option Nat) (g : G H P) : Prop where
  core : Core cfg prog lo re r g.hosts
  tinv : TInv cfg.n re g.hosts g.threads
  oinv : OInv cfg.n g.hosts g.threads
  minv : MInv cfg mu0 g.hosts g.minUsed

theorem omin_some {a b : Option Nat} {t : Nat} (h : omin a b = some t) :
    (a = some t ∨ b = some t) ∧ (∀ x, a = some x → t ≤ x) ∧ (∀ x, b = some x → t ≤ x) := by
  unfold omin at h
  split at h
  · subst h; simp
  · subst h; simp
  · simp at h
    simp
    omega

theorem omin_none {a b : Option Nat} : omin a b = none ↔ a = none ∧ b = none := by
  cases a <;> cases b <;> simp [omin]

theorem omin_low {a b : Option Nat} {x : Nat} (h : a = some x ∨ b = some x) :
    ∃ t, omin a b = some t ∧ t ≤ x := by
  cases a <;> cases b <;> simp [omin] at *
  all_goals omega

theorem low_set {ts : List Thread} {i : Nat} {th th' : Thread} (hi : ts[i]? = some th)
    (h : ∀ x, LowT th x → LowT th' x) {x : Nat} (hx : Low ts x) : Low (ts.set i th') x := by
  obtain ⟨j, thj, hj, hl⟩ := hx
  have hlt : i < ts.length := (List.getElem?_eq_some_iff.mp hi).1
  by_cases hij : j = i
  · subst hij
    rw [hi] at hj; simp at hj; subst hj
    exact ⟨j, th', by simp [List.getElem?_set, hlt], h x hl⟩
  · exact ⟨j, thj, by rw [List.getElem?_set, if_neg (fun h => hij h.symm)]; exact hj, hl⟩

theorem get_set {ts : List Thread} {i j : Nat} {th' thj : Thread}
    (h : (ts.set i th')[j]? = some thj) : (j = i ∧ thj = th') ∨ (j ≠ i ∧ ts[j]? = some thj) := by
  rw [List.getElem?_set] at h
  split at h
  · rename_i hij
    split at h
    · simp at h; exact .inl ⟨hij.symm, h.symm⟩
    · simp at h
  · rename_i hij
    exact .inr ⟨fun h => hij h.symm, h⟩

/-- A step keeps queued events of later rounds, and its phases are as expected. -/
theorem lstep_keep {cfg : Cfg} {prog : Prog H P} {re id : Nat} {h h' : Host H P} {out : Out P}
    (hd : DistinctIds h.queue.events)
    (hs : lstep cfg prog re id h = some (h', out)) :
    (∀ e ∈ h.queue.events, re ≤ e.time → e ∈ h'.queue.events) ∧
    h'.phase ≠ .waiting ∧ h.phase ≠ .done ∧ (h'.phase = .done ↔ h.phase = .broke) ∧
    (h.phase = .broke → h'.queue = h.queue) := by
  have hnd : h.phase ≠ .done := by
    intro hx; unfold lstep at hs; simp [hx] at hs
  have hbr : h.phase = .broke → h' = { h with phase := .done } := by
    intro hx; unfold lstep at hs; simp [hx] at hs; exact hs.1.symm
  have hdn : h'.phase = .done ↔ h.phase = .broke := by
    constructor
    · intro hx
      cases hph : h.phase with
      | broke => rfl
      | waiting => unfold lstep at hs; simp [hph] at hs; rw [← hs.1] at hx; simp at hx
      | loop =>
        unfold lstep at hs; simp only [hph] at hs
        split at hs
        · split at hs
          · split at hs
            · simp at hs; rw [← hs.1] at hx; simp at hx
            · simp at hs
          · simp at hs; rw [← hs.1] at hx; simp at hx
        · simp at hs; rw [← hs.1] at hx; simp at hx
      | hold e =>
        cases lstep_cases hs with
        | move p hp hp' heq ho hx' hb hw hl => simp [hph] at hp
        | finish now st hp heq ho => simp [hph] at hp
        | pop e q hp ht hpop heq ho => simp [hph] at hp
        | _ => subst h'; simp at hx
      | exec now c =>
        cases lstep_cases hs with
        | move p hp hp' heq ho hx' hb hw hl =>
          subst heq
          unfold lstep at hs; simp only [hph] at hs
          simp at hx; subst hx
          cases c with
          | done st => simp [codeStep] at hs
          | schedule t q k =>
            simp only [codeStep] at hs
            split at hs <;> simp at hs
          | send d q l k =>
            simp only [codeStep] at hs
            split at hs
            · simp at hs
            · split at hs <;> simp at hs
          | advance d k => simp only [codeStep] at hs; split at hs <;> simp at hs
          | runahead k => simp [codeStep] at hs
        | _ => subst h'; simp at hx
      | done => exact absurd hph hnd
    · intro hx; rw [hbr hx]
  refine ⟨?_, ?_, hnd, hdn, fun hx => by rw [hbr hx]⟩
  · intro x hx hre
    cases lstep_cases hs with
    | pop e q hp ht hpop heq ho =>
      subst heq
      obtain ⟨hperm, -, -, -⟩ := pop_before hd hpop
      have := hperm.mem_iff.mpr hx
      simp at this
      rcases this with rfl | h1
      · omega
      · exact h1
    | repush e q d hd hp hq hl ht heq ho => subst heq; simp [hq, hx]
    | push now t p k q hp ht hle hq hl heq ho => subst heq; simp [hq, hx]
    | _ => subst h'; exact hx
  · cases lstep_cases hs with
    | move p hp hp' heq ho hx' hb hw hl => subst heq; exact hw
    | _ => subst h'; simp

theorem used_congr {n : Nat} {mu0 : Option Nat} {hs hs' : Nat → Host H P}
    (h : ∀ j, j < n → (hs' j).sent = (hs j).sent) (l : Nat) :
    Used n mu0 hs' l ↔ Used n mu0 hs l := by
  unfold Used
  constructor
  · rintro (h1 | ⟨j, hj, h1⟩)
    · exact .inl h1
    · exact .inr ⟨j, hj, by rw [h j hj] at h1; exact h1⟩
  · rintro (h1 | ⟨j, hj, h1⟩)
    · exact .inl h1
    · exact .inr ⟨j, hj, by rw [h j hj]; exact h1⟩

theorem least_congr {S T : Nat → Prop} (h : ∀ l, S l ↔ T l) (m : Nat) : Least S m ↔ Least T m := by
  unfold Least; simp [h]

theorem minv_congr {cfg : Cfg} {mu0 mu : Option Nat} {hs hs' : Nat → Host H P}
    (h : ∀ j, j < cfg.n → (hs' j).sent = (hs j).sent) (hm : MInv cfg mu0 hs mu) :
    MInv cfg mu0 hs' mu :=
  ⟨fun hd m => (hm.dyn hd m).trans (least_congr (fun l => (used_congr h l).symm) m), hm.static⟩

theorem observe_least {cfg : Cfg} {mu0 mu : Option Nat} {hs hs' : Nat → Host H P} {lat : Nat}
    (hm : MInv cfg mu0 hs mu) (hu : ∀ l, Used cfg.n mu0 hs' l ↔ Used cfg.n mu0 hs l ∨ l = lat) :
    MInv cfg mu0 hs' (observe cfg.ra mu lat) := by
  constructor
  · intro hd m
    have hdyn := hm.dyn hd
    have hl : Least (Used cfg.n mu0 hs') m ↔
        Least (fun l => Used cfg.n mu0 hs l ∨ l = lat) m := least_congr hu m
    rw [hl]
    unfold observe
    rw [if_pos hd]
    cases hmu : mu with
    | none =>
      have hno : ∀ l, ¬ Used cfg.n mu0 hs l := by
        -- a nonempty set of naturals has a least element
        intro l
        induction l using Nat.strongRecOn with
        | _ l ih =>
          intro hl
          have : mu = some l := (hdyn l).mpr ⟨hl, fun x hx => by
            rcases Nat.lt_or_ge x l with h | h
            · exact absurd hx (ih x h)
            · exact h⟩
          rw [hmu] at this; simp at this
      simp [Runahead.shouldUpdate, Least, hno]
      constructor
      · intro h; exact ⟨h.symm, by omega⟩
      · intro h; exact h.1.symm
    | some m0 =>
      obtain ⟨h1, h2⟩ := (hdyn m0).mp hmu
      by_cases hc : lat ≥ m0
      · simp [Runahead.shouldUpdate, hc, Least]
        constructor
        · rintro rfl
          exact ⟨.inl h1, fun x hx => by rcases hx with hx | hx; exact h2 x hx; omega⟩
        · rintro ⟨h3, h4⟩
          have h5 := h4 m0 (.inl h1)
          rcases h3 with h3 | h3
          · have := h2 m h3; omega
          · omega
      · simp [Runahead.shouldUpdate, hc, Least]
        constructor
        · rintro rfl
          refine ⟨.inr rfl, fun x hx => ?_⟩
          rcases hx with hx | hx
          · have := h2 x hx; omega
          · omega
        · rintro ⟨h3, h4⟩
          have h5 := h4 lat (.inr rfl)
          rcases h3 with h3 | h3
          · have := h2 m h3; omega
          · omega
  · intro hd
    unfold observe
    simp [hd]
    exact hm.static hd

theorem set_self {ts : List Thread} {i : Nat} {th : Thread} (h : ts[i]? = some th) :
    ts.set i th = ts := by
  apply List.ext_getElem?
  intro j
  rw [List.getElem?_set]
  split
  · rename_i hij
    subst hij
    rw [h]
    have := (List.getElem?_eq_some_iff.mp h).1
    simp [this]
  · rfl

theorem step_rinv {cfg : Cfg} {prog : Prog H P} {lo re : Nat} {r : Nat → Host H P}
    {mu0 : Option Nat} {g g' : G H P} {a : Act} (hi : RInv cfg prog lo re r mu0 g)
    (hs : step cfg prog re g a = some g') : RInv cfg prog lo re r mu0 g' := by
  cases a with
  | claim i id =>
    simp only [step] at hs
    split at hs
    · simp at hs
    rename_i th hth
    split at hs
    case isFalse => simp at hs
    rename_i hcur
    obtain ⟨hcur, hid⟩ := hcur
    split at hs
    case h_2 => simp at hs
    rename_i hph
    simp at hs; subst hs
    have hl : lstep cfg prog re id (g.hosts id) = some ({ g.hosts id with phase := .loop }, none) := by
      unfold lstep; simp [hph]
    have hlt : i < g.threads.length := (List.getElem?_eq_some_iff.mp hth).1
    refine ⟨core_lstep hi.core hid hl, ⟨?_, ?_⟩, ⟨?_, ?_, ?_⟩, ?_⟩
    · intro j hj hdone e he
      simp only [setHost] at hdone he
      split at hdone
      · simp at hdone
      · rename_i hji
        rw [if_neg hji] at he
        exact low_set (th' := { th with cur := some id }) hth (fun x hx => hx)
          (hi.tinv.low j hj hdone e he)
    · intro j thj hj t ht
      have : ∃ th0 : Thread, g.threads[j]? = some th0 ∧ (th0.acc = some t ∨ th0.pkt = some t) := by
        rcases get_set hj with ⟨rfl, rfl⟩ | ⟨-, h1⟩
        · exact ⟨th, hth, ht⟩
        · exact ⟨thj, h1, ht⟩
      obtain ⟨th0, h1, h2⟩ := this
      obtain ⟨h3, k, hk, e, he, h4⟩ := hi.tinv.real j th0 h1 t h2
      refine ⟨h3, k, hk, e, ?_, h4⟩
      simp only [setHost]; split
      · rename_i hki; subst hki; exact he
      · exact he
    · intro j thj k hj hc
      rcases get_set hj with ⟨rfl, rfl⟩ | ⟨-, h1⟩
      · simp at hc; subst hc
        simp [setHost, hid]
      · obtain ⟨h2, h3, h4⟩ := hi.oinv.own j thj k h1 hc
        refine ⟨h2, ?_⟩
        simp only [setHost]; split
        · simp
        · exact ⟨h3, h4⟩
    · intro j k thj thk x hj hk hcj hck
      rcases get_set hj with ⟨rfl, rfl⟩ | ⟨hne, h1⟩ <;> rcases get_set hk with ⟨rfl, rfl⟩ | ⟨hne', h2⟩
      · rfl
      · simp at hcj; subst hcj
        exact absurd hph (hi.oinv.own k thk id h2 hck).2.1
      · simp at hck; subst hck
        exact absurd hph (hi.oinv.own j thj id h1 hcj).2.1
      · exact hi.oinv.uniq j k thj thk x h1 h2 hcj hck
    · intro k hk hw hd
      simp only [setHost] at hw hd
      by_cases hki : k = id
      · subst hki
        exact ⟨i, _, by simp [List.getElem?_set, hlt]; rfl, rfl⟩
      · rw [if_neg hki] at hw hd
        obtain ⟨j, thj, h1, h2⟩ := hi.oinv.has k hk hw hd
        have : j ≠ i := by
          intro h; subst h; rw [hth] at h1; simp at h1; subst h1
          rw [hcur] at h2; simp at h2
        exact ⟨j, thj, by rw [List.getElem?_set, if_neg (fun h => this h.symm)]; exact h1, h2⟩
    · refine minv_congr ?_ hi.minv
      intro j _
      simp only [setHost]; split
      · rename_i hj; subst hj; rfl
      · rfl
  | act i =>
    simp only [step] at hs
    split at hs
    · simp at hs
    rename_i th hth
    split at hs
    · simp at hs
    rename_i id hcur
    have hlt : i < g.threads.length := (List.getElem?_eq_some_iff.mp hth).1
    obtain ⟨hid, hnw, hnd⟩ := hi.oinv.own i th id hth hcur
    have hhi := hi.core.host id hid
    split at hs
    · simp at hs
    · -- no packet
      rename_i h' hl
      obtain ⟨hkeep, hw', -, hdone', hq'⟩ := lstep_keep (distinct_queue hhi) hl
      obtain ⟨-, -, hsent, -⟩ := lstep_data (distinct_queue hhi) hl
      have hminv : MInv cfg mu0 (setHost g.hosts id h') g.minUsed := by
        refine minv_congr ?_ hi.minv
        intro j _
        simp only [setHost]; split
        · rename_i hj; subst hj; exact hsent rfl
        · rfl
      have hreal0 : ∀ t, (∃ k, k < cfg.n ∧ ∃ e ∈ (g.hosts k).queue.events, e.time = t) → re ≤ t →
          ∃ k, k < cfg.n ∧ ∃ e ∈ (setHost g.hosts id h' k).queue.events, e.time = t := by
        rintro t ⟨k, hk, e, he, h1⟩ hre
        refine ⟨k, hk, e, ?_, h1⟩
        simp only [setHost]; split
        · rename_i hki; subst hki; exact hkeep e he (by omega)
        · exact he
      by_cases hbr : (g.hosts id).phase = .broke
      · -- the host leaves the round
        simp only [hbr, Option.some.injEq] at hs
        subst hs
        have hqq := hq' hbr
        refine ⟨core_lstep hi.core hid hl, ⟨?_, ?_⟩, ⟨?_, ?_, ?_⟩, hminv⟩
        · intro j hj hdone e he
          simp only [setHost] at hdone he
          have hmono : ∀ x, LowT th x → LowT ⟨none, omin th.acc (g.hosts id).queue.nextEventTime, th.pkt⟩ x := by
            rintro x ⟨t, h1 | h1, h2⟩
            · obtain ⟨t', h3, h4⟩ := omin_low (a := th.acc) (b := (g.hosts id).queue.nextEventTime) (.inl h1)
              exact ⟨t', .inl h3, by omega⟩
            · exact ⟨t, .inr h1, h2⟩
          split at he
          · rename_i hji; subst hji
            rw [hqq] at he
            cases hn : (g.hosts j).queue.nextEventTime with
            | none => have := (nextEventTime_spec _).1.mp hn; simp [this] at he
            | some t =>
              have hte := ((nextEventTime_spec _).2 t |>.mp hn).2 e he
              obtain ⟨t', h3, h4⟩ := omin_low (a := th.acc) (b := (g.hosts j).queue.nextEventTime) (.inr hn)
              rw [hn] at h3
              exact ⟨i, _, by simp [List.getElem?_set, hlt]; rfl, t', .inl h3, by omega⟩
          · rename_i hji
            rw [if_neg hji] at hdone
            exact low_set hth hmono (hi.tinv.low j hj hdone e he)
        · intro j thj hj t ht
          rcases get_set hj with ⟨rfl, rfl⟩ | ⟨-, h1⟩
          · have hsplit : (th.acc = some t ∨ th.pkt = some t) ∨
                (g.hosts id).queue.nextEventTime = some t := by
              rcases ht with ht | ht
              · rcases (omin_some ht).1 with h1 | h1
                · exact .inl (.inl h1)
                · exact .inr h1
              · exact .inl (.inr ht)
            rcases hsplit with h1 | h1
            · obtain ⟨h2, h3⟩ := hi.tinv.real j th hth t h1
              exact ⟨h2, hreal0 t h3 h2⟩
            · obtain ⟨⟨e, he, het⟩, -⟩ := (nextEventTime_spec _).2 t |>.mp h1
              have := hhi.over (.inl hbr) e he
              exact ⟨by omega, hreal0 t ⟨id, hid, e, he, het⟩ (by omega)⟩
          · obtain ⟨h2, h3⟩ := hi.tinv.real j thj h1 t ht
            exact ⟨h2, hreal0 t h3 h2⟩
        · intro j thj k hj hc
          rcases get_set hj with ⟨rfl, rfl⟩ | ⟨hne, h1⟩
          · simp at hc
          · obtain ⟨h2, h3, h4⟩ := hi.oinv.own j thj k h1 hc
            have hki : k ≠ id := by
              intro h; subst h
              exact hne (hi.oinv.uniq j i thj th k h1 hth hc hcur)
            simp only [setHost, if_neg hki]
            exact ⟨h2, h3, h4⟩
        · intro j k thj thk x hj hk hcj hck
          rcases get_set hj with ⟨rfl, rfl⟩ | ⟨hne, h1⟩
          · simp at hcj
          · rcases get_set hk with ⟨rfl, rfl⟩ | ⟨hne', h2⟩
            · simp at hck
            · exact hi.oinv.uniq j k thj thk x h1 h2 hcj hck
        · intro k hk hw hd
          simp only [setHost] at hw hd
          by_cases hki : k = id
          · subst hki
            simp only [if_true] at hd
            exact absurd (hdone'.mpr hbr) hd
          · rw [if_neg hki] at hw hd
            obtain ⟨j, thj, h1, h2⟩ := hi.oinv.has k hk hw hd
            have : j ≠ i := by
              intro h; subst h; rw [hth] at h1; simp at h1; subst h1
              rw [hcur] at h2; simp at h2; exact hki h2.symm
            exact ⟨j, thj, by rw [List.getElem?_set, if_neg (fun h => this h.symm)]; exact h1, h2⟩
      · -- an ordinary step
        have hg : g' = { g with hosts := setHost g.hosts id h' } := by
          cases hph : (g.hosts id).phase <;> simp [hph, set_self hth] at hs hbr <;> exact hs.symm
        subst hg
        have hnd' : h'.phase ≠ .done := fun h => hbr (hdone'.mp h)
        refine ⟨core_lstep hi.core hid hl, ⟨?_, ?_⟩, ⟨?_, hi.oinv.uniq, ?_⟩, hminv⟩
        · intro j hj hdone e he
          simp only [setHost] at hdone he
          split at hdone
          · exact absurd hdone hnd'
          · rename_i hji
            rw [if_neg hji] at he
            exact hi.tinv.low j hj hdone e he
        · intro j thj hj t ht
          obtain ⟨h2, h3⟩ := hi.tinv.real j thj hj t ht
          exact ⟨h2, hreal0 t h3 h2⟩
        · intro j thj k hj hc
          obtain ⟨h2, h3, h4⟩ := hi.oinv.own j thj k hj hc
          refine ⟨h2, ?_⟩
          simp only [setHost]; split
          · exact ⟨hw', hnd'⟩
          · exact ⟨h3, h4⟩
        · intro k hk hw hd
          simp only [setHost] at hw hd
          by_cases hki : k = id
          · subst hki; exact ⟨i, th, hth, hcur⟩
          · rw [if_neg hki] at hw hd
            exact hi.oinv.has k hk hw hd
    · -- a packet leaves
      rename_i h' dst lat e hl
      have hdel := deliver_ok hi.core hid hl
      rw [hdel] at hs
      simp only [Option.some.injEq] at hs
      subst hs
      have hcore := core_send hi.core hid hl hdel
      obtain ⟨-, hw', -, hdone', -⟩ := lstep_keep (distinct_queue hhi) hl
      obtain ⟨-, -, -, h4⟩ := lstep_data (distinct_queue hhi) hl
      obtain ⟨hdst, hre, -, -, hqueue, -, now, hsent, hnb⟩ := h4 dst lat e rfl
      have hnd' : h'.phase ≠ .done := fun h => hnb (hdone'.mp h)
      generalize hm : setHost (setHost g.hosts id h') dst
        { setHost g.hosts id h' dst with
          queue := ⟨e :: (g.hosts dst).queue.events, (g.hosts dst).queue.lastPopped⟩ } = m at *
      have hmphase : ∀ k, (m k).phase = if k = id then h'.phase else (g.hosts k).phase := by
        intro k; subst hm
        simp only [setHost]
        split
        · rename_i hk; subst hk; split <;> rfl
        · split <;> rfl
      have hmq : ∀ k, ∀ x, x ∈ (m k).queue.events ↔
          (x ∈ (g.hosts k).queue.events ∨ (k = dst ∧ x = e)) := by
        intro k x; subst hm
        simp only [setHost]
        split
        · rename_i hk; subst hk
          simp [or_comm]
        · rename_i hk
          split
          · rename_i hk2; subst hk2; rw [hqueue]; simp [hk]
          · simp [hk]
      have hmsent : ∀ k, (m k).sent = if k = id then h'.sent else (g.hosts k).sent := by
        intro k; subst hm
        simp only [setHost]
        split
        · rename_i hk; subst hk; split <;> rfl
        · split <;> rfl
      have hlowmono : ∀ x, LowT th x → LowT { th with pkt := omin th.pkt (some e.time) } x := by
        rintro x ⟨t, h1 | h1, h2⟩
        · exact ⟨t, .inl h1, h2⟩
        · obtain ⟨t', h3, h4⟩ := omin_low (a := th.pkt) (b := some e.time) (.inl h1)
          exact ⟨t', .inr h3, by omega⟩
      refine ⟨hcore, ⟨?_, ?_⟩, ⟨?_, ?_, ?_⟩, ?_⟩
      · intro j hj hdone x hx
        simp only at hdone hx
        rw [hmphase] at hdone
        split at hdone
        · exact absurd hdone hnd'
        · rcases (hmq j x).mp hx with hx | ⟨-, rfl⟩
          · exact low_set hth hlowmono (hi.tinv.low j hj hdone x hx)
          · obtain ⟨t', h3, h4⟩ := omin_low (a := th.pkt) (b := some x.time) (.inr rfl)
            exact ⟨i, _, by simp [List.getElem?_set, hlt]; rfl, t', .inr h3, h4⟩
      · intro j thj hj t ht
        have hold : (th.acc = some t ∨ th.pkt = some t ∨ ∃ (th0 : Thread) (j : Nat), g.threads[j]? = some th0 ∧ (th0.acc = some t ∨ th0.pkt = some t)) →
            re ≤ t ∧ ∃ k, k < cfg.n ∧ ∃ e ∈ (m k).queue.events, e.time = t := by
          intro h
          have : ∃ (th0 : Thread) (j : Nat), g.threads[j]? = some th0 ∧ (th0.acc = some t ∨ th0.pkt = some t) := by
            rcases h with h | h | h
            · exact ⟨th, i, hth, .inl h⟩
            · exact ⟨th, i, hth, .inr h⟩
            · exact h
          obtain ⟨th0, j, h1, h2⟩ := this
          obtain ⟨h3, k, hk, x, hx, h5⟩ := hi.tinv.real j th0 h1 t h2
          exact ⟨h3, k, hk, x, (hmq k x).mpr (.inl hx), h5⟩
        rcases get_set hj with ⟨rfl, rfl⟩ | ⟨-, h1⟩
        · rcases ht with ht | ht
          · exact hold (.inl ht)
          · rcases (omin_some ht).1 with h1 | h1
            · exact hold (.inr (.inl h1))
            · simp at h1; subst h1
              exact ⟨hre, dst, hdst, e, (hmq dst e).mpr (.inr ⟨rfl, rfl⟩), rfl⟩
        · exact hold (.inr (.inr ⟨thj, j, h1, ht⟩))
      · intro j thj k hj hc
        have : ∃ th0 : Thread, g.threads[j]? = some th0 ∧ th0.cur = some k := by
          rcases get_set hj with ⟨rfl, rfl⟩ | ⟨-, h1⟩
          · exact ⟨th, hth, hc⟩
          · exact ⟨thj, h1, hc⟩
        obtain ⟨th0, h1, h2⟩ := this
        obtain ⟨h3, h4, h5⟩ := hi.oinv.own j th0 k h1 h2
        refine ⟨h3, ?_⟩
        simp only [hmphase]
        split
        · exact ⟨hw', hnd'⟩
        · exact ⟨h4, h5⟩
      · intro j k thj thk x hj hk hcj hck
        have conv : ∀ (j : Nat) (thj : Thread), (g.threads.set i { th with pkt := omin th.pkt (some e.time) })[j]? = some thj →
            thj.cur = some x → ∃ th0 : Thread, g.threads[j]? = some th0 ∧ th0.cur = some x := by
          intro j thj hj hc
          rcases get_set hj with ⟨rfl, rfl⟩ | ⟨-, h1⟩
          · exact ⟨th, hth, hc⟩
          · exact ⟨thj, h1, hc⟩
        obtain ⟨a, ha, hac⟩ := conv j thj hj hcj
        obtain ⟨b, hb, hbc⟩ := conv k thk hk hck
        exact hi.oinv.uniq j k a b x ha hb hac hbc
      · intro k hk hw hd
        simp only [hmphase] at hw hd
        by_cases hki : k = id
        · subst hki
          exact ⟨i, { th with pkt := omin th.pkt (some e.time) }, by simp [List.getElem?_set, hlt], hcur⟩
        · rw [if_neg hki] at hw hd
          obtain ⟨j, thj, h1, h2⟩ := hi.oinv.has k hk hw hd
          have : j ≠ i := by
            intro h; subst h; rw [hth] at h1; simp at h1; subst h1
            rw [hcur] at h2; simp at h2; exact hki h2.symm
          exact ⟨j, thj, by rw [List.getElem?_set, if_neg (fun h => this h.symm)]; exact h1, h2⟩
      · refine observe_least hi.minv ?_
        intro l
        unfold Used
        constructor
        · rintro (h1 | ⟨j, hj, x, hx, h1⟩)
          · exact .inl (.inl h1)
          · rw [hmsent] at hx
            split at hx
            · rename_i hji; subst hji
              rw [hsent] at hx; simp at hx
              rcases hx with hx | rfl
              · exact .inl (.inr ⟨j, hj, x, hx, h1⟩)
              · exact .inr h1.symm
            · exact .inl (.inr ⟨j, hj, x, hx, h1⟩)
        · rintro ((h1 | ⟨j, hj, x, hx, h1⟩) | h1)
          · exact .inl h1
          · refine .inr ⟨j, hj, x, ?_, h1⟩
            rw [hmsent]
            split
            · rename_i hji; subst hji; rw [hsent]; simp [hx]
            · exact hx
          · refine .inr ⟨id, hid, (dst, now, lat, e), ?_, h1.symm⟩
            rw [hmsent]; simp [hsent]

theorem steps_rinv {cfg : Cfg} {prog : Prog H P} {lo re : Nat} {r : Nat → Host H P}
    {mu0 : Option Nat} {g g' : G H P} (hs : Steps cfg prog re g g')
    (hi : RInv cfg prog lo re r mu0 g) : RInv cfg prog lo re r mu0 g' := by
  induction hs with
  | refl => exact hi
  | tail a _ h ih => exact step_rinv ih h

end Shadow.Sim
