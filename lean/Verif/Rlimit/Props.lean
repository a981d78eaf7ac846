import Verif.Rlimit.Model
import Verif.SockAddr.Props
/-!
# C88: limits read back as they were set, and the native process never gets in the way
-/
namespace Shadow.Rlimit

open Shadow.Base
open Shadow.IoVec (Mem load store)
open Shadow.SockAddr (Byte le ofLe EFAULT EINVAL Holds Mapped Patched load_some load_isSome load_none store_patched le_length le_get le_ofLe ofLe_le)

/-! ### The specification -/

/-- The kernel accepts what it must accept. -/
def Kernel (kset : Lim → Lim → Option Lim) : Prop := ∀ old new : Lim, new.cur ≤ new.max → new.max ≤ old.max → kset old new = some new

/-- Limits as a kernel keeps them. -/
def Good (l : Lim) : Prop := l.cur ≤ l.max ∧ l.max < 2 ^ 64

/-- Two numbers of eight bytes, lowest byte first. -/
def LimAt (m : Mem Byte) (a : Nat) (l : Lim) : Prop :=
  l.cur < 2 ^ 64 ∧ l.max < 2 ^ 64 ∧ ∀ i, i < 8 → m (a + i) = some (BitVec.ofNat 8 (l.cur / 256 ^ i)) ∧ m (a + 8 + i) = some (BitVec.ofNat 8 (l.max / 256 ^ i))

/-- The limit that a process sees. -/
def lim (s : St) (p r : Nat) : Option Lim := (s.procs p).map (fun q => q.emu r)
def memOf (s : St) (p : Nat) : Option (Mem Byte) := (s.procs p).map (·.mem)

/-- The process that a number means; 0 is the caller. -/
def Means (self : Nat) (pid : Int) (t : Nat) : Prop := (pid = 0 ∧ t = self) ∨ (0 < pid ∧ (t : Int) = pid)

/-- The limit that is to be set: none, or what is at the address. -/
def New (m : Mem Byte) (a : Nat) (n : Option Lim) : Prop := (a = 0 ∧ n = none) ∨ (a ≠ 0 ∧ ∃ l, n = some l ∧ LimAt m a l)

/-- What asking for and setting a limit does: the new state, an error, and the limit before. -/
inductive Ans (s : St) (self : Nat) (pid : Int) (r : Nat) (n : Option Lim) : St → Option Nat → Lim → Prop where
  | resource (x : Lim) : 16 ≤ r → Ans s self pid r n s (some EINVAL) x
  | nobody (x : Lim) : r < 16 → (∀ t, Means self pid t → s.procs t = none) → Ans s self pid r n s (some ESRCH) x
  | order (x : Lim) {t : Nat} {l old : Lim} : r < 16 → Means self pid t → lim s t r = some old → n = some l → l.max < l.cur → Ans s self pid r n s (some EINVAL) x
  | raise (x : Lim) {t : Nat} {l old : Lim} : r < 16 → Means self pid t → lim s t r = some old → n = some l → l.cur ≤ l.max → old.max < l.max →
      Ans s self pid r n s (some EPERM) x
  | done {t : Nat} {old : Lim} {s' : St} : r < 16 → Means self pid t → lim s t r = some old → (∀ l, n = some l → l.cur ≤ l.max ∧ l.max ≤ old.max) →
      (∀ p x, lim s' p x = if p = t ∧ x = r then some (n.getD old) else lim s p x) → (∀ p, memOf s' p = memOf s p) → Ans s self pid r n s' none old

/-- The old limit is written. -/
def Told (self a : Nat) (old : Lim) (s s' : St) : Prop :=
  (∀ p x, lim s' p x = lim s p x) ∧ (∀ p, p ≠ self → memOf s' p = memOf s p)
    ∧ ∃ m m', memOf s self = some m ∧ memOf s' self = some m' ∧ LimAt m' a old ∧ ∀ x, x < a ∨ a + 16 ≤ x → m' x = m x

/-- `prlimit64`. -/
inductive PrAns (s : St) (self : Nat) (m : Mem Byte) (pid : Int) (r np op : Nat) : St → Option Nat → Prop where
  | fault : np ≠ 0 → ¬ Mapped m np 16 → PrAns s self m pid r np op s (some EFAULT)
  | refused {n : Option Lim} {s' : St} {e : Nat} {x : Lim} : New m np n → Ans s self pid r n s' (some e) x → PrAns s self m pid r np op s' (some e)
  | quiet {n : Option Lim} {s' : St} {old : Lim} : New m np n → Ans s self pid r n s' none old → op = 0 → PrAns s self m pid r np op s' none
  | noRoom {n : Option Lim} {s' : St} {old : Lim} : New m np n → Ans s self pid r n s' none old → op ≠ 0 → ¬ Mapped m op 16 → PrAns s self m pid r np op s' (some EFAULT)
  | told {n : Option Lim} {s' s'' : St} {old : Lim} : New m np n → Ans s self pid r n s' none old → op ≠ 0 → Told self op old s' s'' → PrAns s self m pid r np op s'' none

/-- `getrlimit`. -/
inductive GetAns (s : St) (self : Nat) (m : Mem Byte) (r a : Nat) : St → Option Nat → Prop where
  | refused {s' : St} {e : Nat} {x : Lim} : Ans s self 0 r none s' (some e) x → GetAns s self m r a s' (some e)
  | noRoom {s' : St} {old : Lim} : Ans s self 0 r none s' none old → ¬ Mapped m a 16 → GetAns s self m r a s' (some EFAULT)
  | told {s' s'' : St} {old : Lim} : Ans s self 0 r none s' none old → Told self a old s' s'' → GetAns s self m r a s'' none

/-- `setrlimit`. -/
inductive SetAns (s : St) (self : Nat) (m : Mem Byte) (r a : Nat) : St → Option Nat → Prop where
  | fault : ¬ Mapped m a 16 → SetAns s self m r a s (some EFAULT)
  | answer {l : Lim} {s' : St} {e : Option Nat} {x : Lim} : LimAt m a l → Ans s self 0 r (some l) s' e x → SetAns s self m r a s' e

/-! ### Memory -/

theorem ofLe_lt (bs : List Byte) : ofLe bs < 256 ^ bs.length := by
  have h := ofLe_le (ofLe bs) bs.length
  rw [le_ofLe] at h
  rw [h]; exact Nat.mod_lt _ (Nat.pow_pos (by omega))

theorem limAt_iff {m : Mem Byte} {a : Nat} {l : Lim} : LimAt m a l ↔ l.cur < 2 ^ 64 ∧ l.max < 2 ^ 64 ∧ Holds m a (le l.cur 8 ++ le l.max 8) := by
  unfold LimAt Holds
  have e1 := le_length l.cur 8
  have e2 := le_length l.max 8
  refine and_congr_right fun _ => and_congr_right fun _ => ⟨fun h i hi => ?_, fun h i hi => ⟨?_, ?_⟩⟩
  · simp only [List.length_append, e1, e2] at hi
    by_cases hlt : i < 8
    · rw [List.getElem?_append_left (by omega), le_get _ _ _ hlt, (h i hlt).1]
    · rw [List.getElem?_append_right (by omega), e1, le_get _ _ _ (by omega), ← (h (i - 8) (by omega)).2]
      congr 1; omega
  · rw [h i (by simp [e1, e2]; omega), List.getElem?_append_left (by omega), le_get _ _ _ hi]
  · have := h (8 + i) (by simp [e1, e2]; omega)
    rw [List.getElem?_append_right (by omega), e1, le_get _ _ _ (by omega)] at this
    rw [show a + 8 + i = a + (8 + i) by omega, this]
    congr 4; omega

theorem readLim_iff {m : Mem Byte} {a : Nat} {l : Lim} : readLim m a = some l ↔ LimAt m a l := by
  rw [limAt_iff]
  unfold readLim
  constructor
  · intro h
    obtain ⟨bs, hb, rfl⟩ := Option.map_eq_some_iff.1 h
    obtain ⟨hl, hh⟩ := load_some.1 hb
    have l1 : (bs.take 8).length = 8 := by simp [hl]
    have l2 : (bs.drop 8).length = 8 := by simp [hl]
    have h1 := ofLe_lt (bs.take 8); have h2 := ofLe_lt (bs.drop 8)
    have e1 := le_ofLe (bs.take 8); have e2 := le_ofLe (bs.drop 8)
    rw [l1] at h1 e1; rw [l2] at h2 e2
    refine ⟨by simpa using h1, by simpa using h2, ?_⟩
    show Holds m a (le (ofLe (bs.take 8)) 8 ++ le (ofLe (bs.drop 8)) 8)
    rw [e1, e2, List.take_append_drop]; exact hh
  · rintro ⟨h1, h2, h3⟩
    have e1 := le_length l.cur 8
    have e2 := le_length l.max 8
    rw [load_some.2 ⟨by simp [e1, e2], h3⟩]
    simp only [Option.map_some, Option.some.injEq]
    rw [List.take_append_of_le_length (by omega), List.take_of_length_le (by omega), List.drop_append_of_le_length (by omega), List.drop_eq_nil_of_le (by omega), List.nil_append,
      ofLe_le, ofLe_le, Nat.mod_eq_of_lt (by simpa using h1), Nat.mod_eq_of_lt (by simpa using h2)]

theorem readLim_none {m : Mem Byte} {a : Nat} : readLim m a = none ↔ ¬ Mapped m a 16 := by
  unfold readLim
  rw [← load_isSome]
  cases load m a 16 <;> simp

theorem newLim_some {m : Mem Byte} {a : Nat} {n : Option Lim} : newLim m a = some n ↔ New m a n := by
  unfold newLim New
  by_cases h : a = 0
  · simp [h]; exact eq_comm
  · simp only [h, if_false, Option.map_eq_some_iff, readLim_iff, false_and, false_or, not_false_eq_true, true_and, ne_eq]
    exact ⟨fun ⟨l, h1, h2⟩ => ⟨l, h2.symm, h1⟩, fun ⟨l, h1, h2⟩ => ⟨l, h2, h1.symm⟩⟩

theorem newLim_none {m : Mem Byte} {a : Nat} : newLim m a = none ↔ a ≠ 0 ∧ ¬ Mapped m a 16 := by
  unfold newLim
  by_cases h : a = 0
  · simp [h]
  · simp [h, readLim_none]

/-! ### The invariant -/

/-- The limits of a process. -/
structure PrOk (base : Nat → Lim) (p : Pr) : Prop where
  emu : ∀ r, Good (p.emu r) ∧ (p.emu r).max ≤ (base r).max
  native : ∀ nat, p.native = some nat → ∀ r, (nat r).cur ≤ (nat r).max ∧ (p.emu r).max ≤ (nat r).max ∧ (base r).cur ≤ (nat r).cur

structure Inv (base : Nat → Lim) (s : St) : Prop where
  fix : s.base = base
  good : ∀ r, Good (base r)
  procs : ∀ pid p, s.procs pid = some p → PrOk base p

theorem set_self {s : St} {t : Nat} {p : Pr} (h : s.procs t = some p) : s.set t (some p) = s := by
  unfold St.set
  have : (fun x => if x = t then some p else s.procs x) = s.procs := funext fun x => by
    by_cases e : x = t
    · simp [e, h]
    · simp [e]
  rw [this]

theorem Inv.set {base : Nat → Lim} {s : St} (h : Inv base s) (pid : Nat) {p : Pr} (hp : PrOk base p) : Inv base (s.set pid (some p)) := by
  refine ⟨h.fix, h.good, fun q x hx => ?_⟩
  simp only [St.set] at hx
  split at hx
  · obtain rfl := Option.some.inj hx; exact hp
  · exact h.procs q x hx

theorem setLim_ok {kset : Lim → Lim → Option Lim} (hk : Kernel kset) {base : Nat → Lim} {p : Pr} (hp : PrOk base p) (r : Nat) {new : Lim}
    (h1 : new.cur ≤ new.max) (h2 : new.max ≤ (p.emu r).max) :
    ∃ q, p.setLim kset r new = .ok (q, none) ∧ PrOk base q ∧ q.emu = upd p.emu r new ∧ q.mem = p.mem
      ∧ (∀ nat, p.native = some nat → q.native = some (upd nat r (nativeLim (nat r) new))) ∧ (p.native = none → q.native = none) := by
  have hb := hp.emu r
  unfold Pr.setLim
  rw [if_neg (by omega), if_neg (by omega)]
  have hemu : ∀ x, Good (upd p.emu r new x) ∧ (upd p.emu r new x).max ≤ (base x).max := fun x => by
    unfold upd
    split
    · rename_i e; subst e; exact ⟨⟨h1, by have := hb.1.2; omega⟩, by omega⟩
    · exact hp.emu x
  cases hn : p.native with
  | none => exact ⟨_, rfl, ⟨hemu, fun nat h => by simp at h⟩, rfl, rfl, fun _ h => (by simp at h), fun _ => rfl⟩
  | some nat =>
    have hnat := hp.native nat hn r
    have a1 : (nativeLim (nat r) new).cur ≤ (nativeLim (nat r) new).max := by unfold nativeLim; simp only; split <;> split <;> omega
    have a2 : (nativeLim (nat r) new).max ≤ (nat r).max := by unfold nativeLim; simp only; split <;> omega
    have a3 : new.max ≤ (nativeLim (nat r) new).max := by unfold nativeLim; simp only; split <;> omega
    have a4 : (base r).cur ≤ (nativeLim (nat r) new).cur := by unfold nativeLim; simp only; split <;> omega
    simp only [hk _ _ a1 a2, R.unwrap_some, R.bind_ok]
    refine ⟨_, rfl, ⟨hemu, fun nat' h x => ?_⟩, rfl, rfl, fun nat' h => ?_, fun h => by simp at h⟩
    · obtain rfl := Option.some.inj h
      unfold upd
      by_cases e : x = r
      · subst e; simp only [if_true]; exact ⟨a1, a3, a4⟩
      · simp only [e, if_false]; exact hp.native nat hn x
    · obtain rfl := Option.some.inj h; rfl

theorem means_target {self t : Nat} {pid : Int} : target self pid = some t ↔ Means self pid t := by
  unfold target Means
  by_cases h0 : pid = 0
  · simp [h0]; exact eq_comm
  · by_cases hn : pid < 0
    · simp [h0, hn]; omega
    · simp only [h0, hn, if_false, Option.some.injEq, false_and, false_or]; omega

theorem impl_ans {kset : Lim → Lim → Option Lim} (hk : Kernel kset) {base : Nat → Lim} {s : St} (h : Inv base s) (self : Nat) (pid : Int) (r : Nat) (n : Option Lim) :
    ∃ s' e old, prlimitImpl kset s self pid r n = .ok (s', e, old) ∧ Ans s self pid r n s' e old ∧ Inv base s' ∧ (e ≠ none → s' = s)
      ∧ (∀ x, Option.isSome (s'.procs x) = Option.isSome (s.procs x)) := by
  unfold prlimitImpl
  by_cases hr : 16 ≤ r
  · exact ⟨s, _, _, if_pos hr, .resource _ hr, h, fun _ => rfl, fun _ => rfl⟩
  rw [if_neg (by exact hr)]
  have hr : r < 16 := by omega
  cases ht : target self pid with
  | none => exact ⟨s, _, _, rfl, .nobody _ hr (fun t hm => by rw [means_target.2 hm] at ht; cases ht), h, fun _ => rfl, fun _ => rfl⟩
  | some t =>
    have hm := means_target.1 ht
    cases hp : s.procs t with
    | none =>
      refine ⟨s, some ESRCH, ⟨0, 0⟩, by simp only [hp], .nobody _ hr (fun t' hm' => ?_), h, fun _ => rfl, fun _ => rfl⟩
      rw [means_target.2 hm'] at ht; obtain rfl := Option.some.inj ht; exact hp
    | some p =>
      have hl : lim s t r = some (p.emu r) := by unfold lim; rw [hp]; rfl
      have hok := h.procs t p hp
      have dom : ∀ q : Pr, ∀ x, Option.isSome ((s.set t (some q)).procs x) = Option.isSome (s.procs x) := fun q x => by
        simp only [St.set]; split
        · rename_i e; rw [e, hp]; rfl
        · rfl
      cases n with
      | none =>
        refine ⟨s, none, p.emu r, ?_, .done hr hm hl (fun l h => by cases h) (fun q x => ?_) (fun _ => rfl), h, fun h => rfl, fun _ => rfl⟩
        · simp only [hp, Pr.prlimit, R.bind_ok]; rw [set_self hp]
        · simp only [Option.getD_none]; split
          · rename_i e; rw [e.1, e.2]; exact hl
          · rfl
      | some l =>
        by_cases h1 : l.cur ≤ l.max
        · by_cases h2 : l.max ≤ (p.emu r).max
          · obtain ⟨q, e1, e2, e3, e4, _⟩ := setLim_ok hk hok r h1 h2
            refine ⟨s.set t (some q), none, p.emu r, ?_, .done hr hm hl (fun l' h => by obtain rfl := Option.some.inj h; exact ⟨h1, h2⟩) (fun x y => ?_) (fun x => ?_), h.set t e2, fun h => absurd rfl h, dom q⟩
            · simp only [hp, Pr.prlimit, e1, R.bind_ok]
            · unfold lim St.set
              by_cases hx : x = t
              · subst hx
                simp only [if_true, Option.map_some, e3, upd, true_and, hp, Option.getD_some]
                split <;> rfl
              · simp [hx]
            · unfold memOf St.set
              by_cases hx : x = t
              · subst hx; simp only [if_true, Option.map_some, e4, hp]
              · simp [hx]
          · refine ⟨s, some EPERM, p.emu r, ?_, .raise _ hr hm hl rfl h1 (by omega), h, fun _ => rfl, fun _ => rfl⟩
            have : p.setLim kset r l = .ok (p, some EPERM) := by unfold Pr.setLim; rw [if_neg (by omega), if_pos (by omega)]
            simp only [hp, Pr.prlimit, this, R.bind_ok]; rw [set_self hp]
        · refine ⟨s, some EINVAL, p.emu r, ?_, .order _ hr hm hl rfl (by omega), h, fun _ => rfl, fun _ => rfl⟩
          have : p.setLim kset r l = .ok (p, some EINVAL) := by unfold Pr.setLim; rw [if_pos (by omega)]
          simp only [hp, Pr.prlimit, this, R.bind_ok]; rw [set_self hp]

theorem Ans.old_good {base : Nat → Lim} {s s' : St} {self : Nat} {pid : Int} {r : Nat} {n : Option Lim} {old : Lim} (h : Inv base s) (ha : Ans s self pid r n s' none old) : Good old := by
  cases ha with
  | done _ _ hl _ _ _ =>
    unfold lim at hl
    obtain ⟨p, hp, rfl⟩ := Option.map_eq_some_iff.1 hl
    exact ((h.procs _ p hp).emu r).1

theorem write_told {base : Nat → Lim} {s : St} (h : Inv base s) {self a : Nat} {m : Mem Byte} {old : Lim} (hg : Good old) (hm : memOf s self = some m) (hmap : Mapped m a 16) :
    ∃ s', s.writeLim self a old = (s', none) ∧ Told self a old s s' ∧ Inv base s' := by
  obtain ⟨p, hp, rfl⟩ := Option.map_eq_some_iff.1 hm
  obtain ⟨bs, hb⟩ := load_isSome.2 hmap
  have e1 := le_length old.cur 8
  have e2 := le_length old.max 8
  have hpat := store_patched p.mem a (le old.cur 8 ++ le old.max 8)
  refine ⟨s.set self (some { p with mem := store p.mem a (le old.cur 8 ++ le old.max 8) }), ?_, ⟨fun q x => ?_, fun q hq => ?_, p.mem, store p.mem a (le old.cur 8 ++ le old.max 8), hm, ?_, ?_, fun x hx => ?_⟩, ?_⟩
  · unfold St.writeLim; simp [hp, hb]
  · unfold lim St.set
    by_cases e : q = self
    · subst e; simp [hp]
    · simp [e]
  · unfold memOf St.set; simp [hq]
  · unfold memOf St.set; simp
  · refine limAt_iff.2 ⟨by have := hg.1; have := hg.2; omega, hg.2, fun i hi => ?_⟩
    rw [hpat (a + i), if_pos ⟨by omega, by omega⟩]
    congr 1; omega
  · rw [hpat x, if_neg (by simp only [List.length_append, e1, e2]; omega)]
  · exact h.set self ⟨(h.procs _ p hp).emu, (h.procs _ p hp).native⟩

theorem write_none {s : St} {self a : Nat} {m : Mem Byte} {old : Lim} (hm : memOf s self = some m) (hmap : ¬ Mapped m a 16) : s.writeLim self a old = (s, some EFAULT) := by
  obtain ⟨p, hp, rfl⟩ := Option.map_eq_some_iff.1 hm
  unfold St.writeLim
  simp [hp, load_none hmap]

theorem Ans.mem {s s' : St} {self : Nat} {pid : Int} {r : Nat} {n : Option Lim} {e : Option Nat} {old : Lim} (ha : Ans s self pid r n s' e old) : ∀ p, memOf s' p = memOf s p := by
  cases ha with
  | done _ _ _ _ _ h => exact h
  | _ => exact fun _ => rfl

/-! ### The properties -/

/-- **`prlimit64` does what it says.** -/
theorem C88_prlimit {kset : Lim → Lim → Option Lim} (hk : Kernel kset) {base : Nat → Lim} {s : St} (h : Inv base s) {self : Nat} {me : Pr} (hme : s.procs self = some me)
    (hrun : me.native.isSome = true) (pid : Int) (r np op : Nat) :
    ∃ s' e, step kset s (.prlimit self pid r np op) = .ok (s', e) ∧ PrAns s self me.mem pid r np op s' e ∧ Inv base s' := by
  have hmm : memOf s self = some me.mem := by unfold memOf; rw [hme]; rfl
  simp only [step, hme, hrun, if_true, prlimit64]
  cases hn : newLim me.mem np with
  | none => have := newLim_none.1 hn; exact ⟨_, _, rfl, .fault this.1 this.2, h⟩
  | some n =>
    have hnew := newLim_some.1 hn
    obtain ⟨s1, e, old, e1, ha, hi, _, _⟩ := impl_ans hk h self pid r n
    simp only [e1, R.bind_ok]
    cases e with
    | some e => exact ⟨_, _, rfl, .refused hnew ha, hi⟩
    | none =>
      simp only [finish]
      by_cases ho : op = 0
      · rw [if_pos ho]; exact ⟨_, _, rfl, .quiet hnew ha ho, hi⟩
      · rw [if_neg ho]
        have hm1 := (ha.mem self).trans hmm
        by_cases hmap : Mapped me.mem op 16
        · obtain ⟨s2, w, ht, hi2⟩ := write_told hi (ha.old_good h) hm1 hmap
          rw [w]; exact ⟨_, _, rfl, .told hnew ha ho ht, hi2⟩
        · rw [write_none hm1 hmap]; exact ⟨_, _, rfl, .noRoom hnew ha ho hmap, hi⟩

/-- **`getrlimit` gives the limit of the caller.** -/
theorem C88_getrlimit {kset : Lim → Lim → Option Lim} (hk : Kernel kset) {base : Nat → Lim} {s : St} (h : Inv base s) {self : Nat} {me : Pr} (hme : s.procs self = some me)
    (hrun : me.native.isSome = true) (r a : Nat) : ∃ s' e, step kset s (.get self r a) = .ok (s', e) ∧ GetAns s self me.mem r a s' e ∧ Inv base s' := by
  have hmm : memOf s self = some me.mem := by unfold memOf; rw [hme]; rfl
  simp only [step, hme, hrun, if_true, getrlimit]
  obtain ⟨s1, e, old, e1, ha, hi, _, _⟩ := impl_ans hk h self 0 r none
  simp only [e1, R.bind_ok]
  cases e with
  | some e => exact ⟨_, _, rfl, .refused ha, hi⟩
  | none =>
    simp only [finishGet]
    have hm1 := (ha.mem self).trans hmm
    by_cases hmap : Mapped me.mem a 16
    · obtain ⟨s2, w, ht, hi2⟩ := write_told hi (ha.old_good h) hm1 hmap
      rw [w]; exact ⟨_, _, rfl, .told ha ht, hi2⟩
    · rw [write_none hm1 hmap]; exact ⟨_, _, rfl, .noRoom ha hmap, hi⟩

/-- **`setrlimit` sets the limit of the caller.** -/
theorem C88_setrlimit {kset : Lim → Lim → Option Lim} (hk : Kernel kset) {base : Nat → Lim} {s : St} (h : Inv base s) {self : Nat} {me : Pr} (hme : s.procs self = some me)
    (hrun : me.native.isSome = true) (r a : Nat) : ∃ s' e, step kset s (.set self r a) = .ok (s', e) ∧ SetAns s self me.mem r a s' e ∧ Inv base s' := by
  simp only [step, hme, hrun, if_true, setrlimit]
  cases hn : readLim me.mem a with
  | none => exact ⟨_, _, rfl, .fault (readLim_none.1 hn), h⟩
  | some l =>
    obtain ⟨s1, e, old, e1, ha, hi, _, _⟩ := impl_ans hk h self 0 r (some l)
    simp only [e1, R.bind_ok]
    exact ⟨_, _, rfl, .answer (readLim_iff.1 hn) ha, hi⟩

theorem Inv.step {kset : Lim → Lim → Option Lim} (hk : Kernel kset) {base : Nat → Lim} {s : St} (h : Inv base s) (o : Op) :
    ∃ s' e, Shadow.Rlimit.step kset s o = .ok (s', e) ∧ Inv base s' := by
  have calls : ∀ self, (∀ me : Pr, s.procs self = some me → me.native.isSome = true → ∃ s' e, Shadow.Rlimit.step kset s o = .ok (s', e) ∧ Inv base s') →
      ((s.procs self = none ∨ ∃ me : Pr, s.procs self = some me ∧ me.native.isSome = false) → Shadow.Rlimit.step kset s o = .ok (s, none)) →
      ∃ s' e, Shadow.Rlimit.step kset s o = .ok (s', e) ∧ Inv base s' := by
    intro self h1 h2
    cases hp : s.procs self with
    | none => exact ⟨_, _, h2 (.inl hp), h⟩
    | some me =>
      cases hn : me.native.isSome with
      | true => exact h1 me hp hn
      | false => exact ⟨_, _, h2 (.inr ⟨me, hp, hn⟩), h⟩
  cases o with
  | spawn pid m =>
    simp only [Shadow.Rlimit.step]
    split
    · refine ⟨_, _, rfl, h.set pid ?_⟩
      rw [h.fix]
      exact ⟨fun r => ⟨h.good r, Nat.le_refl _⟩, fun nat e r => by obtain rfl := Option.some.inj e; exact ⟨(h.good r).1, Nat.le_refl _, Nat.le_refl _⟩⟩
    · exact ⟨_, _, rfl, h⟩
  | fork pid child =>
    simp only [Shadow.Rlimit.step]
    split
    · rename_i p hp hc
      split
      · exact ⟨_, _, rfl, h.set child (h.procs pid p hp)⟩
      · exact ⟨_, _, rfl, h⟩
    · exact ⟨_, _, rfl, h⟩
  | exec pid m =>
    simp only [Shadow.Rlimit.step]
    split
    · rename_i p hp
      split
      · refine ⟨_, _, rfl, h.set pid ⟨(h.procs pid p hp).emu, fun nat e r => ?_⟩⟩
        obtain rfl := Option.some.inj e
        rw [h.fix]
        exact ⟨(h.good r).1, ((h.procs pid p hp).emu r).2, Nat.le_refl _⟩
      · exact ⟨_, _, rfl, h⟩
    · exact ⟨_, _, rfl, h⟩
  | exit pid =>
    simp only [Shadow.Rlimit.step]
    split
    · rename_i p hp
      exact ⟨_, _, rfl, h.set pid ⟨(h.procs pid p hp).emu, fun nat e => by cases e⟩⟩
    · exact ⟨_, _, rfl, h⟩
  | reap pid =>
    refine ⟨_, _, rfl, h.fix, h.good, fun q x hx => ?_⟩
    simp only [St.set] at hx
    split at hx
    · cases hx
    · exact h.procs q x hx
  | poke pid m =>
    simp only [Shadow.Rlimit.step]
    split
    · rename_i p hp
      exact ⟨_, _, rfl, h.set pid ⟨(h.procs pid p hp).emu, (h.procs pid p hp).native⟩⟩
    · exact ⟨_, _, rfl, h⟩
  | prlimit self pid r np op =>
    refine calls self (fun me hp hn => ?_) (fun hq => ?_)
    · obtain ⟨s', e, a, _, b⟩ := C88_prlimit hk h hp hn pid r np op; exact ⟨s', e, a, b⟩
    · rcases hq with hq | ⟨me, hq, hn⟩ <;> simp [Shadow.Rlimit.step, hq]
      simp [hn]
  | get self r a =>
    refine calls self (fun me hp hn => ?_) (fun hq => ?_)
    · obtain ⟨s', e, a, _, b⟩ := C88_getrlimit hk h hp hn r a; exact ⟨s', e, a, b⟩
    · rcases hq with hq | ⟨me, hq, hn⟩ <;> simp [Shadow.Rlimit.step, hq]
      simp [hn]
  | set self r a =>
    refine calls self (fun me hp hn => ?_) (fun hq => ?_)
    · obtain ⟨s', e, a, _, b⟩ := C88_setrlimit hk h hp hn r a; exact ⟨s', e, a, b⟩
    · rcases hq with hq | ⟨me, hq, hn⟩ <;> simp [Shadow.Rlimit.step, hq]
      simp [hn]

theorem Inv.init {base : Nat → Lim} (hb : ∀ r, Good (base r)) : Inv base (St.init base) := ⟨rfl, hb, fun _ _ h => by cases h⟩

/-- **No call makes the simulator fail, whatever happened before.** In particular, the native limits can always be set. The invariant holds, which the
    descriptions of the calls assume. -/
theorem C88_never {kset : Lim → Lim → Option Lim} (hk : Kernel kset) {base : Nat → Lim} (hb : ∀ r, Good (base r)) (os : List Op) :
    ∃ s, run kset (St.init base) os = .ok s ∧ Inv base s := by
  have : ∀ (os : List Op) (s : St), Inv base s → ∃ s', run kset s os = .ok s' ∧ Inv base s' := by
    intro os
    induction os with
    | nil => exact fun s h => ⟨s, rfl, h⟩
    | cons o os ih =>
      intro s h
      obtain ⟨s1, e, h1, h2⟩ := h.step hk o
      obtain ⟨s2, h3, h4⟩ := ih s1 h2
      exact ⟨s2, by simp only [run, h1, R.bind_ok]; exact h3, h4⟩
  exact this os _ (Inv.init hb)

/-- **A native process never has less than the simulator, and its hard limits allow what the program was told.** -/
theorem C88_native {kset : Lim → Lim → Option Lim} (hk : Kernel kset) {base : Nat → Lim} (hb : ∀ r, Good (base r)) {os : List Op} {s : St}
    (hs : run kset (St.init base) os = .ok s) {pid : Nat} {p : Pr} {nat : Nat → Lim} (hp : s.procs pid = some p) (hn : p.native = some nat) (r : Nat) :
    (base r).cur ≤ (nat r).cur ∧ (p.emu r).max ≤ (nat r).max := by
  obtain ⟨s', h1, h2⟩ := C88_never hk hb os
  rw [hs] at h1
  obtain rfl := R.ok.inj h1
  have := (h2.procs pid p hp).native nat hn r
  exact ⟨this.2.2, this.2.1⟩

/-- What can change a limit of process `p`. -/
inductive Cause (s : St) (p r : Nat) (new : Option Lim) : Op → Prop where
  | spawn (m : Mem Byte) : s.procs p = none → new = some (s.base r) → Cause s p r new (.spawn p m)
  | fork (q : Nat) : s.procs p = none → new = lim s q r → Cause s p r new (.fork q p)
  | reap : new = none → Cause s p r new (.reap p)
  | prlimit {self : Nat} {pid : Int} {np op : Nat} {m : Mem Byte} {l old : Lim} : memOf s self = some m → Means self pid p → LimAt m np l → lim s p r = some old →
      l.cur ≤ l.max → l.max ≤ old.max → new = some l → Cause s p r new (.prlimit self pid r np op)
  | set {a : Nat} {m : Mem Byte} {l old : Lim} : memOf s p = some m → LimAt m a l → lim s p r = some old → l.cur ≤ l.max → l.max ≤ old.max → new = some l →
      Cause s p r new (.set p r a)

theorem Ans.change {s s' : St} {self : Nat} {pid : Int} {r p x : Nat} {n : Option Lim} {e : Option Nat} {old : Lim} (ha : Ans s self pid r n s' e old) (hc : lim s' p x ≠ lim s p x) :
    x = r ∧ Means self pid p ∧ ∃ l old, n = some l ∧ lim s p r = some old ∧ l.cur ≤ l.max ∧ l.max ≤ old.max ∧ lim s' p x = some l := by
  cases ha with
  | done _ hm hl hb hs _ =>
    rw [hs] at hc ⊢
    split at hc
    · rename_i e
      obtain ⟨rfl, rfl⟩ := e
      cases n with
      | none => rw [hl] at hc; exact absurd rfl hc
      | some l => exact ⟨rfl, hm, l, _, rfl, hl, (hb l rfl).1, (hb l rfl).2, by simp⟩
    · exact absurd rfl hc
  | _ => exact absurd rfl hc

/-- **Limits change only for the processes and resources that are named, and to what was asked for.** A process starts with the limits of the simulator, a child
    with those of its parent; replacing the program, ending, and reading limits change nothing. -/
theorem C88_only {kset : Lim → Lim → Option Lim} (hk : Kernel kset) {base : Nat → Lim} {s s' : St} (h : Inv base s) {o : Op} {e : Option Nat}
    (hs : step kset s o = .ok (s', e)) {p r : Nat} (hc : lim s' p r ≠ lim s p r) : Cause s p r (lim s' p r) o := by
  have hset : ∀ (t : Nat) (q : Option Pr), lim (s.set t q) p r = if p = t then q.map (fun q => q.emu r) else lim s p r := fun t q => by
    unfold lim St.set; simp only; split <;> rfl
  cases o with
  | spawn pid m =>
    simp only [step] at hs
    split at hs <;> obtain ⟨rfl, -⟩ := Prod.mk.inj (R.ok.inj hs)
    · rename_i hp
      rw [hset] at hc ⊢
      split at hc
      · rename_i e; subst e; rw [if_pos rfl]; exact .spawn m hp rfl
      · exact absurd rfl hc
    · exact absurd rfl hc
  | fork pid child =>
    simp only [step] at hs
    split at hs
    · rename_i q hq hch
      split at hs <;> obtain ⟨rfl, -⟩ := Prod.mk.inj (R.ok.inj hs)
      · rw [hset] at hc ⊢
        split at hc
        · rename_i e; subst e; rw [if_pos rfl]; exact .fork pid hch (by unfold lim; rw [hq])
        · exact absurd rfl hc
      · exact absurd rfl hc
    · obtain ⟨rfl, -⟩ := Prod.mk.inj (R.ok.inj hs); exact absurd rfl hc
  | exec pid m =>
    simp only [step] at hs
    split at hs
    · rename_i q hq
      split at hs <;> obtain ⟨rfl, -⟩ := Prod.mk.inj (R.ok.inj hs)
      · rw [hset] at hc
        split at hc
        · rename_i e; subst e; exact absurd (by unfold lim; rw [hq]; rfl) hc
        · exact absurd rfl hc
      · exact absurd rfl hc
    · obtain ⟨rfl, -⟩ := Prod.mk.inj (R.ok.inj hs); exact absurd rfl hc
  | exit pid =>
    simp only [step] at hs
    split at hs
    · rename_i q hq
      obtain ⟨rfl, -⟩ := Prod.mk.inj (R.ok.inj hs)
      rw [hset] at hc
      split at hc
      · rename_i e; subst e; exact absurd (by unfold lim; rw [hq]; rfl) hc
      · exact absurd rfl hc
    · obtain ⟨rfl, -⟩ := Prod.mk.inj (R.ok.inj hs); exact absurd rfl hc
  | reap pid =>
    simp only [step] at hs
    obtain ⟨rfl, -⟩ := Prod.mk.inj (R.ok.inj hs)
    rw [hset] at hc ⊢
    split at hc
    · rename_i e; subst e; rw [if_pos rfl]; exact .reap rfl
    · exact absurd rfl hc
  | poke pid m =>
    simp only [step] at hs
    split at hs
    · rename_i q hq
      obtain ⟨rfl, -⟩ := Prod.mk.inj (R.ok.inj hs)
      rw [hset] at hc
      split at hc
      · rename_i e; subst e; exact absurd (by unfold lim; rw [hq]; rfl) hc
      · exact absurd rfl hc
    · obtain ⟨rfl, -⟩ := Prod.mk.inj (R.ok.inj hs); exact absurd rfl hc
  | prlimit self pid x np op =>
    have key : ∀ {m : Mem Byte} {n : Option Lim} {s1 : St} {e : Option Nat} {old : Lim}, memOf s self = some m → New m np n → Ans s self pid x n s1 e old →
        lim s' p r = lim s1 p r → Cause s p r (lim s' p r) (.prlimit self pid x np op) := by
      intro m n s1 e old hm hn ha he
      rw [he] at hc ⊢
      obtain ⟨rfl, hmeans, l, old', rfl, h1, h2, h3, h4⟩ := ha.change hc
      rcases hn with ⟨_, hn⟩ | ⟨_, l', hn, hl⟩
      · cases hn
      · obtain rfl := Option.some.inj hn
        exact .prlimit hm hmeans hl h1 h2 h3 h4
    cases hp : s.procs self with
    | none => simp only [step, hp] at hs; obtain ⟨rfl, -⟩ := Prod.mk.inj (R.ok.inj hs); exact absurd rfl hc
    | some me =>
      have hmm : memOf s self = some me.mem := by unfold memOf; rw [hp]; rfl
      cases hn : me.native.isSome with
      | false => simp [step, hp, hn] at hs; obtain ⟨rfl, -⟩ := hs; exact absurd rfl hc
      | true =>
        obtain ⟨s1, e1, h1, h2, _⟩ := C88_prlimit hk h hp hn pid x np op
        rw [hs] at h1
        obtain ⟨rfl, rfl⟩ := Prod.mk.inj (R.ok.inj h1)
        cases h2 with
        | fault => exact absurd rfl hc
        | refused hnew ha => exact key hmm hnew ha rfl
        | quiet hnew ha _ => exact key hmm hnew ha rfl
        | noRoom hnew ha _ _ => exact key hmm hnew ha rfl
        | told hnew ha _ ht => exact key hmm hnew ha (ht.1 p r)
  | get self x a =>
    have key : ∀ {s1 : St} {e : Option Nat} {old : Lim}, Ans s self 0 x none s1 e old → lim s' p r = lim s1 p r → False := by
      intro s1 e old ha he
      rw [he] at hc
      obtain ⟨_, _, l, _, hl, _⟩ := ha.change hc
      cases hl
    cases hp : s.procs self with
    | none => simp only [step, hp] at hs; obtain ⟨rfl, -⟩ := Prod.mk.inj (R.ok.inj hs); exact absurd rfl hc
    | some me =>
      cases hn : me.native.isSome with
      | false => simp [step, hp, hn] at hs; obtain ⟨rfl, -⟩ := hs; exact absurd rfl hc
      | true =>
        obtain ⟨s1, e1, h1, h2, _⟩ := C88_getrlimit hk h hp hn x a
        rw [hs] at h1
        obtain ⟨rfl, rfl⟩ := Prod.mk.inj (R.ok.inj h1)
        cases h2 with
        | refused ha => exact (key ha rfl).elim
        | noRoom ha _ => exact (key ha rfl).elim
        | told ha ht => exact (key ha (ht.1 p r)).elim
  | set self x a =>
    cases hp : s.procs self with
    | none => simp only [step, hp] at hs; obtain ⟨rfl, -⟩ := Prod.mk.inj (R.ok.inj hs); exact absurd rfl hc
    | some me =>
      have hmm : memOf s self = some me.mem := by unfold memOf; rw [hp]; rfl
      cases hn : me.native.isSome with
      | false => simp [step, hp, hn] at hs; obtain ⟨rfl, -⟩ := hs; exact absurd rfl hc
      | true =>
        obtain ⟨s1, e1, h1, h2, _⟩ := C88_setrlimit hk h hp hn x a
        rw [hs] at h1
        obtain ⟨rfl, rfl⟩ := Prod.mk.inj (R.ok.inj h1)
        cases h2 with
        | fault => exact absurd rfl hc
        | answer hl ha =>
          obtain ⟨rfl, hm, l, old, hn', h3, h4, h5, h6⟩ := ha.change hc
          obtain rfl := Option.some.inj hn'
          have : p = self := by rcases hm with ⟨_, h⟩ | ⟨h, _⟩; exact h; omega
          subst this
          exact .set hmm hl h3 h4 h5 h6

/-- The program was not replaced. -/
def NoExec (os : List Op) : Prop := ∀ o ∈ os, ∀ pid m, o ≠ .exec pid m

/-- The native soft limit allows what the program was told. -/
def Soft (s : St) : Prop := ∀ pid p nat, s.procs pid = some p → p.native = some nat → ∀ r, (p.emu r).cur ≤ (nat r).cur

theorem Soft.set {s : St} (h : Soft s) (pid : Nat) {p : Pr} (hp : ∀ nat, p.native = some nat → ∀ r, (p.emu r).cur ≤ (nat r).cur) : Soft (s.set pid (some p)) := by
  intro q x nat hx hn
  simp only [St.set] at hx
  split at hx
  · obtain rfl := Option.some.inj hx; exact hp nat hn
  · exact h q x nat hx hn

theorem setLim_soft {kset : Lim → Lim → Option Lim} (hk : Kernel kset) {base : Nat → Lim} {p q : Pr} (hok : PrOk base p) {r : Nat} {new : Lim} {e : Option Nat}
    (hp : ∀ nat, p.native = some nat → ∀ r, (p.emu r).cur ≤ (nat r).cur) (hs : p.setLim kset r new = .ok (q, e)) :
    ∀ nat, q.native = some nat → ∀ r, (q.emu r).cur ≤ (nat r).cur := by
  by_cases h1 : new.cur ≤ new.max
  · by_cases h2 : new.max ≤ (p.emu r).max
    · obtain ⟨q', e1, _, e3, _, e5, e6⟩ := setLim_ok hk hok r h1 h2
      rw [hs] at e1
      obtain ⟨rfl, -⟩ := Prod.mk.inj (R.ok.inj e1)
      intro nat hn x
      cases hpn : p.native with
      | none => rw [e6 hpn] at hn; cases hn
      | some nat0 =>
        rw [e5 nat0 hpn] at hn
        obtain rfl := Option.some.inj hn
        rw [e3]
        unfold upd
        by_cases e : x = r
        · simp only [e, if_true]; unfold nativeLim; simp only; split <;> omega
        · simp only [e, if_false]; exact hp nat0 hpn x
    · have : p.setLim kset r new = .ok (p, some EPERM) := by unfold Pr.setLim; rw [if_neg (by omega), if_pos (by omega)]
      rw [this] at hs; obtain ⟨rfl, -⟩ := Prod.mk.inj (R.ok.inj hs); exact hp
  · have : p.setLim kset r new = .ok (p, some EINVAL) := by unfold Pr.setLim; rw [if_pos (by omega)]
    rw [this] at hs; obtain ⟨rfl, -⟩ := Prod.mk.inj (R.ok.inj hs); exact hp

theorem impl_soft {kset : Lim → Lim → Option Lim} (hk : Kernel kset) {base : Nat → Lim} {s s' : St} (h : Inv base s) (hs : Soft s) {self : Nat} {pid : Int} {r : Nat} {n : Option Lim}
    {e : Option Nat} {old : Lim} (hr : prlimitImpl kset s self pid r n = .ok (s', e, old)) : Soft s' := by
  unfold prlimitImpl at hr
  split at hr
  · cases hr; exact hs
  split at hr
  · cases hr; exact hs
  split at hr
  · cases hr; exact hs
  rename_i t _ _ p hp
  cases n with
  | none => simp only [Pr.prlimit, R.bind_ok] at hr; cases hr; exact hs.set _ (hs t p · hp)
  | some new =>
    simp only [Pr.prlimit] at hr
    cases hl : p.setLim kset r new with
    | panic => rw [hl] at hr; simp at hr
    | ok qe =>
      obtain ⟨q, e'⟩ := qe
      rw [hl] at hr
      simp only [R.bind_ok] at hr
      cases hr
      exact hs.set _ (setLim_soft hk (h.procs t p hp) (hs t p · hp) hl)

theorem write_soft {s : St} (hs : Soft s) (self a : Nat) (l : Lim) : Soft (s.writeLim self a l).1 := by
  unfold St.writeLim
  split
  · exact hs
  · rename_i p hp
    split
    · exact hs.set self (hs self p · hp)
    · exact hs

theorem Soft.step {kset : Lim → Lim → Option Lim} (hk : Kernel kset) {base : Nat → Lim} {s s' : St} (h : Inv base s) (hs : Soft s) {o : Op} {e : Option Nat}
    (ho : ∀ pid m, o ≠ .exec pid m) (hr : Shadow.Rlimit.step kset s o = .ok (s', e)) : Soft s' := by
  have fin : ∀ {self a : Nat} {s1 : St} {e1 : Option Nat} {old : Lim} {s2 : St} {e2 : Option Nat}, Soft s1 →
      (finish self a (s1, e1, old) = .ok (s2, e2) ∨ finishGet self a (s1, e1, old) = .ok (s2, e2)) → Soft s2 := by
    intro self a s1 e1 old s2 e2 h1 hf
    cases e1 with
    | some e => rcases hf with hf | hf <;> (simp only [finish, finishGet] at hf; cases hf; exact h1)
    | none =>
      rcases hf with hf | hf
      · simp only [finish] at hf
        split at hf
        · cases hf; exact h1
        · rw [← show (s1.writeLim self a old).1 = s2 from congrArg Prod.fst (R.ok.inj hf)]; exact write_soft h1 _ _ _
      · simp only [finishGet] at hf
        rw [← show (s1.writeLim self a old).1 = s2 from congrArg Prod.fst (R.ok.inj hf)]; exact write_soft h1 _ _ _
  cases o with
  | spawn pid m =>
    simp only [Shadow.Rlimit.step] at hr
    split at hr <;> cases hr
    · exact hs.set pid fun nat e r => by obtain rfl := Option.some.inj e; exact Nat.le_refl _
    · exact hs
  | fork pid child =>
    simp only [Shadow.Rlimit.step] at hr
    split at hr
    · rename_i p hp _
      split at hr <;> cases hr
      · exact hs.set child (hs pid p · hp)
      · exact hs
    · cases hr; exact hs
  | exec pid m => exact absurd rfl (ho pid m)
  | exit pid =>
    simp only [Shadow.Rlimit.step] at hr
    split at hr <;> cases hr
    · exact hs.set pid fun nat e => by cases e
    · exact hs
  | reap pid =>
    simp only [Shadow.Rlimit.step] at hr
    cases hr
    intro q x nat hx
    simp only [St.set] at hx
    split at hx
    · cases hx
    · exact hs q x nat hx
  | poke pid m =>
    simp only [Shadow.Rlimit.step] at hr
    split at hr <;> cases hr
    · rename_i p hp; exact hs.set pid (hs pid p · hp)
    · exact hs
  | prlimit self pid r np op =>
    simp only [Shadow.Rlimit.step] at hr
    split at hr
    · split at hr
      · simp only [prlimit64] at hr
        split at hr
        · cases hr; exact hs
        · obtain ⟨⟨s1, e1, old⟩, h1, h2⟩ := R.bind_eq_ok.1 hr
          exact fin (impl_soft hk h hs h1) (.inl h2)
      · cases hr; exact hs
    · cases hr; exact hs
  | get self r a =>
    simp only [Shadow.Rlimit.step] at hr
    split at hr
    · split at hr
      · simp only [getrlimit] at hr
        obtain ⟨⟨s1, e1, old⟩, h1, h2⟩ := R.bind_eq_ok.1 hr
        exact fin (impl_soft hk h hs h1) (.inr h2)
      · cases hr; exact hs
    · cases hr; exact hs
  | set self r a =>
    simp only [Shadow.Rlimit.step] at hr
    split at hr
    · split at hr
      · simp only [setrlimit] at hr
        split at hr
        · cases hr; exact hs
        · obtain ⟨⟨s1, e1, old⟩, h1, h2⟩ := R.bind_eq_ok.1 hr
          cases h2
          exact impl_soft hk h hs h1
      · cases hr; exact hs
    · cases hr; exact hs

/-- **As long as no program is replaced, a process may use all that it was told.** -/
theorem C88_soft {kset : Lim → Lim → Option Lim} (hk : Kernel kset) {base : Nat → Lim} (hb : ∀ r, Good (base r)) {os : List Op} (hx : NoExec os) {s : St}
    (hs : run kset (St.init base) os = .ok s) {pid : Nat} {p : Pr} {nat : Nat → Lim} (hp : s.procs pid = some p) (hn : p.native = some nat) (r : Nat) :
    (p.emu r).cur ≤ (nat r).cur := by
  have : ∀ (os : List Op) (s0 : St), NoExec os → Inv base s0 → Soft s0 → run kset s0 os = .ok s → Soft s := by
    intro os
    induction os with
    | nil => intro s0 _ _ h hr; cases hr; exact h
    | cons o os ih =>
      intro s0 hx hi h hr
      simp only [run] at hr
      obtain ⟨s1, e, h1, h2⟩ := hi.step hk o
      rw [h1] at hr
      simp only [R.bind_ok] at hr
      exact ih s1 (fun o ho => hx o (List.mem_cons_of_mem _ ho)) h2 (h.step hk hi (hx o (List.mem_cons_self ..)) h1) hr
  exact this os _ hx (Inv.init hb) (fun _ _ _ h => by cases h) hs pid p nat hp hn r

end Shadow.Rlimit
