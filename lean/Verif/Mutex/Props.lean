import Verif.Mutex.Model

/-!
# C38: the mutex: one holder at a time, no wake-up lost

For any number of threads (up to 65535), each calling `lock`, dropping its guard, disconnecting and reconnecting in any order
and in any interleaving, with waits that may end for no reason.

The contract of `reconnect` (scmutex.rs:295-302): it is called once for every `disconnect`, after it.
-/
namespace Shadow.Mutex

open Shadow.Base

/-- `reconnect` is called once for every call of `disconnect`. -/
def allowed (s : St) : Act → Prop
  | .reconnect _ => s.reconnects < s.disconnects
  | _ => True

/-- The states reachable by any interleaving of `n` threads. -/
inductive Run (n : Nat) : St → Prop
  | init : Run n (.init n)
  | step {s s' : St} {a : Act} : Run n s → allowed s a → step s a = some (.ok s') → Run n s'

/-! ## The word -/

theorem encode_eq (l n : Nat) (h : n < 65536) : (⟨l, n⟩ : FutexWord).encode = 65536 * l + n := by
  have h1 := Nat.shiftLeft_add_eq_or_of_lt (i := 16) (b := n) (by simpa using h) l
  simp only [FutexWord.encode]
  rw [← h1, Nat.shiftLeft_eq]
  omega

theorem decode_eq (v : Nat) : decode v = ⟨v / 65536, v % 65536⟩ := by
  have h1 : v &&& 0xffff = v % 65536 := by
    have := Nat.and_two_pow_sub_one_eq_mod v 16
    simpa using this
  simp only [decode, h1, Nat.shiftRight_eq_div_pow]

theorem decode_mk (l n : Nat) (h : n < 65536) : decode (65536 * l + n) = ⟨l, n⟩ := by
  rw [decode_eq]
  congr 1 <;> omega

/-! ## Counting threads -/

/-- Counted as a sleeper: from `inc` to `dec`. -/
def Pc.counted : Pc → Bool
  | .wait _ | .load | .asleep | .dec => true
  | _ => false

def Pc.isHeld : Pc → Bool
  | .held => true
  | _ => false

def Pc.isRecas : Pc → Bool
  | .recas _ => true
  | _ => false

def Pc.isAsleep : Pc → Bool
  | .asleep => true
  | _ => false

/-- About to call the futex to wake up a thread, or awake inside of `lock`. -/
def Pc.coming : Pc → Bool
  | .wake | .cas _ | .inc | .wait _ | .load | .dec => true
  | _ => false

def Pc.fine : Pc → Prop
  | .cas c => c.lock = 0 ∧ c.sleepers < 65536
  | .wait c => c.lock ≠ 0 ∧ c.sleepers < 65536
  | .recas c => c.lock = 2 ∧ c.sleepers < 65536
  | _ => True

theorem cnt_set (f : Pc → Bool) : ∀ (l : List Pc) (i : Nat) (p q : Pc), l[i]? = some p →
    (l.set i q).countP f + (f p).toNat = l.countP f + (f q).toNat
  | [], _, _, _, h => by simp at h
  | x :: l, 0, p, q, h => by
      simp only [List.getElem?_cons_zero, Option.some.injEq] at h
      subst h
      simp only [List.set_cons_zero, List.countP_cons]
      cases f x <;> cases f q <;> simp
  | x :: l, i + 1, p, q, h => by
      simp only [List.getElem?_cons_succ] at h
      have := cnt_set f l i p q h
      simp only [List.set_cons_succ, List.countP_cons]
      omega

theorem cnt_pos (f : Pc → Bool) (l : List Pc) : 0 < l.countP f ↔ ∃ (i : Nat) (p : Pc), l[i]? = some p ∧ f p = true := by
  rw [List.countP_pos_iff]
  constructor
  · rintro ⟨p, hp, hf⟩
    obtain ⟨i, hi⟩ := List.getElem?_of_mem hp
    exact ⟨i, p, hi, hf⟩
  · rintro ⟨i, p, hi, hf⟩
    exact ⟨p, List.mem_of_getElem? hi, hf⟩

structure Inv (s : St) : Prop where
  len : s.ts.length ≤ 65535
  word : s.word = 65536 * (s.ts.countP Pc.isHeld + 2 * (s.disconnects - s.reconnected)) + s.ts.countP Pc.counted
  one : s.ts.countP Pc.isHeld + (s.disconnects - s.reconnected) ≤ 1
  le : s.reconnects ≤ s.disconnects
  re : s.reconnects = s.reconnected + s.ts.countP Pc.isRecas
  fine : ∀ p ∈ s.ts, p.fine
  wk : s.ts.countP Pc.isHeld + (s.disconnects - s.reconnected) = 0 → 0 < s.ts.countP Pc.isAsleep → 0 < s.ts.countP Pc.coming

theorem fine_set {l : List Pc} (h : ∀ p ∈ l, p.fine) {q : Pc} (hq : q.fine) (i : Nat) : ∀ p ∈ l.set i q, p.fine := by
  intro p hp
  rcases List.mem_or_eq_of_mem_set hp with h1 | rfl
  · exact h p h1
  · exact hq

theorem inv_init (n : Nat) (h : n ≤ 65535) : Inv (.init n) := by
  have hc : ∀ f : Pc → Bool, f .idle = false → (List.replicate n Pc.idle).countP f = 0 := by
    intro f hf
    rw [List.countP_replicate, hf]
    simp
  refine ⟨by simpa [St.init] using h, ?_, ?_, Nat.le_refl _, ?_, ?_, ?_⟩
  all_goals simp only [St.init, hc Pc.isHeld rfl, hc Pc.counted rfl, hc Pc.isRecas rfl, hc Pc.isAsleep rfl]
  · decide
  · decide
  · intro p hp
    obtain ⟨_, rfl⟩ := List.mem_replicate.1 hp
    trivial
  · intro _ h0
    omega

/-- A change of one thread, of the word and of the counters keeps the invariant if the sums do. -/
theorem inv_move {s : St} (hi : Inv s) {i : Nat} {p q : Pc} (hp : s.ts[i]? = some p) (hq : q.fine) {w d r e : Nat}
    (hw : ∀ H C, H + p.isHeld.toNat = s.ts.countP Pc.isHeld + q.isHeld.toNat → C + p.counted.toNat = s.ts.countP Pc.counted + q.counted.toNat →
      C ≤ 65535 → w = 65536 * (H + 2 * (d - e)) + C ∧ H + (d - e) ≤ 1)
    (hle : r ≤ d) (hre : ∀ X, X + p.isRecas.toNat = s.ts.countP Pc.isRecas + q.isRecas.toNat → r = e + X)
    (hwk : ∀ H A K, H + p.isHeld.toNat = s.ts.countP Pc.isHeld + q.isHeld.toNat → A + p.isAsleep.toNat = s.ts.countP Pc.isAsleep + q.isAsleep.toNat →
      K + p.coming.toNat = s.ts.countP Pc.coming + q.coming.toNat → H + (d - e) = 0 → 0 < A → 0 < K) :
    Inv ⟨w, s.ts.set i q, d, r, e⟩ := by
  have h1 := cnt_set Pc.isHeld _ _ _ q hp
  have h2 := cnt_set Pc.counted _ _ _ q hp
  have h3 := cnt_set Pc.isRecas _ _ _ q hp
  have h4 := cnt_set Pc.isAsleep _ _ _ q hp
  have h5 := cnt_set Pc.coming _ _ _ q hp
  have hlen : (s.ts.set i q).length ≤ 65535 := by simpa using hi.len
  have hc : (s.ts.set i q).countP Pc.counted ≤ 65535 := Nat.le_trans (List.countP_le_length ..) hlen
  obtain ⟨ha, hb⟩ := hw _ _ h1 h2 hc
  exact ⟨hlen, ha, hb, hle, hre _ h3, fine_set hi.fine hq i, hwk _ _ _ h1 h4 h5⟩

theorem Inv.decode {s : St} (hi : Inv s) :
    decode s.word = ⟨s.ts.countP Pc.isHeld + 2 * (s.disconnects - s.reconnected), s.ts.countP Pc.counted⟩ := by
  rw [hi.word]
  apply decode_mk
  have := List.countP_le_length (p := Pc.counted) (l := s.ts)
  have := hi.len
  omega

theorem Inv.lt {s : St} (hi : Inv s) : s.ts.countP Pc.counted < 65536 := by
  have := List.countP_le_length (p := Pc.counted) (l := s.ts)
  have := hi.len
  omega

/-- A thread that is not counted leaves room for itself. -/
theorem Inv.room {s : St} (hi : Inv s) {i : Nat} {p : Pc} (hp : s.ts[i]? = some p) (hc : p.counted = false) :
    s.ts.countP Pc.counted + 1 < 65536 := by
  have h2 := cnt_set Pc.counted _ _ _ .load hp
  have h3 := List.countP_le_length (p := Pc.counted) (l := s.ts.set i .load)
  have := hi.len
  rw [hc] at h2
  simp only [Pc.counted, Bool.toNat_true, Bool.toNat_false, List.length_set] at h2 h3
  omega

theorem Inv.pos {s : St} (f : Pc → Bool) {i : Nat} {p : Pc} (hp : s.ts[i]? = some p) (hc : f p = true) : 0 < s.ts.countP f :=
  (cnt_pos f s.ts).2 ⟨i, p, hp, hc⟩

theorem outer_fine (c : FutexWord) (h : c.sleepers < 65536) : (outer c).fine := by
  unfold outer UNLOCKED
  by_cases h0 : c.lock = 0
  · rw [if_pos h0]; exact ⟨h0, h⟩
  · rw [if_neg h0]; trivial

theorem inner_fine (c : FutexWord) (h : c.sleepers < 65536) : (inner c).fine := by
  unfold inner UNLOCKED
  by_cases h0 : c.lock = 0
  · rw [if_pos h0]; trivial
  · rw [if_neg h0]; exact ⟨h0, h⟩

theorem outer_kind (c : FutexWord) :
    (outer c).isHeld = false ∧ (outer c).counted = false ∧ (outer c).isRecas = false ∧ (outer c).isAsleep = false ∧ (outer c).coming = true := by
  unfold outer
  split <;> simp [Pc.isHeld, Pc.counted, Pc.isRecas, Pc.isAsleep, Pc.coming]

theorem inner_kind (c : FutexWord) :
    (inner c).isHeld = false ∧ (inner c).counted = true ∧ (inner c).isRecas = false ∧ (inner c).isAsleep = false ∧ (inner c).coming = true := by
  unfold inner
  split <;> simp [Pc.isHeld, Pc.counted, Pc.isRecas, Pc.isAsleep, Pc.coming]

/-! ## Every step -/

theorem sub32_eq (v k : Nat) (h : k ≤ v) (hv : v < 4294967296) : sub32 v k = v - k := by
  unfold sub32
  omega

theorem add32_eq (v k : Nat) (hv : v + k < 4294967296) : add32 v k = v + k := by
  unfold add32
  omega

theorem Inv.wlt {s : St} (hi : Inv s) : s.word < 65536 * 3 := by
  have h1 := hi.word
  have h2 := hi.one
  have h3 := hi.lt
  omega

section
attribute [local simp] Pc.isHeld Pc.counted Pc.isRecas Pc.isAsleep Pc.coming

theorem inv_run {s : St} (hi : Inv s) {i : Nat} {p : Pc} (hp : s.ts[i]? = some p) {r : R St} (h : run s i p = some r) : ∃ s', r = .ok s' ∧ Inv s' := by
  have hw := hi.word
  have hone := hi.one
  have hlt := hi.lt
  have hre := hi.re
  have hwk := hi.wk
  have hle := hi.le
  have hwlt := hi.wlt
  have hf := hi.fine p (List.mem_of_getElem? hp)
  cases p with
  | idle => cases h
  | asleep => cases h
  | held => cases h
  | wake => cases h
  | cas c =>
    obtain ⟨hc0, hc1⟩ := hf
    obtain ⟨cl, cs⟩ := c
    dsimp only at hc0 hc1
    subst hc0
    simp only [run] at h
    by_cases hq : s.word = (⟨0, cs⟩ : FutexWord).encode
    · rw [if_pos hq] at h
      rw [encode_eq _ _ hc1] at hq
      refine ⟨_, (Option.some.inj h).symm, ?_⟩
      apply inv_move hi hp
      · trivial
      · intro H C h1 h2 _
        rw [encode_eq _ _ hc1]
        simp [LOCKED] at h1 h2 ⊢
        omega
      · exact hle
      · intro X hX
        simp at hX
        omega
      · intro H A K h1 h2 h3 h4
        simp at h1 h2 h3
        omega
    · rw [if_neg hq] at h
      refine ⟨_, (Option.some.inj h).symm, ?_⟩
      have hd := hi.decode
      obtain ⟨k1, k2, k3, k4, k5⟩ := outer_kind (Mutex.decode s.word)
      apply inv_move hi hp (outer_fine _ (by rw [hd]; exact hlt))
      · intro H C h1 h2 _
        rw [k1] at h1
        rw [k2] at h2
        simp at h1 h2
        omega
      · exact hle
      · intro X hX
        rw [k3] at hX
        simp at hX
        omega
      · intro H A K h1 h2 h3 h4 h5
        have := Inv.pos Pc.coming hp rfl
        rw [k5] at h3
        simp at h3
        omega
  | inc =>
    have hroom := hi.room hp rfl
    simp only [run, incSleepers] at h
    rw [hi.decode] at h
    simp only [decide_eq_true hroom, R.assert_true, R.bind_ok, R.pure_eq] at h
    refine ⟨_, (Option.some.inj h).symm, ?_⟩
    obtain ⟨k1, k2, k3, k4, k5⟩ := inner_kind ⟨s.ts.countP Pc.isHeld + 2 * (s.disconnects - s.reconnected), s.ts.countP Pc.counted + 1⟩
    rw [add32_eq _ _ (by omega)]
    apply inv_move hi hp (inner_fine _ hroom)
    · intro H C h1 h2 _
      rw [k1] at h1
      rw [k2] at h2
      simp at h1 h2
      omega
    · exact hle
    · intro X hX
      rw [k3] at hX
      simp at hX
      omega
    · intro H A K h1 h2 h3 h4 h5
      have := Inv.pos Pc.coming hp rfl
      rw [k5] at h3
      simp at h3
      omega
  | wait c =>
    obtain ⟨hc0, hc1⟩ := hf
    obtain ⟨cl, cs⟩ := c
    dsimp only at hc0 hc1
    simp only [run] at h
    refine ⟨_, (Option.some.inj h).symm, ?_⟩
    by_cases hq : s.word = (⟨cl, cs⟩ : FutexWord).encode
    · rw [if_pos hq]
      rw [encode_eq _ _ hc1] at hq
      apply inv_move hi hp
      · trivial
      · intro H C h1 h2 _
        simp at h1 h2 ⊢
        omega
      · exact hle
      · intro X hX
        simp at hX
        omega
      · intro H A K h1 h2 h3 h4
        simp at h1 h2 h3
        omega
    · rw [if_neg hq]
      apply inv_move hi hp
      · trivial
      · intro H C h1 h2 _
        simp at h1 h2 ⊢
        omega
      · exact hle
      · intro X hX
        simp at hX
        omega
      · intro H A K h1 h2 h3 h4
        have := Inv.pos Pc.coming hp rfl
        simp at h1 h2 h3
        omega
  | load =>
    simp only [run] at h
    refine ⟨_, (Option.some.inj h).symm, ?_⟩
    have hd := hi.decode
    obtain ⟨k1, k2, k3, k4, k5⟩ := inner_kind (Mutex.decode s.word)
    apply inv_move hi hp (inner_fine _ (by rw [hd]; exact hlt))
    · intro H C h1 h2 _
      rw [k1] at h1
      rw [k2] at h2
      simp at h1 h2
      omega
    · exact hle
    · intro X hX
      rw [k3] at hX
      simp at hX
      omega
    · intro H A K h1 h2 h3 h4 h5
      have := Inv.pos Pc.coming hp rfl
      rw [k5] at h3
      simp at h3
      omega
  | dec =>
    have hpos := Inv.pos Pc.counted hp rfl
    simp only [run, decSleepers] at h
    rw [hi.decode] at h
    have hpos' : 1 ≤ s.ts.countP Pc.counted := hpos
    simp only [decide_eq_true hpos', R.assert_true, R.bind_ok, R.pure_eq] at h
    refine ⟨_, (Option.some.inj h).symm, ?_⟩
    obtain ⟨k1, k2, k3, k4, k5⟩ := outer_kind ⟨s.ts.countP Pc.isHeld + 2 * (s.disconnects - s.reconnected), s.ts.countP Pc.counted - 1⟩
    rw [sub32_eq _ _ (by omega) (by omega)]
    apply inv_move hi hp (outer_fine _ (by dsimp only; omega))
    · intro H C h1 h2 _
      rw [k1] at h1
      rw [k2] at h2
      simp at h1 h2
      omega
    · exact hle
    · intro X hX
      rw [k3] at hX
      simp at hX
      omega
    · intro H A K h1 h2 h3 h4 h5
      have := Inv.pos Pc.coming hp rfl
      rw [k5] at h3
      simp at h3
      omega
  | recas c =>
    obtain ⟨hc0, hc1⟩ := hf
    obtain ⟨cl, cs⟩ := c
    dsimp only at hc0 hc1
    subst hc0
    have hpos := Inv.pos Pc.isRecas hp rfl
    simp only [run] at h
    by_cases hq : s.word = (⟨2, cs⟩ : FutexWord).encode
    · rw [if_pos hq] at h
      rw [encode_eq _ _ hc1] at hq
      refine ⟨_, (Option.some.inj h).symm, ?_⟩
      apply inv_move hi hp
      · trivial
      · intro H C h1 h2 _
        rw [encode_eq _ _ hc1]
        simp [LOCKED] at h1 h2 ⊢
        omega
      · exact hle
      · intro X hX
        simp at hX
        omega
      · intro H A K h1 h2 h3 h4
        simp at h1 h2 h3
        omega
    · rw [if_neg hq] at h
      have hd := hi.decode
      rw [hd] at h
      have h2 : s.ts.countP Pc.isHeld + 2 * (s.disconnects - s.reconnected) = LOCKED_DISCONNECTED := by
        unfold LOCKED_DISCONNECTED
        omega
      simp only [decide_eq_true h2, R.assert_true, R.bind_ok, R.pure_eq] at h
      refine ⟨_, (Option.some.inj h).symm, ?_⟩
      apply inv_move hi hp
      · exact ⟨h2, hlt⟩
      · intro H C h1 h2 _
        simp at h1 h2
        omega
      · exact hle
      · intro X hX
        simp at hX
        omega
      · intro H A K h1 h2 h3 h4 h5
        simp at h1 h2 h3
        omega

theorem inv_step {s : St} (hi : Inv s) {a : Act} (ha : allowed s a) {r : R St} (h : step s a = some r) : ∃ s', r = .ok s' ∧ Inv s' := by
  have hw := hi.word
  have hone := hi.one
  have hlt := hi.lt
  have hre := hi.re
  have hwk := hi.wk
  have hle := hi.le
  have hwlt := hi.wlt
  cases a with
  | lock i =>
    simp only [step] at h
    by_cases hp : s.ts[i]? = some .idle
    · rw [if_pos hp] at h
      refine ⟨_, (Option.some.inj h).symm, ?_⟩
      apply inv_move hi hp
      · exact ⟨rfl, by decide⟩
      · intro H C h1 h2 _
        simp at h1 h2
        omega
      · exact hle
      · intro X hX
        simp at hX
        omega
      · intro H A K h1 h2 h3 h4 h5
        simp at h3
        omega
    · rw [if_neg hp] at h; cases h
  | unlock i =>
    simp only [step] at h
    by_cases hp : s.ts[i]? = some .held
    · rw [if_pos hp] at h
      have hpos := Inv.pos Pc.isHeld hp rfl
      simp only [unlockFetch] at h
      rw [hi.decode] at h
      have h2 : s.ts.countP Pc.isHeld + 2 * (s.disconnects - s.reconnected) = LOCKED := by
        unfold LOCKED
        omega
      simp only [decide_eq_true h2, R.assert_true, R.bind_ok, R.pure_eq] at h
      refine ⟨_, (Option.some.inj h).symm, ?_⟩
      have he : (⟨LOCKED, 0⟩ : FutexWord).encode = 65536 := by decide
      rw [he, sub32_eq _ _ (by omega) (by omega)]
      have hac : s.ts.countP Pc.isAsleep ≤ s.ts.countP Pc.counted := by
        apply List.countP_mono_left
        intro p _ hp
        cases p <;> first | rfl | cases hp
      by_cases hs : s.ts.countP Pc.counted > 0
      · rw [if_pos hs]
        apply inv_move hi hp
        · trivial
        · intro H C h1 h2 _
          simp at h1 h2
          omega
        · exact hle
        · intro X hX
          simp at hX
          omega
        · intro H A K h1 h2 h3 h4 h5
          simp at h3
          omega
      · rw [if_neg hs]
        apply inv_move hi hp
        · trivial
        · intro H C h1 h2 _
          simp at h1 h2
          omega
        · exact hle
        · intro X hX
          simp at hX
          omega
        · intro H A K h1 h2 h3 h4 h5
          simp at h2 h3
          omega
    · rw [if_neg hp] at h; cases h
  | disconnect i =>
    simp only [step] at h
    by_cases hp : s.ts[i]? = some .held
    · rw [if_pos hp] at h
      have hpos := Inv.pos Pc.isHeld hp rfl
      simp only [disconnectWord] at h
      rw [hi.decode] at h
      have h2 : s.ts.countP Pc.isHeld + 2 * (s.disconnects - s.reconnected) = LOCKED := by
        unfold LOCKED
        omega
      simp only [decide_eq_true h2, R.assert_true, R.bind_ok, R.pure_eq] at h
      refine ⟨_, (Option.some.inj h).symm, ?_⟩
      have he : (⟨LOCKED_DISCONNECTED - LOCKED, 0⟩ : FutexWord).encode = 65536 := by decide
      rw [he, add32_eq _ _ (by omega)]
      apply inv_move hi hp
      · trivial
      · intro H C h1 h2 _
        simp at h1 h2
        omega
      · omega
      · intro X hX
        simp at hX
        omega
      · intro H A K h1 h2 h3 h4 h5
        omega
    · rw [if_neg hp] at h; cases h
  | reconnect i =>
    simp only [allowed] at ha
    simp only [step] at h
    by_cases hp : s.ts[i]? = some .idle
    · rw [if_pos hp] at h
      refine ⟨_, (Option.some.inj h).symm, ?_⟩
      apply inv_move hi hp
      · exact ⟨rfl, by decide⟩
      · intro H C h1 h2 _
        simp at h1 h2
        omega
      · omega
      · intro X hX
        simp at hX
        omega
      · intro H A K h1 h2 h3 h4 h5
        simp at h1 h2 h3
        omega
    · rw [if_neg hp] at h; cases h
  | run i =>
    simp only [step] at h
    cases hp : s.ts[i]? with
    | none => rw [hp] at h; cases h
    | some p =>
      rw [hp] at h
      exact inv_run hi hp h
  | intr i =>
    have key : ∀ p, s.ts[i]? = some p → p.isHeld = false → p.counted = true → p.isRecas = false → Inv (s.set i .dec) := by
      intro p hp k1 k2 k3
      apply inv_move hi hp
      · trivial
      · intro H C h1 h2 _
        rw [k1] at h1
        rw [k2] at h2
        simp at h1 h2
        omega
      · exact hle
      · intro X hX
        rw [k3] at hX
        simp at hX
        omega
      · intro H A K h1 h2 h3 h4 h5
        have hcov : p.coming = true ∨ p.coming = false := by cases p.coming <;> simp
        rcases hcov with hc | hc
        · have := Inv.pos Pc.coming hp hc
          rw [hc] at h3
          simp at h3
          omega
        · rw [hc] at h3
          simp at h3
          omega
    simp only [step] at h
    cases hp : s.ts[i]? with
    | none => rw [hp] at h; cases h
    | some p =>
      rw [hp] at h
      cases p with
      | wait c => exact ⟨_, (Option.some.inj h).symm, key _ hp rfl rfl rfl⟩
      | asleep => exact ⟨_, (Option.some.inj h).symm, key _ hp rfl rfl rfl⟩
      | _ => cases h
  | wake i j =>
    simp only [step] at h
    by_cases hp : s.ts[i]? = some .wake
    · rw [if_pos hp] at h
      by_cases hj : s.ts[j]? = some .asleep
      · rw [if_pos hj] at h
        refine ⟨_, (Option.some.inj h).symm, ?_⟩
        -- first the woken thread, then the waker
        have hne : i ≠ j := by
          rintro rfl
          rw [hp] at hj
          cases hj
        have hswap : ((s.set i .idle).set j .dec) = ((s.set j .dec).set i .idle) := by
          simp only [St.set]
          rw [List.set_comm _ _ hne]
        rw [hswap]
        have h1 : Inv (s.set j .dec) := by
          apply inv_move hi hj
          · trivial
          · intro H C h1 h2 _
            simp at h1 h2
            omega
          · exact hle
          · intro X hX
            simp at hX
            omega
          · intro H A K h1 h2 h3 h4 h5
            simp at h3
            omega
        have hp1 : (s.set j .dec).ts[i]? = some .wake := by
          simp only [St.set]
          rw [List.getElem?_set_ne (Ne.symm hne)]
          exact hp
        have hj1 : (s.set j .dec).ts[j]? = some .dec := by
          have : j < s.ts.length := by
            rw [List.getElem?_eq_some_iff] at hj
            exact hj.1
          simp [St.set, this]
        have hw1 := h1.word
        have ho1 := h1.one
        have hr1 := h1.re
        have hl1 := h1.le
        apply inv_move h1 hp1
        · trivial
        · intro H C h1 h2 _
          simp at h1 h2
          omega
        · exact hl1
        · intro X hX
          simp at hX
          omega
        · intro H A K e1 e2 e3 _ _
          have hK : 2 ≤ (s.set j .dec).ts.countP Pc.coming := by
            have e4 := cnt_set Pc.coming _ _ _ .idle hj1
            have e5 : 0 < ((s.set j .dec).ts.set j .idle).countP Pc.coming := by
              refine (cnt_pos _ _).2 ⟨i, .wake, ?_, rfl⟩
              rw [List.getElem?_set_ne (Ne.symm hne)]
              exact hp1
            simp at e4
            omega
          simp at e3
          omega
      · rw [if_neg hj] at h
        by_cases hm : Pc.asleep ∈ s.ts
        · rw [if_pos hm] at h; cases h
        · rw [if_neg hm] at h
          refine ⟨_, (Option.some.inj h).symm, ?_⟩
          have hz : s.ts.countP Pc.isAsleep = 0 := by
            rcases Nat.eq_zero_or_pos (s.ts.countP Pc.isAsleep) with h0 | h0
            · exact h0
            · exfalso
              obtain ⟨k, p, hk, hpk⟩ := (cnt_pos _ _).1 h0
              cases p <;> first | exact hm (List.mem_of_getElem? hk) | cases hpk
          apply inv_move hi hp
          · trivial
          · intro H C h1 h2 _
            simp at h1 h2
            omega
          · exact hle
          · intro X hX
            simp at hX
            omega
          · intro H A K h1 h2 h3 h4 h5
            simp at h1 h2 h3
            omega
    · rw [if_neg hp] at h; cases h

end

theorem run_inv {n : Nat} {s : St} (hn : n ≤ 65535) (hr : Run n s) : Inv s := by
  induction hr with
  | init => exact inv_init n hn
  | step _ ha hs ih =>
    obtain ⟨s', h1, h2⟩ := inv_step ih ha hs
    cases h1
    exact h2

/-! ## The theorems -/

/-- Nobody has a guard and no guard is disconnected. -/
def Free (s : St) : Prop := (∀ i : Nat, s.ts[i]? ≠ some .held) ∧ s.disconnects = s.reconnected

/-- Thread `i` is awake inside of a call of `lock`. -/
def Trying (s : St) (i : Nat) : Prop :=
  s.ts[i]? = some .inc ∨ s.ts[i]? = some .load ∨ s.ts[i]? = some .dec ∨ (∃ c, s.ts[i]? = some (.cas c)) ∨ ∃ c, s.ts[i]? = some (.wait c)

theorem held_zero (s : St) : s.ts.countP Pc.isHeld = 0 ↔ ∀ i : Nat, s.ts[i]? ≠ some .held := by
  constructor
  · intro h i hi
    have := (cnt_pos Pc.isHeld s.ts).2 ⟨i, _, hi, rfl⟩
    omega
  · intro h
    rcases Nat.eq_zero_or_pos (s.ts.countP Pc.isHeld) with h0 | h0
    · exact h0
    · exfalso
      obtain ⟨k, p, hk, hpk⟩ := (cnt_pos _ _).1 h0
      cases p <;> first | exact h k hk | cases hpk

theorem free_iff {s : St} (hi : Inv s) : Free s ↔ s.ts.countP Pc.isHeld + (s.disconnects - s.reconnected) = 0 := by
  have h1 := hi.le
  have h2 := hi.re
  unfold Free
  rw [← held_zero]
  omega

/-- **C38.** At most one thread has a guard. -/
theorem C38_exclusive {n : Nat} {s : St} (hn : n ≤ 65535) (hr : Run n s) {i j : Nat}
    (hi : s.ts[i]? = some .held) (hj : s.ts[j]? = some .held) : i = j := by
  have hv := run_inv hn hr
  have h1 := hv.one
  rcases Nat.lt_trichotomy i j with h | h | h
  · exfalso
    have h2 := cnt_set Pc.isHeld _ _ _ .idle hi
    have h3 : 0 < (s.ts.set i .idle).countP Pc.isHeld := (cnt_pos _ _).2 ⟨j, .held, by rw [List.getElem?_set_ne (by omega)]; exact hj, rfl⟩
    simp [Pc.isHeld] at h2
    omega
  · exact h
  · exfalso
    have h2 := cnt_set Pc.isHeld _ _ _ .idle hi
    have h3 : 0 < (s.ts.set i .idle).countP Pc.isHeld := (cnt_pos _ _).2 ⟨j, .held, by rw [List.getElem?_set_ne (by omega)]; exact hj, rfl⟩
    simp [Pc.isHeld] at h2
    omega

/-- **C38.** While a guard is disconnected nobody else gets one: until the `reconnect` that belongs to it is done, no thread holds
    the lock. -/
theorem C38_disconnected {n : Nat} {s : St} (hn : n ≤ 65535) (hr : Run n s) (hd : s.reconnected < s.disconnects) (i : Nat) :
    s.ts[i]? ≠ some .held := by
  have hv := run_inv hn hr
  have h1 := hv.one
  refine (held_zero s).1 ?_ i
  omega

/-- **C38.** The word says that the lock is free exactly if nobody has a guard and none is disconnected, and counts the threads
    between joining and leaving the sleepers. -/
theorem C38_word {n : Nat} {s : St} (hn : n ≤ 65535) (hr : Run n s) :
    (s.word / 65536 = 0 ↔ Free s) ∧ (s.word / 65536 = 1 ↔ ∃ i : Nat, s.ts[i]? = some .held) ∧
    (s.word / 65536 = 2 ↔ s.reconnected < s.disconnects) ∧
    s.word % 65536 = (s.ts.filter fun p => match p with | .wait _ | .load | .asleep | .dec => true | _ => false).length := by
  have hv := run_inv hn hr
  have h1 := hv.one
  have h2 := hv.word
  have h3 := hv.lt
  have h4 := hv.le
  have h5 := hv.re
  have hd : s.word / 65536 = s.ts.countP Pc.isHeld + 2 * (s.disconnects - s.reconnected) := by omega
  have hm : s.word % 65536 = s.ts.countP Pc.counted := by omega
  refine ⟨?_, ?_, ?_, ?_⟩
  · rw [free_iff hv, hd]
    omega
  · rw [hd]
    constructor
    · intro h
      have h0 : 0 < s.ts.countP Pc.isHeld := by omega
      obtain ⟨k, p, hk, hpk⟩ := (cnt_pos _ _).1 h0
      cases p <;> first | exact ⟨k, hk⟩ | cases hpk
    · rintro ⟨i, hi⟩
      have := Inv.pos (s := s) Pc.isHeld hi rfl
      omega
  · rw [hd]
    omega
  · rw [hm, List.countP_eq_length_filter]
    congr 1

/-- **C38.** No assertion fails: no overflow or underflow of the count of sleepers, no release of a lock that is not held, and a
    `reconnect` within its contract finds the lock disconnected. -/
theorem C38_no_panic {n : Nat} {s : St} (hn : n ≤ 65535) (hr : Run n s) {a : Act} (ha : allowed s a) : step s a ≠ some .panic := by
  intro h
  obtain ⟨s', h1, _⟩ := inv_step (run_inv hn hr) ha h
  cases h1

/-- **C38.** A thread that gets a guard gets it from a free lock (`lock`), or from a disconnected one (`reconnect`). -/
theorem C38_take {n : Nat} {s s' : St} (hn : n ≤ 65535) (hr : Run n s) {a : Act} (ha : allowed s a) (h : step s a = some (.ok s')) {i : Nat}
    (hi : s.ts[i]? ≠ some .held) (hi' : s'.ts[i]? = some .held) :
    a = .run i ∧ ((∃ c, s.ts[i]? = some (.cas c) ∧ Free s) ∨ (∃ c, s.ts[i]? = some (.recas c) ∧ s.reconnected < s.disconnects ∧ s'.reconnected = s.reconnected + 1)) := by
  have hv := run_inv hn hr
  have hset : ∀ (k : Nat) (q : Pc), q ≠ .held → (s.ts.set k q)[i]? ≠ some .held := by
    intro k q hq hc
    rw [List.getElem?_set] at hc
    split at hc
    · split at hc
      · exact hq (Option.some.inj hc)
      · cases hc
    · exact hi hc
  have hout : ∀ c, outer c ≠ .held := by
    intro c hc
    have := (outer_kind c).1
    rw [hc] at this
    cases this
  have hinn : ∀ c, inner c ≠ .held := by
    intro c hc
    have := (inner_kind c).1
    rw [hc] at this
    cases this
  have hfw := C38_word hn hr
  cases a with
  | lock k =>
    simp only [step] at h
    split at h
    · cases h
      exact absurd hi' (hset _ _ (by simp))
    · cases h
  | unlock k =>
    simp only [step] at h
    split at h
    · cases hu : unlockFetch s.word with
      | panic => rw [hu] at h; cases h
      | ok r =>
        rw [hu] at h
        cases h
        refine absurd hi' (hset _ _ ?_)
        split <;> simp
    · cases h
  | disconnect k =>
    simp only [step] at h
    split at h
    · cases hu : disconnectWord s.word with
      | panic => rw [hu] at h; cases h
      | ok r =>
        rw [hu] at h
        cases h
        exact absurd hi' (hset _ _ (by simp))
    · cases h
  | reconnect k =>
    simp only [step] at h
    split at h
    · cases h
      exact absurd hi' (hset _ _ (by simp))
    · cases h
  | intr k =>
    simp only [step] at h
    split at h
    · cases h
      exact absurd hi' (hset _ _ (by simp))
    · cases h
      exact absurd hi' (hset _ _ (by simp))
    · cases h
  | wake k j =>
    simp only [step] at h
    split at h
    · split at h
      · cases h
        refine absurd hi' ?_
        simp only [St.set]
        intro hc
        rw [List.getElem?_set] at hc
        split at hc
        · split at hc
          · cases hc
          · cases hc
        · exact hset _ _ (by simp) hc
      · split at h
        · cases h
        · cases h
          exact absurd hi' (hset _ _ (by simp))
    · cases h
  | run k =>
    simp only [step] at h
    cases hp : s.ts[k]? with
    | none => rw [hp] at h; cases h
    | some p =>
      rw [hp] at h
      dsimp only at h
      have hk : ∀ l : List Pc, l = s.ts.set k .held → l[i]? = some .held → k = i := by
        intro l hl hc
        by_cases hki : k = i
        · exact hki
        · rw [hl, List.getElem?_set_ne hki] at hc
          exact absurd hc hi
      have hfine := hv.fine p (List.mem_of_getElem? hp)
      cases p with
      | cas c =>
        simp only [run] at h
        by_cases hq : s.word = c.encode
        · rw [if_pos hq] at h
          cases h
          have := hk _ rfl hi'
          subst this
          refine ⟨rfl, .inl ⟨c, hp, ?_⟩⟩
          obtain ⟨hc0, hc1⟩ := hfine
          obtain ⟨cl, cs⟩ := c
          dsimp only at hc0 hc1
          subst hc0
          rw [encode_eq _ _ hc1] at hq
          apply hfw.1.1
          omega
        · rw [if_neg hq] at h
          cases h
          exact absurd hi' (hset _ _ (hout _))
      | inc =>
        simp only [run] at h
        cases hu : incSleepers s.word with
        | panic => rw [hu] at h; cases h
        | ok r =>
          rw [hu] at h
          cases h
          exact absurd hi' (hset _ _ (hinn _))
      | wait c =>
        simp only [run] at h
        cases h
        refine absurd hi' (hset _ _ ?_)
        split <;> simp
      | load =>
        simp only [run] at h
        cases h
        exact absurd hi' (hset _ _ (hinn _))
      | dec =>
        simp only [run] at h
        cases hu : decSleepers s.word with
        | panic => rw [hu] at h; cases h
        | ok r =>
          rw [hu] at h
          cases h
          exact absurd hi' (hset _ _ (hout _))
      | recas c =>
        have hpos := Inv.pos (s := s) Pc.isRecas hp rfl
        have h1 := hv.re
        have h2 := hv.le
        simp only [run] at h
        by_cases hq : s.word = c.encode
        · rw [if_pos hq] at h
          cases h
          have := hk _ rfl hi'
          subst this
          exact ⟨rfl, .inr ⟨c, hp, by omega, rfl⟩⟩
        · rw [if_neg hq] at h
          cases hu : R.assert (decide ((Mutex.decode s.word).lock = LOCKED_DISCONNECTED)) with
          | panic => rw [hu] at h; cases h
          | ok r =>
            rw [hu] at h
            cases h
            exact absurd hi' (hset _ _ (by simp))
      | idle => cases h
      | asleep => cases h
      | held => cases h
      | wake => cases h

/-- **C38.** No wake-up is lost: whenever the lock is free and a thread sleeps on it, a wake-up is on its way (a thread that
    released the lock is about to call the futex), or a thread is awake in `lock` and about to try for the lock. -/
theorem C38_wake {n : Nat} {s : St} (hn : n ≤ 65535) (hr : Run n s) (hf : Free s) {j : Nat} (hj : s.ts[j]? = some .asleep) :
    ∃ i : Nat, s.ts[i]? = some .wake ∨ Trying s i := by
  have hv := run_inv hn hr
  have h1 := hv.wk ((free_iff hv).1 hf) (Inv.pos (s := s) Pc.isAsleep hj rfl)
  obtain ⟨i, p, hp, hc⟩ := (cnt_pos _ _).1 h1
  refine ⟨i, ?_⟩
  unfold Trying
  cases p <;> first | exact .inl hp | exact .inr (.inl hp) | exact .inr (.inr (.inl hp)) | exact .inr (.inr (.inr (.inl hp))) | exact .inr (.inr (.inr (.inr (.inl ⟨_, hp⟩)))) | exact .inr (.inr (.inr (.inr (.inr ⟨_, hp⟩)))) | cases hc

/-- Steps of threads that are inside of `lock` or `unlock`, without new calls and without interruptions. -/
inductive Own : St → St → Prop
  | refl (s : St) : Own s s
  | run {s s' s'' : St} (i : Nat) : step s (.run i) = some (.ok s') → Own s' s'' → Own s s''
  | wake {s s' s'' : St} (i j : Nat) : step s (.wake i j) = some (.ok s') → Own s' s'' → Own s s''

theorem get_set_self {l : List Pc} {i : Nat} {p q : Pc} (h : l[i]? = some p) : (l.set i q)[i]? = some q := by
  have : i < l.length := by
    rw [List.getElem?_eq_some_iff] at h
    exact h.1
  simp [this]

theorem held_cas {n : Nat} {s : St} (hn : n ≤ 65535) (hr : Run n s) (hf : Free s) {i : Nat} {c : FutexWord} (hp : s.ts[i]? = some (.cas c)) :
    ∃ s', Own s s' ∧ s'.ts[i]? = some .held := by
  by_cases hq : s.word = c.encode
  · refine ⟨_, .run i (by simp only [step, hp, run]; rw [if_pos hq]) (.refl _), ?_⟩
    exact get_set_self hp
  · have hd := (run_inv hn hr).decode
    have hl := (run_inv hn hr).lt
    have hw := (run_inv hn hr).word
    have hz := (free_iff (run_inv hn hr)).1 hf
    have e1 : outer (decode s.word) = .cas ⟨0, s.ts.countP Pc.counted⟩ := by
      rw [hd]
      have h0 : s.ts.countP Pc.isHeld + 2 * (s.disconnects - s.reconnected) = 0 := by omega
      rw [h0]
      rfl
    have h1 : step s (.run i) = some (.ok (s.set i (.cas ⟨0, s.ts.countP Pc.counted⟩))) := by
      simp only [step, hp, run]
      rw [if_neg hq, e1]
    have hp1 : (s.set i (.cas ⟨0, s.ts.countP Pc.counted⟩)).ts[i]? = some (.cas ⟨0, s.ts.countP Pc.counted⟩) := get_set_self hp
    have hw1 : (s.set i (.cas ⟨0, s.ts.countP Pc.counted⟩)).word = (⟨0, s.ts.countP Pc.counted⟩ : FutexWord).encode := by
      rw [encode_eq _ _ hl]
      show s.word = _
      omega
    refine ⟨_, .run i h1 (.run i (by simp only [step, hp1, run]; rw [if_pos hw1]) (.refl _)), ?_⟩
    exact get_set_self hp1

/-- A step of a thread that does not get the lock leaves it free. -/
theorem free_set {s : St} (hf : Free s) {i : Nat} {q : Pc} (hq : q.isHeld = false) (w : Nat) : Free { s with word := w, ts := s.ts.set i q } := by
  refine ⟨?_, hf.2⟩
  intro k hk
  dsimp only at hk
  rw [List.getElem?_set] at hk
  split at hk
  · split at hk
    · rw [Option.some.inj hk] at hq
      cases hq
    · cases hk
  · exact hf.1 k hk

theorem held_dec {n : Nat} {s : St} (hn : n ≤ 65535) (hr : Run n s) (hf : Free s) {i : Nat} (hp : s.ts[i]? = some .dec) :
    ∃ s', Own s s' ∧ s'.ts[i]? = some .held := by
  have hv := run_inv hn hr
  have hd := hv.decode
  have hz := (free_iff hv).1 hf
  have hpos : 1 ≤ s.ts.countP Pc.counted := Inv.pos (s := s) Pc.counted hp rfl
  have h0 : s.ts.countP Pc.isHeld + 2 * (s.disconnects - s.reconnected) = 0 := by omega
  have h1 : step s (.run i) = some (.ok { s with word := sub32 s.word 1, ts := s.ts.set i (.cas ⟨0, s.ts.countP Pc.counted - 1⟩) }) := by
    simp only [step, hp, run, decSleepers]
    rw [hd, h0]
    simp only [decide_eq_true hpos, R.assert_true, R.bind_ok, R.pure_eq]
    rfl
  have hr1 := Run.step hr (show allowed s (.run i) from trivial) h1
  obtain ⟨s', ho, hh⟩ := held_cas hn hr1 (free_set hf rfl _) (get_set_self hp)
  exact ⟨s', .run i h1 ho, hh⟩

theorem held_load {n : Nat} {s : St} (hn : n ≤ 65535) (hr : Run n s) (hf : Free s) {i : Nat} (hp : s.ts[i]? = some .load) :
    ∃ s', Own s s' ∧ s'.ts[i]? = some .held := by
  have hv := run_inv hn hr
  have hd := hv.decode
  have hz := (free_iff hv).1 hf
  have h0 : s.ts.countP Pc.isHeld + 2 * (s.disconnects - s.reconnected) = 0 := by omega
  have h1 : step s (.run i) = some (.ok (s.set i .dec)) := by
    simp only [step, hp, run]
    rw [hd, h0]
    rfl
  have hr1 := Run.step hr (show allowed s (.run i) from trivial) h1
  obtain ⟨s', ho, hh⟩ := held_dec hn hr1 (free_set hf rfl _) (get_set_self hp)
  exact ⟨s', .run i h1 ho, hh⟩

/-- **C38.** If the lock is free, a thread that is awake in `lock` gets it by its own steps alone, if the others do not move. -/
theorem C38_trying {n : Nat} {s : St} (hn : n ≤ 65535) (hr : Run n s) (hf : Free s) {i : Nat} (ht : Trying s i) :
    ∃ s', Own s s' ∧ s'.ts[i]? = some .held := by
  have hv := run_inv hn hr
  have hd := hv.decode
  have hz := (free_iff hv).1 hf
  have h0 : s.ts.countP Pc.isHeld + 2 * (s.disconnects - s.reconnected) = 0 := by omega
  rcases ht with hp | hp | hp | ⟨c, hp⟩ | ⟨c, hp⟩
  · have hroom := hv.room hp rfl
    have h1 : step s (.run i) = some (.ok { s with word := add32 s.word 1, ts := s.ts.set i .dec }) := by
      simp only [step, hp, run, incSleepers]
      rw [hd, h0]
      simp only [decide_eq_true hroom, R.assert_true, R.bind_ok, R.pure_eq]
      rfl
    have hr1 := Run.step hr (show allowed s (.run i) from trivial) h1
    obtain ⟨s', ho, hh⟩ := held_dec hn hr1 (free_set hf rfl _) (get_set_self hp)
    exact ⟨s', .run i h1 ho, hh⟩
  · exact held_load hn hr hf hp
  · exact held_dec hn hr hf hp
  · exact held_cas hn hr hf hp
  · have hfine := hv.fine _ (List.mem_of_getElem? hp)
    obtain ⟨hc0, hc1⟩ := hfine
    have hl := hv.lt
    have hw := hv.word
    have hq : s.word ≠ c.encode := by
      obtain ⟨cl, cs⟩ := c
      rw [encode_eq _ _ hc1]
      dsimp only at hc0 hc1
      omega
    have h1 : step s (.run i) = some (.ok (s.set i .load)) := by
      simp only [step, hp, run]
      rw [if_neg hq]
    have hr1 := Run.step hr (show allowed s (.run i) from trivial) h1
    obtain ⟨s', ho, hh⟩ := held_load hn hr1 (free_set hf rfl _) (get_set_self hp)
    exact ⟨s', .run i h1 ho, hh⟩

/-- **C38.** If the lock is free and any thread is in `lock`, asleep or not, then the calls under way are enough for one of them to
    get the lock: no new call and no interruption is needed. -/
theorem C38_progress {n : Nat} {s : St} (hn : n ≤ 65535) (hr : Run n s) (hf : Free s) {j : Nat} (hj : Trying s j ∨ s.ts[j]? = some .asleep) :
    ∃ s' : St, ∃ i : Nat, Own s s' ∧ s'.ts[i]? = some .held := by
  rcases hj with ht | ha
  · obtain ⟨s', h⟩ := C38_trying hn hr hf ht
    exact ⟨s', j, h⟩
  · obtain ⟨i, hi | hi⟩ := C38_wake hn hr hf ha
    · have h1 : step s (.wake i j) = some (.ok ((s.set i .idle).set j .dec)) := by
        simp only [step]
        rw [if_pos hi, if_pos ha]
      have hne : i ≠ j := by
        rintro rfl
        rw [hi] at ha
        cases ha
      have hr1 := Run.step hr (show allowed s (.wake i j) from trivial) h1
      have hf1 : Free ((s.set i .idle).set j .dec) := free_set (free_set hf (i := i) (q := .idle) rfl s.word) rfl s.word
      have hp1 : ((s.set i .idle).set j .dec).ts[j]? = some .dec := by
        refine get_set_self (p := .asleep) ?_
        simp only [St.set]
        rw [List.getElem?_set_ne hne]
        exact ha
      obtain ⟨s', ho, hh⟩ := held_dec hn hr1 hf1 hp1
      exact ⟨s', j, .wake i j h1 ho, hh⟩
    · obtain ⟨s', h⟩ := C38_trying hn hr hf hi
      exact ⟨s', i, h⟩

/-- **C38.** A call of `reconnect` gets the guard back by its own steps. -/
theorem C38_reconnect {n : Nat} {s : St} (hn : n ≤ 65535) (hr : Run n s) {i : Nat} {c : FutexWord} (hp : s.ts[i]? = some (.recas c)) :
    ∃ s', Own s s' ∧ s'.ts[i]? = some .held ∧ s'.reconnected = s.reconnected + 1 := by
  have hv := run_inv hn hr
  by_cases hq : s.word = c.encode
  · refine ⟨_, .run i (by simp only [step, hp, run]; rw [if_pos hq]) (.refl _), ?_, rfl⟩
    exact get_set_self hp
  · have hd := hv.decode
    have hl := hv.lt
    have hw := hv.word
    have hone := hv.one
    have hre := hv.re
    have hle := hv.le
    have hpos := Inv.pos (s := s) Pc.isRecas hp rfl
    have h2 : s.ts.countP Pc.isHeld + 2 * (s.disconnects - s.reconnected) = LOCKED_DISCONNECTED := by
      unfold LOCKED_DISCONNECTED
      omega
    have h1 : step s (.run i) = some (.ok (s.set i (.recas ⟨LOCKED_DISCONNECTED, s.ts.countP Pc.counted⟩))) := by
      simp only [step, hp, run]
      rw [if_neg hq, hd, h2]
      simp only [decide_true, R.assert_true, R.bind_ok, R.pure_eq]
    have hp1 : (s.set i (.recas ⟨LOCKED_DISCONNECTED, s.ts.countP Pc.counted⟩)).ts[i]? = some (.recas ⟨LOCKED_DISCONNECTED, s.ts.countP Pc.counted⟩) := get_set_self hp
    have hw1 : (s.set i (.recas ⟨LOCKED_DISCONNECTED, s.ts.countP Pc.counted⟩)).word = (⟨LOCKED_DISCONNECTED, s.ts.countP Pc.counted⟩ : FutexWord).encode := by
      rw [encode_eq _ _ hl, ← h2]
      exact hw
    refine ⟨_, .run i h1 (.run i (by simp only [step, hp1, run]; rw [if_pos hw1]) (.refl _)), ?_, rfl⟩
    exact get_set_self hp1

/-! ## The limit of 65535 threads -/

/-- The first thread holds the lock, the next `k` joined the sleepers, the rest are idle. -/
theorem crowd (n : Nat) (hn : 0 < n) : ∀ k, k < 65536 → k < n → ∃ s, Run n s ∧ s.word = 65536 + k ∧ ∀ i : Nat, k < i → i < n → s.ts[i]? = some .idle := by
  intro k
  induction k with
  | zero =>
    intro _ _
    have hp0 : (St.init n).ts[0]? = some .idle := by
      simp only [St.init]
      rw [List.getElem?_replicate]
      simp [hn]
    have h1 : step (.init n) (.lock 0) = some (.ok ((St.init n).set 0 (.cas ⟨UNLOCKED, 0⟩))) := by
      simp only [step]
      rw [if_pos hp0]
    have hp1 : ((St.init n).set 0 (.cas ⟨UNLOCKED, 0⟩)).ts[0]? = some (.cas ⟨UNLOCKED, 0⟩) := get_set_self hp0
    have h2 := Run.step (Run.init) (show allowed (St.init n) (.lock 0) from trivial) h1
    have h3 : step ((St.init n).set 0 (.cas ⟨UNLOCKED, 0⟩)) (.run 0) =
        some (.ok { (St.init n).set 0 (.cas ⟨UNLOCKED, 0⟩) with word := (⟨LOCKED, 0⟩ : FutexWord).encode, ts := ((St.init n).set 0 (.cas ⟨UNLOCKED, 0⟩)).ts.set 0 .held }) := by
      simp only [step, hp1, run]
      have e : ((St.init n).set 0 (.cas ⟨UNLOCKED, 0⟩)).word = (⟨UNLOCKED, 0⟩ : FutexWord).encode := rfl
      rw [if_pos e]
    have e2 : (⟨LOCKED, 0⟩ : FutexWord).encode = 65536 + 0 := by decide
    refine ⟨_, Run.step h2 (show allowed _ (.run 0) from trivial) h3, e2, ?_⟩
    intro i hi hin
    simp only [St.set, St.init]
    rw [List.getElem?_set_ne (by omega), List.getElem?_set_ne (by omega), List.getElem?_replicate]
    simp [hin]
  | succ k ih =>
    intro hk hkn
    obtain ⟨s, hr, hw, hidle⟩ := ih (by omega) (by omega)
    have hp0 := hidle (k + 1) (by omega) hkn
    have hlk : k < 65536 := by omega
    have h1 : step s (.lock (k + 1)) = some (.ok (s.set (k + 1) (.cas ⟨UNLOCKED, 0⟩))) := by
      simp only [step]
      rw [if_pos hp0]
    have hp1 : (s.set (k + 1) (.cas ⟨UNLOCKED, 0⟩)).ts[k + 1]? = some (.cas ⟨UNLOCKED, 0⟩) := get_set_self hp0
    have r1 := Run.step hr (show allowed s (.lock (k + 1)) from trivial) h1
    have hdec : decode s.word = ⟨1, k⟩ := by
      rw [hw]
      exact decode_mk 1 k hlk
    have h2 : step (s.set (k + 1) (.cas ⟨UNLOCKED, 0⟩)) (.run (k + 1)) = some (.ok ((s.set (k + 1) (.cas ⟨UNLOCKED, 0⟩)).set (k + 1) .inc)) := by
      simp only [step, hp1, run]
      rw [if_neg]
      · have : decode (s.set (k + 1) (.cas ⟨UNLOCKED, 0⟩)).word = ⟨1, k⟩ := hdec
        rw [this]
        rfl
      · have e : (⟨UNLOCKED, 0⟩ : FutexWord).encode = 0 := by decide
        rw [e]
        show ¬ s.word = 0
        omega
    have hp2 : ((s.set (k + 1) (.cas ⟨UNLOCKED, 0⟩)).set (k + 1) .inc).ts[k + 1]? = some .inc := get_set_self hp1
    have r2 := Run.step r1 (show allowed _ (.run (k + 1)) from trivial) h2
    have hd2 : decode ((s.set (k + 1) (.cas ⟨UNLOCKED, 0⟩)).set (k + 1) .inc).word = ⟨1, k⟩ := hdec
    have h3 : step ((s.set (k + 1) (.cas ⟨UNLOCKED, 0⟩)).set (k + 1) .inc) (.run (k + 1)) =
        some (.ok { (s.set (k + 1) (.cas ⟨UNLOCKED, 0⟩)).set (k + 1) .inc with
          word := add32 s.word 1, ts := ((s.set (k + 1) (.cas ⟨UNLOCKED, 0⟩)).set (k + 1) .inc).ts.set (k + 1) (inner ⟨1, k + 1⟩) }) := by
      simp only [step, hp2, run, incSleepers]
      rw [hd2]
      have hd3 : k + 1 < 65536 := hk
      simp only [decide_eq_true hd3, R.assert_true, R.bind_ok, R.pure_eq]
      rfl
    refine ⟨_, Run.step r2 (show allowed _ (.run (k + 1)) from trivial) h3, ?_, ?_⟩
    · show add32 s.word 1 = _
      rw [add32_eq _ _ (by omega), hw]
      omega
    · intro i hi hin
      simp only [St.set]
      rw [List.getElem?_set_ne (by omega), List.getElem?_set_ne (by omega), List.getElem?_set_ne (by omega)]
      exact hidle i (by omega) hin

/-- **C38, negative.** The bound is needed: with 65537 threads the count of sleepers can overflow, and the call of `lock` that
    does it panics; the word it leaves behind says that the lock is disconnected. -/
theorem C38_overflow : ∃ s a, Run 65537 s ∧ allowed s a ∧ step s a = some .panic ∧ decode (add32 s.word 1) = ⟨LOCKED_DISCONNECTED, 0⟩ := by
  obtain ⟨s, hr, hw, hidle⟩ := crowd 65537 (by omega) 65535 (by omega) (by omega)
  have hp0 := hidle 65536 (by omega) (by omega)
  have h1 : step s (.lock 65536) = some (.ok (s.set 65536 (.cas ⟨UNLOCKED, 0⟩))) := by
    simp only [step]
    rw [if_pos hp0]
  have hp1 : (s.set 65536 (.cas ⟨UNLOCKED, 0⟩)).ts[65536]? = some (.cas ⟨UNLOCKED, 0⟩) := get_set_self hp0
  have r1 := Run.step hr (show allowed s (.lock 65536) from trivial) h1
  have hdec : decode s.word = ⟨1, 65535⟩ := by
    rw [hw]
    exact decode_mk 1 65535 (by omega)
  have h2 : step (s.set 65536 (.cas ⟨UNLOCKED, 0⟩)) (.run 65536) = some (.ok ((s.set 65536 (.cas ⟨UNLOCKED, 0⟩)).set 65536 .inc)) := by
    simp only [step, hp1, run]
    rw [if_neg]
    · have : decode (s.set 65536 (.cas ⟨UNLOCKED, 0⟩)).word = ⟨1, 65535⟩ := hdec
      rw [this]
      rfl
    · have e : (⟨UNLOCKED, 0⟩ : FutexWord).encode = 0 := by decide
      rw [e]
      show ¬ s.word = 0
      omega
  have hp2 : ((s.set 65536 (.cas ⟨UNLOCKED, 0⟩)).set 65536 .inc).ts[65536]? = some .inc := get_set_self hp1
  have r2 := Run.step r1 (show allowed _ (.run 65536) from trivial) h2
  refine ⟨_, .run 65536, r2, trivial, ?_, ?_⟩
  · have hd2 : decode ((s.set 65536 (.cas ⟨UNLOCKED, 0⟩)).set 65536 .inc).word = ⟨1, 65535⟩ := hdec
    simp only [step, hp2, run, incSleepers]
    rw [hd2]
    rfl
  · show decode (add32 s.word 1) = _
    rw [hw]
    decide

/-! ## Examples -/

/-- Runs a list of actions. -/
def exec (s : St) : List Act → Option St
  | [] => some s
  | a :: as => match step s a with
    | some (.ok s') => exec s' as
    | _ => none

def good (s : St) : List Act → Bool
  | [] => true
  | a :: as => (match a with | .reconnect _ => decide (s.reconnects < s.disconnects) | _ => true) &&
    match step s a with
    | some (.ok s') => good s' as
    | _ => false

theorem exec_run {n : Nat} : ∀ (as : List Act) {s s' : St}, Run n s → good s as = true → exec s as = some s' → Run n s'
  | [], s, s', hr, _, h => by cases h; exact hr
  | a :: as, s, s', hr, hg, h => by
      simp only [exec] at h
      simp only [good, Bool.and_eq_true] at hg
      cases hs : step s a with
      | none => rw [hs] at h; cases h
      | some r =>
        cases r with
        | panic => rw [hs] at h; cases h
        | ok t =>
          rw [hs] at h hg
          refine exec_run as (.step hr ?_ hs) hg.2 h
          cases a with
          | reconnect i => simpa [allowed] using hg.1
          | _ => trivial

/-- Thread 0 locks, threads 1 and 2 go to sleep (the second sees the count change under it), 0 releases the lock. -/
def acts : List Act :=
  [.lock 0, .run 0, .lock 1, .lock 2, .run 1, .run 2, .run 1, .run 2, .run 1, .run 1, .run 1, .run 2, .unlock 0]

def atWake : St := ⟨2, [.wake, .asleep, .asleep], 0, 0, 0⟩

theorem atWake_run : Run 3 atWake := exec_run acts .init (by decide +kernel) (by decide +kernel)

example : Free atWake := ⟨by intro i; match i with | 0 => decide | 1 => decide | 2 => decide | n + 3 => simp [atWake], rfl⟩

example : ∃ i : Nat, atWake.ts[i]? = some .wake ∨ Trying atWake i :=
  C38_wake (by decide) atWake_run ⟨by intro i; match i with | 0 => decide | 1 => decide | 2 => decide | n + 3 => simp [atWake], rfl⟩ (j := 1) (by decide)

example : ∃ s' : St, ∃ i : Nat, Own atWake s' ∧ s'.ts[i]? = some .held :=
  C38_progress (by decide) atWake_run ⟨by intro i; match i with | 0 => decide | 1 => decide | 2 => decide | n + 3 => simp [atWake], rfl⟩ (j := 2) (.inr (by decide))

/-- The woken thread gets the lock; meanwhile the other one is still counted. -/
example : exec atWake [.wake 0 2, .run 2, .run 2] = some ⟨65537, [.idle, .asleep, .held], 0, 0, 0⟩ := by decide +kernel

/-- Thread 0 disconnects, thread 1 goes to sleep, thread 2 reconnects with the count it does not know at first. -/
def acts2 : List Act :=
  [.lock 0, .run 0, .disconnect 0, .lock 1, .run 1, .run 1, .run 1, .reconnect 2]

def atRe : St := ⟨131073, [.idle, .asleep, .recas ⟨2, 0⟩], 1, 1, 0⟩

theorem atRe_run : Run 3 atRe := exec_run acts2 .init (by decide +kernel) (by decide +kernel)

example : atRe.ts[0]? ≠ some .held := C38_disconnected (by decide) atRe_run (by decide) 0

example : ∃ s', Own atRe s' ∧ s'.ts[2]? = some .held ∧ s'.reconnected = atRe.reconnected + 1 := C38_reconnect (by decide) atRe_run (c := ⟨2, 0⟩) (by decide)

example : exec atRe [.run 2, .run 2, .unlock 2, .wake 2 1, .run 1, .run 1] = some ⟨65536, [.idle, .held, .idle], 1, 1, 1⟩ := by decide +kernel

end Shadow.Mutex
