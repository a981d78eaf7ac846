import Verif.Tcp.Scaling

/-!
# C30: both sides agree on window scaling
-/
namespace Shadow.Tcp.ScalingProps

open Shadow.Base Shadow.Tcp

/-- `s` is the smallest shift that brings `w` into 16 bits. -/
def IsLeastShift (w s : Nat) : Prop := w / 2 ^ s ≤ 65535 ∧ ∀ t < s, 65535 < w / 2 ^ t

theorem div_pow_le_iff (w s : Nat) : w / 2 ^ s ≤ 65535 ↔ w < 2 ^ (16 + s) := by
  rw [Nat.le_iff_lt_add_one, Nat.div_lt_iff_lt_mul (Nat.two_pow_pos s), Nat.pow_add]

/-- The shift chosen for a maximum window is the smallest that lets the window be represented in
    the 16-bit field, for every window the protocol can express. -/
theorem C30_shift_least (w : Nat) (h : w ≤ 65535 * 2 ^ 14) :
    IsLeastShift w (WindowScaling.scaleShiftForMaxWindow w) := by
  unfold IsLeastShift WindowScaling.scaleShiftForMaxWindow
  simp only [WindowScaling.maxShift]
  rw [Nat.min_eq_left h]
  by_cases h0 : w = 0
  · rw [if_pos h0]; subst h0; simp
  · rw [if_neg h0]
    have hlt := Nat.lt_log2_self (n := w)
    have hge := Nat.log2_self_le h0
    have h29 : w.log2 < 30 := (Nat.log2_lt h0).2 (by omega)
    have hmin : min (w.log2 - (14 + 1)) 14 = w.log2 - 15 := by omega
    rw [hmin]
    constructor
    · rw [div_pow_le_iff]
      refine Nat.lt_of_lt_of_le hlt ?_
      exact Nat.pow_le_pow_right (by omega) (by omega)
    · intro t ht
      rw [Nat.lt_iff_le_and_not_ge, ← Nat.lt_iff_le_and_not_ge, ← Nat.not_le, div_pow_le_iff, Nat.not_lt]
      exact Nat.le_trans (Nat.pow_le_pow_right (by omega) (by omega)) hge

/-- Larger windows get the protocol's maximum shift. -/
theorem C30_shift_cap (w : Nat) :
    WindowScaling.scaleShiftForMaxWindow w ≤ 14 ∧
    (65535 * 2 ^ 14 ≤ w → WindowScaling.scaleShiftForMaxWindow w = 14) := by
  refine ⟨?_, ?_⟩
  · unfold WindowScaling.scaleShiftForMaxWindow
    simp only [WindowScaling.maxShift]
    split <;> omega
  · intro h
    have e : WindowScaling.scaleShiftForMaxWindow w =
        WindowScaling.scaleShiftForMaxWindow (65535 * 2 ^ 14) := by
      unfold WindowScaling.scaleShiftForMaxWindow
      simp only [WindowScaling.maxShift]
      rw [Nat.min_eq_right h, Nat.min_eq_left (Nat.le_refl _)]
    rw [e]
    decide +kernel

/-! ## The handshake -/

/-- One side of the handshake: its scaling state and the scale option of the SYN it has sent
    (`none`: not sent; `some none`: sent without the option). -/
structure Side where
  ws : WindowScaling
  /-- the receive-buffer capacity from which the offer is computed -/
  cap : Nat
  syn : Option (Option Nat)
deriving Repr, DecidableEq

/-- A side at the start (`enabled`: the configuration asks for scaling). -/
def Side.init (enabled : Bool) (cap : Nat) : Side :=
  ⟨if enabled then WindowScaling.new else { WindowScaling.new with disabled := true }, cap, none⟩

/-- The option `pop_packet` puts into a SYN (connection.rs:326-336). -/
def Side.offer (s : Side) : Option Nat :=
  if s.ws.canSendWindowScale then some (WindowScaling.scaleShiftForMaxWindow s.cap) else none

inductive Act where
  /-- the side sends its SYN -/
  | send
  /-- the side processes the other side's SYN -/
  | recv
deriving Repr, DecidableEq

/-- A step of one side, given the SYN the other side has sent. -/
def Side.step (s other : Side) : Act → R Side
  | .send => do
    let ws ← s.ws.onSentSyn s.offer
    return { s with ws := ws, syn := some s.offer }
  | .recv => do
    let o ← R.unwrap other.syn
    let ws ← s.ws.onReceivedSyn o
    return { s with ws := ws }

/-- The two sides after any sequence of steps that did not fail. -/
inductive Reach (ea eb : Bool) (ca cb : Nat) : Side → Side → Prop
  | init : Reach ea eb ca cb (Side.init ea ca) (Side.init eb cb)
  | left {a b a' : Side} {x : Act} : Reach ea eb ca cb a b → a.step b x = .ok a' → Reach ea eb ca cb a' b
  | right {a b b' : Side} {x : Act} : Reach ea eb ca cb a b → b.step a x = .ok b' → Reach ea eb ca cb a b'

/-- What holds of one side with respect to the other. -/
structure Good (e : Bool) (s o : Side) : Prop where
  dis : s.ws.disabled = !e
  sent : s.ws.sentSyn = s.syn.isSome
  own : s.ws.sentSyn = true → s.syn = some s.ws.recvShiftOpt
  ownN : s.ws.sentSyn = false → s.ws.recvShiftOpt = none
  got : s.ws.receivedSyn = true → o.syn = some s.ws.sendShiftOpt
  gotN : s.ws.receivedSyn = false → s.ws.sendShiftOpt = none
  le : ∀ w, s.ws.recvShiftOpt = some w → w = WindowScaling.scaleShiftForMaxWindow s.cap
  only : e = false → s.ws.recvShiftOpt = none

theorem good_init (e : Bool) (c : Nat) (o : Side) : Good e (Side.init e c) o := by
  cases e <;> constructor <;> simp [Side.init, WindowScaling.new]

theorem step_send {s o s' : Side} (h : s.step o .send = .ok s') :
    s.ws.sentSyn = false ∧
    s' = { s with ws := { s.ws with sentSyn := true, recvShiftOpt := s.offer }, syn := some s.offer } := by
  simp only [Side.step, WindowScaling.onSentSyn, R.bind_eq_ok, R.assert_eq_ok, R.pure_eq, R.ok.injEq] at h
  obtain ⟨ws, ⟨_, h1, _, h2, _, h3, _, h4, rfl⟩, rfl⟩ := h
  refine ⟨by simpa using h1, rfl⟩

theorem step_recv {s o s' : Side} (h : s.step o .recv = .ok s') :
    s.ws.receivedSyn = false ∧ ∃ x, o.syn = some x ∧
    s' = { s with
      ws := { s.ws with
        receivedSyn := true
        sendShiftOpt := x.map (fun w => if w > 14 then 14 else w) } } := by
  simp only [Side.step, WindowScaling.onReceivedSyn, R.bind_eq_ok, R.assert_eq_ok, R.pure_eq, R.ok.injEq] at h
  obtain ⟨x, hx, ws, ⟨_, h1, rfl⟩, rfl⟩ := h
  refine ⟨by simpa using h1, x, ?_, rfl⟩
  cases ho : o.syn with
  | none => rw [ho] at hx; cases hx
  | some y => rw [ho] at hx; cases hx; rfl

theorem offer_le {s : Side} {w : Nat} (h : s.offer = some w) :
    w = WindowScaling.scaleShiftForMaxWindow s.cap := by
  unfold Side.offer at h
  split at h
  · cases h; rfl
  · cases h

theorem clamp {s : Side} {e : Bool} {o : Side} (g : Good e s o) {x : Option Nat} (h : s.syn = some x) :
    x.map (fun w => if w > 14 then 14 else w) = x := by
  cases x with
  | none => rfl
  | some w =>
    have hs : s.ws.sentSyn = true := by rw [g.sent, h]; rfl
    have := g.own hs
    rw [h] at this
    simp only [Option.some.injEq] at this
    have hle := g.le w this.symm
    have := (C30_shift_cap s.cap).1
    simp only [Option.map_some, Option.some.injEq]
    split <;> omega

theorem good_step {ea eb : Bool} {a b a' : Side} {x : Act} (ga : Good ea a b) (gb : Good eb b a)
    (h : a.step b x = .ok a') : Good ea a' b ∧ Good eb b a' := by
  cases x with
  | send =>
    obtain ⟨h1, rfl⟩ := step_send h
    have hn : a.syn = none := by
      have := ga.sent; rw [h1] at this
      cases hs : a.syn with
      | none => rfl
      | some y => rw [hs] at this; cases this
    refine ⟨⟨ga.dis, rfl, fun _ => rfl, (fun hh => by cases hh), ga.got, ga.gotN,
      fun w hw => offer_le hw, ?_⟩, ⟨gb.dis, gb.sent, gb.own, gb.ownN, ?_, gb.gotN, gb.le, gb.only⟩⟩
    · intro he
      have hd := ga.dis
      rw [he] at hd
      simp [Side.offer, WindowScaling.canSendWindowScale, hd]
    · intro hr
      have := gb.got hr
      rw [hn] at this; cases this
  | recv =>
    obtain ⟨h1, y, hy, rfl⟩ := step_recv h
    refine ⟨⟨ga.dis, ga.sent, ga.own, ga.ownN, ?_, (fun hh => by cases hh), ga.le, ga.only⟩,
      ⟨gb.dis, gb.sent, gb.own, gb.ownN, gb.got, gb.gotN, gb.le, gb.only⟩⟩
    intro _
    simp only
    rw [clamp gb hy, hy]

theorem reach_good {ea eb : Bool} {ca cb : Nat} {a b : Side} (h : Reach ea eb ca cb a b) :
    Good ea a b ∧ Good eb b a := by
  induction h with
  | init => exact ⟨good_init _ _ _, good_init _ _ _⟩
  | left _ hs ih => exact good_step ih.1 ih.2 hs
  | right _ hs ih => exact (good_step ih.2 ih.1 hs).symm

/-- A shift that can be read is final: no later step of the side changes it.  (Reading it earlier
    is refused.) -/
theorem C30_final {ea eb : Bool} {ca cb : Nat} {a b a' : Side} {x : Act} (h : Reach ea eb ca cb a b)
    (hs : a.step b x = .ok a') :
    (∀ r, a.ws.recvWindowScaleShift = .ok r → a'.ws.recvWindowScaleShift = .ok r) ∧
    (∀ r, a.ws.sendWindowScaleShift = .ok r → a'.ws.sendWindowScaleShift = .ok r) := by
  obtain ⟨ga, -⟩ := reach_good h
  have hcase : ∀ hc : a.ws.isConfigured = true,
      a'.ws.isConfigured = true ∧ a'.ws.recvShiftRaw = a.ws.recvShiftRaw ∧
        a'.ws.sendShiftRaw = a.ws.sendShiftRaw := by
    intro hc
    simp only [WindowScaling.isConfigured, Bool.or_eq_true, Bool.and_eq_true] at hc
    cases x with
    | send =>
      obtain ⟨h1, rfl⟩ := step_send hs
      rw [h1] at hc
      have hd : a.ws.disabled = true := by simpa using hc
      simp [WindowScaling.isConfigured, WindowScaling.recvShiftRaw, WindowScaling.sendShiftRaw, hd]
    | recv =>
      obtain ⟨h1, y, hy, rfl⟩ := step_recv hs
      rw [h1] at hc
      have hd : a.ws.disabled = true := by simpa using hc
      simp [WindowScaling.isConfigured, WindowScaling.recvShiftRaw, WindowScaling.sendShiftRaw, hd]
  constructor
  · intro r hr
    simp only [WindowScaling.recvWindowScaleShift, R.bind_eq_ok, R.assert_eq_ok, R.pure_eq, R.ok.injEq] at hr ⊢
    obtain ⟨u, hc, rfl⟩ := hr
    obtain ⟨k1, k2, -⟩ := hcase hc
    exact ⟨u, k1, k2⟩
  · intro r hr
    simp only [WindowScaling.sendWindowScaleShift, R.bind_eq_ok, R.assert_eq_ok, R.pure_eq, R.ok.injEq] at hr ⊢
    obtain ⟨u, hc, rfl⟩ := hr
    obtain ⟨k1, -, k3⟩ := hcase hc
    exact ⟨u, k1, k3⟩

/-- The shift a side uses to encode its window is the shift the other side uses to decode it,
    once both have sent and processed a SYN, in every order of these events. -/
theorem C30_agree {ea eb : Bool} {ca cb : Nat} {a b : Side} (h : Reach ea eb ca cb a b)
    (ha : a.ws.sentSyn = true ∧ a.ws.receivedSyn = true)
    (hb : b.ws.sentSyn = true ∧ b.ws.receivedSyn = true) :
    ∃ ra rb, a.ws.recvWindowScaleShift = .ok ra ∧ b.ws.sendWindowScaleShift = .ok ra ∧
      b.ws.recvWindowScaleShift = .ok rb ∧ a.ws.sendWindowScaleShift = .ok rb ∧ ra ≤ 14 ∧ rb ≤ 14 := by
  obtain ⟨ga, gb⟩ := reach_good h
  have e1 : a.ws.recvShiftOpt = b.ws.sendShiftOpt := by
    have := (ga.own ha.1).symm.trans (gb.got hb.2); simpa using this
  have e2 : b.ws.recvShiftOpt = a.ws.sendShiftOpt := by
    have := (gb.own hb.1).symm.trans (ga.got ha.2); simpa using this
  have ca : a.ws.isConfigured = true := by simp [WindowScaling.isConfigured, ha.1, ha.2]
  have cb : b.ws.isConfigured = true := by simp [WindowScaling.isConfigured, hb.1, hb.2]
  refine ⟨a.ws.recvShiftRaw, b.ws.recvShiftRaw, ?_, ?_, ?_, ?_, ?_, ?_⟩
  · simp [WindowScaling.recvWindowScaleShift, ca]
  · simp only [WindowScaling.sendWindowScaleShift, cb, R.assert_true, R.bind_ok, R.pure_eq, R.ok.injEq]
    unfold WindowScaling.sendShiftRaw WindowScaling.recvShiftRaw
    rw [ga.dis, gb.dis, ← e1, ← e2]
    cases ea <;> cases eb
    · simp
    · rw [ga.only rfl]; simp
    · rw [gb.only rfl]; cases a.ws.recvShiftOpt <;> simp
    · cases a.ws.recvShiftOpt <;> cases b.ws.recvShiftOpt <;> simp
  · simp [WindowScaling.recvWindowScaleShift, cb]
  · simp only [WindowScaling.sendWindowScaleShift, ca, R.assert_true, R.bind_ok, R.pure_eq, R.ok.injEq]
    unfold WindowScaling.sendShiftRaw WindowScaling.recvShiftRaw
    rw [ga.dis, gb.dis, ← e1, ← e2]
    cases ea <;> cases eb
    · simp
    · rw [ga.only rfl]; cases b.ws.recvShiftOpt <;> simp
    · rw [gb.only rfl]; simp
    · cases a.ws.recvShiftOpt <;> cases b.ws.recvShiftOpt <;> simp
  · unfold WindowScaling.recvShiftRaw
    split
    · omega
    · split
      · next r _ hr _ => rw [ga.le r hr]; exact (C30_shift_cap _).1
      · omega
  · unfold WindowScaling.recvShiftRaw
    split
    · omega
    · split
      · next r _ hr _ => rw [gb.le r hr]; exact (C30_shift_cap _).1
      · omega

/-- Scaling is in use only if both SYNs carried the option; and if both did, each side's shift is
    the one chosen for its buffer. -/
theorem C30_both_offered {ea eb : Bool} {ca cb : Nat} {a b : Side} (h : Reach ea eb ca cb a b)
    (ha : a.ws.sentSyn = true ∧ a.ws.receivedSyn = true) :
    a.ws.recvWindowScaleShift = .ok
      (match a.syn, b.syn with
        | some (some _), some (some _) => WindowScaling.scaleShiftForMaxWindow a.cap
        | _, _ => 0) ∧
    a.ws.sendWindowScaleShift = .ok
      (match a.syn, b.syn with
        | some (some _), some (some _) => WindowScaling.scaleShiftForMaxWindow b.cap
        | _, _ => 0) := by
  obtain ⟨ga, gb⟩ := reach_good h
  have hs := ga.own ha.1
  have hr := ga.got ha.2
  have hbs : b.ws.sentSyn = true := by rw [gb.sent, hr]; rfl
  have hbo := gb.own hbs
  rw [hr] at hbo
  simp only [Option.some.injEq] at hbo
  have ca : a.ws.isConfigured = true := by simp [WindowScaling.isConfigured, ha.1, ha.2]
  simp only [WindowScaling.recvWindowScaleShift, WindowScaling.sendWindowScaleShift, ca,
    R.assert_true, R.bind_ok, R.pure_eq, R.ok.injEq, WindowScaling.recvShiftRaw,
    WindowScaling.sendShiftRaw]
  rw [hs, hr, ga.dis]
  cases hx : a.ws.recvShiftOpt with
  | none => cases ea <;> cases hy : a.ws.sendShiftOpt <;> simp
  | some x =>
    have hea : ea = true := by
      cases ea with
      | true => rfl
      | false => have := ga.only rfl; rw [hx] at this; cases this
    subst hea
    cases hy : a.ws.sendShiftOpt with
    | none => simp
    | some y =>
      have h1 := ga.le x hx
      have h2 := gb.le y (by rw [← hbo]; exact hy)
      simp [h1, h2]

/-- The handshake never fails an assertion: each side can send its SYN (once) and process the
    other's SYN (once) at any time. -/
theorem C30_no_panic {ea eb : Bool} {ca cb : Nat} {a b : Side} (h : Reach ea eb ca cb a b) :
    (a.ws.sentSyn = false → (a.step b .send).Ok) ∧
    (a.ws.receivedSyn = false → b.syn.isSome = true → (a.step b .recv).Ok) := by
  obtain ⟨ga, gb⟩ := reach_good h
  constructor
  · intro h1
    have ho : a.offer.all (fun w => decide (w ≤ WindowScaling.maxShift)) = true := by
      cases ho : a.offer with
      | none => rfl
      | some w =>
        have := offer_le ho
        have h14 := (C30_shift_cap a.cap).1
        rw [Option.all_some, decide_eq_true_eq]
        show w ≤ 14
        omega
    have hd : (!a.ws.disabled || a.offer.isNone) = true := by
      cases hdis : a.ws.disabled with
      | false => rfl
      | true => simp [Side.offer, WindowScaling.canSendWindowScale, hdis]
    have hr : (!(a.ws.receivedSyn && a.ws.sendShiftOpt.isNone) || a.offer.isNone) = true := by
      cases hrr : (a.ws.receivedSyn && a.ws.sendShiftOpt.isNone) with
      | false => rfl
      | true => simp [Side.offer, WindowScaling.canSendWindowScale, hrr]
    simp only [Side.step, WindowScaling.onSentSyn, h1, Bool.not_false, R.assert_true, R.bind_ok, hd, hr, ho]
    exact ⟨_, rfl⟩
  · intro h1 h2
    obtain ⟨x, hx⟩ := Option.isSome_iff_exists.1 h2
    simp only [Side.step, WindowScaling.onReceivedSyn, h1, hx, Bool.not_false, R.assert_true, R.bind_ok,
      R.unwrap_some]
    exact ⟨_, rfl⟩

/-- What the peer sees of an advertised window: encoding with the receiver's shift and decoding
    with the same shift loses less than one unit, never exceeds the window, and the encoded value
    fits the 16-bit field whenever the window respects `recv_window_max`. -/
theorem C30_roundtrip (s : WindowScaling) (w : Nat) (hw : w ≤ s.recvWindowMax) :
    let enc := w / 2 ^ s.recvShiftRaw
    enc ≤ 65535 ∧ enc * 2 ^ s.recvShiftRaw ≤ w ∧ w < enc * 2 ^ s.recvShiftRaw + 2 ^ s.recvShiftRaw := by
  unfold WindowScaling.recvWindowMax at hw
  have hp := Nat.two_pow_pos s.recvShiftRaw
  refine ⟨?_, Nat.div_mul_le_self _ _, ?_⟩
  · exact Nat.div_le_of_le_mul (by rw [Nat.mul_comm]; exact hw)
  · have := Nat.div_add_mod w (2 ^ s.recvShiftRaw)
    have := Nat.mod_lt w hp
    rw [Nat.mul_comm]
    omega

/-- An option above 14 in a received SYN is taken as 14 (whoever sent it). -/
theorem C30_clamp (s : WindowScaling) (o : Option Nat) (s' : WindowScaling)
    (h : s.onReceivedSyn o = .ok s') :
    s'.sendShiftOpt = o.map (fun w => min w 14) := by
  simp only [WindowScaling.onReceivedSyn, R.bind_eq_ok, R.assert_eq_ok, R.pure_eq, R.ok.injEq,
    WindowScaling.maxShift] at h
  obtain ⟨_, _, rfl⟩ := h
  cases o with
  | none => rfl
  | some w => simp only [Option.map_some, Option.some.injEq]; split <;> omega

/-! Concrete cases: a passive open in which both sides end with shift 1; and with one side
    disabled. -/
def run (a b : Side) : List (Bool × Act) → R (Side × Side)
  | [] => .ok (a, b)
  | (true, x) :: l => do let a' ← a.step b x; run a' b l
  | (false, x) :: l => do let b' ← b.step a x; run a b' l

def view (r : R (Side × Side)) : R (R Nat × R Nat × R Nat × R Nat) := do
  let (a, b) ← r
  return (a.ws.recvWindowScaleShift, b.ws.sendWindowScaleShift, b.ws.recvWindowScaleShift,
    a.ws.sendWindowScaleShift)

example : view (run (Side.init true 100000) (Side.init true 1000000)
    [(true, .send), (false, .recv), (false, .send), (true, .recv)]) =
    .ok (.ok 1, .ok 1, .ok 4, .ok 4) := by decide +kernel
example : view (run (Side.init true 100000) (Side.init true 1000000)
    [(true, .send), (false, .send), (false, .recv), (true, .recv)]) =
    .ok (.ok 1, .ok 1, .ok 4, .ok 4) := by decide +kernel
example : view (run (Side.init true 100000) (Side.init false 1000000)
    [(true, .send), (false, .recv), (false, .send), (true, .recv)]) =
    .ok (.ok 0, .ok 0, .ok 0, .ok 0) := by decide +kernel
example : IsLeastShift 100000 1 := ⟨by decide, fun t ht => by
  have : t = 0 := by omega
  subst this; decide⟩

end Shadow.Tcp.ScalingProps
