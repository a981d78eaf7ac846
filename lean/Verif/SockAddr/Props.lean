import Verif.SockAddr.Model
/-!
# C78: socket addresses cross the border between the program and the simulator unchanged
-/
namespace Shadow.SockAddr

open Shadow.Base
open Shadow.IoVec (Mem Iov load store copyFrom copyTo)

/-! ## The specification -/

/-- The bytes are in memory from `p` on. -/
def Holds (m : Mem Byte) (p : Nat) (bs : List Byte) : Prop := ∀ i, i < bs.length → m (p + i) = bs[i]?

/-- All of these addresses can be accessed. -/
def Mapped (m : Mem Byte) (p n : Nat) : Prop := ∀ i, i < n → m (p + i) ≠ none

/-- A 32-bit number, little-endian. -/
def U32 (m : Mem Byte) (p n : Nat) : Prop := n < 4294967296 ∧ ∀ i, i < 4 → m (p + i) = some (BitVec.ofNat 8 (n / 256 ^ i))

/-- `m'` is `m` with these bytes written from `p` on. -/
def Patched (m m' : Mem Byte) (p : Nat) (bs : List Byte) : Prop := ∀ x, m' x = if p ≤ x ∧ x < p + bs.length then bs[x - p]? else m x

/-- The address that consists of these bytes. -/
def Is (a : Addr) (bs : List Byte) : Prop := Addr.fromBytes bs = some a

/-! ## Lemmas -/

theorem load_some {m : Mem Byte} {p n : Nat} {bs : List Byte} : load m p n = some bs ↔ bs.length = n ∧ Holds m p bs := by
  induction n generalizing p bs with
  | zero =>
    simp only [load, Option.some.injEq]
    constructor
    · rintro rfl; exact ⟨rfl, fun i hi => by cases hi⟩
    · rintro ⟨h, _⟩; exact (List.eq_nil_of_length_eq_zero h).symm
  | succ n ih =>
    simp only [load]
    constructor
    · intro h
      split at h
      · rename_i b cs hb hc
        rw [Option.some.injEq] at h; subst h
        obtain ⟨h1, h2⟩ := ih.mp hc
        refine ⟨by simp [h1], fun i hi => ?_⟩
        cases i with
        | zero => simpa using hb
        | succ i =>
          have := h2 i (by simpa using hi)
          rw [List.getElem?_cons_succ, ← this]
          congr 1; omega
      · cases h
    · rintro ⟨h1, h2⟩
      cases bs with
      | nil => cases h1
      | cons b cs =>
        have hb : m p = some b := by simpa using h2 0 (by simp)
        have hc : load m (p + 1) n = some cs := ih.mpr ⟨by simpa using h1, fun i hi => by
          have := h2 (i + 1) (by simpa using hi)
          rw [List.getElem?_cons_succ] at this
          rw [← this]; congr 1; omega⟩
        rw [hb, hc]

theorem load_isSome {m : Mem Byte} {p n : Nat} : (∃ bs, load m p n = some bs) ↔ Mapped m p n := by
  induction n generalizing p with
  | zero => exact ⟨fun _ i hi => absurd hi (by omega), fun _ => ⟨[], rfl⟩⟩
  | succ n ih =>
    simp only [load]
    constructor
    · rintro ⟨bs, h⟩
      split at h
      · rename_i b cs hb hc
        have := ih.mp ⟨cs, hc⟩
        intro i hi
        cases i with
        | zero => rw [Nat.add_zero, hb]; simp
        | succ i =>
          have := this i (by omega)
          rwa [show p + 1 + i = p + (i + 1) by omega] at this
      · cases h
    · intro h
      have h0 := h 0 (by omega)
      obtain ⟨cs, hc⟩ := ih.mpr fun i hi => by
        have := h (i + 1) (by omega)
        rwa [show p + (i + 1) = p + 1 + i by omega] at this
      rw [Nat.add_zero] at h0
      cases hb : m p with
      | none => exact (h0 hb).elim
      | some b => exact ⟨b :: cs, by rw [hc]⟩

theorem load_none {m : Mem Byte} {p n : Nat} (h : ¬ Mapped m p n) : load m p n = none := by
  cases e : load m p n with
  | none => rfl
  | some bs => exact (h (load_isSome.mp ⟨bs, e⟩)).elim

theorem store_patched (m : Mem Byte) (p : Nat) (bs : List Byte) : Patched m (store m p bs) p bs := by
  induction bs generalizing m p with
  | nil => intro x; rw [if_neg (by simp)]; rfl
  | cons b bs ih =>
    intro x
    have e : store m p (b :: bs) = store (fun y => if y = p then some b else m y) (p + 1) bs := rfl
    rw [e, ih _ _ x]
    simp only [List.length_cons]
    by_cases h1 : p + 1 ≤ x ∧ x < p + 1 + bs.length
    · rw [if_pos h1, if_pos (by omega), show x - p = (x - (p + 1)) + 1 by omega, List.getElem?_cons_succ]
    · rw [if_neg h1]
      by_cases h2 : x = p
      · subst h2
        rw [if_pos rfl, if_pos (by omega)]; simp
      · rw [if_neg h2, if_neg (by omega)]

theorem copyTo_ok {m : Mem Byte} {p n : Nat} {bs : List Byte} (hl : bs.length = n) (h : Mapped m p n) :
    ∃ m', copyTo m ⟨p, n⟩ bs = .ok (some m') ∧ Patched m m' p bs := by
  obtain ⟨cs, hc⟩ := load_isSome.mpr h
  exact ⟨store m p bs, by simp [copyTo, hl, hc], store_patched m p bs⟩

theorem copyTo_fail {m : Mem Byte} {p n : Nat} {bs : List Byte} (hl : bs.length = n) (h : ¬ Mapped m p n) : copyTo m ⟨p, n⟩ bs = .ok none := by
  simp [copyTo, hl, load_none h]

theorem le_length (n k : Nat) : (le n k).length = k := by
  induction k generalizing n with
  | zero => rfl
  | succ k ih => simp [le, ih]

theorem ofLe_le (n k : Nat) : ofLe (le n k) = n % 256 ^ k := by
  induction k generalizing n with
  | zero => simp [le, ofLe, Nat.mod_one]
  | succ k ih =>
    have e : ofLe (le n (k + 1)) = n % 256 + 256 * ofLe (le (n / 256) k) := by simp [le, ofLe]
    rw [e, ih, Nat.pow_succ, Nat.mul_comm (256 ^ k), Nat.mod_mul]

theorem le_get (n k i : Nat) (h : i < k) : (le n k)[i]? = some (BitVec.ofNat 8 (n / 256 ^ i)) := by
  induction k generalizing n i with
  | zero => cases h
  | succ k ih =>
    cases i with
    | zero => simp [le]
    | succ i =>
      have e : le n (k + 1) = BitVec.ofNat 8 n :: le (n / 256) k := rfl
      rw [e, List.getElem?_cons_succ, ih _ _ (by omega), Nat.div_div_eq_div_mul, Nat.pow_succ, Nat.mul_comm]

theorem U32.load {m : Mem Byte} {p n : Nat} (h : U32 m p n) : load m p 4 = some (le n 4) :=
  load_some.mpr ⟨le_length _ _, fun i hi => by rw [le_length] at hi; rw [h.2 i hi, le_get n 4 i hi]⟩

theorem le_ofLe (bs : List Byte) : le (ofLe bs) bs.length = bs := by
  induction bs with
  | nil => rfl
  | cons b bs ih =>
    have e : le (ofLe (b :: bs)) (b :: bs).length = BitVec.ofNat 8 (ofLe (b :: bs)) :: le (ofLe (b :: bs) / 256) bs.length := rfl
    have hb := b.isLt
    have h1 : ofLe (b :: bs) / 256 = ofLe bs := by simp only [ofLe]; omega
    rw [e, h1, ih]
    congr 1
    apply BitVec.eq_of_toNat_eq
    simp only [BitVec.toNat_ofNat, ofLe]; omega

/-- Any four bytes are a number. -/
theorem u32_exists {m : Mem Byte} {p : Nat} (h : Mapped m p 4) : ∃ n, U32 m p n := by
  obtain ⟨bs, hb⟩ := load_isSome.mpr h
  obtain ⟨h1, h2⟩ := load_some.mp hb
  refine ⟨ofLe bs, ?_, fun i hi => ?_⟩
  · have := ofLe_le (ofLe bs) 4
    rw [← h1, le_ofLe, h1] at this
    rw [this]; exact Nat.mod_lt _ (by decide)
  · have := le_get (ofLe bs) 4 i hi
    rw [← h1, le_ofLe] at this
    rw [h2 i (by omega), this]

theorem U32.mapped {m : Mem Byte} {p n : Nat} (h : U32 m p n) : Mapped m p 4 := fun i hi => by rw [h.2 i hi]; simp

theorem Is.length {a : Addr} {bs : List Byte} (h : Is a bs) : bs.length ≤ 128 ∧ a.len = bs.length ∧ a.slice = bs ++ List.replicate (128 - bs.length) 0 := by
  unfold Is Addr.fromBytes storageLen at h
  split at h
  · cases h
  · rw [Option.some.injEq] at h; subst h
    exact ⟨by omega, rfl, rfl⟩

theorem Is.bytes {a : Addr} {bs : List Byte} (h : Is a bs) : a.bytes = bs := by
  obtain ⟨_, h2, h3⟩ := h.length
  unfold Addr.bytes
  rw [h3, h2, List.take_left]

theorem is_of {bs : List Byte} (h : bs.length ≤ 128) : ∃ a, Is a bs := by
  unfold Is Addr.fromBytes storageLen
  rw [if_neg (by omega)]
  exact ⟨_, rfl⟩

theorem Is.take {a : Addr} {bs : List Byte} (h : Is a bs) {n : Nat} (hn : n ≤ bs.length) : a.slice.take n = bs.take n := by
  rw [h.length.2.2, List.take_append_of_le_length hn]

theorem writeLen_spec {m : Mem Byte} {p : Nat} (n : Nat) (h : Mapped m p 4) :
    ∃ m', writeLen m p n = .ok (some m') ∧ Patched m m' p (le n 4) := copyTo_ok (le_length n 4) h

theorem Patched.mapped {m m' : Mem Byte} {p : Nat} {bs : List Byte} (h : Patched m m' p bs) (hm : Mapped m p bs.length) (q n : Nat) :
    Mapped m' q n ↔ Mapped m q n := by
  unfold Mapped
  have : ∀ x, m' x = none ↔ m x = none := by
    intro x
    rw [h x]
    split
    · rename_i hx
      have h1 := hm (x - p) (by omega)
      rw [show p + (x - p) = x by omega] at h1
      have h2 : x - p < bs.length := by omega
      simp [h1, h2]
    · rfl
  constructor <;> intro g i hi
  · exact fun c => g i hi ((this _).mpr c)
  · exact fun c => g i hi ((this _).mp c)

theorem writeBytes_spec {m : Mem Byte} {a : Addr} {bs : List Byte} (h : Is a bs) (ptr room : Nat) :
    (Mapped m ptr (min bs.length room) → ∃ m', writeBytes m a ptr room = .ok (m', .ok ()) ∧ Patched m m' ptr (bs.take room)) ∧
    (¬ Mapped m ptr (min bs.length room) → writeBytes m a ptr room = .ok (m, .err 14)) := by
  unfold writeBytes
  by_cases h0 : room = 0
  · subst h0
    rw [if_pos rfl, Nat.min_zero]
    refine ⟨fun _ => ⟨m, rfl, fun x => ?_⟩, fun c => (c fun i hi => by cases hi).elim⟩
    rw [if_neg (by simp)]
  · rw [if_neg h0]
    simp only [h.bytes]
    have e : bs.take (min bs.length room) = bs.take room := by
      by_cases c : bs.length ≤ room
      · rw [Nat.min_eq_left c, List.take_of_length_le (Nat.le_refl _), List.take_of_length_le c]
      · rw [Nat.min_eq_right (by omega)]
    have hl : (bs.take room).length = min bs.length room := by rw [List.length_take, Nat.min_comm]
    have hassert : decide (min bs.length room ≤ bs.length) = true := decide_eq_true (Nat.min_le_left _ _)
    rw [hassert, R.assert_true, R.bind_ok, e]
    refine ⟨fun hm => ?_, fun hm => ?_⟩
    · obtain ⟨m', h1, h2⟩ := copyTo_ok hl hm
      exact ⟨m', by rw [h1]; rfl, h2⟩
    · rw [copyTo_fail hl hm]; rfl

/-! ## Theorems -/

/-- An address is its bytes: any up to 128 bytes, each sequence another address. -/
theorem C78_bytes : (∀ bs : List Byte, (∃ a, Is a bs) ↔ bs.length ≤ 128) ∧ (∀ a bs, Is a bs → a.bytes = bs ∧ ∀ cs, Is a cs → cs = bs) ∧
    (∀ a b bs, Is a bs → Is b bs → a = b) :=
  ⟨fun _ => ⟨fun ⟨_, h⟩ => h.length.1, is_of⟩, fun _ _ h => ⟨h.bytes, fun _ g => by rw [← g.bytes, h.bytes]⟩,
    fun a b bs h g => by unfold Is at h g; rw [h, Option.some.injEq] at g; exact g⟩

/-- Writing an address and its length: the length that the program gave is replaced by that of the address, and at most as many bytes of the address as the program
has room for are written.  Without access to the length nothing is written; without access to the room only the length is. -/
theorem C78_write {a : Addr} {bs : List Byte} (h : Is a bs) (m : Mem Byte) (ptr lp : Nat) :
    (¬ Mapped m lp 4 → writeAddrLen m (some a) ptr lp = .ok (m, .err 14)) ∧
    (∀ room, U32 m lp room → ∃ m1, Patched m m1 lp (le bs.length 4) ∧ U32 m1 lp bs.length ∧
      (Mapped m ptr (min bs.length room) → ∃ m', writeAddrLen m (some a) ptr lp = .ok (m', .ok ()) ∧ Patched m1 m' ptr (bs.take room)) ∧
      (¬ Mapped m ptr (min bs.length room) → writeAddrLen m (some a) ptr lp = .ok (m1, .err 14))) := by
  unfold writeAddrLen
  simp only
  refine ⟨fun hm => by rw [load_none hm]; rfl, fun room hr => ?_⟩
  rw [hr.load]
  obtain ⟨m1, h1, h2⟩ := writeLen_spec bs.length hr.mapped
  have hroom : ofLe (le room 4) = room := by
    rw [ofLe_le]; exact Nat.mod_eq_of_lt hr.1
  have hm : Mapped m lp (le bs.length 4).length := by rw [le_length]; exact hr.mapped
  have hu : U32 m1 lp bs.length := by
    refine ⟨by have := h.length.1; omega, fun i hi => ?_⟩
    rw [h2 (lp + i), le_length, if_pos (by omega), show lp + i - lp = i by omega, le_get _ _ _ hi]
  refine ⟨m1, h2, hu, ?_⟩
  have := writeBytes_spec (m := m1) h ptr room
  rw [h2.mapped hm] at this
  rw [h.bytes, h1]
  simp only [R.bind_ok, hroom]
  exact this

/-- Without an address the length becomes zero, and nothing else is written. -/
theorem C78_write_none (m : Mem Byte) (ptr lp : Nat) :
    (¬ Mapped m lp 4 → writeAddrLen m none ptr lp = .ok (m, .err 14)) ∧
    (Mapped m lp 4 → ∃ m', writeAddrLen m none ptr lp = .ok (m', .ok ()) ∧ Patched m m' lp [0, 0, 0, 0]) := by
  unfold writeAddrLen writeLen
  simp only
  refine ⟨fun hm => by rw [copyTo_fail (le_length 0 4) hm]; rfl, fun hm => ?_⟩
  obtain ⟨m', h1, h2⟩ := copyTo_ok (le_length 0 4) hm
  exact ⟨m', by rw [h1]; rfl, h2⟩

/-- `recvmsg`: as much as there is room for is written, and the full length is returned. -/
theorem C78_write_msg {a : Addr} {bs : List Byte} (h : Is a bs) (m : Mem Byte) (ptr room : Nat) :
    (Mapped m ptr (min bs.length room) → ∃ m', writeAddr m a ptr room = .ok (m', .ok bs.length) ∧ Patched m m' ptr (bs.take room)) ∧
    (¬ Mapped m ptr (min bs.length room) → writeAddr m a ptr room = .ok (m, .err 14)) := by
  have := writeBytes_spec (m := m) h ptr room
  unfold writeAddr
  refine ⟨fun hm => ?_, fun hm => by rw [this.2 hm]; rfl⟩
  obtain ⟨m', h1, h2⟩ := this.1 hm
  exact ⟨m', by rw [h1]; simp only [R.bind_ok, h.bytes], h2⟩

/-- Reading an address: the bytes that are there. -/
theorem C78_read (m : Mem Byte) (ptr len : Nat) :
    (ptr = 0 → readAddr m ptr len = .ok (.ok none)) ∧
    (ptr ≠ 0 → 128 < len → readAddr m ptr len = .ok (.err 22)) ∧
    (ptr ≠ 0 → len ≤ 128 → ¬ Mapped m ptr len → readAddr m ptr len = .ok (.err 14)) ∧
    (ptr ≠ 0 → ∀ bs, bs.length = len → len ≤ 128 → Holds m ptr bs → ∃ a, readAddr m ptr len = .ok (.ok (some a)) ∧ Is a bs) := by
  unfold readAddr storageLen
  refine ⟨fun h => by rw [if_pos h], fun h h1 => by rw [if_neg h, if_pos h1]; rfl, fun h h1 h2 => ?_, fun h bs hl h1 hb => ?_⟩
  · rw [if_neg h, if_neg (by omega)]
    simp [copyFrom, load_none h2, EFAULT]
  · rw [if_neg h, if_neg (by omega)]
    obtain ⟨a, ha⟩ := is_of (bs := bs) (by omega)
    refine ⟨a, ?_, ha⟩
    unfold Is at ha
    simp [copyFrom, load_some.mpr ⟨hl, hb⟩, ha]

/-- What was written with enough room is read back. -/
theorem C78_roundtrip {a : Addr} {bs : List Byte} (h : Is a bs) {m : Mem Byte} {ptr lp room : Nat} (hp : ptr ≠ 0) (hr : U32 m lp room) (hroom : bs.length ≤ room)
    (hm : Mapped m ptr bs.length) (hd : lp + 4 ≤ ptr ∨ ptr + bs.length ≤ lp) :
    ∃ m', writeAddrLen m (some a) ptr lp = .ok (m', .ok ()) ∧ U32 m' lp bs.length ∧ readAddr m' ptr bs.length = .ok (.ok (some a)) := by
  obtain ⟨m1, h1, h2, h3, _⟩ := (C78_write h m ptr lp).2 room hr
  rw [Nat.min_eq_left hroom, List.take_of_length_le hroom] at h3
  obtain ⟨m', h4, h5⟩ := h3 hm
  refine ⟨m', h4, ⟨h2.1, fun i hi => ?_⟩, ?_⟩
  · rw [h5 (lp + i), if_neg (by omega)]; exact h2.2 i hi
  · obtain ⟨b, hb1, hb2⟩ := (C78_read m' ptr bs.length).2.2.2 hp bs rfl h.length.1 (fun i hi => by
      rw [h5 (ptr + i), if_pos (by omega), show ptr + i - ptr = i by omega])
    rw [hb1, C78_bytes.2.2 b a bs hb2 h]

theorem asFixed_spec {a : Addr} {bs : List Byte} (h : Is a bs) {size fam : Nat} (hs : 2 ≤ size) (hf : fam < 65536) (s : List Byte) :
    a.asFixed size fam = some s ↔ s.length = size ∧ ∃ rest, bs = s ++ rest ∧ s.take 2 = le fam 2 := by
  unfold Addr.asFixed Addr.family
  obtain ⟨l1, l2, l3⟩ := h.length
  rw [l2]
  by_cases c : bs.length < size
  · rw [if_pos c]
    simp only [reduceCtorEq, false_iff]
    rintro ⟨h1, rest, rfl, _⟩
    simp at c; omega
  · rw [if_neg c, if_neg (show ¬ bs.length < 2 by omega), h.take (by omega), h.take (by omega)]
    have hlen : (bs.take 2).length = 2 := by simp; omega
    have key : ofLe (bs.take 2) = fam ↔ bs.take 2 = le fam 2 := by
      constructor
      · rintro rfl
        have := le_ofLe (bs.take 2)
        rw [hlen] at this
        exact this.symm
      · intro e
        rw [e, ofLe_le]
        exact Nat.mod_eq_of_lt (by omega)
    by_cases f : ofLe (bs.take 2) = fam
    · rw [if_neg (by simp [f])]
      have f' := key.mp f
      simp only [Option.some.injEq]
      constructor
      · rintro rfl
        exact ⟨by simp; omega, bs.drop size, (List.take_append_drop _ _).symm, by rw [List.take_take, Nat.min_eq_left hs, f']⟩
      · rintro ⟨rfl, rest, rfl, _⟩
        rw [List.take_left]
    · rw [if_pos (by simpa using f)]
      simp only [reduceCtorEq, false_iff]
      rintro ⟨rfl, rest, rfl, h3⟩
      rw [List.take_append_of_le_length hs] at key
      rw [List.take_append_of_le_length hs] at f
      exact f (key.mpr h3)

theorem asInet_spec {a : Addr} {bs : List Byte} (h : Is a bs) (v : V4) :
    a.asInet = some v ↔ ∃ p1 p0 i3 i2 i1 i0 rest, bs = 2#8 :: 0#8 :: p1 :: p0 :: i3 :: i2 :: i1 :: i0 :: rest ∧ 8 ≤ rest.length ∧
      v.port = 256 * p1.toNat + p0.toNat ∧ v.ip = 16777216 * i3.toNat + 65536 * i2.toNat + 256 * i1.toNat + i0.toNat := by
  unfold Addr.asInet
  rw [Option.map_eq_some_iff]
  constructor
  · rintro ⟨s, h1, rfl⟩
    obtain ⟨h2, rest, rfl, h3⟩ := (asFixed_spec h (by omega) (by decide) s).mp h1
    match s, h2, h3 with
    | [b0, b1, p1, p0, i3, i2, i1, i0, z0, z1, z2, z3, z4, z5, z6, z7], _, h3 =>
      simp only [List.take_succ_cons, List.take_zero, le, AF_INET, List.cons.injEq, and_true] at h3
      refine ⟨p1, p0, i3, i2, i1, i0, [z0, z1, z2, z3, z4, z5, z6, z7] ++ rest, ?_, by simp, ?_, ?_⟩
      · rw [h3.1, h3.2]; rfl
      · simp [ofBe, ofLe]; omega
      · simp [ofBe, ofLe]; omega
  · rintro ⟨p1, p0, i3, i2, i1, i0, rest, rfl, h2, h3, h4⟩
    refine ⟨2#8 :: 0#8 :: p1 :: p0 :: i3 :: i2 :: i1 :: i0 :: rest.take 8, (asFixed_spec h (by omega) (by decide) _).mpr ⟨by simp; omega, rest.drop 8, by simp, by rfl⟩, ?_⟩
    cases v
    simp only at h3 h4
    subst h3; subst h4
    simp only [V4.mk.injEq]
    constructor
    · simp [ofBe, ofLe]; omega
    · simp [ofBe, ofLe]; omega

/-- IPv4: what the bytes stand for, what is written for an address, and the errors of `bind`. -/
theorem C78_inet :
    (∀ a bs v, Is a bs → (a.asInet = some v ↔ ∃ p1 p0 i3 i2 i1 i0 rest, bs = 2#8 :: 0#8 :: p1 :: p0 :: i3 :: i2 :: i1 :: i0 :: rest ∧ 8 ≤ rest.length ∧
      v.port = 256 * p1.toNat + p0.toNat ∧ v.ip = 16777216 * i3.toNat + 65536 * i2.toNat + 256 * i1.toNat + i0.toNat)) ∧
    (∀ v : V4, v.port < 65536 → v.ip < 4294967296 → ∃ a bs, fromInet v = .ok a ∧ Is a bs ∧ bs.length = 16 ∧ bs.drop 8 = List.replicate 8 0 ∧ a.asInet = some v) ∧
    (∀ v, bindInet none ≠ .ok v) ∧ bindInet none = .err 14 ∧
    (∀ a v, bindInet (some a) = .ok v ↔ a.asInet = some v) ∧ (∀ a, a.asInet = none → bindInet (some a) = .err 22) := by
  refine ⟨fun a bs v h => asInet_spec h v, fun v hp hi => ?_, fun v => by simp [bindInet], rfl, fun a v => ?_, fun a h => by simp [bindInet, h, EINVAL]⟩
  · have e : le AF_INET 2 ++ be v.port 2 ++ be v.ip 4 ++ List.replicate 8 0 = 2#8 :: 0#8 :: BitVec.ofNat 8 (v.port / 256) :: BitVec.ofNat 8 v.port ::
      BitVec.ofNat 8 (v.ip / 256 / 256 / 256) :: BitVec.ofNat 8 (v.ip / 256 / 256) :: BitVec.ofNat 8 (v.ip / 256) :: BitVec.ofNat 8 v.ip :: List.replicate 8 0 := by
      simp [le, be, AF_INET]
    unfold fromInet
    rw [e]
    obtain ⟨a, ha⟩ := is_of (bs := 2#8 :: 0#8 :: BitVec.ofNat 8 (v.port / 256) :: BitVec.ofNat 8 v.port ::
      BitVec.ofNat 8 (v.ip / 256 / 256 / 256) :: BitVec.ofNat 8 (v.ip / 256 / 256) :: BitVec.ofNat 8 (v.ip / 256) :: BitVec.ofNat 8 v.ip :: List.replicate 8 0) (by simp)
    have ha' := ha
    unfold Is at ha'
    rw [ha']
    refine ⟨a, _, rfl, ha, by simp, by simp, (asInet_spec ha v).mpr ⟨_, _, _, _, _, _, _, rfl, by simp, ?_, ?_⟩⟩
    · simp only [BitVec.toNat_ofNat]; omega
    · simp only [BitVec.toNat_ofNat]; omega
  · unfold bindInet
    cases h : a.asInet <;> simp only [h] <;> simp

theorem asUnix_spec {a : Addr} {bs : List Byte} (h : Is a bs) (u : Un) :
    a.asUnix = some u ↔ bs.length ≤ 110 ∧ ∃ p, bs = 1#8 :: 0#8 :: p ∧ u = ⟨1, p ++ List.replicate (108 - p.length) 0, bs.length⟩ := by
  obtain ⟨l1, l2, l3⟩ := h.length
  unfold Addr.asUnix Addr.family Un.new unLen AF_UNIX
  rw [l2]
  by_cases c : bs.length < 2
  · rw [if_pos c]
    simp only [reduceCtorEq, ne_eq, not_false_eq_true, if_true, false_iff]
    rintro ⟨_, p, rfl, _⟩
    simp only [List.length_cons] at c; omega
  · rw [if_neg c, if_neg c, h.take (by omega)]
    match bs, h, c with
    | [], _, c => simp at c
    | [_], _, c => simp at c
    | b0 :: b1 :: p, h, c =>
      have hslice : ((a.slice.drop 2).take 108) = (p ++ List.replicate (128 - (p.length + 2)) 0).take 108 := by
        rw [l3]; rfl
      have e : ofLe ((b0 :: b1 :: p).take 2) = b0.toNat + 256 * b1.toNat := by simp [ofLe]
      rw [e, hslice]
      have hb0 := b0.isLt
      have hb1 := b1.isLt
      by_cases f : b0.toNat + 256 * b1.toNat = 1
      · have f0 : b0 = 1#8 := BitVec.eq_of_toNat_eq (by simp; omega)
        have f1 : b1 = 0#8 := BitVec.eq_of_toNat_eq (by simp; omega)
        subst f0; subst f1
        rw [if_neg (by simp)]
        by_cases g : (1#8 :: 0#8 :: p).length > 110
        · rw [if_pos g]
          simp only [reduceCtorEq, false_iff]
          rintro ⟨h1, _⟩; omega
        · rw [if_neg g, if_neg (by simp)]
          have hp : p.length ≤ 108 := by simp at g; omega
          have ht : (p ++ List.replicate (128 - (p.length + 2)) (0 : Byte)).take 108 = p ++ List.replicate (108 - p.length) 0 := by
            rw [List.take_append, List.take_of_length_le hp, List.take_replicate]
            congr 2; omega
          rw [ht, Option.some.injEq]
          constructor
          · rintro rfl; exact ⟨by omega, p, rfl, by simp⟩
          · rintro ⟨_, q, hq, rfl⟩
            simp only [List.cons.injEq, true_and] at hq
            subst hq; simp
      · rw [if_pos (by simpa using f)]
        simp only [reduceCtorEq, false_iff]
        rintro ⟨_, q, hq, _⟩
        simp only [List.cons.injEq] at hq
        apply f
        rw [hq.1, hq.2.1]; rfl

theorem sunPath_spec {p : List Byte} (hp : p.length ≤ 108) : (⟨1, p ++ List.replicate (108 - p.length) 0, p.length + 2⟩ : Un).sunPath = .ok (some p) := by
  unfold Un.sunPath
  simp only
  rw [if_neg (by omega), show p.length + 2 - 2 = p.length by omega, decide_eq_true (by simp), R.assert_true, R.bind_ok, List.take_left]

theorem asAbstract_spec {p : List Byte} (hp : p.length ≤ 108) :
    (⟨1, p ++ List.replicate (108 - p.length) 0, p.length + 2⟩ : Un).asAbstract = .ok (match p with | [] => none | b :: n => if b = 0 then some n else none) := by
  unfold Un.asAbstract
  rw [sunPath_spec hp, R.bind_ok]
  cases p with
  | nil => rfl
  | cons b n =>
    simp only
    by_cases h : b = 0
    · rw [if_neg (not_not_intro h), if_pos h]
    · rw [if_pos h, if_neg h]

theorem fromUnix_spec {p : List Byte} (hp : p.length ≤ 108) : ∃ a, fromUnix ⟨1, p ++ List.replicate (108 - p.length) 0, p.length + 2⟩ = .ok a ∧ Is a (1#8 :: 0#8 :: p) := by
  unfold fromUnix
  have e : (le 1 2 ++ (p ++ List.replicate (108 - p.length) 0)).take (p.length + 2) = 1#8 :: 0#8 :: p := by
    have : le 1 2 = [1#8, 0#8] := rfl
    rw [this]
    simp
  rw [e]
  obtain ⟨a, ha⟩ := is_of (bs := 1#8 :: 0#8 :: p) (by simp; omega)
  have ha' := ha
  unfold Is at ha'
  exact ⟨a, by rw [ha']; rfl, ha⟩

/-- Unix sockets: the name that `bind` uses, that other sockets look up, and that `getsockname` returns. -/
theorem C78_unix {a : Addr} {bs : List Byte} (h : Is a bs) (auto : List Byte) (hauto : auto.length ≤ 107) :
    (∀ n, bindName (some a) = .ok (.abstract n) ↔ bs = 1#8 :: 0#8 :: 0#8 :: n ∧ n.length ≤ 107) ∧
    (bindName (some a) = .ok .auto ↔ bs = [1#8, 0#8]) ∧
    (bindName (some a) = .ok (.err 95) ↔ ∃ c p, bs = 1#8 :: 0#8 :: c :: p ∧ c ≠ 0 ∧ p.length ≤ 107) ∧
    (bindName (some a) = .ok (.err 22) ↔ bs.length < 2 ∨ bs.take 2 ≠ [1#8, 0#8] ∨ 110 < bs.length) ∧
    (∀ n, lookupName a = .ok (.abstract n) ↔ bindName (some a) = .ok (.abstract n)) ∧
    (bindName (some a) = .ok .auto ∨ bindName (some a) = .ok (.err 95) → lookupName a = .ok (.err 2)) ∧
    (bindName (some a) = .ok (.err 22) → lookupName a = .ok (.err 22)) ∧
    (∀ n, bindName (some a) = .ok (.abstract n) → boundAddr a auto = .ok (some a)) ∧
    (bindName (some a) = .ok .auto → ∃ b, boundAddr a auto = .ok (some b) ∧ bindName (some b) = .ok (.abstract auto)) ∧ bindName none = .ok (.err 22) := by
  have names : ∀ (a : Addr) (bs : List Byte), Is a bs → (∃ p, bs = 1#8 :: 0#8 :: p ∧ p.length ≤ 108 ∧ a.asUnix = some ⟨1, p ++ List.replicate (108 - p.length) 0, p.length + 2⟩) ∨
      (a.asUnix = none ∧ ¬ ∃ p, bs = 1#8 :: 0#8 :: p ∧ p.length ≤ 108) := by
    intro a bs h
    cases e : a.asUnix with
    | none =>
      refine .inr ⟨rfl, ?_⟩
      rintro ⟨p, rfl, hp⟩
      have := (asUnix_spec h ⟨1, p ++ List.replicate (108 - p.length) 0, (1#8 :: 0#8 :: p).length⟩).mpr ⟨by simp; omega, p, rfl, rfl⟩
      rw [e] at this; cases this
    | some u =>
      obtain ⟨h1, p, rfl, rfl⟩ := (asUnix_spec h u).mp e
      exact .inl ⟨p, rfl, by simp at h1; omega, rfl⟩
  have bindOf : ∀ (a : Addr) (p : List Byte), p.length ≤ 108 → a.asUnix = some ⟨1, p ++ List.replicate (108 - p.length) 0, p.length + 2⟩ →
      bindName (some a) = .ok (match p with | [] => .auto | b :: n => if b = 0 then .abstract n else .err 95) := by
    intro a p hp e
    unfold bindName
    simp only [Option.bind_some, e, asAbstract_spec hp, R.bind_ok]
    cases p with
    | nil => rfl
    | cons b n =>
      simp only
      by_cases hb : b = 0
      · rw [if_pos hb, if_pos hb]
      · rw [if_neg hb, if_neg hb]; simp [Un.isUnnamed, ENOTSUP]
  have lookOf : ∀ (a : Addr) (p : List Byte), p.length ≤ 108 → a.asUnix = some ⟨1, p ++ List.replicate (108 - p.length) 0, p.length + 2⟩ →
      lookupName a = .ok (match p with | [] => .err 2 | b :: n => if b = 0 then .abstract n else .err 2) := by
    intro a p hp e
    unfold lookupName
    simp only [e, asAbstract_spec hp, R.bind_ok]
    cases p with
    | nil => rfl
    | cons b n =>
      simp only
      by_cases hb : b = 0
      · rw [if_pos hb, if_pos hb]
      · rw [if_neg hb, if_neg hb]; rfl
  rcases names a bs h with ⟨p, rfl, hp, e⟩ | ⟨e, hno⟩
  · have hb := bindOf a p hp e
    have hl := lookOf a p hp e
    cases p with
    | nil =>
      simp only at hb hl
      refine ⟨fun n => by rw [hb]; simp, by rw [hb]; simp, by rw [hb]; simp, by rw [hb]; simp, fun n => by rw [hb, hl]; simp, fun _ => hl, by rw [hb]; simp, fun n => by rw [hb]; simp, fun _ => ?_, rfl⟩
      obtain ⟨b, hb1, hb2⟩ := fromUnix_spec (p := 0 :: auto) (by simp; omega)
      refine ⟨b, ?_, ?_⟩
      · unfold boundAddr
        have ea := asAbstract_spec hp
        simp only [List.length_nil] at ea
        simp only [e, ea, R.bind_ok, Un.isUnnamed, List.length_nil, Un.newAbstract]
        have c : ¬ auto.length + 1 > 108 := by omega
        simp only [if_neg c]
        have e3 : 2 + 1 + auto.length = (0 :: auto : List Byte).length + 2 := by simp; omega
        have e4 : 107 - auto.length = 108 - (0 :: auto : List Byte).length := by simp
        simp only [AF_UNIX, e3, e4, R.unwrap_some, R.bind_ok, hb1, if_true, beq_self_eq_true]
      · rcases names b _ hb2 with ⟨q, hq, hq2, hq3⟩ | ⟨_, c⟩
        · simp only [List.cons.injEq, true_and] at hq
          subst hq
          rw [bindOf b _ hq2 hq3]; rfl
        · exact (c ⟨0 :: auto, rfl, by simp; omega⟩).elim
    | cons c n =>
      simp only at hb hl
      simp only [List.length_cons] at hp
      by_cases h0 : c = 0
      · subst h0
        rw [if_pos rfl] at hb hl
        refine ⟨fun n' => ?_, by rw [hb]; simp, ?_, ?_, fun n' => by rw [hb, hl], by rw [hb]; simp, by rw [hb]; simp, fun n' _ => ?_, by rw [hb]; simp, rfl⟩
        · rw [hb]; simp only [R.ok.injEq, Name.abstract.injEq, List.cons.injEq, true_and]
          constructor
          · rintro rfl; exact ⟨⟨rfl, rfl⟩, by omega⟩
          · rintro ⟨⟨_, h2⟩, _⟩; exact h2
        · rw [hb]; simp only [R.ok.injEq, reduceCtorEq, List.cons.injEq, true_and, false_iff]
          rintro ⟨c, p, ⟨rfl, _⟩, h2, _⟩; exact h2 rfl
        · rw [hb]; simp; omega
        · obtain ⟨b, hb1, hb2⟩ := fromUnix_spec (p := 0 :: n) (by simp; omega)
          unfold boundAddr
          simp only [e, asAbstract_spec (p := 0 :: n) (by simp; omega), R.bind_ok, if_true]
          simp only [hb1, R.bind_ok]
          rw [C78_bytes.2.2 b a _ hb2 h]
      · rw [if_neg h0] at hb hl
        refine ⟨fun n' => ?_, by rw [hb]; simp, ?_, ?_, fun n' => by rw [hb, hl]; simp, fun _ => hl, by rw [hb]; simp, fun n' => by rw [hb]; simp, by rw [hb]; simp, rfl⟩
        · rw [hb]; simp only [R.ok.injEq, reduceCtorEq, List.cons.injEq, true_and, false_iff]
          rintro ⟨⟨h1, _⟩, _⟩; exact h0 h1
        · rw [hb]; simp only [true_iff]; exact ⟨c, n, rfl, h0, by omega⟩
        · rw [hb]; simp; omega
  · have hb : bindName (some a) = .ok (.err 22) := by simp [bindName, e, EINVAL]
    have hl : lookupName a = .ok (.err 22) := by simp [lookupName, e, EINVAL]
    rw [hb, hl]
    refine ⟨fun n => ?_, ?_, ?_, ?_, fun n => Iff.rfl, by simp, fun _ => rfl, fun n => by simp, by simp, rfl⟩
    · simp only [R.ok.injEq, reduceCtorEq, false_iff]
      rintro ⟨rfl, h1⟩; exact hno ⟨0 :: n, rfl, by simp; omega⟩
    · simp only [R.ok.injEq, reduceCtorEq, false_iff]
      rintro rfl; exact hno ⟨[], rfl, by simp⟩
    · simp only [R.ok.injEq, Name.err.injEq, Nat.reduceEqDiff, false_iff]
      rintro ⟨c, p, rfl, _, h1⟩; exact hno ⟨c :: p, rfl, by simp; omega⟩
    · simp only [true_iff]
      by_cases c1 : bs.length < 2
      · exact .inl c1
      · by_cases c2 : bs.take 2 = [1#8, 0#8]
        · by_cases c3 : 110 < bs.length
          · exact .inr (.inr c3)
          · refine (hno ⟨bs.drop 2, ?_, by simp; omega⟩).elim
            have := List.take_append_drop 2 bs
            rw [c2] at this
            exact this.symm
        · exact .inr (.inl c2)

theorem untilNul_spec (l s : List Byte) : untilNul l = some s ↔ (0 ∉ s) ∧ ∃ rest, l = s ++ 0 :: rest := by
  induction l generalizing s with
  | nil => simp [untilNul]
  | cons b l ih =>
    simp only [untilNul]
    by_cases h : b = 0
    · subst h
      rw [if_pos rfl, Option.some.injEq]
      constructor
      · rintro rfl; exact ⟨by simp, l, rfl⟩
      · rintro ⟨h1, rest, h2⟩
        cases s with
        | nil => rfl
        | cons c s => simp only [List.cons_append, List.cons.injEq] at h2; exact (h1 (by simp [← h2.1])).elim
    · rw [if_neg h, Option.map_eq_some_iff]
      constructor
      · rintro ⟨t, h1, rfl⟩
        obtain ⟨h2, rest, h3⟩ := (ih t).mp h1
        refine ⟨?_, rest, by rw [h3]; rfl⟩
        simp only [List.mem_cons, not_or]
        exact ⟨fun c => h c.symm, h2⟩
      · rintro ⟨h1, rest, h2⟩
        cases s with
        | nil => simp only [List.nil_append, List.cons.injEq] at h2; exact (h h2.1).elim
        | cons c s =>
          simp only [List.cons_append, List.cons.injEq] at h2
          simp only [List.mem_cons, not_or] at h1
          exact ⟨s, (ih s).mpr ⟨h1.2, rest, h2.2⟩, by rw [h2.1]⟩

/-- Names of files: what `as_path` finds, and that it finds what `new_path` made. -/
theorem C78_path :
    (∀ a bs u s, Is a bs → a.asUnix = some u → (u.asPath = .ok (some s) ↔ s ≠ [] ∧ 0 ∉ s ∧ ∃ rest, bs = 1#8 :: 0#8 :: (s ++ 0 :: rest))) ∧
    (∀ s : List Byte, 0 ∉ s → ((∃ u, Un.newPath s = some u) ↔ 1 ≤ s.length ∧ s.length ≤ 107)) ∧
    (∀ s u, 0 ∉ s → Un.newPath s = some u → u.asPath = .ok (some s) ∧ ∃ a, fromUnix u = .ok a ∧ Is a (1#8 :: 0#8 :: (s ++ [0]))) := by
  have pathOf : ∀ p : List Byte, p.length ≤ 108 → ∀ s, (⟨1, p ++ List.replicate (108 - p.length) 0, p.length + 2⟩ : Un).asPath = .ok (some s) ↔
      s ≠ [] ∧ 0 ∉ s ∧ ∃ rest, p = s ++ 0 :: rest := by
    intro p hp s
    unfold Un.asPath
    rw [sunPath_spec hp, R.bind_ok]
    cases p with
    | nil => simp
    | cons b n =>
      simp only
      by_cases hb : b = 0
      · subst hb
        rw [if_pos rfl]
        simp only [R.ok.injEq, reduceCtorEq, false_iff]
        rintro ⟨h1, h2, rest, h3⟩
        cases s with
        | nil => exact h1 rfl
        | cons c s => simp only [List.cons_append, List.cons.injEq] at h3; exact h2 (by simp [← h3.1])
      · rw [if_neg hb, R.ok.injEq, untilNul_spec]
        constructor
        · rintro ⟨h1, rest, h2⟩
          refine ⟨?_, h1, rest, h2⟩
          rintro rfl
          simp only [List.nil_append, List.cons.injEq] at h2; exact hb h2.1
        · rintro ⟨_, h1, h2⟩; exact ⟨h1, h2⟩
  refine ⟨fun a bs u s h hu => ?_, fun s _ => ?_, fun s u hs hu => ?_⟩
  · obtain ⟨h1, p, rfl, rfl⟩ := (asUnix_spec h u).mp hu
    simp only [List.length_cons] at h1 ⊢
    rw [pathOf p (by omega)]
    simp only [List.cons.injEq, true_and]
  · unfold Un.newPath
    cases s with
    | nil => simp
    | cons c s =>
      simp only [List.isEmpty_cons, Bool.false_eq_true, if_false]
      by_cases h : (c :: s).length ≥ 108
      · rw [if_pos h]; simp only [reduceCtorEq, exists_false, false_iff]; omega
      · rw [if_neg h]; simp only [Option.some.injEq, exists_eq', true_iff]; exact ⟨by simp, by omega⟩
  · unfold Un.newPath at hu
    cases s with
    | nil => simp at hu
    | cons c s =>
      simp only [List.isEmpty_cons, Bool.false_eq_true, if_false] at hu
      split at hu
      · cases hu
      · rename_i hl
        rw [Option.some.injEq] at hu; subst hu
        have hl' : (c :: s ++ [0] : List Byte).length ≤ 108 := by simp at hl ⊢; omega
        have e1 : c :: s ++ List.replicate (108 - (c :: s).length) (0 : Byte) = (c :: s ++ [0]) ++ List.replicate (108 - (c :: s ++ [0]).length) 0 := by
          have hn : 108 - (c :: s).length = (108 - (c :: s ++ [0] : List Byte).length) + 1 := by simp at hl ⊢; omega
          rw [hn, List.replicate_succ]
          simp
        have e2 : 2 + (c :: s).length + 1 = (c :: s ++ [0] : List Byte).length + 2 := by simp; omega
        rw [e1, e2]
        exact ⟨(pathOf _ hl' _).mpr ⟨by simp, hs, [], by simp⟩, fromUnix_spec hl'⟩

/-- An address stands for one kind only; for a unix address equality is that of the bytes. -/
theorem C78_kind {a b : Addr} {as bs : List Byte} (ha : Is a as) (hb : Is b bs) :
    (∀ size fam size' fam' s s', 2 ≤ size → 2 ≤ size' → fam < 65536 → fam' < 65536 → a.asFixed size fam = some s → a.asFixed size' fam' = some s' → fam = fam') ∧
    (∀ size fam s u, 2 ≤ size → fam < 65536 → a.asFixed size fam = some s → a.asUnix = some u → fam = 1) ∧
    (∀ u v, a.asUnix = some u → b.asUnix = some v → u.eq v = .ok (decide (as = bs))) := by
  have fams : ∀ f f' : Nat, f < 65536 → f' < 65536 → le f 2 = le f' 2 → f = f' := by
    intro f f' h h' e
    have := congrArg ofLe e
    rw [ofLe_le, ofLe_le] at this
    omega
  have two : ∀ s rest : List Byte, 2 ≤ s.length → (s ++ rest).take 2 = s.take 2 := fun s rest h => List.take_append_of_le_length h
  refine ⟨fun size fam size' fam' s s' h1 h2 h3 h4 h5 h6 => ?_, fun size fam s u h1 h3 h5 h6 => ?_, fun u v hu hv => ?_⟩
  · obtain ⟨l, r, e, t⟩ := (asFixed_spec ha h1 h3 s).mp h5
    obtain ⟨l', r', e', t'⟩ := (asFixed_spec ha h2 h4 s').mp h6
    apply fams _ _ h3 h4
    rw [← t, ← t', ← two s r (by omega), ← two s' r' (by omega), ← e, ← e']
  · obtain ⟨l, r, e, t⟩ := (asFixed_spec ha h1 h3 s).mp h5
    obtain ⟨_, p, e', _⟩ := (asUnix_spec ha u).mp h6
    apply fams _ _ h3 (by omega)
    rw [← t, ← two s r (by omega), ← e, e']; rfl
  · obtain ⟨h1, p, rfl, rfl⟩ := (asUnix_spec ha u).mp hu
    obtain ⟨h2, q, rfl, rfl⟩ := (asUnix_spec hb v).mp hv
    simp only [List.length_cons] at h1 h2
    unfold Un.eq
    simp only [decide_true, R.assert_true, R.bind_ok, List.length_cons, sunPath_spec (p := p) (by omega), sunPath_spec (p := q) (by omega)]
    congr 1
    rw [Bool.eq_iff_iff]
    simp only [Bool.and_eq_true, beq_iff_eq, Option.some.injEq, decide_eq_true_eq, List.cons.injEq, true_and]
    constructor
    · exact fun h => h.2
    · rintro rfl; exact ⟨rfl, rfl⟩

end Shadow.SockAddr
