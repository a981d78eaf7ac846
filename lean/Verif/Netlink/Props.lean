import Verif.Netlink.Model
/-!
# Netlink sockets answer every request once, in order, with what the host's interfaces are

The specification (`Request`, `AnswerTo`, `Reply`) does not use the functions of the model that compute answers.
-/
namespace Shadow.Netlink

open Shadow.Base
open Shadow.SockAddr (Byte le ofLe be EFAULT EINVAL)

/-! ## Specification -/

/-- A request as it is read: short ones count as filled up with zeros, and then the length field says so. -/
structure Filled (n : Nat) (p q : List Byte) : Prop where
  long : n ≤ p.length → q = p
  short : p.length < n → q.length = n ∧ q.take 4 = le n 4 ∧ (∀ i, 4 ≤ i → i < p.length → q[i]? = p[i]?) ∧ ∀ i, p.length ≤ i → i < n → q[i]? = some 0

/-- The numbers in the header of a packet: bytes 4 and 5 are the type, bytes 8 to 11 the sequence number. -/
def HasType (p : List Byte) (t : Nat) : Prop := ∃ a b, p[4]? = some a ∧ p[5]? = some b ∧ t = a.toNat + 256 * b.toNat
def HasSeq (p : List Byte) (n : Nat) : Prop :=
  ∃ a b c d, p[8]? = some a ∧ p[9]? = some b ∧ p[10]? = some c ∧ p[11]? = some d ∧ n = a.toNat + 256 * (b.toNat + 256 * (c.toNat + 256 * d.toNat))

/-- What the library must do: the sequence number that it reads is the one in the header. -/
structure Lib.Faithful (lib : Lib) : Prop where
  addr : ∀ p n r, lib.decAddr p = some (n, r) → 16 ≤ p.length → HasSeq p n
  link : ∀ p n r, lib.decLink p = some (n, r) → 16 ≤ p.length → HasSeq p n

/-- A packet that asks for all IPv4 addresses. -/
def AsksAddrs (lib : Lib) (p : Pkt) : Prop :=
  HasType p 22 ∧ ∃ q n r, Filled 24 p q ∧ lib.decAddr q = some (n, some r) ∧ (r.family = 0 ∨ r.family = 2) ∧ r.prefixLen = 0 ∧ r.flags = 0 ∧ r.index = 0 ∧ r.scope = 0

/-- A packet that asks for all interfaces. -/
def AsksLinks (lib : Lib) (p : Pkt) : Prop :=
  HasType p 18 ∧ ∃ q n r, Filled 32 p q ∧ lib.decLink q = some (n, some r) ∧ (r.family = 0 ∨ r.family = 2) ∧ r.ifType = 0 ∧ r.index = 0 ∧ r.flags = 0

/-- The highest address of the network of an interface. -/
def lastOf (address prefixLen : Nat) : Nat := address / 2 ^ (32 - prefixLen) * 2 ^ (32 - prefixLen) + (2 ^ (32 - prefixLen) - 1)

/-- The four bytes of an IPv4 address as they are sent. -/
def octets (a : Nat) : List Byte := [BitVec.ofNat 8 (a / 2 ^ 24), BitVec.ofNat 8 (a / 2 ^ 16), BitVec.ofNat 8 (a / 2 ^ 8), BitVec.ofNat 8 a]

/-- The message describes the address of the interface. -/
def TellsAddr (m : Msg) (i : Iface) : Prop :=
  m.type = 20 ∧ m.flags = 2 ∧ m.payload = .addr 2 i.prefixLen 0x80 i.scope i.index
    [(1, octets i.address), (2, octets i.address), (4, octets (lastOf i.address i.prefixLen)), (3, i.label ++ [0])]

/-- The message describes the interface. -/
def TellsLink (m : Msg) (i : Iface) : Prop :=
  m.type = 16 ∧ m.flags = 2 ∧ m.payload = .link 2 i.ifType i.index (if i.ifType = 772 then 73 else 4163) 0xffffffff
    [(3, i.label ++ [0]), (13, [0xe8, 3, 0, 0]), (4, (octets i.mtu).reverse)]

/-- One message for each interface, in their order, and then the end mark. -/
def Dump (tells : Msg → Iface → Prop) (ifs : List Iface) (ms : List Msg) : Prop :=
  ms.length = ifs.length + 1 ∧ (∀ (k : Nat) i, ifs[k]? = some i → ∃ m, ms[k]? = some m ∧ tells m i) ∧
  ∃ m, ms[ifs.length]? = some m ∧ m.type = 3 ∧ m.flags = 2 ∧ m.payload = .errno 0

/-- The messages that answer the packet. -/
structure AnswerTo (lib : Lib) (ifs : List Iface) (p : Pkt) (ms : List Msg) : Prop where
  seq : ∀ m ∈ ms, HasSeq p m.seq
  addrs : AsksAddrs lib p → Dump TellsAddr ifs ms
  links : AsksLinks lib p → Dump TellsLink ifs ms
  neither : ¬ AsksAddrs lib p → ¬ AsksLinks lib p → ∃ m, ms = [m] ∧ m.type = 2 ∧ m.flags = 0 ∧ m.payload = .empty

/-- What a program that receives gets for a packet. -/
def Reply (lib : Lib) (ifs : List Iface) (p : Pkt) (a : RecvArgs) (o : Out) : Prop :=
  if p.length < 16 then o = .err 22
  else ∃ ms, AnswerTo lib ifs p ms ∧
    ∀ bytes, bytes = (ms.map lib.enc).flatten →
      (∃ k, a.fault = some k ∧ k < bytes.length ∧ k < a.room) ∧ o = .err 14 ∨
      (∀ k, a.fault = some k → bytes.length ≤ k ∨ a.room ≤ k) ∧
        ∃ got, o = .got got (if a.flags.getLsbD 5 then bytes.length else got.length) 0 ∧
          got <+: bytes ∧ got.length = min bytes.length a.room

/-! ## Facts about bytes -/

theorem typeField_iff {p : List Byte} (h : 16 ≤ p.length) (t : Nat) : HasType p t ↔ typeField p = t := by
  obtain ⟨a0, p, rfl⟩ := List.exists_cons_of_length_pos (show 0 < p.length by omega)
  obtain ⟨a1, p, rfl⟩ := List.exists_cons_of_length_pos (show 0 < p.length by simp at h; omega)
  obtain ⟨a2, p, rfl⟩ := List.exists_cons_of_length_pos (show 0 < p.length by simp at h; omega)
  obtain ⟨a3, p, rfl⟩ := List.exists_cons_of_length_pos (show 0 < p.length by simp at h; omega)
  obtain ⟨a4, p, rfl⟩ := List.exists_cons_of_length_pos (show 0 < p.length by simp at h; omega)
  obtain ⟨a5, p, rfl⟩ := List.exists_cons_of_length_pos (show 0 < p.length by simp at h; omega)
  simp [HasType, typeField, ofLe, eq_comm]

theorem seqField_iff {p : List Byte} (h : 16 ≤ p.length) (t : Nat) : HasSeq p t ↔ seqField p = t := by
  have e : p = p.take 8 ++ p.drop 8 := (List.take_append_drop 8 p).symm
  have l : (p.take 8).length = 8 := by simp; omega
  have g : ∀ i, p[8 + i]? = (p.drop 8)[i]? := fun i => by simp
  generalize hq : p.drop 8 = q at g
  have hl : 8 ≤ q.length := by rw [← hq]; simp; omega
  obtain ⟨a0, q, rfl⟩ := List.exists_cons_of_length_pos (show 0 < q.length by omega)
  obtain ⟨a1, q, rfl⟩ := List.exists_cons_of_length_pos (show 0 < q.length by simp at hl; omega)
  obtain ⟨a2, q, rfl⟩ := List.exists_cons_of_length_pos (show 0 < q.length by simp at hl; omega)
  obtain ⟨a3, q, rfl⟩ := List.exists_cons_of_length_pos (show 0 < q.length by simp at hl; omega)
  have g0 := g 0; have g1 := g 1; have g2 := g 2; have g3 := g 3
  simp at g0 g1 g2 g3
  simp [HasSeq, seqField, hq, g0, g1, g2, g3, ofLe, eq_comm]

theorem be4 (n : Nat) : be n 4 = octets n := by
  simp only [be, le, octets, List.reverse_cons, List.reverse_nil, List.nil_append, List.cons_append, Nat.div_div_eq_div_mul]

theorem le4 (n : Nat) : le n 4 = (octets n).reverse := by
  rw [← be4, be, List.reverse_reverse]

theorem le_length (n k : Nat) : (le n k).length = k := by
  induction k generalizing n with
  | zero => rfl
  | succ k ih => simp [le, ih]

theorem pad_length (n : Nat) (p : List Byte) (h : 16 ≤ p.length) : 16 ≤ (pad n p).length := by
  unfold pad
  split
  · simp [le_length]; omega
  · exact h

theorem pad_filled (n : Nat) (p : List Byte) (h : 16 ≤ p.length) : Filled n p (pad n p) := by
  unfold pad
  constructor
  · intro hl; rw [if_neg (by omega)]
  · intro hs
    rw [if_pos ⟨h, hs⟩]
    refine ⟨by simp [le_length]; omega, ?_, ?_, ?_⟩
    · rw [List.take_append_of_le_length (by rw [le_length]; omega), List.take_of_length_le (by rw [le_length]; omega)]
    · intro i h4 hi
      rw [List.getElem?_append_right (by rw [le_length]; omega), le_length, List.getElem?_drop, show 4 + (i - 4) = i by omega,
        List.getElem?_append_left hi]
    · intro i hi hn
      rw [List.getElem?_append_right (by rw [le_length]; omega), le_length, List.getElem?_drop, show 4 + (i - 4) = i by omega,
        List.getElem?_append_right hi, List.getElem?_replicate, if_pos (by omega)]

/-- There is one way to fill up. -/
theorem Filled.unique {n : Nat} {p q r : List Byte} (h : Filled n p q) (h' : Filled n p r) : q = r := by
  by_cases hl : n ≤ p.length
  · rw [h.long hl, h'.long hl]
  · obtain ⟨a, b, c, d⟩ := h.short (by omega)
    obtain ⟨a', b', c', d'⟩ := h'.short (by omega)
    apply List.ext_getElem?
    intro i
    by_cases h4 : i < 4
    · have := congrArg (·[i]?) (b.trans b'.symm)
      simpa [List.getElem?_take, h4] using this
    · by_cases h1 : i < p.length
      · rw [c i (by omega) h1, c' i (by omega) h1]
      · by_cases h2 : i < n
        · rw [d i (by omega) h2, d' i (by omega) h2]
        · rw [List.getElem?_eq_none (by omega), List.getElem?_eq_none (by omega)]

theorem Filled.seq {n k : Nat} {p q : List Byte} (h16 : 16 ≤ p.length) (h : Filled n p q) (hs : HasSeq q k) : HasSeq p k := by
  by_cases hl : n ≤ p.length
  · rw [h.long hl] at hs; exact hs
  · obtain ⟨-, -, c, -⟩ := h.short (by omega)
    simpa only [HasSeq, c 8 (by omega) (by omega), c 9 (by omega) (by omega), c 10 (by omega) (by omega), c 11 (by omega) (by omega)] using hs

theorem broadcast_eq (i : Iface) (hp : i.prefixLen ≤ 32) : broadcast i = lastOf i.address i.prefixLen := by
  unfold broadcast lastOf
  have : (if i.prefixLen < 32 then (2 ^ 32 - 1) >>> i.prefixLen else 0) = 2 ^ (32 - i.prefixLen) - 1 := by
    split
    · rename_i h
      apply Nat.eq_of_testBit_eq
      intro j
      rw [Nat.testBit_shiftRight, Nat.testBit_two_pow_sub_one, Nat.testBit_two_pow_sub_one]
      congr 1
      exact propext (by omega)
    · have : i.prefixLen = 32 := by omega
      rw [this]
  rw [this]
  generalize 32 - i.prefixLen = k
  have hk := Nat.two_pow_pos k
  apply Nat.eq_of_testBit_eq
  intro j
  rw [Nat.testBit_or, Nat.testBit_two_pow_sub_one, Nat.mul_comm, Nat.testBit_two_pow_mul_add _ (by omega), Nat.testBit_two_pow_sub_one]
  by_cases h : j < k
  · simp [h]
  · simp only [h, decide_false, Bool.false_or, if_false]
    rw [Nat.testBit_div_two_pow]
    congr 1; omega

/-! ## The answer -/

theorem handleError_ok (p : List Byte) (h : 16 ≤ p.length) : ∃ m, handleError p = [m] ∧ m.type = 2 ∧ m.flags = 0 ∧ m.payload = .empty ∧ HasSeq p m.seq := by
  refine ⟨_, rfl, rfl, rfl, rfl, ?_⟩
  rw [seqField_iff h]
  simp only
  rw [if_neg (by omega)]

theorem dump_ok {tells : Msg → Iface → Prop} {f : Iface → Msg} {ifs : List Iface} {seq : Nat} (h : ∀ i ∈ ifs, tells (f i) i) :
    Dump tells ifs (ifs.map f ++ [doneMsg seq]) := by
  refine ⟨by simp, ?_, ?_⟩
  · intro k i hk
    refine ⟨f i, ?_, h i (List.mem_of_getElem? hk)⟩
    have : k < ifs.length := (List.getElem?_eq_some_iff.mp hk).1
    rw [List.getElem?_append_left (by simpa), List.getElem?_map, hk]; rfl
  · exact ⟨doneMsg seq, by simp, rfl, rfl, rfl⟩

/-- The answer to a packet is what it has to be. -/
theorem C83_answer (lib : Lib) (hlib : lib.Faithful) (ifs : List Iface) (hifs : ∀ i ∈ ifs, i.prefixLen ≤ 32) (p : Pkt) (h16 : 16 ≤ p.length) :
    AnswerTo lib ifs p (answer lib ifs p) := by
  unfold answer
  split
  · rename_i ht
    have hT : HasType p 18 := (typeField_iff h16 18).mpr ht
    have hno : ¬ AsksAddrs lib p := fun ⟨h, _⟩ => by
      have := (typeField_iff h16 22).mp h
      rw [this] at ht; cases ht
    have hF := pad_filled 32 p h16
    have hl := pad_length 32 p h16
    generalize pad 32 p = q at hF hl
    obtain ⟨m, e, m1, m2, m3, m4⟩ := handleError_ok q hl
    have bad : ¬ AsksLinks lib p → AnswerTo lib ifs p (handleError q) := fun hn => by
      rw [e]
      exact ⟨by simpa using hF.seq h16 m4, fun x => (hno x).elim, fun x => (hn x).elim, fun _ _ => ⟨m, rfl, m1, m2, m3⟩⟩
    have uniq : AsksLinks lib p → ∃ n r, lib.decLink q = some (n, some r) ∧ (r.family = 0 ∨ r.family = 2) ∧ r.ifType = 0 ∧ r.index = 0 ∧ r.flags = 0 := by
      rintro ⟨-, q', n, r, hf, rest⟩
      rw [← Filled.unique hf hF]
      exact ⟨n, r, rest⟩
    unfold handleLink
    split
    · rename_i hd; exact bad fun x => by obtain ⟨n, r, h, -⟩ := uniq x; rw [hd] at h; cases h
    · rename_i hd; exact bad fun x => by obtain ⟨n, r, h, -⟩ := uniq x; rw [hd] at h; cases h
    · rename_i seq r hd
      split
      · rename_i hc
        exact bad fun x => by
          obtain ⟨n, r', h, hr, -⟩ := uniq x
          rw [hd] at h; cases h
          simp only [AF_UNSPEC, AF_INET] at hc; omega
      · split
        · rename_i hc
          exact bad fun x => by
            obtain ⟨n, r', h, -, h1, h2, h3⟩ := uniq x
            rw [hd] at h; cases h
            simp [h1, h2, h3] at hc
        · rename_i hc1 hc2
          have hs : HasSeq p seq := hF.seq h16 (hlib.link _ _ _ hd hl)
          have hyes : AsksLinks lib p := ⟨hT, q, seq, r, hF, hd, by simp only [AF_UNSPEC, AF_INET] at hc1; omega, by omega, by omega, by omega⟩
          refine ⟨?_, fun x => (hno x).elim, fun _ => dump_ok fun i _ => ?_, fun _ x => (x hyes).elim⟩
          · intro m hm
            simp only [List.mem_append, List.mem_map, List.mem_singleton] at hm
            rcases hm with ⟨i, -, rfl⟩ | rfl <;> exact hs
          · refine ⟨rfl, rfl, ?_⟩
            simp only [linkMsg, linkFlags, le4]
            rfl
  · rename_i ht
    have hno : ¬ AsksLinks lib p := fun ⟨h, _⟩ => ht ((typeField_iff h16 18).mp h)
    split
    · rename_i ht'
      have hT : HasType p 22 := (typeField_iff h16 22).mpr ht'
      have hF := pad_filled 24 p h16
      have hl := pad_length 24 p h16
      generalize pad 24 p = q at hF hl
      obtain ⟨m, e, m1, m2, m3, m4⟩ := handleError_ok q hl
      have bad : ¬ AsksAddrs lib p → AnswerTo lib ifs p (handleError q) := fun hn => by
        rw [e]
        exact ⟨by simpa using hF.seq h16 m4, fun x => (hn x).elim, fun x => (hno x).elim, fun _ _ => ⟨m, rfl, m1, m2, m3⟩⟩
      have uniq : AsksAddrs lib p → ∃ n r, lib.decAddr q = some (n, some r) ∧ (r.family = 0 ∨ r.family = 2) ∧ r.prefixLen = 0 ∧ r.flags = 0 ∧ r.index = 0 ∧ r.scope = 0 := by
        rintro ⟨-, q', n, r, hf, rest⟩
        rw [← Filled.unique hf hF]
        exact ⟨n, r, rest⟩
      unfold handleAddr
      split
      · rename_i hd; exact bad fun x => by obtain ⟨n, r, h, -⟩ := uniq x; rw [hd] at h; cases h
      · rename_i hd; exact bad fun x => by obtain ⟨n, r, h, -⟩ := uniq x; rw [hd] at h; cases h
      · rename_i seq r hd
        split
        · rename_i hc
          exact bad fun x => by
            obtain ⟨n, r', h, hr, -⟩ := uniq x
            rw [hd] at h; cases h
            simp only [AF_UNSPEC, AF_INET] at hc; omega
        · split
          · rename_i hc
            exact bad fun x => by
              obtain ⟨n, r', h, -, h1, h2, h3, h4⟩ := uniq x
              rw [hd] at h; cases h
              simp [h1, h2, h3, h4, RT_SCOPE_UNIVERSE] at hc
          · rename_i hc1 hc2
            have hs : HasSeq p seq := hF.seq h16 (hlib.addr _ _ _ hd hl)
            simp only [RT_SCOPE_UNIVERSE] at hc2
            have hyes : AsksAddrs lib p := ⟨hT, q, seq, r, hF, hd, by simp only [AF_UNSPEC, AF_INET] at hc1; omega, by omega, by omega, by omega, by omega⟩
            refine ⟨?_, fun _ => dump_ok fun i hi => ?_, fun x => (hno x).elim, fun x => (x hyes).elim⟩
            · intro m hm
              simp only [List.mem_append, List.mem_map, List.mem_singleton] at hm
              rcases hm with ⟨i, -, rfl⟩ | rfl <;> exact hs
            · refine ⟨rfl, rfl, ?_⟩
              simp only [addrMsg, be4, broadcast_eq i (hifs i hi)]
              rfl
    · rename_i ht'
      obtain ⟨m, e, m1, m2, m3, m4⟩ := handleError_ok p h16
      rw [e]
      exact ⟨by simpa using m4, fun ⟨h, _⟩ => (ht' ((typeField_iff h16 22).mp h)).elim, fun x => (hno x).elim, fun _ _ => ⟨m, rfl, m1, m2, m3⟩⟩

theorem flag_bit (f : BitVec 32) (k : Nat) (m : BitVec 32) (hm : m = BitVec.twoPow 32 k) (hk : k < 32) : f &&& m ≠ 0 ↔ f.getLsbD k = true := by
  subst hm
  rw [BitVec.and_twoPow]
  split
  · rename_i h
    simp only [h, iff_true]
    intro hc
    have := congrArg (·.getLsbD k) hc
    simp [hk] at this
  · rename_i h; simp [h]

theorem respond_reply (lib : Lib) (hlib : lib.Faithful) (ifs : List Iface) (hifs : ∀ i ∈ ifs, i.prefixLen ≤ 32) (p : Pkt) (a : RecvArgs) :
    Reply lib ifs p a (respond lib ifs p a) := by
  unfold Reply respond
  split
  · rfl
  · refine ⟨_, C83_answer lib hlib ifs hifs p (by omega), ?_⟩
    intro bytes hb
    rw [← List.flatMap_def] at hb
    rw [← hb]
    unfold deliver
    dsimp only
    have ht : ∀ x y : Nat, (if a.flags &&& MSG_TRUNC ≠ 0 then x else y) = if a.flags.getLsbD 5 then x else y := fun x y => by
      have := flag_bit a.flags 5 MSG_TRUNC (by decide) (by omega)
      split <;> split <;> simp_all
    rw [ht]
    cases hf : a.fault with
    | none =>
      right
      refine ⟨by simp, bytes.take (min bytes.length a.room), ?_, List.take_prefix _ _, by simp [List.length_take]⟩
      simp [List.length_take]
    | some k =>
      by_cases hk : k < min bytes.length a.room
      · left
        exact ⟨⟨k, rfl, by omega, by omega⟩, by simp only [hk, decide_true]; rfl⟩
      · right
        refine ⟨fun _ e => by cases e; omega, bytes.take (min bytes.length a.room), ?_, List.take_prefix _ _, by simp [List.length_take]⟩
        simp only [hk, decide_false, List.length_take]
        simp


/-! ## Calls -/

/-- The bytes that a program sends are as many as it says. -/
def Op.Proper : Op → Prop
  | .send a => ∀ p, a.data = some p → p.length = a.len
  | _ => True

/-- The packet that a call sent, going by its result. -/
def sentBy : Op × Out → Option Pkt
  | (.send a, .sent _) => a.data
  | _ => none

/-- A receive that takes a request away: supported flags, not `MSG_PEEK`, no control data, and there was a request (it did not wait, nor was it told to try again). -/
def takes : Op × Out → Bool
  | (.recv a, o) => !a.control && decide (a.flags &&& ~~~0x62#32 = 0) && !a.flags.getLsbD 1 && decide (o ≠ .err 11) && decide (o ≠ .blocked) && decide (o ≠ .err 95)
  | _ => false

theorem refresh_fields (s : Sock) : s.refresh.buf = s.buf ∧ s.refresh.sendLimit = s.sendLimit ∧ s.refresh.sentLen = s.sentLen ∧ s.refresh.isClosed = s.isClosed ∧
    s.refresh.ifs = s.ifs ∧ s.refresh.bound = s.bound ∧ s.refresh.nonblock = s.nonblock := by
  unfold Sock.refresh; split <;> simp

theorem badDest_iff (a : AddrArg) : badDest a = false ↔ (a = .null ∨ ∃ d : NlAddr, a = .nl d ∧ d.pid = 0 ∧ d.groups = 0) := by
  cases a with
  | null => simp [badDest]
  | other => simp [badDest]
  | nl d => simp only [badDest, reduceCtorEq, false_or, AddrArg.nl.injEq]; grind

/-- When `sendmsg` accepts a packet. -/
theorem C83_send (s : Sock) (a : SendArgs) (n : Nat) :
    (s.send a).2 = .sent n ↔ s.isClosed = false ∧ a.control = false ∧ (a.addr = .null ∨ ∃ d : NlAddr, a.addr = .nl d ∧ d.pid = 0 ∧ d.groups = 0) ∧ a.flags &&& ~~~0x4060#32 = 0 ∧
      s.sentLen < s.sendLimit ∧ s.sentLen + a.len ≤ s.sendLimit ∧ n = a.len ∧ ∃ p, a.data = some p := by
  have hm : MSG_DONTWAIT ||| MSG_NOSIGNAL ||| MSG_TRUNC = 0x4060#32 := by decide
  rw [← badDest_iff]
  unfold Sock.send Sock.push
  rw [hm]
  dsimp only
  grind

/-- A packet that is accepted goes to the end of the buffer, and its length is added to what counts as in flight. -/
theorem C83_send_effect (s : Sock) (a : SendArgs) (n : Nat) (p : Pkt) (h : (s.send a).2 = .sent n) (hd : a.data = some p) :
    (s.send a).1 = ({ s with buf := s.buf ++ [p], sentLen := s.sentLen + a.len } : Sock).refresh := by
  obtain ⟨h1, h2, h3, h4, h5, h6, -, -⟩ := (C83_send s a n).mp h
  have hm : MSG_DONTWAIT ||| MSG_NOSIGNAL ||| MSG_TRUNC = 0x4060#32 := by decide
  rw [← badDest_iff] at h3
  unfold Sock.send Sock.push
  rw [hm]
  dsimp only
  rw [hd, h1, h2, h3, h4]
  simp only [Bool.false_eq_true, if_false, ne_eq, not_true_eq_false]
  rw [if_neg (by omega), if_neg (by omega)]

/-- A packet that is not accepted changes nothing. -/
theorem C83_send_refused (s : Sock) (a : SendArgs) (h : ∀ n, (s.send a).2 ≠ .sent n) : (s.send a).1 = s := by
  revert h
  unfold Sock.send Sock.push
  dsimp only
  grind

/-- The sum of the lengths. -/
def total (l : List Pkt) : Nat := (l.map (·.length)).sum

structure Inv (lib : Lib) (ifs : List Iface) (s : Sock) (tr : List (Op × Out)) : Prop where
  same : s.ifs = ifs
  count : (tr.filter takes).length ≤ (tr.filterMap sentBy).length
  buf : s.buf = (tr.filterMap sentBy).drop (tr.filter takes).length
  replies : ∀ (i : Nat) r, (tr.filter takes)[i]? = some r → ∃ p a, (tr.filterMap sentBy)[i]? = some p ∧ r.1 = .recv a ∧ Reply lib ifs p a r.2
  sent : s.sentLen = total (tr.filterMap sentBy)
  limit : s.sentLen ≤ s.sendLimit ∧ s.sendLimit ≤ 268435456
  readable : s.isClosed = false → s.state.readable = !s.buf.isEmpty
  active : s.state.active = !s.isClosed ∧ s.state.closed = s.isClosed
  off : s.isClosed = true → s.state.readable = false ∧ s.state.writable = false

/-- All calls and results up to the state. -/
inductive Reach (lib : Lib) (nb : Bool) (ip : Nat) : Sock → List (Op × Out) → Prop where
  | new : Reach lib nb ip (Sock.new nb ip) []
  | step {s tr} (op : Op) : op.Proper → Reach lib nb ip s tr → Reach lib nb ip (Shadow.Netlink.step lib s op).1 (tr ++ [(op, (Shadow.Netlink.step lib s op).2)])

/-- A call that neither sends nor takes. -/
theorem Inv.plain {lib : Lib} {ifs : List Iface} {s s' : Sock} {tr : List (Op × Out)} (h : Inv lib ifs s tr) (e : Op × Out) (h1 : sentBy e = none) (h2 : takes e = false)
    (h3 : s'.ifs = s.ifs) (h4 : s'.buf = s.buf) (h5 : s'.sentLen = s.sentLen) (h6 : s'.sentLen ≤ s'.sendLimit ∧ s'.sendLimit ≤ 268435456)
    (h7 : s'.isClosed = false → s'.state.readable = !s'.buf.isEmpty) (h8 : s'.state.active = !s'.isClosed ∧ s'.state.closed = s'.isClosed)
    (h9 : s'.isClosed = true → s'.state.readable = false ∧ s'.state.writable = false) :
    Inv lib ifs s' (tr ++ [e]) := by
  have f1 : (tr ++ [e]).filterMap sentBy = tr.filterMap sentBy := by simp [List.filterMap_append, h1]
  have f2 : (tr ++ [e]).filter takes = tr.filter takes := by simp [List.filter_append, h2]
  exact ⟨h3.trans h.same, by rw [f1, f2]; exact h.count, by rw [f1, f2, h4]; exact h.buf, by rw [f1, f2]; exact h.replies, by rw [f1, h5]; exact h.sent, h6, h7, h8, h9⟩


theorem respond_not (lib : Lib) (ifs : List Iface) (p : Pkt) (a : RecvArgs) :
    respond lib ifs p a ≠ .err 11 ∧ respond lib ifs p a ≠ .blocked ∧ respond lib ifs p a ≠ .err 95 := by
  unfold respond deliver
  dsimp only
  grind [EINVAL, EFAULT]

theorem sndMask : MSG_DONTWAIT ||| MSG_PEEK ||| MSG_TRUNC = 0x62#32 := by decide

/-- A receive takes the oldest request away and answers it, or it changes nothing but the state that is told to listeners. -/
theorem recv_cases (lib : Lib) (s : Sock) (a : RecvArgs) :
    (takes (.recv a, (s.recv lib a).2) = true ∧ s.isClosed = false ∧ ∃ p rest, s.buf = p :: rest ∧
      s.recv lib a = (({ s with buf := rest } : Sock).refresh, respond lib s.ifs p a)) ∨
    (takes (.recv a, (s.recv lib a).2) = false ∧ ((s.recv lib a).1 = s ∨ s.isClosed = false ∧ (s.recv lib a).1 = s.refresh)) := by
  have hp := flag_bit a.flags 1 MSG_PEEK (by decide) (by omega)
  unfold Sock.recv
  rw [sndMask]
  cases hc : s.isClosed
  · simp only [Bool.false_eq_true, if_false]
    cases hd : a.control
    · simp only [Bool.false_eq_true, if_false]
      by_cases hf : a.flags &&& ~~~0x62#32 = 0
      · rw [if_neg (by simpa using hf)]
        cases hb : s.buf with
        | nil =>
          right
          simp only
          split <;> simp [takes, EAGAIN]
        | cons p rest =>
          obtain ⟨h1, h2, h3⟩ := respond_not lib s.ifs p a
          simp only
          by_cases hk : a.flags &&& MSG_PEEK ≠ 0
          · right
            rw [if_pos hk]
            exact ⟨by simp only [takes, hp.mp hk, Bool.not_true, Bool.and_false, Bool.false_and], .inr ⟨by trivial, rfl⟩⟩
          · left
            have hk' : a.flags.getLsbD 1 = false := by
              cases h : a.flags.getLsbD 1
              · rfl
              · exact (hk (hp.mpr h)).elim
            rw [if_neg hk]
            refine ⟨?_, by trivial, p, rest, rfl, rfl⟩
            simp only [takes, hd, hf, hk', decide_eq_true h1, decide_eq_true h2, decide_eq_true h3]; rfl
      · right
        rw [if_pos (by simpa using hf)]
        exact ⟨by simp only [takes, decide_eq_false hf, Bool.and_false, Bool.false_and], .inl rfl⟩
    · right; simp [takes, hd]
  · right; simp [takes, EOPNOTSUPP]

theorem refresh_state (s : Sock) : (s.refresh.isClosed = false → s.refresh.state.readable = !s.refresh.buf.isEmpty) ∧
    (s.refresh.state.active = !s.refresh.isClosed ∧ s.refresh.state.closed = s.refresh.isClosed) ∧
    (s.refresh.isClosed = true → s.refresh.state.readable = false ∧ s.refresh.state.writable = false) := by
  unfold Sock.refresh; split <;> simp_all

theorem Inv.step {lib : Lib} (hlib : lib.Faithful) {ifs : List Iface} (hifs : ∀ i ∈ ifs, i.prefixLen ≤ 32) {s : Sock} {tr : List (Op × Out)} (h : Inv lib ifs s tr)
    (op : Op) (hop : op.Proper) : Inv lib ifs (Shadow.Netlink.step lib s op).1 (tr ++ [(op, (Shadow.Netlink.step lib s op).2)]) := by
  obtain ⟨l1, l2⟩ := h.limit
  cases op with
  | bind a =>
    simp only [Shadow.Netlink.step]
    have : (s.bind a).1.ifs = s.ifs ∧ (s.bind a).1.buf = s.buf ∧ (s.bind a).1.sentLen = s.sentLen ∧ (s.bind a).1.sendLimit = s.sendLimit ∧
        (s.bind a).1.isClosed = s.isClosed ∧ (s.bind a).1.state = s.state := by
      unfold Sock.bind; grind
    obtain ⟨e1, e2, e3, e4, e5, e6⟩ := this
    exact h.plain _ rfl rfl e1 e2 e3 (by rw [e3, e4]; exact h.limit) (by rw [e2, e5, e6]; exact h.readable) (by rw [e5, e6]; exact h.active) (by rw [e5, e6]; exact h.off)
  | getsockname => exact h.plain _ rfl rfl rfl rfl rfl h.limit h.readable h.active h.off
  | setNonblock b => exact h.plain _ rfl rfl rfl rfl rfl h.limit h.readable h.active h.off
  | close =>
    simp only [Shadow.Netlink.step, Sock.close]
    split
    · exact h.plain _ rfl rfl rfl rfl rfl h.limit h.readable h.active h.off
    · have f := refresh_fields ({ s with isClosed := true, bound := none } : Sock)
      have g := refresh_state ({ s with isClosed := true, bound := none } : Sock)
      exact h.plain _ rfl rfl f.2.2.2.2.1 f.1 f.2.2.1 (by rw [f.2.2.1, f.2.1]; exact h.limit) g.1 g.2.1 g.2.2
  | setsockopt o =>
    simp only [Shadow.Netlink.step]
    have : (s.setsockopt o).1.ifs = s.ifs ∧ (s.setsockopt o).1.buf = s.buf ∧ (s.setsockopt o).1.sentLen = s.sentLen ∧
        ((s.setsockopt o).1.sentLen ≤ (s.setsockopt o).1.sendLimit ∧ (s.setsockopt o).1.sendLimit ≤ 268435456) ∧
        (s.setsockopt o).1.isClosed = s.isClosed ∧ (s.setsockopt o).1.state = s.state := by
      unfold Sock.setsockopt; grind
    obtain ⟨e1, e2, e3, e4, e5, e6⟩ := this
    exact h.plain _ rfl rfl e1 e2 e3 e4 (by rw [e2, e5, e6]; exact h.readable) (by rw [e5, e6]; exact h.active) (by rw [e5, e6]; exact h.off)
  | recv a =>
    simp only [Shadow.Netlink.step]
    rcases recv_cases lib s a with ⟨ht, hc, p, rest, hb, he⟩ | ⟨ht, he⟩
    · have f := refresh_fields ({ s with buf := rest } : Sock)
      have g := refresh_state ({ s with buf := rest } : Sock)
      have f1 : ∀ o, (tr ++ [(Op.recv a, o)]).filterMap sentBy = tr.filterMap sentBy := fun o => by simp [List.filterMap_append, sentBy]
      have f2 : (tr ++ [(Op.recv a, (s.recv lib a).2)]).filter takes = tr.filter takes ++ [(Op.recv a, (s.recv lib a).2)] := by simp [List.filter_append, ht]
      have hbuf := h.buf
      rw [hb] at hbuf
      have hlen : (tr.filter takes).length < (tr.filterMap sentBy).length := by
        have := congrArg List.length hbuf
        simp only [List.length_cons, List.length_drop] at this; omega
      rw [List.drop_eq_getElem_cons hlen, List.cons.injEq] at hbuf
      refine ⟨?_, ?_, ?_, ?_, ?_, ?_, ?_, ?_, ?_⟩
      · rw [he]; exact f.2.2.2.2.1.trans h.same
      · rw [f1, f2, List.length_append]; exact hlen
      · rw [f1, f2, he, f.1, List.length_append]; exact hbuf.2
      · rw [f1, f2]
        intro i r hi
        by_cases hl : i < (tr.filter takes).length
        · rw [List.getElem?_append_left hl] at hi; exact h.replies i r hi
        · rw [List.getElem?_append_right (by omega)] at hi
          have hi0 : i = (tr.filter takes).length := by
            have := (List.getElem?_eq_some_iff.mp hi).1
            simp at this; omega
          subst hi0
          simp at hi
          subst hi
          refine ⟨p, a, ?_, rfl, ?_⟩
          · rw [List.getElem?_eq_getElem hlen, hbuf.1]
          · rw [he, ← h.same]; exact respond_reply lib hlib _ (by rw [h.same]; exact hifs) p a
      · rw [f1, he, f.2.2.1]; exact h.sent
      · rw [he, f.2.2.1, f.2.1]; exact h.limit
      · rw [he]; exact g.1
      · rw [he]; exact g.2.1
      · rw [he]; exact g.2.2
    · have f := refresh_fields s
      have g := refresh_state s
      rcases he with he | ⟨-, he⟩
      · rw [he]; exact h.plain _ rfl ht rfl rfl rfl h.limit h.readable h.active h.off
      · rw [he]; exact h.plain _ rfl ht f.2.2.2.2.1 f.1 f.2.2.1 (by rw [f.2.2.1, f.2.1]; exact h.limit) g.1 g.2.1 g.2.2
  | send a =>
    simp only [Shadow.Netlink.step]
    by_cases hs : ∃ n, (s.send a).2 = .sent n
    · obtain ⟨n, hs⟩ := hs
      obtain ⟨-, -, -, -, h5, h6, -, p, hd⟩ := (C83_send s a n).mp hs
      have he := C83_send_effect s a n p hs hd
      have f := refresh_fields ({ s with buf := s.buf ++ [p], sentLen := s.sentLen + a.len } : Sock)
      have g := refresh_state ({ s with buf := s.buf ++ [p], sentLen := s.sentLen + a.len } : Sock)
      have f1 : (tr ++ [(Op.send a, (s.send a).2)]).filterMap sentBy = tr.filterMap sentBy ++ [p] := by simp [List.filterMap_append, hs, sentBy, hd]
      have f2 : (tr ++ [(Op.send a, (s.send a).2)]).filter takes = tr.filter takes := by simp [List.filter_append, takes]
      refine ⟨?_, ?_, ?_, ?_, ?_, ?_, ?_, ?_, ?_⟩
      · rw [he]; exact f.2.2.2.2.1.trans h.same
      · rw [f1, f2, List.length_append]; have := h.count; simp; omega
      · rw [f1, f2, he, f.1, List.drop_append_of_le_length h.count]; simp only [h.buf]
      · rw [f1, f2]
        intro i r hi
        obtain ⟨q, b, h1, h2⟩ := h.replies i r hi
        have := (List.getElem?_eq_some_iff.mp h1).1
        exact ⟨q, b, by rw [List.getElem?_append_left this]; exact h1, h2⟩
      · rw [f1, he, f.2.2.1]
        have := hop p hd
        simp only [total, List.map_append, List.sum_append, h.sent]; simp [this]
      · rw [he, f.2.2.1, f.2.1]; exact ⟨h6, l2⟩
      · rw [he]; exact g.1
      · rw [he]; exact g.2.1
      · rw [he]; exact g.2.2
    · have hs' : ∀ n, (s.send a).2 ≠ .sent n := fun n e => hs ⟨n, e⟩
      have he := C83_send_refused s a hs'
      rw [he]
      refine h.plain _ ?_ rfl rfl rfl rfl h.limit h.readable h.active h.off
      cases e : (s.send a).2 <;> first | rfl | exact (hs' _ e).elim

theorem inv_new (lib : Lib) (nb : Bool) (ip : Nat) : Inv lib (interfaces ip) (Sock.new nb ip) [] := by
  refine ⟨rfl, by simp, rfl, by simp, rfl, ?_, fun _ => rfl, ⟨rfl, rfl⟩, nofun⟩
  exact ⟨Nat.zero_le _, show DEFAULT_LIMIT ≤ 268435456 by decide⟩

theorem interfaces_prefix (ip : Nat) : ∀ i ∈ interfaces ip, i.prefixLen ≤ 32 := by
  intro i hi
  simp only [interfaces, List.mem_cons, List.not_mem_nil, or_false] at hi
  rcases hi with rfl | rfl <;> simp

theorem Reach.inv {lib : Lib} (hlib : lib.Faithful) {nb : Bool} {ip : Nat} {s : Sock} {tr : List (Op × Out)} (h : Reach lib nb ip s tr) : Inv lib (interfaces ip) s tr := by
  induction h with
  | new => exact inv_new lib nb ip
  | step op hop _ ih => exact ih.step hlib (interfaces_prefix ip) op hop

/-- Every request is answered once, in the order of sending.  Of all packets that were ever accepted, in order, the first ones were taken by the receiving calls, in order, each of which got the reply
to its packet; the rest is what waits in the buffer.  Readiness to receive says whether anything waits. -/
theorem C83_order (lib : Lib) (hlib : lib.Faithful) (nb : Bool) (ip : Nat) (s : Sock) (tr : List (Op × Out)) (h : Reach lib nb ip s tr) :
    (tr.filterMap sentBy) = (tr.filterMap sentBy).take (tr.filter takes).length ++ s.buf ∧
    (tr.filter takes).length ≤ (tr.filterMap sentBy).length ∧
    (∀ (i : Nat) r, (tr.filter takes)[i]? = some r → ∃ p a, (tr.filterMap sentBy)[i]? = some p ∧ r.1 = .recv a ∧ Reply lib (interfaces ip) p a r.2) ∧
    (s.isClosed = false → (s.state.readable = true ↔ s.buf ≠ [])) := by
  have i := h.inv hlib
  refine ⟨?_, i.count, i.replies, fun hc => ?_⟩
  · rw [i.buf, List.take_append_drop]
  · rw [i.readable hc]; cases s.buf <;> simp

/-- The code falls short: room that a request took is never given back.  What counts as in flight is the length of everything ever sent, and it never exceeds 2^28, whatever is received. -/
theorem C83_total (lib : Lib) (hlib : lib.Faithful) (nb : Bool) (ip : Nat) (s : Sock) (tr : List (Op × Out)) (h : Reach lib nb ip s tr) :
    s.sentLen = total (tr.filterMap sentBy) ∧ total (tr.filterMap sentBy) ≤ s.sendLimit ∧ s.sendLimit ≤ 268435456 := by
  have i := h.inv hlib
  exact ⟨i.sent, by rw [← i.sent]; exact i.limit.1, i.limit.2⟩

/-- Calls that do not set `SO_SNDBUF`. -/
def Op.KeepsLimit : Op → Prop
  | .setsockopt (.sndbuf _ _) => False
  | _ => True

theorem step_limit (lib : Lib) (s : Sock) (op : Op) (h : op.KeepsLimit) : (step lib s op).1.sendLimit = s.sendLimit ∧ s.sentLen ≤ (step lib s op).1.sentLen := by
  cases op with
  | bind a => simp only [step, Sock.bind]; grind
  | getsockname => exact ⟨rfl, Nat.le_refl _⟩
  | setNonblock b => exact ⟨rfl, Nat.le_refl _⟩
  | close => simp only [step, Sock.close]; grind [Sock.refresh]
  | setsockopt o => cases o <;> first | exact h.elim | exact ⟨rfl, Nat.le_refl _⟩
  | recv a =>
    simp only [step]
    rcases recv_cases lib s a with ⟨-, -, p, rest, -, he⟩ | ⟨-, he | ⟨-, he⟩⟩ <;> rw [he] <;> grind [Sock.refresh]
  | send a =>
    simp only [step]
    by_cases hs : ∃ n, (s.send a).2 = .sent n
    · obtain ⟨n, hs⟩ := hs
      obtain ⟨-, -, -, -, -, -, -, p, hd⟩ := (C83_send s a n).mp hs
      rw [C83_send_effect s a n p hs hd]
      have f := refresh_fields ({ s with buf := s.buf ++ [p], sentLen := s.sentLen + a.len } : Sock)
      rw [f.2.1, f.2.2.1]; exact ⟨rfl, Nat.le_add_right _ _⟩
    · rw [C83_send_refused s a fun n e => hs ⟨n, e⟩]; exact ⟨rfl, Nat.le_refl _⟩

theorem run_limit (lib : Lib) (ops : List Op) (h : ∀ op ∈ ops, op.KeepsLimit) (s : Sock) :
    (run lib s ops).1.sendLimit = s.sendLimit ∧ s.sentLen ≤ (run lib s ops).1.sentLen := by
  induction ops generalizing s with
  | nil => exact ⟨rfl, Nat.le_refl _⟩
  | cons op ops ih =>
    have a := step_limit lib s op (h op (by simp))
    have b := ih (fun o ho => h o (by simp [ho])) (step lib s op).1
    simp only [run]
    exact ⟨b.1.trans a.1, Nat.le_trans a.2 b.2⟩

/-- Once the limit is reached, nothing more can be sent, whatever else the program does, unless it raises the limit: a call that can wait waits for ever, another one is told to try again. -/
theorem C83_stuck (lib : Lib) (s : Sock) (hfull : s.sendLimit ≤ s.sentLen) (ops : List Op) (hops : ∀ op ∈ ops, op.KeepsLimit) (a : SendArgs) :
    ∀ n, ((run lib s ops).1.send a).2 ≠ .sent n := by
  intro n h
  have ⟨e, l⟩ := run_limit lib ops hops s
  have := ((C83_send _ a n).mp h).2.2.2.2.1
  omega

/-- A request that is only looked at is answered in the same way and stays where it is. -/
theorem C83_peek (lib : Lib) (s : Sock) (a : RecvArgs) (hp : a.flags.getLsbD 1 = true) :
    (s.recv lib a).1.buf = s.buf ∧ (s.recv lib a).1.sentLen = s.sentLen ∧ (s.recv lib a).2 = (s.recv lib { a with flags := a.flags &&& ~~~0x2#32 }).2 := by
  have h1 := (flag_bit a.flags 1 MSG_PEEK (by decide) (by omega)).mpr hp
  have m1 : a.flags &&& ~~~0x2#32 &&& ~~~0x62#32 = a.flags &&& ~~~0x62#32 := by rw [BitVec.and_assoc]; congr 1
  have m2 : a.flags &&& ~~~0x2#32 &&& MSG_DONTWAIT = a.flags &&& MSG_DONTWAIT := by rw [BitVec.and_assoc]; congr 1
  have m3 : a.flags &&& ~~~0x2#32 &&& MSG_TRUNC = a.flags &&& MSG_TRUNC := by rw [BitVec.and_assoc]; congr 1
  have m4 : a.flags &&& ~~~0x2#32 &&& MSG_PEEK = 0 := by rw [BitVec.and_assoc]; exact BitVec.and_zero
  have hr : ∀ p, respond lib s.ifs p { a with flags := a.flags &&& ~~~0x2#32 } = respond lib s.ifs p a := fun p => by
    simp only [respond, deliver, m3]
  have f := refresh_fields s
  generalize hb : ({ a with flags := a.flags &&& ~~~0x2#32 } : RecvArgs) = b at hr
  have b1 : b.control = a.control := by rw [← hb]
  have b2 : b.flags = a.flags &&& ~~~0x2#32 := by rw [← hb]
  unfold Sock.recv
  rw [sndMask, b1, b2, m1, m2, m4]
  clear b1 b2 m1 m2 m3 m4 hb hp
  generalize a.flags &&& ~~~0x62#32 = M
  generalize a.flags &&& MSG_DONTWAIT = D
  generalize a.flags &&& MSG_PEEK = P at h1
  dsimp only
  cases hc : s.isClosed
  · cases hd : a.control
    · by_cases hM : M = 0
      · subst hM
        cases hb : s.buf with
        | nil => simp only [Bool.false_eq_true, if_false, ne_eq, not_true_eq_false]; split <;> simp [hb]
        | cons p rest => simp only [Bool.false_eq_true, if_false, ne_eq, not_true_eq_false, h1, not_false_eq_true, if_true, hr, f, hb, and_self]
      · simp only [Bool.false_eq_true, if_false, ne_eq, hM, not_false_eq_true, if_true, and_self]
    · simp
  · simp

/-- An address can be given once, and then it is the name of the socket.  The code falls short: if the groups of the address are not supported the call fails, and the address is kept all the same. -/
theorem C83_bind (s : Sock) (ho : s.isClosed = false) (hb : s.bound = none) (x : NlAddr) :
    (s.bind (.nl x)).1.bound = some x ∧ ((s.bind (.nl x)).2 = .ok ↔ x.groups &&& 0xfffffeef#32 = 0) ∧ ((s.bind (.nl x)).2 ≠ .ok → (s.bind (.nl x)).2 = .err 22) ∧
    ∀ y, ((s.bind (.nl x)).1.bind y).2 = .err 22 ∧ ((s.bind (.nl x)).1.bind y).1 = (s.bind (.nl x)).1 := by
  have hm : ~~~groupMask = 0xfffffeef#32 := by decide
  unfold Sock.bind
  simp only [ho, hb, Bool.false_eq_true, if_false, Option.isSome_none, hm]
  by_cases hg : x.groups &&& 0xfffffeef#32 = 0
  · rw [if_neg (by simpa using hg)]
    simp [hg, EINVAL]
  · rw [if_pos hg]
    refine ⟨rfl, ⟨nofun, fun h => (hg h).elim⟩, fun _ => rfl, fun y => ?_⟩
    simp [EINVAL]

/-- Other arguments of `bind` are refused and nothing is kept. -/
theorem C83_bind_other (s : Sock) (ho : s.isClosed = false) (hb : s.bound = none) :
    s.bind .null = (s, .err 14) ∧ s.bind .other = (s, .err 22) := by
  simp [Sock.bind, ho, hb, EINVAL, EFAULT]

/-- Setting `SO_SNDBUF` to `v` gives room for `2v`, no less than 4096 or than what counts as in flight, no more than 2^28.  The code falls short: readiness to send is not updated. -/
theorem C83_sndbuf (s : Sock) (v : Nat) (hv : s.sentLen ≤ 268435456) :
    (s.setsockopt (.sndbuf 4 (some v))).1.sendLimit =
      (if 268435456 ≤ 2 * v then 268435456 else if 2 * v < 4096 ∧ s.sentLen < 4096 then 4096 else if 2 * v < s.sentLen then s.sentLen else 2 * v) ∧
    (s.setsockopt (.sndbuf 4 (some v))).1.state = s.state ∧ (s.setsockopt (.sndbuf 4 (some v))).1.buf = s.buf := by
  simp only [Sock.setsockopt]
  rw [if_neg (by omega), if_neg (by omega)]
  refine ⟨?_, rfl, rfl⟩
  simp only [Int.toNat_natCast]
  grind

/-- As long as `SO_SNDBUF` was never set, readiness to send says whether something can be sent. -/
theorem C83_writable (lib : Lib) (nb : Bool) (ip : Nat) (s : Sock) (tr : List (Op × Out)) (h : Reach lib nb ip s tr) (hk : ∀ e ∈ tr, e.1.KeepsLimit) (ho : s.isClosed = false) :
    (s.state.writable = true ↔ s.sentLen < 212992) ∧ s.sendLimit = 212992 := by
  have key : s.sendLimit = 212992 ∧ (s.isClosed = false → (s.state.writable = true ↔ s.sentLen < s.sendLimit)) := by
    clear ho
    induction h with
    | new => exact ⟨rfl, fun _ => ⟨fun _ => (by decide : 0 < DEFAULT_LIMIT), fun _ => rfl⟩⟩
    | @step s tr op hop hr ih =>
      obtain ⟨i1, i2⟩ := ih fun e he => hk e (by simp [he])
      have hkop : op.KeepsLimit := hk (op, (Shadow.Netlink.step lib s op).2) (by simp)
      refine ⟨(step_limit lib s op hkop).1.trans i1, ?_⟩
      cases op with
      | bind a => simp only [Shadow.Netlink.step, Sock.bind]; grind
      | getsockname => exact i2
      | setNonblock b => exact i2
      | close => simp only [Shadow.Netlink.step, Sock.close]; grind [Sock.refresh]
      | setsockopt o => cases o <;> first | exact hkop.elim | exact i2
      | recv a =>
        simp only [Shadow.Netlink.step]
        rcases recv_cases lib s a with ⟨-, hc, p, rest, -, he⟩ | ⟨-, he | ⟨-, he⟩⟩ <;> rw [he] <;> grind [Sock.refresh]
      | send a =>
        simp only [Shadow.Netlink.step]
        by_cases hs : ∃ n, (s.send a).2 = .sent n
        · obtain ⟨n, hs⟩ := hs
          obtain ⟨-, -, -, -, -, -, -, p, hd⟩ := (C83_send s a n).mp hs
          rw [C83_send_effect s a n p hs hd]
          grind [Sock.refresh]
        · rw [C83_send_refused s a fun n e => hs ⟨n, e⟩]; exact i2
  refine ⟨?_, key.1⟩
  rw [key.2 ho, key.1]

end Shadow.Netlink
