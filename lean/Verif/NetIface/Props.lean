import Verif.NetIface.Model

/-!
# C15, C16: delivery of packets to sockets, and ephemeral ports
-/
namespace Shadow.NetIface

open Shadow.Base

variable {σ : Type}

/-! ### Specification -/

/-- The two interfaces of a host. -/
inductive Which where
  | lo
  | inet
deriving DecidableEq

/-- The interfaces that a local address stands for: all for 0.0.0.0, otherwise the one that has it
    (127.0.0.0/8 is loopback). -/
def Covers (publicIp : Nat) (w : Which) (ip : Nat) : Prop :=
  ip = 0 ∨ match w with
    | .lo => ip / 16777216 = 127
    | .inet => ip = publicIp ∧ ip / 16777216 ≠ 127

/-- An association of a socket, from the time it was made until its handle is dropped. -/
structure Assoc (σ : Type) where
  socket : σ
  protocol : Protocol
  loc : SockAddr
  remote : SockAddr

/-- `a` asks for packets of that protocol, to that port, from that peer, on that interface. -/
def Assoc.At (publicIp : Nat) (w : Which) (protocol : Protocol) (port : Nat) (peer : SockAddr) (a : Assoc σ) : Prop :=
  a.protocol = protocol ∧ a.loc.port = port ∧ a.remote = peer ∧ Covers publicIp w a.loc.ip

/-- Two associations that would get the same packets. -/
def Conflict (publicIp : Nat) (a b : Assoc σ) : Prop :=
  a.protocol = b.protocol ∧ a.loc.port = b.loc.port ∧ a.remote = b.remote ∧
    ∃ w, Covers publicIp w a.loc.ip ∧ Covers publicIp w b.loc.ip

/-- Histories: sockets are associated, and association handles are dropped. -/
inductive Run (publicIp : Nat) : Ns σ → List (Assoc σ) → Prop where
  | new : Run publicIp (Ns.new publicIp) []
  | associate {n n' live s p loc loc' peer g rng} : Run publicIp n live →
      n.associateSocket s p loc peer g rng = .ok (n', .ok loc') → Run publicIp n' (live ++ [⟨s, p, loc', peer⟩])
  | drop {n l1 l2 a} : Run publicIp n (l1 ++ a :: l2) →
      Run publicIp (n.disassociate a.protocol a.loc a.remote) (l1 ++ l2)

/-- Some association asks for these packets. -/
def Taken (publicIp : Nat) (live : List (Assoc σ)) (w : Which) (protocol : Protocol) (port : Nat) (peer : SockAddr) : Prop :=
  ∃ a ∈ live, a.At publicIp w protocol port peer

/-- The address can be used with this peer. -/
def Free (publicIp : Nat) (live : List (Assoc σ)) (protocol : Protocol) (loc peer : SockAddr) : Prop :=
  ∀ w, Covers publicIp w loc.ip → ¬ Taken publicIp live w protocol loc.port peer

/-- The values that the random generator may return. -/
def InRange (rng : Nat → Nat) : Prop := ∀ i, 10000 ≤ rng i ∧ rng i ≤ 65535

/-! ### Invariant -/

def Ns.iface (n : Ns σ) : Which → Iface σ
  | .lo => n.localhost
  | .inet => n.internet

/-- What an interface holds for a port and peer. -/
def Iface.at (i : Iface σ) (protocol : Protocol) (port : Nat) (peer : SockAddr) : Option σ :=
  i.recv ⟨protocol, ⟨i.addr, port⟩, peer⟩

structure Inv (publicIp : Nat) (n : Ns σ) (live : List (Assoc σ)) : Prop where
  ip : n.defaultIp = publicIp
  holds : ∀ w protocol port peer s, (n.iface w).at protocol port peer = some s ↔
    ∃ a ∈ live, a.socket = s ∧ a.At publicIp w protocol port peer
  excl : live.Pairwise (fun a b => ¬ Conflict publicIp a b)

theorem Conflict.symm {publicIp : Nat} {a b : Assoc σ} (h : Conflict publicIp a b) : Conflict publicIp b a := by
  obtain ⟨h1, h2, h3, w, h4, h5⟩ := h
  exact ⟨h1.symm, h2.symm, h3.symm, w, h5, h4⟩

theorem taken_iff {publicIp : Nat} {n : Ns σ} {live : List (Assoc σ)} (h : Inv publicIp n live) (w : Which)
    (protocol : Protocol) (port : Nat) (peer : SockAddr) :
    (n.iface w).isAddrInUse protocol port peer = true ↔ Taken publicIp live w protocol port peer := by
  unfold Iface.isAddrInUse
  rw [Option.isSome_iff_exists]
  constructor
  · rintro ⟨s, hs⟩
    obtain ⟨a, ha, -, h2⟩ := (h.holds w protocol port peer s).1 hs
    exact ⟨a, ha, h2⟩
  · rintro ⟨a, ha, h2⟩
    exact ⟨a.socket, (h.holds w protocol port peer _).2 ⟨a, ha, rfl, h2⟩⟩

theorem loopback_iff (ip : Nat) : isLoopback ip = true ↔ ip / 16777216 = 127 := by simp [isLoopback]
theorem unspecified_iff (ip : Nat) : isUnspecified ip = true ↔ ip = 0 := by simp [isUnspecified]

/-- The answer of `is_addr_in_use`. -/
theorem inUse_spec {publicIp : Nat} {n : Ns σ} {live : List (Assoc σ)} (h : Inv publicIp n live) (protocol : Protocol)
    (src dst : SockAddr) :
    (n.isAddrInUse protocol src dst = none ↔ ∀ w, ¬ Covers publicIp w src.ip) ∧
    (n.isAddrInUse protocol src dst = some false ↔ (∃ w, Covers publicIp w src.ip) ∧ Free publicIp live protocol src dst) := by
  have hlo := taken_iff h .lo protocol src.port dst
  have hin := taken_iff h .inet protocol src.port dst
  simp only [Ns.iface] at hlo hin
  unfold Ns.isAddrInUse
  by_cases h0 : src.ip = 0
  · rw [if_pos ((unspecified_iff _).2 h0)]
    constructor
    · simp only [reduceCtorEq, false_iff]
      exact fun hh => hh .lo (Or.inl h0)
    · simp only [Option.some.injEq, Bool.or_eq_false_iff]
      rw [← Bool.not_eq_true, hlo, ← Bool.not_eq_true, hin]
      constructor
      · rintro ⟨h1, h2⟩
        refine ⟨⟨.lo, Or.inl h0⟩, fun w _ => ?_⟩
        cases w
        · exact h1
        · exact h2
      · rintro ⟨-, h1⟩
        exact ⟨h1 .lo (Or.inl h0), h1 .inet (Or.inl h0)⟩
  · rw [if_neg (fun hh => h0 ((unspecified_iff _).1 hh))]
    unfold Ns.interface
    by_cases hl : src.ip / 16777216 = 127
    · rw [if_pos ((loopback_iff _).2 hl)]
      have hni : ¬ Covers publicIp .inet src.ip := by
        rintro (hh | ⟨-, hh⟩)
        · exact h0 hh
        · exact hh hl
      constructor
      · simp only [Option.map_some, reduceCtorEq, false_iff]
        exact fun hh => hh .lo (Or.inr hl)
      · simp only [Option.map_some, Option.some.injEq]
        rw [← Bool.not_eq_true, hlo]
        constructor
        · intro h1
          refine ⟨⟨.lo, Or.inr hl⟩, fun w hw => ?_⟩
          cases w
          · exact h1
          · exact absurd hw hni
        · rintro ⟨-, h1⟩
          exact h1 .lo (Or.inr hl)
    · rw [if_neg (fun hh => hl ((loopback_iff _).1 hh))]
      have hnl : ¬ Covers publicIp .lo src.ip := by
        rintro (hh | hh)
        · exact h0 hh
        · exact hl hh
      by_cases hp : src.ip = publicIp
      · have : (src.ip == n.defaultIp || isUnspecified src.ip) = true := by simp [h.ip, hp]
        rw [if_pos this]
        have hci : Covers publicIp .inet src.ip := Or.inr ⟨hp, hl⟩
        constructor
        · simp only [Option.map_some, reduceCtorEq, false_iff]
          exact fun hh => hh .inet hci
        · simp only [Option.map_some, Option.some.injEq]
          rw [← Bool.not_eq_true, hin]
          constructor
          · intro h1
            refine ⟨⟨.inet, hci⟩, fun w hw => ?_⟩
            cases w
            · exact absurd hw hnl
            · exact h1
          · rintro ⟨-, h1⟩
            exact h1 .inet hci
      · have : ¬ (src.ip == n.defaultIp || isUnspecified src.ip) = true := by simp [h.ip, hp, isUnspecified, h0]
        rw [if_neg this]
        have hci : ∀ w, ¬ Covers publicIp w src.ip := by
          intro w
          cases w
          · exact hnl
          · rintro (hh | ⟨hh, -⟩)
            · exact h0 hh
            · exact hp hh
        constructor
        · simp [hci]
        · simp [hci]

theorem Iface.at_associate {i i' : Iface σ} {s : σ} {p : Protocol} {port : Nat} {peer : SockAddr}
    (hx : i.associate s p port peer = .ok i') (p' : Protocol) (port' : Nat) (peer' : SockAddr) :
    i'.at p' port' peer' = if p' = p ∧ port' = port ∧ peer' = peer then some s else i.at p' port' peer' := by
  unfold Iface.associate at hx
  simp only at hx
  split at hx
  · cases hx
    simp only [Iface.at]
    by_cases hc : p' = p ∧ port' = port ∧ peer' = peer
    · obtain ⟨rfl, rfl, rfl⟩ := hc
      rw [if_pos rfl]; simp
    · rw [if_neg, if_neg hc]
      intro hh
      simp only [Key.mk.injEq, SockAddr.mk.injEq, true_and] at hh
      exact hc ⟨hh.1, hh.2.1, hh.2.2⟩
  · cases hx

theorem Iface.associate_ok {i : Iface σ} {s : σ} {p : Protocol} {port : Nat} {peer : SockAddr}
    (h : i.isAddrInUse p port peer = false) : ∃ i', i.associate s p port peer = .ok i' := by
  unfold Iface.isAddrInUse at h
  unfold Iface.associate
  simp only
  split
  · exact ⟨_, rfl⟩
  · rename_i hh; rw [hh] at h; cases h

theorem Iface.at_disassociate (i : Iface σ) (p : Protocol) (port : Nat) (peer : SockAddr) (p' : Protocol) (port' : Nat)
    (peer' : SockAddr) : (i.disassociate p port peer).at p' port' peer' =
      if p' = p ∧ port' = port ∧ peer' = peer then none else i.at p' port' peer' := by
  unfold Iface.disassociate Iface.at
  simp only
  by_cases hc : p' = p ∧ port' = port ∧ peer' = peer
  · obtain ⟨rfl, rfl, rfl⟩ := hc
    rw [if_pos rfl, if_pos ⟨rfl, rfl, rfl⟩]
  · rw [if_neg, if_neg hc]
    intro hh
    simp only [Key.mk.injEq, SockAddr.mk.injEq, true_and] at hh
    exact hc ⟨hh.1, hh.2.1, hh.2.2⟩

open Classical in
/-- The maps after an association and after a disassociation. -/
theorem Ns.at_disassociate {publicIp : Nat} {n : Ns σ} (hip : n.defaultIp = publicIp) (p : Protocol) (bind peer : SockAddr)
    (w : Which) (p' : Protocol) (port' : Nat) (peer' : SockAddr) :
    ((n.disassociate p bind peer).iface w).at p' port' peer' =
      (if Covers publicIp w bind.ip ∧ p' = p ∧ port' = bind.port ∧ peer' = peer then none else (n.iface w).at p' port' peer') ∧
    (n.disassociate p bind peer).defaultIp = publicIp := by
  unfold Ns.disassociate
  by_cases h0 : bind.ip = 0
  · rw [if_pos ((unspecified_iff _).2 h0)]
    refine ⟨?_, hip⟩
    have : Covers publicIp w bind.ip := Or.inl h0
    cases w <;> simp [Ns.iface, Iface.at_disassociate, this]
  · rw [if_neg (fun hh => h0 ((unspecified_iff _).1 hh))]
    by_cases hl : bind.ip / 16777216 = 127
    · rw [if_pos ((loopback_iff _).2 hl)]
      refine ⟨?_, hip⟩
      cases w
      · have : Covers publicIp .lo bind.ip := Or.inr hl
        simp [Ns.iface, Iface.at_disassociate, this]
      · have : ¬ Covers publicIp .inet bind.ip := by
          rintro (hh | ⟨-, hh⟩)
          · exact h0 hh
          · exact hh hl
        simp [Ns.iface, this]
    · rw [if_neg (fun hh => hl ((loopback_iff _).1 hh))]
      have hnl : ¬ Covers publicIp .lo bind.ip := by
        rintro (hh | hh)
        · exact h0 hh
        · exact hl hh
      by_cases hp : bind.ip = publicIp
      · rw [if_pos (by simp [hip, hp])]
        refine ⟨?_, hip⟩
        cases w
        · simp [Ns.iface, hnl]
        · have : Covers publicIp .inet bind.ip := Or.inr ⟨hp, hl⟩
          simp [Ns.iface, Iface.at_disassociate, this]
      · rw [if_neg (by simp [hip, hp])]
        refine ⟨?_, hip⟩
        have hni : ¬ Covers publicIp .inet bind.ip := by
          rintro (hh | ⟨hh, -⟩)
          · exact h0 hh
          · exact hp hh
        cases w
        · simp [hnl]
        · simp [hni]

open Classical in
theorem Ns.at_associate {publicIp : Nat} {n : Ns σ} (hip : n.defaultIp = publicIp) {s : σ} {p : Protocol} {bind peer : SockAddr}
    (hf : ∀ w, Covers publicIp w bind.ip → (n.iface w).isAddrInUse p bind.port peer = false) :
    ∃ n', n.associate s p bind peer = .ok n' ∧ n'.defaultIp = publicIp ∧ ∀ w p' port' peer', (n'.iface w).at p' port' peer' =
      (if Covers publicIp w bind.ip ∧ p' = p ∧ port' = bind.port ∧ peer' = peer then some s else (n.iface w).at p' port' peer') := by
  unfold Ns.associate
  by_cases h0 : bind.ip = 0
  · rw [if_pos ((unspecified_iff _).2 h0)]
    have hc : ∀ w, Covers publicIp w bind.ip := fun _ => Or.inl h0
    obtain ⟨lo, e1⟩ := Iface.associate_ok (s := s) (hf .lo (hc _))
    obtain ⟨inet, e2⟩ := Iface.associate_ok (s := s) (hf .inet (hc _))
    simp only [Ns.iface] at e1 e2
    refine ⟨{ n with localhost := lo, internet := inet }, by rw [e1, R.bind_ok, e2]; rfl, hip, ?_⟩
    intro w p' port' peer'
    cases w
    · simp [Ns.iface, Iface.at_associate e1, hc]
    · simp [Ns.iface, Iface.at_associate e2, hc]
  · rw [if_neg (fun hh => h0 ((unspecified_iff _).1 hh))]
    by_cases hl : bind.ip / 16777216 = 127
    · rw [if_pos ((loopback_iff _).2 hl)]
      have hc : Covers publicIp .lo bind.ip := Or.inr hl
      have hni : ¬ Covers publicIp .inet bind.ip := by
        rintro (hh | ⟨-, hh⟩)
        · exact h0 hh
        · exact hh hl
      obtain ⟨lo, e1⟩ := Iface.associate_ok (s := s) (hf .lo hc)
      simp only [Ns.iface] at e1
      refine ⟨{ n with localhost := lo }, by rw [e1]; rfl, hip, ?_⟩
      intro w p' port' peer'
      cases w
      · simp [Ns.iface, Iface.at_associate e1, hc]
      · simp [Ns.iface, hni]
    · rw [if_neg (fun hh => hl ((loopback_iff _).1 hh))]
      have hnl : ¬ Covers publicIp .lo bind.ip := by
        rintro (hh | hh)
        · exact h0 hh
        · exact hl hh
      by_cases hp : bind.ip = publicIp
      · rw [if_pos (by simp [hip, hp])]
        have hc : Covers publicIp .inet bind.ip := Or.inr ⟨hp, hl⟩
        obtain ⟨inet, e2⟩ := Iface.associate_ok (s := s) (hf .inet hc)
        simp only [Ns.iface] at e2
        refine ⟨{ n with internet := inet }, by rw [e2]; rfl, hip, ?_⟩
        intro w p' port' peer'
        cases w
        · simp [Ns.iface, hnl]
        · simp [Ns.iface, Iface.at_associate e2, hc]
      · rw [if_neg (by simp [hip, hp])]
        refine ⟨n, rfl, hip, ?_⟩
        intro w p' port' peer'
        have hni : ¬ Covers publicIp .inet bind.ip := by
          rintro (hh | ⟨hh, -⟩)
          · exact h0 hh
          · exact hp hh
        cases w
        · simp [hnl]
        · simp [hni]

theorem mem_searchOrder {start p : Nat} (h1 : 10000 ≤ start) (h2 : start ≤ 65535) :
    p ∈ searchOrder start ↔ 10000 ≤ p ∧ p ≤ 65535 := by
  unfold searchOrder
  rw [List.mem_append, List.mem_range'_1, List.mem_range'_1]
  show (start ≤ p ∧ p < start + (65535 + 1 - start)) ∨ (10000 ≤ p ∧ p < 10000 + (start - 10000)) ↔ _
  omega

theorem portFree_iff {publicIp : Nat} {n : Ns σ} {live : List (Assoc σ)} (h : Inv publicIp n live) (p : Protocol)
    (ip : Nat) (peer : SockAddr) (port : Nat) :
    n.portFree p ip peer port = true ↔ (∃ w, Covers publicIp w ip) ∧ Free publicIp live p ⟨ip, port⟩ peer ∧
      Free publicIp live p ⟨ip, port⟩ wildcard := by
  have key : ∀ peer, (n.isAddrInUse p ⟨ip, port⟩ peer).getD true = false ↔
      (∃ w, Covers publicIp w ip) ∧ Free publicIp live p ⟨ip, port⟩ peer := by
    intro peer
    rw [← (inUse_spec h p ⟨ip, port⟩ peer).2]
    cases hx : n.isAddrInUse p ⟨ip, port⟩ peer with
    | none => simp
    | some b => simp
  unfold Ns.portFree
  rw [Bool.and_eq_true, Bool.not_eq_true', Bool.not_eq_true', key, key]
  constructor
  · rintro ⟨⟨h1, h2⟩, -, h3⟩; exact ⟨h1, h2, h3⟩
  · rintro ⟨h1, h2, h3⟩; exact ⟨⟨h1, h2⟩, h1, h3⟩

/-- The port that is chosen, for all random values. -/
theorem port_spec {n : Ns σ} (p : Protocol)
    (ip : Nat) (peer : SockAddr) {rng : Nat → Nat} (hr : InRange rng) :
    (∀ port, n.getRandomFreePort p ip peer rng = some port → 10000 ≤ port ∧ port ≤ 65535 ∧ n.portFree p ip peer port = true) ∧
    (n.getRandomFreePort p ip peer rng = none ↔ ∀ port, 10000 ≤ port → port ≤ 65535 → n.portFree p ip peer port = false) := by
  have hs := hr 10
  constructor
  · intro port hp
    unfold Ns.getRandomFreePort at hp
    rcases Option.or_eq_some_iff.1 hp with hp | ⟨-, hp⟩
    · have hm := List.mem_of_find?_eq_some hp
      obtain ⟨i, -, rfl⟩ := List.mem_map.1 hm
      exact ⟨(hr i).1, (hr i).2, List.find?_some hp⟩
    · have hm := (mem_searchOrder hs.1 hs.2).1 (List.mem_of_find?_eq_some hp)
      exact ⟨hm.1, hm.2, List.find?_some hp⟩
  · unfold Ns.getRandomFreePort
    rw [Option.or_eq_none_iff, List.find?_eq_none, List.find?_eq_none]
    constructor
    · rintro ⟨-, h2⟩ port hp1 hp2
      simpa using h2 port ((mem_searchOrder hs.1 hs.2).2 ⟨hp1, hp2⟩)
    · intro h2
      refine ⟨?_, ?_⟩
      · intro x hx
        obtain ⟨i, -, rfl⟩ := List.mem_map.1 hx
        rw [h2 _ (hr i).1 (hr i).2]; simp
      · intro x hx
        have := (mem_searchOrder hs.1 hs.2).1 hx
        rw [h2 x this.1 this.2]; simp

theorem checkInUse_none {publicIp : Nat} {n : Ns σ} {live : List (Assoc σ)} (h : Inv publicIp n live) {p : Protocol}
    {loc peer : SockAddr} (hc : ∃ w, Covers publicIp w loc.ip) :
    (n.checkInUse p loc peer = none ↔ Free publicIp live p loc peer) ∧
    (n.checkInUse p loc peer = none ∨ n.checkInUse p loc peer = some .addrInUse) := by
  obtain ⟨h1, h2⟩ := inUse_spec h p loc peer
  unfold Ns.checkInUse
  generalize n.isAddrInUse p loc peer = r at h1 h2
  cases r with
  | none => exact absurd hc (fun ⟨w, hw⟩ => h1.1 rfl w hw)
  | some b =>
    cases b with
    | true =>
      simp only [Option.some.injEq, Bool.true_eq_false, false_iff, not_and] at h2
      simp [h2 hc]
    | false =>
      simp only [true_iff] at h2
      simp [h2.2]

/-- What `associate_socket` does. -/
theorem associate_spec {publicIp : Nat} {n : Ns σ} {live : List (Assoc σ)} (h : Inv publicIp n live) (s : σ) (p : Protocol)
    (loc peer : SockAddr) (g : Bool) (rng : Nat → Nat) :
    ((∀ w, ¬ Covers publicIp w loc.ip) ∧ n.associateSocket s p loc peer g rng = .ok (n, .err .inval)) ∨
    ((∃ w, Covers publicIp w loc.ip) ∧ n.associateSocket s p loc peer g rng = .ok (n, .err .addrInUse) ∧
      ∀ loc', n.chooseLocal p loc peer rng = some loc' →
        ¬ (Free publicIp live p loc' peer ∧ (g = true → Free publicIp live p loc' wildcard))) ∨
    (∃ n' loc', (∃ w, Covers publicIp w loc.ip) ∧ n.chooseLocal p loc peer rng = some loc' ∧
      n.associateSocket s p loc peer g rng = .ok (n', .ok loc') ∧
      Free publicIp live p loc' peer ∧ (g = true → Free publicIp live p loc' wildcard) ∧
      Inv publicIp n' (live ++ [⟨s, p, loc', peer⟩])) := by
  unfold Ns.associateSocket
  have hcov : ((!isUnspecified loc.ip && (n.interface loc.ip).isNone) = true) ↔ ∀ w, ¬ Covers publicIp w loc.ip := by
    rw [← (inUse_spec h p loc peer).1]
    unfold Ns.isAddrInUse
    cases hu : isUnspecified loc.ip with
    | true => simp
    | false => simp
  by_cases hc : ∀ w, ¬ Covers publicIp w loc.ip
  · exact Or.inl ⟨hc, by rw [if_pos (hcov.2 hc)]⟩
  · right
    rw [if_neg (fun hh => hc (hcov.1 hh))]
    have hc : ∃ w, Covers publicIp w loc.ip := Classical.not_forall_not.1 hc
    cases hl : n.chooseLocal p loc peer rng with
    | none => exact Or.inl ⟨hc, rfl, by simp⟩
    | some loc' =>
      have hip : loc'.ip = loc.ip := by
        unfold Ns.chooseLocal at hl
        split at hl
        · cases hl; rfl
        · obtain ⟨q, -, rfl⟩ := Option.map_eq_some_iff.1 hl; rfl
      have hc' : ∃ w, Covers publicIp w loc'.ip := by rw [hip]; exact hc
      obtain ⟨a1, a2⟩ := checkInUse_none h (p := p) (peer := peer) hc'
      obtain ⟨b1, b2⟩ := checkInUse_none h (p := p) (peer := wildcard) hc'
      have hall : (n.checkAll p loc' peer g = none ↔ Free publicIp live p loc' peer ∧ (g = true → Free publicIp live p loc' wildcard)) ∧
          (n.checkAll p loc' peer g = none ∨ n.checkAll p loc' peer g = some .addrInUse) := by
        unfold Ns.checkAll
        constructor
        · rw [Option.or_eq_none_iff, a1]
          cases g with
          | false => simp
          | true => simp only [if_true, b1, true_implies]
        · rcases a2 with e | e
          · rw [e, Option.none_or]
            cases g with
            | false => exact Or.inl rfl
            | true => exact b2
          · rw [e]; exact Or.inr rfl
      cases hch : n.checkAll p loc' peer g with
      | some e =>
        left
        rcases hall.2 with e' | e'
        · rw [e'] at hch; cases hch
        · rw [hch] at e'
          cases e'
          refine ⟨hc, by simp [hch], ?_⟩
          intro l2 hl2
          cases hl2
          rw [← hall.1, hch]
          simp
      | none =>
        right
        obtain ⟨f1, f2⟩ := hall.1.1 hch
        have hf : ∀ w, Covers publicIp w loc'.ip → (n.iface w).isAddrInUse p loc'.port peer = false := by
          intro w hw
          rw [← Bool.not_eq_true, taken_iff h]
          exact f1 w hw
        obtain ⟨n', e1, e2, e3⟩ := Ns.at_associate h.ip (s := s) hf
        refine ⟨n', loc', hc, rfl, by simp [hch, e1], f1, f2, e2, ?_, ?_⟩
        · intro w p' port' peer' s'
          rw [e3]
          by_cases hm : Covers publicIp w loc'.ip ∧ p' = p ∧ port' = loc'.port ∧ peer' = peer
          · rw [if_pos hm]
            obtain ⟨m1, rfl, rfl, rfl⟩ := hm
            constructor
            · intro hh
              cases hh
              exact ⟨_, List.mem_append_right _ (List.mem_singleton.2 rfl), rfl, rfl, rfl, rfl, m1⟩
            · rintro ⟨a, ha, rfl, hat⟩
              rcases List.mem_append.1 ha with ha | ha
              · exact absurd ⟨a, ha, hat⟩ (f1 w m1)
              · rw [List.mem_singleton.1 ha]
          · rw [if_neg hm, h.holds]
            constructor
            · rintro ⟨a, ha, q⟩
              exact ⟨a, List.mem_append_left _ ha, q⟩
            · rintro ⟨a, ha, q1, q⟩
              rcases List.mem_append.1 ha with ha | ha
              · exact ⟨a, ha, q1, q⟩
              · rw [List.mem_singleton.1 ha] at q
                obtain ⟨r1, r2, r3, r4⟩ := q
                exact absurd ⟨r4, r1.symm, r2.symm, r3.symm⟩ hm
        · rw [List.pairwise_append]
          refine ⟨h.excl, by simp, ?_⟩
          intro a ha b hb
          rw [List.mem_singleton.1 hb]
          rintro ⟨c1, c2, c3, w, c4, c5⟩
          exact f1 w c5 ⟨a, ha, c1, c2, c3, c4⟩

theorem drop_spec {publicIp : Nat} {n : Ns σ} {l1 l2 : List (Assoc σ)} {a : Assoc σ} (h : Inv publicIp n (l1 ++ a :: l2)) :
    Inv publicIp (n.disassociate a.protocol a.loc a.remote) (l1 ++ l2) := by
  have hex := h.excl
  rw [List.pairwise_append, List.pairwise_cons] at hex
  obtain ⟨x1, ⟨x2, x3⟩, x4⟩ := hex
  refine ⟨(Ns.at_disassociate h.ip a.protocol a.loc a.remote .lo .tcp 0 wildcard).2, ?_, ?_⟩
  · intro w p port peer s
    rw [(Ns.at_disassociate h.ip a.protocol a.loc a.remote w p port peer).1]
    have hno : ∀ b ∈ l1 ++ l2, ¬ Conflict publicIp a b := by
      intro b hb
      rcases List.mem_append.1 hb with hb | hb
      · exact fun hh => x4 b hb a (List.mem_cons_self ..) hh.symm
      · exact x2 b hb
    by_cases hm : Covers publicIp w a.loc.ip ∧ p = a.protocol ∧ port = a.loc.port ∧ peer = a.remote
    · rw [if_pos hm]
      obtain ⟨m1, rfl, rfl, rfl⟩ := hm
      simp only [reduceCtorEq, false_iff]
      rintro ⟨b, hb, -, c1, c2, c3, c4⟩
      exact hno b hb ⟨c1.symm, c2.symm, c3.symm, w, m1, c4⟩
    · rw [if_neg hm, h.holds]
      constructor
      · rintro ⟨b, hb, q1, q⟩
        rcases List.mem_append.1 hb with hb | hb
        · exact ⟨b, List.mem_append_left _ hb, q1, q⟩
        · rcases List.mem_cons.1 hb with rfl | hb
          · obtain ⟨r1, r2, r3, r4⟩ := q
            exact absurd ⟨r4, r1.symm, r2.symm, r3.symm⟩ hm
          · exact ⟨b, List.mem_append_right _ hb, q1, q⟩
      · rintro ⟨b, hb, q⟩
        refine ⟨b, ?_, q⟩
        rcases List.mem_append.1 hb with hb | hb
        · exact List.mem_append_left _ hb
        · exact List.mem_append_right _ (List.mem_cons_of_mem _ hb)
  · rw [List.pairwise_append]
    exact ⟨x1, x3, fun b hb c hc => x4 b hb c (List.mem_cons_of_mem _ hc)⟩

theorem Run.inv {publicIp : Nat} {n : Ns σ} {live : List (Assoc σ)} (h : Run publicIp n live) : Inv publicIp n live := by
  induction h with
  | new =>
    refine ⟨rfl, ?_, .nil⟩
    intro w p port peer s
    cases w <;> simp [Ns.new, Ns.iface, Iface.at, Iface.new]
  | @associate n n' live s p loc loc' peer g rng _ hx ih =>
    rcases associate_spec ih s p loc peer g rng with ⟨-, e⟩ | ⟨-, e, -⟩ | ⟨n2, l2, -, -, e, -, -, e2⟩
    · rw [e] at hx; cases hx
    · rw [e] at hx; cases hx
    · rw [e] at hx; cases hx; exact e2
  | drop _ ih => exact drop_spec ih

/-! ### C15 -/

/-- **C15**: a packet goes to the socket associated with exactly its source, if there is one; otherwise
    to the one associated with any source; otherwise it is dropped. -/
theorem C15_deliver {publicIp : Nat} {n : Ns σ} {live : List (Assoc σ)} (h : Run publicIp n live) (w : Which)
    (p : Protocol) (src dst : SockAddr) :
    (∀ s, (n.iface w).push p src dst = some s ↔
      (∃ a ∈ live, a.socket = s ∧ a.At publicIp w p dst.port src) ∨
      ((¬ ∃ a ∈ live, a.At publicIp w p dst.port src) ∧
        ∃ a ∈ live, a.socket = s ∧ a.At publicIp w p dst.port wildcard)) ∧
    ((n.iface w).push p src dst = none ↔
      ∀ a ∈ live, ¬ a.At publicIp w p dst.port src ∧ ¬ a.At publicIp w p dst.port wildcard) := by
  have hi := h.inv
  have e1 := hi.holds w p dst.port src
  have e2 := hi.holds w p dst.port wildcard
  have hpush : (n.iface w).push p src dst = ((n.iface w).at p dst.port src).or ((n.iface w).at p dst.port wildcard) := rfl
  have hnone : ∀ peer, (n.iface w).at p dst.port peer = none ↔ ¬ ∃ a ∈ live, a.At publicIp w p dst.port peer := by
    intro peer
    constructor
    · rintro hn ⟨a, ha, hat⟩
      have := (hi.holds w p dst.port peer a.socket).2 ⟨a, ha, rfl, hat⟩
      rw [hn] at this
      cases this
    · intro hn
      cases hx : (n.iface w).at p dst.port peer with
      | none => rfl
      | some s =>
        obtain ⟨a, ha, -, hat⟩ := (hi.holds w p dst.port peer s).1 hx
        exact absurd ⟨a, ha, hat⟩ hn
  constructor
  · intro s
    rw [hpush, Option.or_eq_some_iff, e1, e2, hnone]
  · rw [hpush, Option.or_eq_none_iff, hnone, hnone]
    constructor
    · rintro ⟨h1, h2⟩ a ha
      exact ⟨fun hh => h1 ⟨a, ha, hh⟩, fun hh => h2 ⟨a, ha, hh⟩⟩
    · intro hh
      exact ⟨fun ⟨a, ha, hat⟩ => (hh a ha).1 hat, fun ⟨a, ha, hat⟩ => (hh a ha).2 hat⟩

/-- **C15**: no two associations would get the same packets. -/
theorem C15_exclusive {publicIp : Nat} {n : Ns σ} {live : List (Assoc σ)} (h : Run publicIp n live) :
    live.Pairwise (fun a b => ¬ Conflict publicIp a b) := h.inv.excl

/-- **C15**: a socket without an association (all its handles are dropped) gets nothing. -/
theorem C15_after_drop {publicIp : Nat} {n : Ns σ} {live : List (Assoc σ)} (h : Run publicIp n live) {s : σ}
    (hs : ∀ a ∈ live, a.socket ≠ s) (w : Which) (p : Protocol) (src dst : SockAddr) :
    (n.iface w).push p src dst ≠ some s := by
  intro hh
  rcases ((C15_deliver h w p src dst).1 s).1 hh with ⟨a, ha, e, -⟩ | ⟨-, a, ha, e, -⟩ <;> exact hs a ha e

/-- **C15**: binding to a given port never panics and succeeds exactly if an interface has the address
    and nobody has the same address and peer (nor, if asked for, the same address with any peer). -/
theorem C15_associate {publicIp : Nat} {n : Ns σ} {live : List (Assoc σ)} (h : Run publicIp n live) (s : σ) (p : Protocol)
    {loc : SockAddr} (hp : loc.port ≠ 0) (peer : SockAddr) (g : Bool) (rng : Nat → Nat) :
    ∃ n' r, n.associateSocket s p loc peer g rng = .ok (n', r) ∧
      (r = .err .inval ↔ ∀ w, ¬ Covers publicIp w loc.ip) ∧
      (r = .ok loc ↔ (∃ w, Covers publicIp w loc.ip) ∧ Free publicIp live p loc peer ∧
        (g = true → Free publicIp live p loc wildcard)) ∧
      (r = .err .inval ∨ r = .err .addrInUse ∨ r = .ok loc) := by
  have hch : n.chooseLocal p loc peer rng = some loc := by unfold Ns.chooseLocal; rw [if_pos hp]
  rcases associate_spec h.inv s p loc peer g rng with ⟨c, e⟩ | ⟨c, e, e2⟩ | ⟨n2, l2, c, e0, e, e1, e2, -⟩
  · refine ⟨_, _, e, by simp [c], ?_, Or.inl rfl⟩
    simp only [reduceCtorEq, false_iff]
    rintro ⟨⟨w, hw⟩, -⟩
    exact c w hw
  · refine ⟨_, _, e, ?_, ?_, Or.inr (Or.inl rfl)⟩
    · simp only [Res.err.injEq, reduceCtorEq, false_iff]
      intro hh
      obtain ⟨w, hw⟩ := c
      exact hh w hw
    · simp only [reduceCtorEq, false_iff]
      rintro ⟨-, q⟩
      exact e2 loc hch q
  · rw [hch] at e0
    cases e0
    refine ⟨_, _, e, ?_, ?_, Or.inr (Or.inr rfl)⟩
    · simp only [reduceCtorEq, false_iff]
      intro hh
      obtain ⟨w, hw⟩ := c
      exact hh w hw
    · simp [c, e1]
      exact e2

/-! ### C16 -/

/-- **C16**: the port of an implicit bind is in the ephemeral range and free on every interface that the
    address stands for, both for this peer and for any peer; there is none exactly if no port of the range is
    free.  For all occupancies and all values of the random generator. -/
theorem C16_port {publicIp : Nat} {n : Ns σ} {live : List (Assoc σ)} (h : Run publicIp n live) (p : Protocol)
    {ip : Nat} (hc : ∃ w, Covers publicIp w ip) (peer : SockAddr) {rng : Nat → Nat} (hr : InRange rng) :
    (∀ port, n.getRandomFreePort p ip peer rng = some port → 10000 ≤ port ∧ port ≤ 65535 ∧
      Free publicIp live p ⟨ip, port⟩ peer ∧ Free publicIp live p ⟨ip, port⟩ wildcard) ∧
    (n.getRandomFreePort p ip peer rng = none ↔ ∀ port, 10000 ≤ port → port ≤ 65535 →
      ¬ (Free publicIp live p ⟨ip, port⟩ peer ∧ Free publicIp live p ⟨ip, port⟩ wildcard)) := by
  obtain ⟨h1, h2⟩ := port_spec (n := n) p ip peer hr
  constructor
  · intro port hp
    obtain ⟨q1, q2, q3⟩ := h1 port hp
    obtain ⟨-, q4, q5⟩ := (portFree_iff h.inv p ip peer port).1 q3
    exact ⟨q1, q2, q4, q5⟩
  · rw [h2]
    constructor
    · intro hh port p1 p2 q
      have := hh port p1 p2
      rw [← Bool.not_eq_true, portFree_iff h.inv] at this
      exact this ⟨hc, q⟩
    · intro hh port p1 p2
      rw [← Bool.not_eq_true, portFree_iff h.inv]
      exact fun q => hh port p1 p2 q.2

/-- **C16**: an implicit bind succeeds exactly if a port is free, and then no check after the choice fails. -/
theorem C16_bind {publicIp : Nat} {n : Ns σ} {live : List (Assoc σ)} (h : Run publicIp n live) (s : σ) (p : Protocol)
    {ip : Nat} (hc : ∃ w, Covers publicIp w ip) (peer : SockAddr) (g : Bool) {rng : Nat → Nat} (hr : InRange rng) :
    (∃ n' port, n.associateSocket s p ⟨ip, 0⟩ peer g rng = .ok (n', .ok ⟨ip, port⟩) ∧ 10000 ≤ port ∧ port ≤ 65535 ∧
      Free publicIp live p ⟨ip, port⟩ peer ∧ Free publicIp live p ⟨ip, port⟩ wildcard) ∨
    (n.associateSocket s p ⟨ip, 0⟩ peer g rng = .ok (n, .err .addrInUse) ∧ ∀ port, 10000 ≤ port → port ≤ 65535 →
      ¬ (Free publicIp live p ⟨ip, port⟩ peer ∧ Free publicIp live p ⟨ip, port⟩ wildcard)) := by
  obtain ⟨h1, h2⟩ := C16_port h p hc peer hr
  have hch : n.chooseLocal p ⟨ip, 0⟩ peer rng = (n.getRandomFreePort p ip peer rng).map (fun q => ⟨ip, q⟩) := by
    unfold Ns.chooseLocal; simp
  rcases associate_spec h.inv s p ⟨ip, 0⟩ peer g rng with ⟨c, e⟩ | ⟨c, e, e2⟩ | ⟨n2, l2, c, e0, e, e1, e2, -⟩
  · obtain ⟨w, hw⟩ := hc; exact absurd hw (c w)
  · right
    refine ⟨e, h2.1 ?_⟩
    cases hx : n.getRandomFreePort p ip peer rng with
    | none => rfl
    | some port =>
      exfalso
      obtain ⟨-, -, q1, q2⟩ := h1 port hx
      exact e2 ⟨ip, port⟩ (by rw [hch, hx]; rfl) ⟨q1, fun _ => q2⟩
  · left
    rw [hch] at e0
    obtain ⟨port, hx, rfl⟩ := Option.map_eq_some_iff.1 e0
    obtain ⟨q1, q2, q3, q4⟩ := h1 port hx
    exact ⟨n2, port, e, q1, q2, q3, q4⟩

/-! ### Examples -/

/-- 11.0.0.1 -/
abbrev publicA : Nat := 184549377

/-- Socket 1 listens on 0.0.0.0:80; socket 2 is connected from 11.0.0.1:80 to 11.0.0.2:5000. -/
def twoSockets : R (Ns Nat) := do
  let r ← (Ns.new publicA : Ns Nat).associateSocket 1 .tcp ⟨0, 80⟩ wildcard true (fun _ => 10000)
  let r ← r.1.associateSocket 2 .tcp ⟨publicA, 80⟩ ⟨184549378, 5000⟩ false (fun _ => 10000)
  return r.1

def deliver (n : R (Ns Nat)) (w : Which) (p : Protocol) (src dst : SockAddr) : Option Nat :=
  match n with
  | .ok n => (n.iface w).push p src dst
  | .panic => none

example : deliver twoSockets .inet .tcp ⟨184549378, 5000⟩ ⟨publicA, 80⟩ = some 2 ∧
    deliver twoSockets .inet .tcp ⟨184549378, 5001⟩ ⟨publicA, 80⟩ = some 1 ∧
    deliver twoSockets .lo .tcp ⟨184549378, 5000⟩ ⟨localhostIp, 80⟩ = some 1 ∧
    deliver twoSockets .inet .udp ⟨184549378, 5000⟩ ⟨publicA, 80⟩ = none ∧
    deliver twoSockets .inet .tcp ⟨184549378, 5000⟩ ⟨publicA, 81⟩ = none := by decide

/-- The hypotheses are met: a run with two associations, one of them wildcard, and a dropped one. -/
example : ∃ n : Ns Nat, Run publicA n
    [⟨1, .tcp, ⟨0, 80⟩, wildcard⟩, ⟨2, .udp, ⟨publicA, 10007⟩, ⟨184549378, 5000⟩⟩] := by
  have h1 := Run.associate (s := 1) (p := .tcp) (loc := ⟨0, 80⟩) (loc' := ⟨0, 80⟩) (peer := wildcard) (g := true) (rng := fun _ => 10007)
    (Run.new (σ := Nat) (publicIp := publicA)) rfl
  have h2 := Run.associate (s := 9) (p := .udp) (loc := ⟨publicA, 53⟩) (loc' := ⟨publicA, 53⟩) (peer := wildcard) (g := true)
    (rng := fun _ => 10007) h1 rfl
  have h3 := Run.associate (s := 2) (p := .udp) (loc := ⟨publicA, 0⟩) (loc' := ⟨publicA, 10007⟩) (peer := ⟨184549378, 5000⟩) (g := true)
    (rng := fun _ => 10007) h2 rfl
  exact ⟨_, Run.drop (l1 := [⟨1, .tcp, ⟨0, 80⟩, wildcard⟩]) h3⟩

example : ∃ w, Covers publicA w 0 := ⟨.lo, Or.inl rfl⟩
example : ∃ w, Covers publicA w publicA := ⟨.inet, Or.inr ⟨rfl, by decide⟩⟩
example : InRange (fun i => 10000 + i % 55536) := fun i => by
  show 10000 ≤ 10000 + i % 55536 ∧ 10000 + i % 55536 ≤ 65535
  omega

end Shadow.NetIface
