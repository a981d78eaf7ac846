import Verif.Dns.Model
import Verif.Base.Sort
/-!
# C19: the name registry is a one-to-one mapping

Specification: the list of accepted requests, in order.  A request is accepted iff its address and
name are not reserved and no earlier accepted request has the same address or the same name.
-/
namespace Shadow.Dns

/-! ## Specification -/

/-- Reserved addresses, by range: 0.0.0.0, 127.0.0.0/8, 224.0.0.0/4, 255.255.255.255. -/
def ReservedAddr (a : Nat) : Prop :=
  a = 0 ∨ (2130706432 ≤ a ∧ a < 2147483648) ∨ (3758096384 ≤ a ∧ a < 4026531840) ∨ a = 4294967295

instance (a : Nat) : Decidable (ReservedAddr a) :=
  inferInstanceAs (Decidable (_ ∨ _ ∨ _ ∨ _))

/-- A spelling of "localhost". -/
def ReservedName (n : Name) : Prop := n.map lower = localhost

instance (n : Name) : Decidable (ReservedName n) := inferInstanceAs (Decidable (_ = _))

/-- May `q` be accepted after the requests in `acc` were accepted? -/
def Acceptable (acc : List Req) (q : Req) : Prop :=
  ¬ ReservedAddr q.addr ∧ ¬ ReservedName q.name ∧ ∀ p ∈ acc, p.addr ≠ q.addr ∧ p.name ≠ q.name

instance (acc : List Req) (q : Req) : Decidable (Acceptable acc q) :=
  inferInstanceAs (Decidable (_ ∧ _ ∧ _))

/-- The accepted requests of a history, newest first. -/
def accepted (acc : List Req) : List Req → List Req
  | [] => acc
  | q :: qs => if Acceptable acc q then accepted (q :: acc) qs else accepted acc qs

/-! ## The registry represents the accepted requests -/

structure Rep (db : Db) (acc : List Req) : Prop where
  byAddr : ∀ a r, db.byAddr a = some r ↔ r.addr = a ∧ ⟨r.id, r.addr, r.name⟩ ∈ acc
  byName : ∀ n r, db.byName n = some r ↔ r.name = n ∧ ⟨r.id, r.addr, r.name⟩ ∈ acc
  addrs : acc.Pairwise (fun p q => p.addr ≠ q.addr)
  names : acc.Pairwise (fun p q => p.name ≠ q.name)
  valid : ∀ p ∈ acc, ¬ ReservedAddr p.addr ∧ ¬ ReservedName p.name

theorem isLoopback_iff (a : Nat) : isLoopback a = true ↔ a / 16777216 = 127 := by
  exact decide_eq_true_iff
theorem isMulticast_iff (a : Nat) :
    isMulticast a = true ↔ 224 ≤ a / 16777216 ∧ a / 16777216 ≤ 239 := by
  exact decide_eq_true_iff
theorem isUnspecified_iff (a : Nat) : isUnspecified a = true ↔ a = 0 := by simp [isUnspecified]
theorem isBroadcast_iff (a : Nat) : isBroadcast a = true ↔ a = 4294967295 := by simp [isBroadcast]

theorem reserved_iff (a : Nat) (h : a < 4294967296) :
    ReservedAddr a ↔ isUnspecified a ∨ isLoopback a ∨ isBroadcast a ∨ isMulticast a := by
  rw [isUnspecified_iff, isLoopback_iff, isBroadcast_iff, isMulticast_iff, ReservedAddr]
  omega

theorem localhost_lower : localhost.map lower = localhost := by decide

theorem reservedName_iff (n : Name) : ReservedName n ↔ eqIgnoreCase n localhost = true := by
  simp [ReservedName, eqIgnoreCase, localhost_lower]

theorem rep_new : Rep Db.new [] :=
  ⟨by simp [Db.new], by simp [Db.new], .nil, .nil, by simp⟩

theorem byAddr_none {db : Db} {acc : List Req} (h : Rep db acc) (a : Nat) :
    db.byAddr a = none ↔ ∀ p ∈ acc, p.addr ≠ a := by
  constructor
  · intro hn p hp e
    have := (h.byAddr a ⟨p.id, p.addr, p.name⟩).mpr ⟨e, hp⟩
    simp [hn] at this
  · intro hall
    cases hb : db.byAddr a with
    | none => rfl
    | some r =>
      have := (h.byAddr a r).mp hb
      exact absurd this.1 (hall _ this.2)

theorem byName_none {db : Db} {acc : List Req} (h : Rep db acc) (n : Name) :
    db.byName n = none ↔ ∀ p ∈ acc, p.name ≠ n := by
  constructor
  · intro hn p hp e
    have := (h.byName n ⟨p.id, p.addr, p.name⟩).mpr ⟨e, hp⟩
    simp [hn] at this
  · intro hall
    cases hb : db.byName n with
    | none => rfl
    | some r =>
      have := (h.byName n r).mp hb
      exact absurd this.1 (hall _ this.2)

/-- One registration succeeds iff the request is acceptable; a failed one changes nothing and names
    the first reason, in the order: reserved address, reserved name, address taken, name taken. -/
theorem C19_register {db : Db} {acc : List Req} (h : Rep db acc) (q : Req)
    (ha : q.addr < 4294967296) :
    (Acceptable acc q → (db.register q.id q.addr q.name).1 = none
        ∧ Rep (db.register q.id q.addr q.name).2 (q :: acc))
    ∧ (¬ Acceptable acc q → (db.register q.id q.addr q.name).2 = db
        ∧ ∃ e, (db.register q.id q.addr q.name).1 = some e
          ∧ (match e with
            | .unspecified => q.addr = 0
            | .loopback a => a = q.addr ∧ 2130706432 ≤ a ∧ a < 2147483648
            | .broadcast => q.addr = 4294967295
            | .multicast a => a = q.addr ∧ 3758096384 ≤ a ∧ a < 4026531840
            | .name n => n = q.name ∧ ReservedName n ∧ ¬ ReservedAddr q.addr
            | .addrExists a => a = q.addr ∧ ¬ ReservedAddr a ∧ ¬ ReservedName q.name
                ∧ ∃ p ∈ acc, p.addr = a
            | .nameExists n => n = q.name ∧ ¬ ReservedAddr q.addr ∧ ¬ ReservedName n
                ∧ (∀ p ∈ acc, p.addr ≠ q.addr) ∧ ∃ p ∈ acc, p.name = n)) := by
  have hres := reserved_iff q.addr ha
  have hnam := reservedName_iff q.name
  have hba := byAddr_none h q.addr
  have hbn := byName_none h q.name
  unfold Db.register
  by_cases h1 : isUnspecified q.addr = true
  · refine ⟨fun hacc => absurd (hres.mpr (.inl h1)) hacc.1, fun _ => ?_⟩
    rw [if_pos h1]
    refine ⟨rfl, _, rfl, ?_⟩
    simpa [isUnspecified] using h1
  by_cases h2 : isLoopback q.addr = true
  · refine ⟨fun hacc => absurd (hres.mpr (.inr (.inl h2))) hacc.1, fun _ => ?_⟩
    rw [if_neg h1, if_pos h2]
    refine ⟨rfl, _, rfl, ?_⟩
    rw [isLoopback_iff] at h2
    exact ⟨rfl, by omega, by omega⟩
  by_cases h3 : isBroadcast q.addr = true
  · refine ⟨fun hacc => absurd (hres.mpr (.inr (.inr (.inl h3)))) hacc.1, fun _ => ?_⟩
    rw [if_neg h1, if_neg h2, if_pos h3]
    refine ⟨rfl, _, rfl, ?_⟩
    simpa [isBroadcast] using h3
  by_cases h4 : isMulticast q.addr = true
  · refine ⟨fun hacc => absurd (hres.mpr (.inr (.inr (.inr h4)))) hacc.1, fun _ => ?_⟩
    rw [if_neg h1, if_neg h2, if_neg h3, if_pos h4]
    refine ⟨rfl, _, rfl, ?_⟩
    rw [isMulticast_iff] at h4
    exact ⟨rfl, by omega, by omega⟩
  have hok : ¬ ReservedAddr q.addr := by
    rw [hres]; rintro (h | h | h | h) <;> contradiction
  by_cases h5 : eqIgnoreCase q.name localhost = true
  · refine ⟨fun hacc => absurd (hnam.mpr h5) hacc.2.1, fun _ => ?_⟩
    rw [if_neg h1, if_neg h2, if_neg h3, if_neg h4, if_pos h5]
    exact ⟨rfl, _, rfl, rfl, hnam.mpr h5, hok⟩
  have hokn : ¬ ReservedName q.name := fun hh => h5 (hnam.mp hh)
  rw [if_neg h1, if_neg h2, if_neg h3, if_neg h4, if_neg h5]
  cases hA : db.byAddr q.addr with
  | some r =>
    have hr := (h.byAddr _ _).mp hA
    refine ⟨fun hacc => absurd hr.1 (hacc.2.2 _ hr.2).1, fun _ => ?_⟩
    exact ⟨rfl, _, rfl, rfl, hok, hokn, _, hr.2, hr.1⟩
  | none =>
    have hA' := hba.mp hA
    cases hN : db.byName q.name with
    | some r =>
      have hr := (h.byName _ _).mp hN
      refine ⟨fun hacc => absurd hr.1 (hacc.2.2 _ hr.2).2, fun _ => ?_⟩
      exact ⟨rfl, _, rfl, rfl, hok, hokn, hA', _, hr.2, hr.1⟩
    | none =>
      have hN' := hbn.mp hN
      refine ⟨fun _ => ⟨rfl, ?_⟩, fun hn => absurd ⟨hok, hokn, fun p hp => ⟨hA' p hp, hN' p hp⟩⟩ hn⟩
      constructor
      · intro a r
        simp only [List.mem_cons]
        by_cases hq : a = q.addr
        · subst hq
          simp only [if_true, Option.some.injEq]
          constructor
          · rintro rfl; exact ⟨rfl, .inl rfl⟩
          · rintro ⟨he, (hm | hm)⟩
            · rw [← hm]
            · exact absurd he (hA' _ hm)
        · simp only [hq, if_false, h.byAddr]
          constructor
          · rintro ⟨he, hm⟩; exact ⟨he, .inr hm⟩
          · rintro ⟨he, (hm | hm)⟩
            · exact absurd (by rw [← he, ← hm]) hq
            · exact ⟨he, hm⟩
      · intro n r
        simp only [List.mem_cons]
        by_cases hq : n = q.name
        · subst hq
          simp only [if_true, Option.some.injEq]
          constructor
          · rintro rfl; exact ⟨rfl, .inl rfl⟩
          · rintro ⟨he, (hm | hm)⟩
            · rw [← hm]
            · exact absurd he (hN' _ hm)
        · simp only [hq, if_false, h.byName]
          constructor
          · rintro ⟨he, hm⟩; exact ⟨he, .inr hm⟩
          · rintro ⟨he, (hm | hm)⟩
            · exact absurd (by rw [← he, ← hm]) hq
            · exact ⟨he, hm⟩
      · exact List.pairwise_cons.mpr ⟨fun p hp => Ne.symm (hA' p hp), h.addrs⟩
      · exact List.pairwise_cons.mpr ⟨fun p hp => Ne.symm (hN' p hp), h.names⟩
      · intro p hp
        rcases List.mem_cons.mp hp with rfl | hp
        · exact ⟨hok, hokn⟩
        · exact h.valid p hp

theorem run_rep {qs : List Req} (hv : ∀ q ∈ qs, q.addr < 4294967296) :
    ∀ {db : Db} {acc : List Req}, Rep db acc → Rep (db.run qs).2 (accepted acc qs) := by
  induction qs with
  | nil => intro db acc h; exact h
  | cons q qs ih =>
    intro db acc h
    have hr := C19_register h q (hv q (by simp))
    have ih := @ih (fun p hp => hv p (List.mem_cons_of_mem _ hp))
    simp only [Db.run, accepted]
    by_cases ha : Acceptable acc q
    · simp only [ha, if_true]; exact ih (hr.1 ha).2
    · simp only [ha, if_false]; rw [(hr.2 ha).1]; exact ih h

/-- **C19.**  After any sequence of registrations the lookups give exactly the accepted requests:
    an address finds the identity and the name of the one accepted request with that address, and a
    name the address of the one accepted request with that name. -/
theorem C19_lookup (qs : List Req) (hv : ∀ q ∈ qs, q.addr < 4294967296) :
    let db := (Db.new.run qs).2
    (∀ a i, db.addrToHostId a = some i ↔ ∃ n, (⟨i, a, n⟩ : Req) ∈ accepted [] qs)
    ∧ (∀ a n, db.addrToName a = some n ↔ ∃ i, (⟨i, a, n⟩ : Req) ∈ accepted [] qs)
    ∧ (∀ n a, db.nameToAddr n = some a ↔ ∃ i, (⟨i, a, n⟩ : Req) ∈ accepted [] qs) := by
  have h := run_rep hv rep_new
  intro db
  refine ⟨?_, ?_, ?_⟩
  · intro a i
    simp only [Db.addrToHostId, Option.map_eq_some_iff]
    constructor
    · rintro ⟨r, hr, rfl⟩
      have := (h.byAddr _ _).mp hr
      exact ⟨r.name, this.1 ▸ this.2⟩
    · rintro ⟨n, hm⟩
      exact ⟨⟨i, a, n⟩, (h.byAddr _ _).mpr ⟨rfl, hm⟩, rfl⟩
  · intro a n
    simp only [Db.addrToName, Option.map_eq_some_iff]
    constructor
    · rintro ⟨r, hr, rfl⟩
      have := (h.byAddr _ _).mp hr
      exact ⟨r.id, this.1 ▸ this.2⟩
    · rintro ⟨i, hm⟩
      exact ⟨⟨i, a, n⟩, (h.byAddr _ _).mpr ⟨rfl, hm⟩, rfl⟩
  · intro n a
    simp only [Db.nameToAddr, Option.map_eq_some_iff]
    constructor
    · rintro ⟨r, hr, rfl⟩
      have := (h.byName _ _).mp hr
      exact ⟨r.id, this.1 ▸ this.2⟩
    · rintro ⟨i, hm⟩
      exact ⟨⟨i, a, n⟩, (h.byName _ _).mpr ⟨rfl, hm⟩, rfl⟩

/-- The accepted requests have pairwise different addresses and names, none reserved. -/
theorem C19_accepted_unique (qs : List Req) (hv : ∀ q ∈ qs, q.addr < 4294967296) :
    (accepted [] qs).Pairwise (fun p q => p.addr ≠ q.addr ∧ p.name ≠ q.name)
    ∧ ∀ p ∈ accepted [] qs, ¬ ReservedAddr p.addr ∧ ¬ ReservedName p.name := by
  have h := run_rep hv rep_new
  refine ⟨?_, h.valid⟩
  have := List.pairwise_and_iff.mpr ⟨h.addrs, h.names⟩
  exact this

/-- **C19.**  The two directions agree: a name is bound to an address iff the address is bound to
    the name. -/
theorem C19_inverse (qs : List Req) (hv : ∀ q ∈ qs, q.addr < 4294967296) (n : Name) (a : Nat) :
    (Db.new.run qs).2.nameToAddr n = some a ↔ (Db.new.run qs).2.addrToName a = some n := by
  have h := C19_lookup qs hv
  rw [h.2.2 n a, h.2.1 a n]

theorem accepted_mono {qs : List Req} : ∀ {acc : List Req} {p : Req}, p ∈ acc → p ∈ accepted acc qs := by
  induction qs with
  | nil => intro acc p h; exact h
  | cons q qs ih =>
    intro acc p h
    simp only [accepted]
    split
    · exact ih (List.mem_cons_of_mem _ h)
    · exact ih h

theorem accepted_append (qs rs : List Req) : ∀ acc, accepted acc (qs ++ rs) = accepted (accepted acc qs) rs := by
  induction qs with
  | nil => intro acc; rfl
  | cons q qs ih =>
    intro acc
    simp only [List.cons_append, accepted]
    split <;> exact ih _

/-- **C19.**  A binding never changes: what a lookup answers after some registrations it still
    answers after any further ones. -/
theorem C19_stable (qs rs : List Req) (hv : ∀ q ∈ qs ++ rs, q.addr < 4294967296) (n : Name) (a i : Nat) :
    ((Db.new.run qs).2.nameToAddr n = some a → (Db.new.run (qs ++ rs)).2.nameToAddr n = some a)
    ∧ ((Db.new.run qs).2.addrToHostId a = some i →
        (Db.new.run (qs ++ rs)).2.addrToHostId a = some i) := by
  have h1 := C19_lookup qs (fun q hq => hv q (List.mem_append_left _ hq))
  have h2 := C19_lookup (qs ++ rs) hv
  rw [accepted_append] at h2
  constructor
  · intro h
    obtain ⟨j, hj⟩ := (h1.2.2 n a).mp h
    exact (h2.2.2 n a).mpr ⟨j, accepted_mono hj⟩
  · intro h
    obtain ⟨m, hm⟩ := (h1.1 a i).mp h
    exact (h2.1 a i).mpr ⟨m, accepted_mono hm⟩

/-! ## The hosts file -/

/-- What iterating over `addr_index` may yield: every record once, in any order. -/
def Enumerates (records : List Record) (db : Db) : Prop :=
  records.Nodup ∧ ∀ r, r ∈ records ↔ ∃ a, db.byAddr a = some r

/-- First line with the name, as a reader of the hosts file finds it. -/
def resolve (lines : List (Nat × Name)) (n : Name) : Option Nat :=
  (lines.find? (fun l => l.2 = n)).map (·.1)

theorem nodup_perm {α : Type} [DecidableEq α] {l₁ l₂ : List α} (h₁ : l₁.Nodup) (h₂ : l₂.Nodup)
    (h : ∀ a, a ∈ l₁ ↔ a ∈ l₂) : l₁.Perm l₂ := by
  rw [List.perm_iff_count]
  intro a
  rw [h₁.count, h₂.count]
  simp only [h a]

/-- **C19.**  The hosts file does not depend on the iteration order of the hash map. -/
theorem C19_hosts_deterministic (qs : List Req) (hv : ∀ q ∈ qs, q.addr < 4294967296)
    (l₁ l₂ : List Record) (h₁ : Enumerates l₁ (Db.new.run qs).2) (h₂ : Enumerates l₂ (Db.new.run qs).2) :
    intoDns l₁ = intoDns l₂ := by
  have hrep := run_rep hv rep_new
  have hp : l₁.Perm l₂ := nodup_perm h₁.1 h₂.1 (fun r => by rw [h₁.2, h₂.2])
  unfold intoDns
  rw [Base.mergeSort_perm_eq (l₁ := l₁) (l₂ := l₂) ?_ ?_ ?_ hp]
  · intro a b c; simp only [decide_eq_true_eq]; omega
  · intro a b; simp only [Bool.or_eq_true, decide_eq_true_eq]; omega
  · intro a b ha hb h1 h2
    obtain ⟨x, hx⟩ := (h₁.2 a).mp ha
    obtain ⟨y, hy⟩ := (h₁.2 b).mp hb
    have ex := (hrep.byAddr _ _).mp hx
    have ey := (hrep.byAddr _ _).mp hy
    simp only [decide_eq_true_eq] at h1 h2
    have : x = y := by omega
    subst this
    rw [hx] at hy
    exact Option.some.inj hy

/-- **C19.**  When the hosts file is written, a process that looks a name up in it gets the address
    of the registry, "localhost" is 127.0.0.1, and the addresses are in increasing order. -/
theorem C19_hosts_resolve (qs : List Req) (hv : ∀ q ∈ qs, q.addr < 4294967296)
    (l : List Record) (hl : Enumerates l (Db.new.run qs).2) (lines : List (Nat × Name))
    (h : intoDns l = some lines) :
    (∀ n, n ≠ localhost → resolve lines n = (Db.new.run qs).2.nameToAddr n)
    ∧ resolve lines localhost = some 2130706433
    ∧ (lines.drop 1).Pairwise (fun x y => x.1 < y.1) := by
  have hrep := run_rep hv rep_new
  have hlook := C19_lookup qs hv
  unfold intoDns at h
  simp only at h
  by_cases hall : (l.mergeSort (fun a b => decide (a.addr ≤ b.addr))).all
      (fun r => !r.name.any isAsciiWs) = true
  case neg => rw [if_neg hall] at h; simp at h
  rw [if_pos hall] at h
  have h := (Option.some.inj h).symm
  subst h
  have hmem : ∀ r, r ∈ l.mergeSort (fun a b => decide (a.addr ≤ b.addr)) ↔
      (⟨r.id, r.addr, r.name⟩ : Req) ∈ accepted [] qs := by
    intro r
    rw [(List.mergeSort_perm l _).mem_iff, hl.2]
    constructor
    · rintro ⟨a, ha⟩; exact ((hrep.byAddr _ _).mp ha).2
    · intro hm; exact ⟨r.addr, (hrep.byAddr _ _).mpr ⟨rfl, hm⟩⟩
  refine ⟨?_, ?_, ?_⟩
  · intro n hn
    simp only [resolve, List.find?_cons]
    have : decide (localhost = n) = false := by simpa using fun e => hn e.symm
    simp only [this]
    cases hf : List.find? (fun l : Nat × Name => decide (l.2 = n))
        (List.map (fun r : Record => (r.addr, r.name))
          (l.mergeSort (fun a b => decide (a.addr ≤ b.addr)))) with
    | none =>
      have hnone : ∀ a, (Db.new.run qs).2.nameToAddr n ≠ some a := by
        intro a ha
        obtain ⟨i, hi⟩ := (hlook.2.2 n a).mp ha
        have := List.find?_eq_none.mp hf (a, n)
          (List.mem_map.mpr ⟨⟨i, a, n⟩, (hmem _).mpr hi, rfl⟩)
        simp at this
      cases hx : (Db.new.run qs).2.nameToAddr n with
      | none => rfl
      | some a => exact absurd hx (hnone a)
    | some x =>
      have hx := List.find?_some hf
      have hm := List.mem_of_find?_eq_some hf
      obtain ⟨r, hr, rfl⟩ := List.mem_map.mp hm
      simp only [decide_eq_true_eq] at hx
      simp only [Option.map_some]
      exact ((hlook.2.2 n r.addr).mpr ⟨r.id, hx ▸ (hmem r).mp hr⟩).symm
  · simp [resolve]
  · simp only [List.drop_succ_cons, List.drop_zero]
    rw [List.pairwise_map]
    have hs := List.pairwise_mergeSort (le := fun a b : Record => decide (a.addr ≤ b.addr))
      (by intro a b c; simp only [decide_eq_true_eq]; omega)
      (by intro a b; simp only [Bool.or_eq_true, decide_eq_true_eq]; omega) l
    have hnd : (l.mergeSort (fun a b => decide (a.addr ≤ b.addr))).Nodup :=
      (List.mergeSort_perm l _).nodup_iff.mpr hl.1
    have hboth := List.pairwise_and_iff.mpr ⟨hs, hnd⟩
    refine hboth.imp_of_mem ?_
    intro a b ha hb hab
    have h1 : a.addr ≤ b.addr := by simpa using hab.1
    have ea := (hmem a).mp ha
    have eb := (hmem b).mp hb
    rcases Nat.lt_or_ge a.addr b.addr with hlt | hge
    · exact hlt
    · exfalso
      have e : a.addr = b.addr := by omega
      have x := (hrep.byAddr a.addr a).mpr ⟨rfl, ea⟩
      have y := (hrep.byAddr a.addr b).mpr ⟨e.symm, eb⟩
      rw [x] at y
      exact hab.2 (Option.some.inj y)

/-- The hosts file is written (no assertion failure) iff no registered name contains ASCII
    whitespace. -/
theorem C19_hosts_ok_iff (qs : List Req) (hv : ∀ q ∈ qs, q.addr < 4294967296)
    (l : List Record) (hl : Enumerates l (Db.new.run qs).2) :
    (∃ lines, intoDns l = some lines) ↔ ∀ p ∈ accepted [] qs, ∀ c ∈ p.name, isAsciiWs c = false := by
  have hrep := run_rep hv rep_new
  have hmem : ∀ r, r ∈ l.mergeSort (fun a b => decide (a.addr ≤ b.addr)) ↔
      (⟨r.id, r.addr, r.name⟩ : Req) ∈ accepted [] qs := by
    intro r
    rw [(List.mergeSort_perm l _).mem_iff, hl.2]
    constructor
    · rintro ⟨a, ha⟩; exact ((hrep.byAddr _ _).mp ha).2
    · intro hm; exact ⟨r.addr, (hrep.byAddr _ _).mpr ⟨rfl, hm⟩⟩
  unfold intoDns
  simp only
  constructor
  · rintro ⟨lines, h⟩
    split at h
    · rename_i hall
      intro p hp c hc
      have := List.all_eq_true.mp hall ⟨p.id, p.addr, p.name⟩ ((hmem _).mpr hp)
      simp only [Bool.not_eq_true', List.any_eq_false] at this
      simpa using this c hc
    · simp at h
  · intro h
    refine ⟨_, if_pos ?_⟩
    rw [List.all_eq_true]
    intro r hr
    simp only [Bool.not_eq_true', List.any_eq_false]
    intro c hc
    simpa using h _ ((hmem r).mp hr) c hc

/-! ## Examples -/

/-- Six requests: two accepted, then a taken address, a taken name, a loopback address and a
    spelling of localhost are refused. -/
def exReqs : List Req :=
  [⟨0, 184549377, ['b']⟩, ⟨1, 184549376 + 5, ['a']⟩, ⟨2, 184549377, ['c']⟩, ⟨3, 184549380, ['a']⟩,
   ⟨4, 2130706433, ['d']⟩, ⟨5, 184549390, ['L', 'o', 'c', 'A', 'l', 'h', 'o', 's', 't']⟩]

example : ∀ q ∈ exReqs, q.addr < 4294967296 := by decide
example : accepted [] exReqs = [⟨1, 184549381, ['a']⟩, ⟨0, 184549377, ['b']⟩] := by decide
example : (Db.new.run exReqs).1 =
    [none, none, some (.addrExists 184549377), some (.nameExists ['a']), some (.loopback 2130706433),
     some (.name ['L', 'o', 'c', 'A', 'l', 'h', 'o', 's', 't'])] := by decide
example : (Db.new.run exReqs).2.nameToAddr ['a'] = some 184549381
    ∧ (Db.new.run exReqs).2.addrToHostId 184549377 = some 0 := by decide
example : intoDns [⟨1, 184549381, ['a']⟩, ⟨0, 184549377, ['b']⟩] =
    some [(2130706433, localhost), (184549377, ['b']), (184549381, ['a'])] := by
  simp [intoDns, List.mergeSort, List.MergeSort.Internal.splitInTwo, isAsciiWs]
/-- The enumeration hypothesis is met by the accepted records of the example. -/
example : Enumerates [⟨1, 184549381, ['a']⟩, ⟨0, 184549377, ['b']⟩] (Db.new.run exReqs).2 := by
  refine ⟨by decide, fun r => ?_⟩
  have hrep : Rep (Db.new.run exReqs).2 (accepted [] exReqs) := run_rep (by decide) rep_new
  have hacc : accepted [] exReqs = [⟨1, 184549381, ['a']⟩, ⟨0, 184549377, ['b']⟩] := by decide
  rw [hacc] at hrep
  constructor
  · intro hr
    refine ⟨r.addr, (hrep.byAddr _ _).mpr ⟨rfl, ?_⟩⟩
    simp only [List.mem_cons, List.not_mem_nil, or_false] at hr ⊢
    rcases hr with rfl | rfl
    · exact .inl rfl
    · exact .inr rfl
  · rintro ⟨a, ha⟩
    have := ((hrep.byAddr _ _).mp ha).2
    obtain ⟨i, x, n⟩ := r
    simp only [List.mem_cons, List.not_mem_nil, or_false, Req.mk.injEq] at this
    simp only [List.mem_cons, List.not_mem_nil, or_false, Record.mk.injEq]
    exact this

end Shadow.Dns
