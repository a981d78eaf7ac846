import Verif.NameLookup.Model

/-!
# C101: every host finds every host by its name, at the same address
-/
namespace Shadow.NameLookup

open Shadow.Base

/-! ## Specification -/

/-- A name as the configuration takes it (configuration.rs:803-825): of `a`-`z`, digits, `-` and `.`, with at most 253 bytes, and not "localhost" (which the registry refuses, C19). -/
def Valid (n : Name) : Prop := (∀ c ∈ n, (97 ≤ c ∧ c ≤ 122) ∨ (48 ≤ c ∧ c ≤ 57) ∨ c = 45 ∨ c = 46) ∧ n.length ≤ 253 ∧ n ≠ localhost

/-- A simulation: valid names, each once; ASCII is UTF-8. -/
structure Good (n : Net) : Prop where
  valid : ∀ x ∈ n.reg, Valid x.1 ∧ x.2 < 2 ^ 32
  once : (n.reg.map (·.1)).Nodup
  ascii : ∀ s : Name, (∀ c ∈ s, c < 128) → n.utf8 s = true

/-- The four numbers of an address, from the left. -/
def Dotted (a : Nat) (b : List Nat) : Prop := ∃ w x y z, b = [w, x, y, z] ∧ w < 256 ∧ x < 256 ∧ y < 256 ∧ z < 256 ∧ a = ((w * 256 + x) * 256 + y) * 256 + z

/-- A host of the simulation. -/
def IsHost (n : Net) (h : Host) : Prop := (h.name, h.ip) ∈ n.reg

/-- The same name but for upper and lower case. -/
def SameButCase : Name → Name → Prop
  | [], [] => True
  | c :: a, d :: b => (c = d ∨ (65 ≤ c ∧ c ≤ 90 ∧ d = c + 32) ∨ (65 ≤ d ∧ d ≤ 90 ∧ c = d + 32)) ∧ SameButCase a b
  | _, _ => False

/-! ## Lemmas -/

theorem lower_iff (c d : Nat) : lower c = lower d ↔ (c = d ∨ (65 ≤ c ∧ c ≤ 90 ∧ d = c + 32) ∨ (65 ≤ d ∧ d ≤ 90 ∧ c = d + 32)) := by
  unfold lower
  split <;> split <;> omega

theorem same_iff (a b : Name) : SameButCase a b ↔ a.map lower = b.map lower := by
  induction a generalizing b with
  | nil => cases b <;> simp [SameButCase]
  | cons c a ih =>
    cases b with
    | nil => simp [SameButCase]
    | cons d b => rw [SameButCase, ih b, ← lower_iff, List.map_cons, List.map_cons, List.cons.injEq]

theorem eqCase_iff (a b : Name) : eqCase a b = true ↔ SameButCase a b := by
  rw [same_iff]
  unfold eqCase
  induction a generalizing b with
  | nil => cases b <;> simp
  | cons x a ih =>
    cases b with
    | nil => simp
    | cons y b =>
      have := ih b
      by_cases hl : a.length = b.length
      · simp only [hl] at this
        simp [hl]
        intro _
        simpa using this
      · have h2 : a.map lower ≠ b.map lower := by intro h; apply hl; simpa using congrArg List.length h
        simp [hl, h2]

theorem lower_valid (n : Name) (h : Valid n) : n.map lower = n := by
  have : ∀ c ∈ n, lower c = c := by
    intro c hc
    have := h.1 c hc
    unfold lower
    split
    · omega
    · rfl
  exact (List.map_congr_left this).trans (List.map_id' n)

theorem same_valid (a b : Name) (ha : Valid a) (hb : Valid b) : SameButCase a b ↔ a = b := by
  rw [same_iff, lower_valid a ha, lower_valid b hb]

theorem localhost_lower : localhost.map lower = localhost := by decide

theorem not_localhost (a : Name) (ha : Valid a) : eqCase a localhost = false := by
  cases h : eqCase a localhost
  · rfl
  · have := (eqCase_iff a localhost).1 h
    rw [same_iff, lower_valid a ha, localhost_lower] at this
    exact absurd this ha.2.2

theorem digits (x y z w : Nat) (hx : x < 256) (hy : y < 256) (hz : z < 256) (hw : w < 256) : le (x * 16777216 + y * 65536 + z * 256 + w) = [w, z, y, x] := by
  have h1 : (x * 16777216 + y * 65536 + z * 256 + w) / 256 = x * 65536 + y * 256 + z := by omega
  have h2 : (x * 16777216 + y * 65536 + z * 256 + w) / 65536 = x * 256 + y := by omega
  have h3 : (x * 16777216 + y * 65536 + z * 256 + w) / 16777216 = x := by omega
  have h0 : (x * 16777216 + y * 65536 + z * 256 + w) % 256 = w := by omega
  have g1 : (x * 65536 + y * 256 + z) % 256 = z := by clear h0 h1 h2 h3; omega
  have g2 : (x * 256 + y) % 256 = y := by clear h0 h1 h2 h3 g1; omega
  unfold le
  rw [h0, h1, h2, h3, g1, g2, Nat.mod_eq_of_lt hx]

theorem dotted (a : Nat) (h : a < 2 ^ 32) : Dotted a (le (toBe a)) := by
  have b0 : a % 256 < 256 := Nat.mod_lt _ (by decide)
  have b1 : a / 256 % 256 < 256 := Nat.mod_lt _ (by decide)
  have b2 : a / 65536 % 256 < 256 := Nat.mod_lt _ (by decide)
  have b3 : a / 16777216 % 256 < 256 := Nat.mod_lt _ (by decide)
  have e : le (toBe a) = [a / 16777216 % 256, a / 65536 % 256, a / 256 % 256, a % 256] := by
    unfold toBe
    exact digits _ _ _ _ b0 b1 b2 b3
  refine ⟨_, _, _, _, e, b3, b2, b1, b0, ?_⟩
  clear e b0 b1 b2 b3
  omega

theorem cstr_name (name : Name) (h : 0 ∉ name) (l : List Nat) : cstr (name ++ 0 :: l) = some name := by
  unfold cstr
  have : (name ++ 0 :: l).contains 0 = true := by simp
  rw [if_pos this]
  congr 1
  induction name with
  | nil => simp
  | cons c name ih =>
    simp only [List.mem_cons, not_or] at h
    have hc : (c != 0) = true := by simpa using Ne.symm h.1
    simp only [List.cons_append, List.takeWhile_cons, hc, if_true]
    rw [ih h.2 (by simp)]

theorem lookup_mem (l : List (Name × Nat)) (hn : (l.map (·.1)).Nodup) (x : Name) (a : Nat) (h : (x, a) ∈ l) : l.lookup x = some a := by
  induction l with
  | nil => simp at h
  | cons y l ih =>
    obtain ⟨k, v⟩ := y
    simp only [List.map_cons, List.nodup_cons] at hn
    simp only [List.mem_cons] at h
    rcases h with h | h
    · cases h; simp
    · have : x ≠ k := by
        intro hx; subst hx
        exact hn.1 (List.mem_map.2 ⟨(x, a), h, rfl⟩)
      rw [List.lookup_cons]
      have : (x == k) = false := by simpa using this
      rw [this]
      exact ih hn.2 h

theorem mem_lookup (l : List (Name × Nat)) (x : Name) (a : Nat) (h : l.lookup x = some a) : (x, a) ∈ l := by
  induction l with
  | nil => simp at h
  | cons y l ih =>
    obtain ⟨k, v⟩ := y
    rw [List.lookup_cons] at h
    split at h
    · rename_i hk
      cases h
      simp at hk
      simp [hk]
    · exact List.mem_cons_of_mem _ (ih h)

/-- The call as the shim makes it. -/
theorem handler_shim (n : Net) (h : Host) (name : Name) (h0 : 0 ∉ name) (hl : name.length < 2 ^ 63 - 1) :
    handler n h (copyPrefix fun k => some ((name ++ [0]).take k)) name.length 4 true = .ok (answer n h name true) := by
  unfold handler copyPrefix
  rw [if_neg (by omega), if_neg (by omega)]
  have : (name ++ [0]).take (name.length + 1) = name ++ [0] := List.take_of_length_le (by simp)
  simp only [this, cstr_name name h0 []]

theorem take_own (name own : Name) (ho : own.length ≤ 253) : SameButCase (name.take 1025) (own.take 1025) ↔ SameButCase name own := by
  rw [same_iff, same_iff]
  rw [List.take_of_length_le (l := own) (by omega)]
  by_cases hn : name.length ≤ 1025
  · rw [List.take_of_length_le hn]
  · constructor
    · intro h
      have := congrArg List.length h
      simp at this
      omega
    · intro h
      have := congrArg List.length h
      simp at this
      omega

/-! ## Theorems -/

/-- What a program gets for any name without NUL: the loopback address for "localhost" and the address of its own host for the name of this host, both in any case; the registered address for a registered name in UTF-8;
and otherwise nothing. The bytes are in the order of the network. -/
theorem C101_answer (n : Net) (hG : Good n) (h : Host) (hh : IsHost n h) (name : Name) (h0 : 0 ∉ name) (hl : name.length < 2 ^ 63 - 1) :
    ∃ r, shim n h name = .ok r
      ∧ (∀ b, r = some b → ∃ a, Dotted a b ∧ ((SameButCase name localhost ∧ a = 127 * 2 ^ 24 + 1) ∨ (¬ SameButCase name localhost ∧ SameButCase name h.name ∧ a = h.ip)
        ∨ (¬ SameButCase name localhost ∧ ¬ SameButCase name h.name ∧ (name, a) ∈ n.reg)))
      ∧ (r = none → ¬ SameButCase name localhost ∧ ¬ SameButCase name h.name ∧ ((∀ c ∈ name, c < 128) → ∀ a, (name, a) ∉ n.reg)) := by
  have hv := hG.valid _ hh
  have hown : eqCase (name.take 1025) (h.name.take 1025) = true ↔ SameButCase name h.name := by rw [eqCase_iff, take_own name h.name hv.1.2.1]
  have hd1 : Dotted (127 * 2 ^ 24 + 1) (le (toBe 2130706433)) := dotted 2130706433 (by omega)
  unfold shim
  by_cases hL : eqCase name localhost = true
  · rw [if_pos hL]
    refine ⟨_, rfl, ?_, by simp⟩
    intro b hb
    cases hb
    exact ⟨_, hd1, .inl ⟨(eqCase_iff _ _).1 hL, rfl⟩⟩
  · have hL' : ¬ SameButCase name localhost := fun x => hL ((eqCase_iff _ _).2 x)
    rw [if_neg hL, handler_shim n h name h0 hl]
    unfold answer write
    rw [if_neg hL]
    by_cases hO : eqCase (name.take 1025) (h.name.take 1025) = true
    · rw [if_pos hO]
      refine ⟨_, rfl, ?_, by simp⟩
      intro b hb
      cases hb
      exact ⟨h.ip, dotted _ hv.2, .inr (.inl ⟨hL', hown.1 hO, rfl⟩)⟩
    · rw [if_neg hO]
      have hO' : ¬ SameButCase name h.name := fun x => hO (hown.2 x)
      cases hr : n.resolve name with
      | none =>
        refine ⟨none, rfl, by simp, fun _ => ⟨hL', hO', ?_⟩⟩
        intro hc a hm
        have := lookup_mem n.reg hG.once name a hm
        simp [Net.resolve, hG.ascii name hc, this] at hr
      | some a =>
        refine ⟨_, rfl, ?_, by simp⟩
        intro b hb
        cases hb
        have hm : (name, a) ∈ n.reg := by
          unfold Net.resolve at hr
          split at hr
          · exact mem_lookup _ _ _ hr
          · cases hr
        exact ⟨a, dotted a (hG.valid _ hm).2, .inr (.inr ⟨hL', hO', hm⟩)⟩

/-- Every host finds every host of the simulation by its name, itself included, and all at the same address: the one that is registered. -/
theorem C101_agree (n : Net) (hG : Good n) (name : Name) (a : Nat) (hm : (name, a) ∈ n.reg) : ∃ b, Dotted a b ∧ ∀ h, IsHost n h → shim n h name = .ok (some b) := by
  obtain ⟨hv, ha⟩ := hG.valid _ hm
  simp only at hv ha
  refine ⟨le (toBe a), dotted a ha, ?_⟩
  intro h hh
  have hvh := (hG.valid _ hh).1
  have h0 : 0 ∉ name := by intro h0; have := hv.1 0 h0; omega
  have hlen := hv.2.1
  have hL := not_localhost name hv
  have hasc : ∀ c ∈ name, c < 128 := by intro c hc; have := hv.1 c hc; omega
  have hres : n.resolve name = some a := by simp [Net.resolve, hG.ascii name hasc, lookup_mem n.reg hG.once name a hm]
  unfold shim
  rw [hL, if_neg (by simp), handler_shim n h name h0 (by omega)]
  unfold answer write
  rw [hL, if_neg (by simp)]
  by_cases hO : eqCase (name.take 1025) (h.name.take 1025) = true
  · have : name = h.name := (same_valid _ _ hv hvh).1 ((take_own name h.name hvh.2.1).1 ((eqCase_iff _ _).1 hO))
    have hip : h.ip = a := by
      have h1 := lookup_mem n.reg hG.once name a hm
      have h2 := lookup_mem n.reg hG.once h.name h.ip hh
      rw [← this, h1] at h2
      cases h2; rfl
    simp [hO, hip]
  · simp [hO, hres]

/-- The call writes four bytes if it succeeds and nothing with an error, whatever is in memory. -/
theorem C101_writes (n : Net) (h : Host) (read : Nat → R (Option (List Nat))) (nameLen addrLen : Nat) (w : Bool) (r : Ret) (b : List Nat) (hr : handler n h read nameLen addrLen w = .ok (r, b)) :
    (r = .ok ∧ b.length = 4 ∧ 4 ≤ addrLen ∧ w = true) ∨ (r ≠ .ok ∧ b = []) := by
  unfold handler at hr
  split at hr
  · cases hr; simp
  · rename_i h4
    split at hr
    · cases hr
    · cases hr; simp
    · split at hr
      · cases hr; simp
      · rename_i name _
        injection hr with hr
        have hw : ∀ a, write w a = (r, b) → (r = .ok ∧ b.length = 4 ∧ 4 ≤ addrLen ∧ w = true) ∨ (r ≠ .ok ∧ b = []) := by
          intro a hx
          cases w with
          | true => cases hx; exact .inl ⟨rfl, rfl, by omega, rfl⟩
          | false => cases hx; exact .inr ⟨by simp, rfl⟩
        unfold answer at hr
        split at hr
        · exact hw _ hr
        · split at hr
          · cases hr; simp
          · exact hw _ hr

/-- A program that makes the call itself, with more room or memory of any kind, gets what `getaddrinfo` gets. -/
theorem C101_direct (n : Net) (h : Host) (name : Name) (h0 : 0 ∉ name) (hl : name.length < 2 ^ 63 - 1) (rest : List Nat) (read : Nat → R (Option (List Nat))) (nameLen addrLen : Nat)
    (hr : read (nameLen + 1) = .ok (some (name ++ 0 :: rest))) (ha : 4 ≤ addrLen) :
    ∃ r b, handler n h read nameLen addrLen true = .ok (r, b) ∧ ((r = .ok ∧ shim n h name = .ok (some b)) ∨ (r = .efault ∧ shim n h name = .ok none)) := by
  have e : handler n h read nameLen addrLen true = .ok (answer n h name true) := by
    unfold handler
    rw [if_neg (by omega), hr]
    simp only [cstr_name name h0 rest]
  rw [e]
  unfold shim
  rw [handler_shim n h name h0 hl]
  unfold answer write
  split
  · exact ⟨_, _, rfl, .inl ⟨rfl, rfl⟩⟩
  · split
    · exact ⟨_, _, rfl, .inr ⟨rfl, rfl⟩⟩
    · exact ⟨_, _, rfl, .inl ⟨rfl, rfl⟩⟩

/-! ### Findings and examples -/

/-- "a" at 11.0.0.1 and "b" at 11.0.0.2. -/
def ex : Net := ⟨[([97], 184549377), ([98], 184549378)], fun _ => true⟩

/-- In upper case a host finds itself, but nobody else does. -/
theorem C101_upper_case : shim ex ⟨[97], 184549377⟩ [65] = .ok (some [11, 0, 0, 1]) ∧ shim ex ⟨[98], 184549378⟩ [65] = .ok none := by decide +kernel

/-- A call with a length of 2^63 - 1 or more panics if the name is not in memory mapped into Shadow, whatever is there. -/
theorem C101_length (n : Net) (h : Host) (mem : Nat → Option (List Nat)) (nameLen addrLen : Nat) (w : Bool) (ha : 4 ≤ addrLen) (hl : 2 ^ 63 - 1 ≤ nameLen) (_ : nameLen < 2 ^ 64 - 1) :
    handler n h (copyPrefix mem) nameLen addrLen w = .panic := by
  unfold handler copyPrefix
  rw [if_neg (by omega), if_pos (by omega)]

/-- A name whose length is given right is refused if the byte after it is not NUL, or cannot be read. -/
theorem C101_needs_nul (n : Net) (h : Host) (name l : Name) (h0 : 0 ∉ name) (hl : l = name ∨ ∃ c, c ≠ 0 ∧ l = name ++ [c]) (read : Nat → R (Option (List Nat))) (hr : read (name.length + 1) = .ok (some l)) (w : Bool) :
    handler n h read name.length 4 w = .ok (.enametoolong, []) := by
  unfold handler
  rw [if_neg (by omega), hr]
  have : cstr l = none := by
    rcases hl with rfl | ⟨c, hc, rfl⟩
    · simp [cstr, h0]
    · simp [cstr, h0, Ne.symm hc]
  simp [this]

theorem C101_example : Good ex ∧ IsHost ex ⟨[97], 184549377⟩ ∧ shim ex ⟨[97], 184549377⟩ [98] = .ok (some [11, 0, 0, 2]) ∧ shim ex ⟨[98], 184549378⟩ [98] = .ok (some [11, 0, 0, 2])
    ∧ shim ex ⟨[98], 184549378⟩ [76, 111, 99, 97, 108, 72, 111, 115, 116] = .ok (some [127, 0, 0, 1]) ∧ shim ex ⟨[98], 184549378⟩ [99] = .ok none := by
  refine ⟨⟨?_, by decide, fun _ _ => rfl⟩, by simp [IsHost, ex], by decide +kernel, by decide +kernel, by decide +kernel, by decide +kernel⟩
  intro x hx
  simp [ex] at hx
  rcases hx with rfl | rfl <;> exact ⟨⟨by simp, by simp, by decide⟩, by decide⟩

end Shadow.NameLookup
