import Verif.Random.Model

/-!
# C103: random bytes come from the generator of the host alone
-/
namespace Shadow.Random

open Shadow.Base

/-! ## Specification -/

/-- `fill_bytes` fills the buffer. -/
def Gen.Fills {G : Type} (g : Gen G) : Prop := ∀ s n, (g.fill s n).1.length = n

/-- The generator after requests for so many bytes each. -/
def after {G : Type} (g : Gen G) (s : G) : List Nat → G
  | [] => s
  | n :: l => after g (g.fill s n).2 l

/-- The buffer can be written in full. -/
def Writable (b : Buf) (count : Nat) : Prop :=
  match b with
  | .mapped => True
  | .copied n => n = some count ∧ count < 2 ^ 63

/-- The kernel writes all or fails, and the length is one that a vector can have. -/
def Legal (c : Call) : Prop :=
  match c.buf with
  | .mapped => True
  | .copied n => (n = none ∨ n = some c.count) ∧ c.count < 2 ^ 63

/-! ## Theorems -/

/-- With a buffer that can be written the call gives all bytes that were asked for: they are those of the generator, no other byte of memory changes, and the flags do not matter. -/
theorem C103_bytes {G : Type} (g : Gen G) (hg : g.Fills) (s : G) (m : Mem) (b : Buf) (addr count flags : Nat) (hb : Writable b count) :
    ∃ m', getrandom g s m b addr count flags = .ok ((g.fill s count).2, m', .count count)
      ∧ (∀ i, (h : i < count) → m' (addr + i) = (g.fill s count).1[i]'(by rw [hg]; exact h))
      ∧ ∀ x, x < addr ∨ addr + count ≤ x → m' x = m x := by
  refine ⟨m.write addr (g.fill s count).1, ?_, ?_, ?_⟩
  · cases b with
    | mapped => rfl
    | copied n =>
      obtain ⟨rfl, hc⟩ := hb
      unfold getrandom
      simp only
      rw [if_neg (by omega)]
      simp
  · intro i h
    unfold Mem.write
    have hl := hg s count
    rw [if_pos (by omega), Nat.add_sub_cancel_left, List.getD_eq_getElem?_getD, List.getElem?_eq_getElem (by omega), Option.getD_some]
  · intro x hx
    unfold Mem.write
    have hl := hg s count
    rw [if_neg (by omega)]

/-- Whether memory is mapped into Shadow makes no difference to a call with a buffer that can be written. -/
theorem C103_same {G : Type} (g : Gen G) (s : G) (m : Mem) (b b' : Buf) (addr count f f' : Nat) (hb : Writable b count) (hb' : Writable b' count) :
    getrandom g s m b addr count f = getrandom g s m b' addr count f' := by
  have : ∀ b f, Writable b count → getrandom g s m b addr count f = .ok ((g.fill s count).2, m.write addr (g.fill s count).1, .count count) := by
    intro b f h
    cases b with
    | mapped => rfl
    | copied n =>
      obtain ⟨rfl, hc⟩ := h
      unfold getrandom
      simp only
      rw [if_neg (by omega)]
      simp
  rw [this b f hb, this b' f' hb']

/-- A call that fails leaves memory alone, but has used the generator as one that succeeds. -/
theorem C103_fails {G : Type} (g : Gen G) (s s' : G) (m m' : Mem) (b : Buf) (addr count flags : Nat) (h : getrandom g s m b addr count flags = .ok (s', m', .efault)) :
    m' = m ∧ s' = (g.fill s count).2 ∧ ¬ Writable b count := by
  cases b with
  | mapped => simp [getrandom] at h
  | copied n =>
    unfold getrandom at h
    simp only at h
    split at h
    · cases h
    · cases n with
      | none => simp at h; obtain ⟨rfl, rfl⟩ := h; exact ⟨rfl, rfl, by simp [Writable]⟩
      | some k =>
        simp only at h
        split at h
        · cases h
        · simp at h

/-- A call that succeeds says that it gave all bytes that were asked for, and could write them. -/
theorem C103_succeeds {G : Type} (g : Gen G) (s s' : G) (m m' : Mem) (b : Buf) (addr count flags k : Nat) (h : getrandom g s m b addr count flags = .ok (s', m', .count k)) :
    k = count ∧ Writable b count := by
  cases b with
  | mapped => simp [getrandom] at h; exact ⟨h.2.2.symm, trivial⟩
  | copied n =>
    unfold getrandom at h
    simp only at h
    split at h
    · cases h
    · rename_i hc
      cases n with
      | none => simp at h
      | some j =>
        simp only at h
        split at h
        · cases h
        · rename_i hj
          have hj : j = count := by omega
          simp at h
          exact ⟨h.2.2.symm, by simp [Writable, hj]; omega⟩

theorem getrandom_legal {G : Type} (g : Gen G) (s : G) (m : Mem) (c : Call) (h : Legal c) : ∃ m' r, getrandom g s m c.buf c.addr c.count c.flags = .ok ((g.fill s c.count).2, m', r) := by
  obtain ⟨b, addr, count, flags⟩ := c
  cases b with
  | mapped => exact ⟨_, _, rfl⟩
  | copied n =>
    obtain ⟨hn, hc⟩ := h
    unfold getrandom
    simp only at hn hc ⊢
    rw [if_neg (by omega)]
    rcases hn with rfl | rfl
    · exact ⟨_, _, rfl⟩
    · simp

/-- Over any sequence of calls the state of the generator is determined by the lengths alone: not by addresses, contents of memory, flags, how memory is reached or which calls failed. So what comes next on this host is, too. -/
theorem C103_determined {G : Type} (g : Gen G) (s : G) (m : Mem) (l : List Call) (h : ∀ c ∈ l, Legal c) : ∃ m' rs, run g s m l = .ok (after g s (l.map (·.count)), m', rs) ∧ rs.length = l.length := by
  induction l generalizing s m with
  | nil => exact ⟨m, [], rfl, rfl⟩
  | cons c l ih =>
    obtain ⟨m1, r, e⟩ := getrandom_legal g s m c (h c (by simp))
    obtain ⟨m2, rs, e2, hl⟩ := ih (g.fill s c.count).2 m1 (fun c hc => h c (by simp [hc]))
    exact ⟨m2, r :: rs, by simp [run, e, e2, after], by simp [hl]⟩

/-! ### Findings and examples -/

/-- A call for 2^63 bytes or more panics if the buffer is not mapped into Shadow, whatever the kernel would do; these, and a write in part, are the only panics. -/
theorem C103_panic {G : Type} (g : Gen G) (s : G) (m : Mem) (b : Buf) (addr count flags : Nat) :
    getrandom g s m b addr count flags = .panic ↔ ∃ n, b = .copied n ∧ (2 ^ 63 ≤ count ∨ ∃ k, n = some k ∧ k ≠ count) := by
  cases b with
  | mapped => simp [getrandom]
  | copied n =>
    unfold getrandom
    simp only
    by_cases h : 2 ^ 63 ≤ count
    · simp [h]
    · rw [if_neg h]
      cases n with
      | none => simp; omega
      | some k =>
        by_cases hk : k = count
        · simp [hk]; omega
        · simp [hk]

/-- A generator that counts. -/
def ex : Gen Nat := ⟨fun s n => ((List.range n).map (s + ·), s + n)⟩

theorem C103_example : ex.Fills ∧ Writable (.copied (some 3)) 3 ∧ Legal ⟨.copied none, 0, 2, 0⟩
    ∧ (∃ m, run ex 5 (fun _ => 0) [⟨.copied none, 0, 2, 0⟩, ⟨.mapped, 10, 3, 1⟩] = .ok (10, m, [.efault, .count 3]) ∧ [m 9, m 10, m 11, m 12, m 13] = [0, 7, 8, 9, 0])
    ∧ getrandom ex 5 (fun _ => 0) (.copied none) 0 (2 ^ 64 - 1) 0 = .panic := by
  refine ⟨by intro s n; simp [ex], by simp [Writable], by simp [Legal], ⟨_, rfl, by decide +kernel⟩, ?_⟩
  exact (C103_panic _ _ _ _ _ _ _).2 ⟨none, rfl, .inl (by decide)⟩

end Shadow.Random
