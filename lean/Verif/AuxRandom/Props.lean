import Verif.AuxRandom.Model

/-!
# C104: a program starts with random bytes that Shadow chose
-/
namespace Shadow.AuxRandom

open Shadow.Base

/-! ## Specification: the vector as pairs -/

/-- A number in `k` bytes, the lowest first. -/
def bytes : Nat → Nat → List Nat
  | 0, _ => []
  | k + 1, n => n % 256 :: bytes k (n / 256)

/-- The file for a vector of pairs. -/
def encode : List (Nat × Nat) → List Nat
  | [] => []
  | (t, v) :: l => bytes 8 t ++ bytes 8 v ++ encode l

/-- All values fit in 64 bits. -/
def Fit (l : List (Nat × Nat)) : Prop := ∀ x ∈ l, x.1 < 2 ^ 64 ∧ x.2 < 2 ^ 64

/-- Reading goes well: the first `read` gives all that fits in the buffer. -/
def Io.Good (io : Io) : Prop := io.opened = true ∧ io.second = true ∧ ∃ n, io.first = some n ∧ 736 ≤ n

/-! ## Lemmas -/

theorem bytes_length (k n : Nat) : (bytes k n).length = k := by
  induction k generalizing n with
  | zero => rfl
  | succ k ih => simp [bytes, ih]

theorem number_bytes (k n : Nat) (h : n < 256 ^ k) : number (bytes k n) = n := by
  induction k generalizing n with
  | zero => simp at h; simp [bytes, number, h]
  | succ k ih =>
    have : n / 256 < 256 ^ k := by rw [Nat.pow_succ] at h; exact Nat.div_lt_of_lt_mul (by rw [Nat.mul_comm]; exact h)
    rw [bytes, number, ih _ this]
    exact Nat.mod_add_div n 256

theorem encode_length (l : List (Nat × Nat)) : (encode l).length = 16 * l.length := by
  induction l with
  | nil => rfl
  | cons x l ih => obtain ⟨t, v⟩ := x; simp [encode, bytes_length, ih]; omega

theorem chunks_encode (l : List (Nat × Nat)) (hf : Fit l) (fuel : Nat) (h : l.length ≤ fuel) : (chunks fuel (encode l)).map (fun c => (number (c.take 8), number (c.drop 8))) = l := by
  induction l generalizing fuel with
  | nil => cases fuel <;> simp [chunks, encode]
  | cons x l ih =>
    obtain ⟨t, v⟩ := x
    cases fuel with
    | zero => simp at h
    | succ fuel =>
      have hl : (encode ((t, v) :: l)).length = 16 * (l.length + 1) := encode_length _
      have h16 : (bytes 8 t ++ bytes 8 v).length = 16 := by simp [bytes_length]
      have e1 : (encode ((t, v) :: l)).take 16 = bytes 8 t ++ bytes 8 v := by rw [encode]; exact List.take_left' h16
      have e2 : (encode ((t, v) :: l)).drop 16 = encode l := by rw [encode]; exact List.drop_left' h16
      have hx := hf (t, v) (by simp)
      rw [chunks, if_neg (by omega), e1, e2, List.map_cons, ih (fun y hy => hf y (by simp [hy])) fuel (by simpa using h)]
      rw [List.take_left' (bytes_length 8 t), List.drop_left' (bytes_length 8 t), number_bytes 8 t (by simpa using hx.1), number_bytes 8 v (by simpa using hx.2)]

/-- Whatever is found is in the vector, and with good reading of a vector that fits it is found. -/
theorem getauxval_eq (l : List (Nat × Nat)) (hf : Fit l) (io : Io) (tag : Nat) :
    getauxval (encode l) io tag = none ∨ getauxval (encode l) io tag = (l.find? (·.1 == tag)).map (·.2) := by
  unfold getauxval
  split
  · exact .inl rfl
  · split
    · exact .inl rfl
    · rename_i n _
      simp only
      split
      · exact .inl rfl
      · rename_i hd
        have : ((encode l).take 736).take n = encode l := by
          rw [List.take_take]
          apply List.take_of_length_le
          simp at hd
          omega
        rw [this, chunks_encode l hf _ (by rw [encode_length]; omega)]
        exact .inr rfl

theorem getauxval_good (l : List (Nat × Nat)) (hf : Fit l) (hl : l.length ≤ 46) (io : Io) (hg : io.Good) (tag : Nat) :
    getauxval (encode l) io tag = (l.find? (·.1 == tag)).map (·.2) := by
  obtain ⟨h1, h2, n, h3, hn⟩ := hg
  have hlen := encode_length l
  have : ((encode l).take 736).take n = encode l := by
    rw [List.take_take]
    exact List.take_of_length_le (by omega)
  unfold getauxval
  rw [h1, h3, h2]
  simp only [this, chunks_encode l hf (encode l).length (by omega)]
  simp

/-! ## Theorems -/

/-- For every vector of at most 46 pairs in which the kernel gives the address of the random bytes, the 16 bytes there are those of Shadow afterwards, and no other byte changes. -/
theorem C104_set (l : List (Nat × Nat)) (hf : Fit l) (hl : l.length ≤ 46) (io io' : Io) (hg : io.Good) (hg' : io'.Good) (a : Nat) (ha : l.find? (·.1 == 25) = some (25, a)) (h0 : a ≠ 0) (m : Mem) (d : List Nat)
    (hd : d.length = 16) : ∃ m', reinit (encode l) io io' m d = .ok m' ∧ (∀ i, (h : i < 16) → m' (a + i) = d[i]'(by omega)) ∧ ∀ x, x < a ∨ a + 16 ≤ x → m' x = m x := by
  have e : ∀ io : Io, io.Good → getRandom (encode l) io = a := by intro io hg; simp [getRandom, getauxval_good l hf hl io hg, ha]
  refine ⟨m.write a d, ?_, ?_, ?_⟩
  · unfold reinit
    rw [e io hg, e io' hg', if_neg h0, if_neg h0]
  · intro i h
    unfold Mem.write
    rw [if_pos (by omega), Nat.add_sub_cancel_left, List.getD_eq_getElem?_getD, List.getElem?_eq_getElem (by omega), Option.getD_some]
  · intro x hx
    unfold Mem.write
    rw [if_neg (by omega)]

/-- However reading goes, and for vectors of any length: nothing is written but the 16 bytes at the address in the vector. -/
theorem C104_only (l : List (Nat × Nat)) (hf : Fit l) (io io' : Io) (m m' : Mem) (d : List Nat) (h : reinit (encode l) io io' m d = .ok m') :
    m' = m ∨ ∃ a, l.find? (·.1 == 25) = some (25, a) ∧ a ≠ 0 ∧ ∀ x, x < a ∨ a + 16 ≤ x → m' x = m x := by
  unfold reinit at h
  split at h
  · cases h; exact .inl rfl
  · simp only at h
    split at h
    · cases h
    · rename_i h2
      cases h
      refine .inr ⟨getRandom (encode l) io', ?_, h2, ?_⟩
      · rcases getauxval_eq l hf io' 25 with e | e
        · simp [getRandom, e] at h2
        · cases hq : l.find? (·.1 == 25) with
          | none => simp [getRandom, e, hq] at h2
          | some y =>
            obtain ⟨t, v⟩ := y
            have := List.find?_some hq
            simp at this
            subst this
            simp [getRandom, e, hq]
      · intro x hx
        unfold Mem.write
        rw [if_neg (by omega)]

/-! ### Findings and examples -/

/-- With 47 pairs or more the bytes stay those of the kernel, which differ from run to run; there is only a warning. -/
theorem C104_long (l : List (Nat × Nat)) (hl : 46 < l.length) (io io' : Io) (m : Mem) (d : List Nat) : reinit (encode l) io io' m d = .ok m := by
  have : getRandom (encode l) io = 0 := by
    have hlen := encode_length l
    unfold getRandom getauxval
    split
    · rfl
    · split
      · rfl
      · simp only
        rw [if_pos (.inr (by simp; omega))]
        rfl
  unfold reinit
  rw [if_pos this]

/-- The file is read again after the test for null, and if this fails the null pointer is written to. -/
theorem C104_twice (l : List (Nat × Nat)) (hf : Fit l) (hl : l.length ≤ 46) (io : Io) (hg : io.Good) (a : Nat) (ha : l.find? (·.1 == 25) = some (25, a)) (h0 : a ≠ 0) (n : Option Nat) (b : Bool) (m : Mem) (d : List Nat) :
    reinit (encode l) io ⟨false, n, b⟩ m d = .panic := by
  have e : getRandom (encode l) io = a := by simp [getRandom, getauxval_good l hf hl io hg, ha]
  unfold reinit
  rw [e, if_neg h0]
  simp [getRandom, getauxval]

/-- A vector with a page size (6), the random bytes at 8192 and the end. -/
def ex : List (Nat × Nat) := [(6, 4096), (25, 8192), (0, 0)]

theorem C104_example : Fit ex ∧ ex.length ≤ 46 ∧ Io.Good ⟨true, some 736, true⟩ ∧ ex.find? (·.1 == 25) = some (25, 8192)
    ∧ (match reinit (encode ex) ⟨true, some 736, true⟩ ⟨true, some 736, true⟩ (fun _ => 1) (List.range' 50 16) with | .ok m => [m 8191, m 8192, m 8207, m 8208] | .panic => []) = [1, 50, 65, 1] := by
  refine ⟨?_, by decide, ⟨rfl, rfl, 736, rfl, by omega⟩, by decide, by decide +kernel⟩
  unfold Fit ex
  decide

end Shadow.AuxRandom
