import Verif.FmtBuf.Model
/-!
# C80: a text buffer of fixed size keeps as much as fits, always as valid UTF-8
-/
namespace Shadow.FmtBuf
open Shadow.Base

/-! ## The specification -/

/-- Of `all`, what is kept fits into `room` bytes, and one character more would not. -/
structure Cut (room : Nat) (all kept dropped : List Char) : Prop where
  split : all = kept ++ dropped
  fits : (enc kept).length ≤ room
  full : ∀ c rest, dropped = c :: rest → room < (enc (kept ++ [c])).length

/-- A character begins here. -/
def Starts (l : List UInt8) : Prop := ∃ c r, l = String.utf8EncodeChar c ++ r

/-- The reading of bytes as text: characters as they are, and one replacement for each run of bytes at which no character begins. -/
inductive Lossy : List UInt8 → List Char → Prop where
  | nil : Lossy [] []
  | char (c : Char) {r : List UInt8} {cs : List Char} : Lossy r cs → Lossy (String.utf8EncodeChar c ++ r) (c :: cs)
  | bad (b : List UInt8) {r : List UInt8} {cs : List Char} (hb : b ≠ []) (no : ∀ x y, b = x ++ y → y ≠ [] → ¬ Starts (y ++ r)) (hr : r = [] ∨ Starts r) :
      Lossy r cs → Lossy (b ++ r) ('�' :: cs)

/-- The buffer of `n` bytes holds the text `cs`, with a zero after it; `k` bytes were dropped. -/
structure Holds (n : Nat) (b : Buf) (cs : List Char) (k : Nat) : Prop where
  size : b.mem.length = n
  used : b.used = (enc cs).length
  room : (enc cs).length + 1 ≤ n
  text : b.mem.take (enc cs).length = (enc cs).map some
  zero : b.mem[(enc cs).length]? = some (some 0)
  trunc : b.trunc = k

/-! ## Characters -/

theorem enc_nil : enc [] = [] := rfl
theorem enc_cons (c : Char) (cs : List Char) : enc (c :: cs) = String.utf8EncodeChar c ++ enc cs := by simp [enc]
theorem enc_append (a b : List Char) : enc (a ++ b) = enc a ++ enc b := by simp [enc]
theorem enc_single (c : Char) : enc [c] = String.utf8EncodeChar c := by simp [enc]

theorem size_pos (c : Char) : 0 < (String.utf8EncodeChar c).length := by rw [String.length_utf8EncodeChar]; exact Char.utf8Size_pos c
theorem size_le (c : Char) : (String.utf8EncodeChar c).length ≤ 4 := by rw [String.length_utf8EncodeChar]; exact Char.utf8Size_le_four c

theorem first_enc (c : Char) (r : List UInt8) : first (String.utf8EncodeChar c ++ r) = some c := by
  unfold first
  rw [List.toByteArray_append]
  exact ByteArray.utf8DecodeChar?_utf8EncodeChar_append

theorem first_some {l : List UInt8} {c : Char} (h : first l = some c) : ∃ r, l = String.utf8EncodeChar c ++ r := by
  obtain ⟨b, hb⟩ := ByteArray.exists_of_utf8DecodeChar?_eq_some h
  refine ⟨b.data.toList, ?_⟩
  apply List.toByteArray_inj.mp
  rw [hb, List.toByteArray_append]
  congr 1
  apply ByteArray.ext
  rw [List.data_toByteArray]

theorem starts_iff (l : List UInt8) : Starts l ↔ first l ≠ none := by
  constructor
  · rintro ⟨c, r, rfl⟩; rw [first_enc]; simp
  · intro h
    cases e : first l with
    | none => exact (h e).elim
    | some c => obtain ⟨r, hr⟩ := first_some e; exact ⟨c, r, hr⟩

theorem fromUtf8_sound {n : Nat} {l : List UInt8} {cs : List Char} (h : fromUtf8 n l = some cs) : l = enc cs := by
  induction n generalizing l cs with
  | zero =>
    cases l with
    | nil => simp [fromUtf8] at h; subst h; rfl
    | cons b l => simp [fromUtf8] at h
  | succ n ih =>
    cases l with
    | nil => simp [fromUtf8] at h; subst h; rfl
    | cons b l =>
      simp only [fromUtf8] at h
      split at h
      · cases h
      · rename_i c hc
        split at h
        · cases h
        · rename_i cs' hcs
          injection h with h; subst h
          obtain ⟨r, hr⟩ := first_some hc
          rw [enc_cons, ← ih hcs, hr, ← String.length_utf8EncodeChar]
          simp

theorem fromUtf8_single (c : Char) : fromUtf8 (String.utf8EncodeChar c).length (String.utf8EncodeChar c) = some [c] := by
  have hp := size_pos c
  have hf := first_enc c []
  rw [List.append_nil] at hf
  have hd : (String.utf8EncodeChar c).drop c.utf8Size = [] := by rw [← String.length_utf8EncodeChar]; simp
  cases e : String.utf8EncodeChar c with
  | nil => rw [e] at hp; cases hp
  | cons b l =>
    rw [e] at hf hd
    simp only [List.length_cons, fromUtf8, hf, hd]

/-! ## The first character -/

theorem take_invalid {buf : List UInt8} {k : Nat} {cs : List Char} (hk : 1 ≤ k) (hne : buf ≠ []) (h : fromUtf8 k (buf.take k) = some cs) :
    ∃ c, first buf = some c ∧ (String.utf8EncodeChar c).length ≤ k := by
  have hs := fromUtf8_sound h
  cases cs with
  | nil =>
    rw [enc_nil] at hs
    rcases List.take_eq_nil_iff.mp hs with h1 | h1
    · omega
    · exact (hne h1).elim
  | cons c cs =>
    rw [enc_cons] at hs
    refine ⟨c, ?_, ?_⟩
    · rw [← List.take_append_drop k buf, hs, List.append_assoc, first_enc]
    · have := congrArg List.length hs
      simp only [List.length_take, List.length_append] at this
      omega

theorem tryLens_none {buf : List UInt8} (hne : buf ≠ []) (hf : first buf = none) (n : Nat) : ∀ k, 1 ≤ k → tryLens buf k n = none := by
  induction n with
  | zero => intro k _; rfl
  | succ n ih =>
    intro k hk
    unfold tryLens
    cases e : fromUtf8 k (buf.take k) with
    | none => exact ih (k + 1) (by omega)
    | some cs =>
      obtain ⟨c, hc, _⟩ := take_invalid hk hne e
      rw [hf] at hc; cases hc

theorem tryLens_some (c : Char) (r : List UInt8) (n : Nat) : ∀ k, 1 ≤ k → k ≤ (String.utf8EncodeChar c).length → (String.utf8EncodeChar c).length < k + n →
    tryLens (String.utf8EncodeChar c ++ r) k n = some ([c], r) := by
  have hp := size_pos c
  have hne : String.utf8EncodeChar c ++ r ≠ [] := by
    intro e; rw [(List.append_eq_nil_iff.mp e).1] at hp; cases hp
  induction n with
  | zero => intro k _ _ _; omega
  | succ n ih =>
    intro k hk h1 h2
    unfold tryLens
    by_cases e : k = (String.utf8EncodeChar c).length
    · subst e
      rw [List.take_left, fromUtf8_single]
      simp
    · cases ef : fromUtf8 k ((String.utf8EncodeChar c ++ r).take k) with
      | none => exact ih (k + 1) (by omega) (by omega) (by omega)
      | some cs =>
        obtain ⟨c', hc, hl⟩ := take_invalid hk hne ef
        rw [first_enc] at hc
        injection hc with hc; subst hc
        omega

theorem splitFirst_char (c : Char) (r : List UInt8) : splitFirst (String.utf8EncodeChar c ++ r) = .ok (some ([c], r)) := by
  have hp := size_pos c
  have h4 := size_le c
  have he : (String.utf8EncodeChar c ++ r).isEmpty = false := by
    cases e : String.utf8EncodeChar c with
    | nil => rw [e] at hp; cases hp
    | cons => rfl
  unfold splitFirst
  rw [he, tryLens_some c r _ 1 (by omega) (by omega) (by rw [List.length_append]; omega)]
  rfl

theorem splitFirst_bad {b : UInt8} {l : List UInt8} (h : first (b :: l) = none) : splitFirst (b :: l) = .ok none := by
  unfold splitFirst
  rw [tryLens_none (by simp) h _ 1 (by omega)]
  rfl

theorem lossyLoop_true (l : List UInt8) (hne : l ≠ []) :
    ∃ b r, l = b ++ r ∧ lossyLoop true l = .ok (['�'], r) ∧ (∀ x y, b = x ++ y → y ≠ [] → ¬ Starts (y ++ r)) ∧ (r = [] ∨ Starts r) := by
  induction l with
  | nil => exact (hne rfl).elim
  | cons a t ih =>
    cases e : first (a :: t) with
    | some c =>
      have hs := first_some e
      obtain ⟨r, hr⟩ := hs
      refine ⟨[], a :: t, rfl, ?_, ?_, .inr ⟨c, r, hr⟩⟩
      · unfold lossyLoop
        rw [hr, splitFirst_char]
        rfl
      · intro x y hxy hy
        exact (hy (List.append_eq_nil_iff.mp hxy.symm).2).elim
    | none =>
      have hno : ¬ Starts (a :: t) := by rw [starts_iff]; simp [e]
      by_cases ht : t = []
      · subst ht
        refine ⟨[a], [], rfl, ?_, ?_, .inl rfl⟩
        · unfold lossyLoop; rw [splitFirst_bad e]; rfl
        · intro x y hxy hy
          cases x with
          | nil => simp at hxy; rw [← hxy]; exact hno
          | cons z x =>
            simp at hxy
            exact (hy hxy.2.2).elim
      · obtain ⟨b, r, hb, hl, hn, hr⟩ := ih ht
        refine ⟨a :: b, r, by rw [hb]; rfl, ?_, ?_, hr⟩
        · unfold lossyLoop
          rw [splitFirst_bad e]
          have : t.isEmpty = false := by cases t with | nil => exact (ht rfl).elim | cons => rfl
          simp only [R.bind_ok, this]
          exact hl
        · intro x y hxy hy
          cases x with
          | nil => simp at hxy; rw [← hxy, List.cons_append, ← hb]; exact hno
          | cons z x => simp at hxy; exact hn x y hxy.2 hy

theorem decodeLossy_spec (n : Nat) : ∀ l : List UInt8, l.length ≤ n → ∃ cs, decodeLossy n l = .ok (cs.map fun c => [c]) ∧ Lossy l cs := by
  induction n with
  | zero =>
    intro l h
    have : l = [] := List.length_eq_zero_iff.mp (by omega)
    subst this
    exact ⟨[], rfl, .nil⟩
  | succ n ih =>
    intro l h
    cases l with
    | nil => exact ⟨[], rfl, .nil⟩
    | cons a t =>
      cases e : first (a :: t) with
      | some c =>
        obtain ⟨r, hr⟩ := first_some e
        have hp := size_pos c
        have hlen : r.length ≤ n := by
          have := congrArg List.length hr
          simp only [List.length_append, List.length_cons] at this h
          omega
        obtain ⟨cs, h1, h2⟩ := ih r hlen
        refine ⟨c :: cs, ?_, by rw [hr]; exact .char c h2⟩
        have hs : splitLossy (a :: t) = .ok ([c], r) := by
          unfold splitLossy lossyLoop
          simp only [List.isEmpty_cons, Bool.not_false, R.assert_true, R.bind_ok]
          rw [hr, splitFirst_char]
          rfl
        simp only [decodeLossy, hs, R.bind_ok, h1, List.map_cons]
      | none =>
        have hs : ∃ b r, a :: t = b ++ r ∧ b ≠ [] ∧ splitLossy (a :: t) = .ok (['�'], r) ∧ (∀ x y, b = x ++ y → y ≠ [] → ¬ Starts (y ++ r)) ∧ (r = [] ∨ Starts r) := by
          have hno : ¬ Starts (a :: t) := by rw [starts_iff]; simp [e]
          have hsp : splitLossy (a :: t) = lossyLoop true (a :: t) := by
            unfold splitLossy lossyLoop
            rw [splitFirst_bad e]
            rfl
          obtain ⟨b, r, hb, hl, hn, hr⟩ := lossyLoop_true (a :: t) (by simp)
          refine ⟨b, r, hb, ?_, by rw [hsp]; exact hl, hn, hr⟩
          rintro rfl
          rcases hr with hr | hr
          · rw [hr] at hb; cases hb
          · rw [List.nil_append] at hb; rw [hb] at hno; exact hno hr
        obtain ⟨b, r, hb, hbn, hsp, hn, hr⟩ := hs
        have hlen : r.length ≤ n := by
          have := congrArg List.length hb
          simp only [List.length_append, List.length_cons] at this h
          have : b.length ≠ 0 := fun e => hbn (List.length_eq_zero_iff.mp e)
          omega
        obtain ⟨cs, h1, h2⟩ := ih r hlen
        refine ⟨'�' :: cs, ?_, by rw [hb]; exact .bad b hbn hn hr h2⟩
        simp only [decodeLossy, hsp, R.bind_ok, h1, List.map_cons]

/-- The reading is determined. -/
theorem Lossy.unique {l : List UInt8} {a b : List Char} (h : Lossy l a) (k : Lossy l b) : a = b := by
  induction h generalizing b with
  | nil =>
    generalize hl : ([] : List UInt8) = l at k
    cases k with
    | nil => rfl
    | char c => have := size_pos c; rw [(List.append_eq_nil_iff.mp hl.symm).1] at this; cases this
    | bad x hx => exact (hx (List.append_eq_nil_iff.mp hl.symm).1).elim
  | @char c r cs _ ih =>
    generalize hl : String.utf8EncodeChar c ++ r = l at k
    cases k with
    | nil => have := size_pos c; rw [(List.append_eq_nil_iff.mp hl).1] at this; cases this
    | char d k =>
      have h1 := first_enc c r
      rw [hl, first_enc] at h1
      injection h1 with h1; subst h1
      have := List.append_cancel_left hl
      subst this
      rw [ih k]
    | @bad x r' cs' hx no _ k =>
      exact (no [] x rfl hx ⟨c, r, hl.symm⟩).elim
  | @bad x r cs hx no hr _ ih =>
    generalize hl : x ++ r = l at k
    cases k with
    | nil => exact (hx (List.append_eq_nil_iff.mp hl).1).elim
    | char d k => exact (no [] x rfl hx ⟨d, _, hl⟩).elim
    | @bad y r' cs' hy no' hr' k =>
      have : x = y ∧ r = r' := by
        rcases List.append_eq_append_iff.mp hl with ⟨z, h1, h2⟩ | ⟨z, h1, h2⟩
        · by_cases hz : z = []
          · subst hz; simp at h1 h2; exact ⟨h1.symm, h2⟩
          · rcases hr with hr | hr
            · rw [hr] at h2; simp at h2; exact (hz h2.1).elim
            · rw [h2] at hr; exact (no' x z h1 hz hr).elim
        · by_cases hz : z = []
          · subst hz; simp at h1 h2; exact ⟨h1, h2.symm⟩
          · rcases hr' with hr' | hr'
            · rw [hr'] at h2; simp at h2; exact (hz h2.1).elim
            · rw [h2] at hr'; exact (no y z h1 hz hr').elim
      obtain ⟨rfl, rfl⟩ := this
      rw [ih k]

theorem Lossy.valid (cs : List Char) : Lossy (enc cs) cs := by
  induction cs with
  | nil => exact .nil
  | cons c cs ih => rw [enc_cons]; exact .char c ih

/-- Bytes are read as text without a panic: valid text as it is, and each run of bytes at which no character begins as one replacement. -/
theorem C80_lossy (l : List UInt8) : ∃ cs, decodeLossy l.length l = .ok (cs.map fun c => [c]) ∧ Lossy l cs ∧ ∀ t, l = enc t → cs = t := by
  obtain ⟨cs, h1, h2⟩ := decodeLossy_spec l.length l (Nat.le_refl _)
  exact ⟨cs, h1, h2, fun t e => h2.unique (by rw [e]; exact .valid t)⟩

/-! ## Where a text may be cut -/

theorem enc_lead (c : Char) : ∃ b l, String.utf8EncodeChar c = b :: l ∧ (b.toNat < 128 ∨ 192 ≤ b.toNat) ∧ ∀ x ∈ l, 128 ≤ x.toNat ∧ x.toNat < 192 := by
  unfold String.utf8EncodeChar
  simp only
  have key : ∀ v, v < 64 → 128 ≤ (UInt8.ofNat (v + 128)).toNat ∧ (UInt8.ofNat (v + 128)).toNat < 192 := by
    intro v hv; rw [UInt8.toNat_ofNat']; omega
  split
  · refine ⟨_, _, rfl, ?_, by simp⟩
    rw [UInt8.toNat_ofNat']; omega
  · split
    · refine ⟨_, _, rfl, ?_, ?_⟩
      · rw [UInt8.toNat_ofNat']; omega
      · intro x hx; simp only [List.mem_singleton] at hx; subst hx; exact key _ (by omega)
    · split
      · refine ⟨_, _, rfl, ?_, ?_⟩
        · rw [UInt8.toNat_ofNat']; omega
        · intro x hx
          simp only [List.mem_cons, List.not_mem_nil, or_false] at hx
          rcases hx with rfl | rfl <;> exact key _ (by omega)
      · refine ⟨_, _, rfl, ?_, ?_⟩
        · rw [UInt8.toNat_ofNat']; omega
        · intro x hx
          simp only [List.mem_cons, List.not_mem_nil, or_false] at hx
          rcases hx with rfl | rfl | rfl <;> exact key _ (by omega)

theorem boundary_shift (c : Char) (cs : List Char) (i : Nat) : isBoundary (enc (c :: cs)) (i + (String.utf8EncodeChar c).length) = isBoundary (enc cs) i := by
  obtain ⟨b, l, hb, hlead, _⟩ := enc_lead c
  have hp := size_pos c
  rw [enc_cons]
  unfold isBoundary
  rw [if_neg (by omega), List.getElem?_append_right (by omega), Nat.add_sub_cancel]
  by_cases hi : i = 0
  · subst hi
    rw [if_pos rfl]
    cases cs with
    | nil => simp [enc]
    | cons d cs =>
      obtain ⟨b', l', hb', hlead', _⟩ := enc_lead d
      rw [enc_cons, hb']
      simp only [List.cons_append, List.getElem?_cons_zero]
      exact decide_eq_true hlead'
  · rw [if_neg hi]
    cases (enc cs)[i]? with
    | some x => rfl
    | none =>
      simp only [List.length_append]
      rw [Bool.eq_iff_iff]
      simp only [beq_iff_eq]
      omega

/-- A text can be cut exactly between its characters. -/
theorem boundary_iff (cs : List Char) : ∀ i, isBoundary (enc cs) i = true ↔ ∃ a b, cs = a ++ b ∧ i = (enc a).length := by
  induction cs with
  | nil =>
    intro i
    constructor
    · intro h
      refine ⟨[], [], rfl, ?_⟩
      by_cases hi : i = 0
      · exact hi
      · unfold isBoundary at h
        rw [if_neg hi] at h
        simpa [enc] using h
    · rintro ⟨a, b, h1, rfl⟩
      rw [(List.append_eq_nil_iff.mp h1.symm).1]
      rfl
  | cons c cs ih =>
    intro i
    obtain ⟨b, l, hb, hlead, htail⟩ := enc_lead c
    by_cases hi : i < (String.utf8EncodeChar c).length
    · constructor
      · intro h
        refine ⟨[], c :: cs, rfl, ?_⟩
        by_cases h0 : i = 0
        · exact h0
        · unfold isBoundary at h
          rw [if_neg h0, enc_cons, List.getElem?_append_left hi, hb] at h
          rw [hb, List.length_cons] at hi
          obtain ⟨j, rfl⟩ := Nat.exists_eq_succ_of_ne_zero h0
          rw [List.getElem?_cons_succ, List.getElem?_eq_getElem (by omega)] at h
          have := htail _ (List.getElem_mem (l := l) (n := j) (by omega))
          have h := of_decide_eq_true h
          omega
      · rintro ⟨a, b', h1, rfl⟩
        cases a with
        | nil => rfl
        | cons d a =>
          simp only [List.cons_append, List.cons.injEq] at h1
          rw [← h1.1, enc_cons, List.length_append] at hi
          omega
    · obtain ⟨j, rfl⟩ : ∃ j, i = j + (String.utf8EncodeChar c).length := ⟨i - (String.utf8EncodeChar c).length, by omega⟩
      rw [boundary_shift, ih]
      constructor
      · rintro ⟨a, b', h1, h2⟩
        refine ⟨c :: a, b', by rw [h1]; rfl, ?_⟩
        rw [enc_cons, List.length_append]; omega
      · rintro ⟨a, b', h1, h2⟩
        cases a with
        | nil => have := size_pos c; rw [enc_nil] at h2; simp only [List.length_nil] at h2; omega
        | cons d a =>
          simp only [List.cons_append, List.cons.injEq] at h1
          rw [← h1.1, enc_cons, List.length_append] at h2
          exact ⟨a, b', h1.2, by omega⟩

theorem floor_spec (src : List UInt8) (n : Nat) : floorBoundary src n ≤ n ∧ isBoundary src (floorBoundary src n) = true ∧ ∀ m, floorBoundary src n < m → m ≤ n → isBoundary src m = false := by
  induction n with
  | zero => exact ⟨Nat.le_refl _, rfl, fun m h1 h2 => by simp [floorBoundary] at h1; omega⟩
  | succ n ih =>
    unfold floorBoundary
    by_cases h : isBoundary src (n + 1) = true
    · rw [if_pos h]; exact ⟨Nat.le_refl _, h, fun m h1 h2 => by omega⟩
    · rw [if_neg h]
      refine ⟨by omega, ih.2.1, fun m h1 h2 => ?_⟩
      by_cases e : m = n + 1
      · subst e; simpa using h
      · exact ih.2.2 m h1 (by omega)

/-- The loop finds the longest beginning that fits. -/
theorem floor_cut (ws : List Char) (room : Nat) : ∃ kept dropped, Cut room ws kept dropped ∧ (enc ws).take (floorBoundary (enc ws) room) = enc kept ∧
    (enc kept).length = floorBoundary (enc ws) room := by
  obtain ⟨h1, h2, h3⟩ := floor_spec (enc ws) room
  obtain ⟨a, b, hab, hl⟩ := (boundary_iff ws _).mp h2
  refine ⟨a, b, ⟨hab, by omega, ?_⟩, ?_, hl.symm⟩
  · intro c rest hb
    apply Nat.lt_of_not_le
    intro hle
    have hin : isBoundary (enc ws) (enc (a ++ [c])).length = true := (boundary_iff ws _).mpr ⟨a ++ [c], rest, by rw [hab, hb]; simp, rfl⟩
    have hgt : floorBoundary (enc ws) room < (enc (a ++ [c])).length := by
      rw [hl, enc_append, List.length_append, enc_single]
      have := size_pos c
      omega
    rw [h3 _ hgt hle] at hin
    cases hin
  · rw [hl, hab, enc_append, List.take_left]

/-! ## The buffer -/

theorem nul_holds {n : Nat} {b : Buf} {cs : List Char} (h1 : b.mem.length = n) (h2 : b.used = (enc cs).length) (h3 : (enc cs).length + 1 ≤ n)
    (h4 : b.mem.take (enc cs).length = (enc cs).map some) : ∃ b', b.nul = .ok b' ∧ Holds n b' cs b.trunc := by
  refine ⟨{ b with mem := b.mem.set b.used (some 0) }, ?_, ?_⟩
  · unfold Buf.nul
    rw [decide_eq_true (by omega)]
    rfl
  · refine ⟨by simp [h1], h2, h3, ?_, ?_, rfl⟩
    · simp only [h2]
      rw [List.take_set_of_le (Nat.le_refl _)]
      exact h4
    · simp only [h2]
      rw [List.getElem?_set_self (by omega)]

theorem remaining_holds {n : Nat} {b : Buf} {cs : List Char} {k : Nat} (h : Holds n b cs k) : b.remaining = .ok (n - 1 - (enc cs).length) := by
  have := h.room
  unfold Buf.remaining
  rw [h.size, h.used, decide_eq_true (by omega)]
  rfl

theorem fitting_holds {n : Nat} {b : Buf} {cs ws : List Char} {k : Nat} (h : Holds n b cs k) (hw : (enc ws).length ≤ n - 1 - (enc cs).length) :
    ∃ b', b.fitting (enc ws) = .ok b' ∧ Holds n b' (cs ++ ws) k := by
  have hr := h.room
  unfold Buf.fitting
  rw [remaining_holds h]
  simp only [R.bind_ok]
  rw [decide_eq_true hw]
  simp only [R.assert_true, R.bind_ok]
  have hlen : (enc (cs ++ ws)).length = (enc cs).length + (enc ws).length := by rw [enc_append, List.length_append]
  have := nul_holds (n := n) (cs := cs ++ ws) (b := { b with mem := b.mem.take b.used ++ (enc ws).map some ++ b.mem.drop (b.used + (enc ws).length), used := b.used + (enc ws).length })
    (by simp only [List.length_append, List.length_take, List.length_map, List.length_drop, h.size, h.used]; omega)
    (by simp only [h.used, hlen]) (by omega)
    (by simp only [h.used, h.text]
        rw [enc_append, List.map_append]
        apply List.take_left'
        simp)
  obtain ⟨b', e, g⟩ := this
  exact ⟨b', e, by rw [← h.trunc]; exact g⟩

theorem trunc_holds {n : Nat} {b : Buf} {cs : List Char} {k j : Nat} (h : Holds n b cs k) : Holds n { b with trunc := j } cs j :=
  ⟨h.size, h.used, h.room, h.text, h.zero, rfl⟩

/-- What it means to add `ws` to a buffer: nothing once something was dropped, else as much as fits. -/
def Adds (n : Nat) (cs : List Char) (k : Nat) (ws : List Char) (cs' : List Char) (k' : Nat) : Prop :=
  if k = 0 then ∃ dropped, Cut (n - 1) (cs ++ ws) cs' dropped ∧ k' = (enc dropped).length
  else cs' = cs ∧ k' = k + (enc ws).length

theorem cut_prepend {n : Nat} {cs ws kept dropped : List Char} (h : Cut (n - 1 - (enc cs).length) ws kept dropped) (hr : (enc cs).length + 1 ≤ n) : Cut (n - 1) (cs ++ ws) (cs ++ kept) dropped := by
  refine ⟨by rw [h.split]; simp, ?_, ?_⟩
  · have := h.fits; rw [enc_append, List.length_append]; omega
  · intro c rest e
    have := h.full c rest e
    rw [List.append_assoc, enc_append, List.length_append]; omega

theorem cut_all {room : Nat} {ws : List Char} (h : (enc ws).length ≤ room) : Cut room ws ws [] := ⟨by simp, h, fun c rest e => by cases e⟩

/-- `write_str` does not panic, keeps as much as fits and counts the rest. -/
theorem C80_write {n : Nat} {b : Buf} {cs : List Char} {k : Nat} (h : Holds n b cs k) (ws : List Char) :
    ∃ b' cs' k', b.writeStr (enc ws) = .ok b' ∧ Holds n b' cs' k' ∧ Adds n cs k ws cs' k' := by
  have hr := h.room
  unfold Buf.writeStr Adds
  by_cases hk : k = 0
  · rw [if_neg (by rw [h.trunc]; omega), remaining_holds h]
    simp only [R.bind_ok]
    by_cases hw : (enc ws).length ≤ n - 1 - (enc cs).length
    · rw [if_pos hw]
      obtain ⟨b', h1, h2⟩ := fitting_holds h hw
      refine ⟨b', _, _, h1, h2, ?_⟩
      rw [if_pos hk]
      exact ⟨[], cut_prepend (cut_all hw) hr, by rw [hk]; rfl⟩
    · rw [if_neg hw]
      obtain ⟨kept, dropped, hc, ht, hl⟩ := floor_cut ws (n - 1 - (enc cs).length)
      rw [ht]
      have hf := hc.fits
      obtain ⟨b', h1, h2⟩ := fitting_holds (trunc_holds (j := b.trunc + ((enc ws).length - floorBoundary (enc ws) (n - 1 - (enc cs).length))) h) hf
      refine ⟨b', _, _, h1, h2, ?_⟩
      rw [if_pos hk]
      refine ⟨dropped, cut_prepend hc hr, ?_⟩
      have : (enc ws).length = (enc kept).length + (enc dropped).length := by
        have := congrArg (fun x => (enc x).length) hc.split
        simpa [enc_append] using this
      rw [h.trunc, hk, ← hl]
      omega
  · rw [if_pos (by rw [h.trunc]; omega)]
    refine ⟨_, cs, k + (enc ws).length, rfl, ?_, ?_⟩
    · rw [h.trunc]; exact trunc_holds h
    · rw [if_neg hk]; exact ⟨rfl, rfl⟩

theorem enc_zero {l : List Char} (h : (enc l).length = 0) : l = [] := by
  cases l with
  | nil => rfl
  | cons c l => have := size_pos c; rw [enc_cons, List.length_append] at h; omega

theorem Adds.nil {n : Nat} {cs : List Char} {k : Nat} (hr : (enc cs).length + 1 ≤ n) : Adds n cs k [] cs k := by
  unfold Adds
  split
  · rename_i h; exact ⟨[], by rw [List.append_nil]; exact cut_all (by omega), by rw [h]; rfl⟩
  · exact ⟨rfl, by simp [enc_nil]⟩

/-- Adding in two steps is adding in one. -/
theorem Adds.trans {n : Nat} {cs cs1 cs2 ws vs : List Char} {k k1 k2 : Nat} (h1 : Adds n cs k ws cs1 k1) (h2 : Adds n cs1 k1 vs cs2 k2) : Adds n cs k (ws ++ vs) cs2 k2 := by
  unfold Adds at *
  by_cases hk : k = 0
  · rw [if_pos hk] at h1 ⊢
    obtain ⟨d1, c1, e1⟩ := h1
    by_cases hk1 : k1 = 0
    · rw [if_pos hk1] at h2
      obtain ⟨d2, c2, e2⟩ := h2
      have : d1 = [] := enc_zero (by omega)
      subst this
      have hs := c1.split
      rw [List.append_nil] at hs
      refine ⟨d2, ?_, e2⟩
      rw [← List.append_assoc, hs]; exact c2
    · rw [if_neg hk1] at h2
      obtain ⟨rfl, e2⟩ := h2
      refine ⟨d1 ++ vs, ⟨?_, c1.fits, ?_⟩, ?_⟩
      · rw [← List.append_assoc, c1.split, List.append_assoc]
      · intro c rest e
        cases d1 with
        | nil => rw [enc_nil] at e1; exact (hk1 e1).elim
        | cons d d1 =>
          simp only [List.cons_append, List.cons.injEq] at e
          rw [← e.1]; exact c1.full d d1 rfl
      · rw [enc_append, List.length_append]; omega
  · rw [if_neg hk] at h1 ⊢
    obtain ⟨rfl, e1⟩ := h1
    rw [if_neg (by omega)] at h2
    obtain ⟨rfl, e2⟩ := h2
    exact ⟨rfl, by rw [enc_append, List.length_append]; omega⟩

theorem new_holds {n : Nat} (h : 1 ≤ n) : ∃ b, Buf.new n = .ok b ∧ Holds n b [] 0 := by
  unfold Buf.new
  rw [decide_eq_true h]
  exact nul_holds (b := { mem := List.replicate n none, used := 0, trunc := 0 }) (cs := []) (by simp) rfl (by rw [enc_nil]; simpa using h) rfl

def writeAll (b : Buf) : List (List Char) → R Buf
  | [] => .ok b
  | w :: ws => do
    let b' ← b.writeStr (enc w)
    writeAll b' ws

/-- After any number of `write_str`s the buffer holds the longest beginning of the whole text that fits, and the count is that of the bytes of the rest. -/
theorem C80_writes {n : Nat} (hn : 1 ≤ n) (ws : List (List Char)) :
    ∃ b0 b kept dropped, Buf.new n = .ok b0 ∧ writeAll b0 ws = .ok b ∧ Holds n b kept (enc dropped).length ∧ Cut (n - 1) ws.flatten kept dropped := by
  obtain ⟨b0, h0, hb0⟩ := new_holds hn
  have key : ∀ (ws : List (List Char)) (b : Buf) (cs : List Char) (k : Nat), Holds n b cs k → ∃ b' cs' k', writeAll b ws = .ok b' ∧ Holds n b' cs' k' ∧ Adds n cs k ws.flatten cs' k' := by
    intro ws
    induction ws with
    | nil => intro b cs k h; exact ⟨b, cs, k, rfl, h, Adds.nil h.room⟩
    | cons w ws ih =>
      intro b cs k h
      obtain ⟨b1, cs1, k1, e1, g1, a1⟩ := C80_write h w
      obtain ⟨b2, cs2, k2, e2, g2, a2⟩ := ih b1 cs1 k1 g1
      refine ⟨b2, cs2, k2, ?_, g2, ?_⟩
      · simp only [writeAll, e1, R.bind_ok, e2]
      · rw [List.flatten_cons]; exact a1.trans a2
  obtain ⟨b, cs, k, e, g, a⟩ := key ws b0 [] 0 hb0
  unfold Adds at a
  rw [if_pos rfl] at a
  obtain ⟨dropped, hc, hk⟩ := a
  exact ⟨b0, b, cs, dropped, h0, e, by rw [← hk]; exact g, by simpa using hc⟩

theorem putAll_holds {n : Nat} (ws : List Char) : ∀ (b : Buf) (cs : List Char) (k : Nat), Holds n b cs k →
    ∃ b' cs' k', b.putAll (ws.map fun c => [c]) = .ok b' ∧ Holds n b' cs' k' ∧ Adds n cs k ws cs' k' := by
  induction ws with
  | nil => intro b cs k h; exact ⟨b, cs, k, rfl, h, Adds.nil h.room⟩
  | cons c ws ih =>
    intro b cs k h
    have hr := h.room
    have one : ∃ b1 cs1 k1, (if b.trunc > 0 ∨ (enc [c]).length > n - 1 - (enc cs).length then R.ok { b with trunc := b.trunc + (enc [c]).length } else b.fitting (enc [c])) = .ok b1 ∧
        Holds n b1 cs1 k1 ∧ Adds n cs k [c] cs1 k1 := by
      by_cases e : b.trunc > 0 ∨ (enc [c]).length > n - 1 - (enc cs).length
      · rw [if_pos e]
        refine ⟨_, cs, k + (enc [c]).length, rfl, by rw [h.trunc]; exact trunc_holds h, ?_⟩
        unfold Adds
        by_cases hk : k = 0
        · rw [if_pos hk]
          rw [h.trunc] at e
          refine ⟨[c], ⟨rfl, by omega, ?_⟩, by omega⟩
          intro d rest hd
          simp only [List.cons.injEq] at hd
          rw [← hd.1, enc_append, List.length_append]
          omega
        · rw [if_neg hk]; exact ⟨rfl, rfl⟩
      · rw [if_neg e]
        obtain ⟨b1, h1, h2⟩ := fitting_holds h (ws := [c]) (by omega)
        refine ⟨b1, _, _, h1, h2, ?_⟩
        unfold Adds
        rw [h.trunc] at e
        rw [if_pos (by omega)]
        exact ⟨[], cut_prepend (cut_all (by omega)) hr, by simp only [enc_nil, List.length_nil]; omega⟩
    obtain ⟨b1, cs1, k1, e1, g1, a1⟩ := one
    obtain ⟨b2, cs2, k2, e2, g2, a2⟩ := ih b1 cs1 k1 g1
    refine ⟨b2, cs2, k2, ?_, g2, a1.trans a2⟩
    simp only [List.map_cons, Buf.putAll, remaining_holds h, R.bind_ok]
    by_cases e : b.trunc > 0 ∨ (enc [c]).length > n - 1 - (enc cs).length
    · rw [if_pos e] at e1 ⊢
      injection e1 with e1; subst e1
      exact e2
    · rw [if_neg e] at e1 ⊢
      rw [e1]
      exact e2

/-- `sprintf` does not panic: the text, read as characters as far as it fits a buffer of its own, is added like any other; the bytes beyond are counted. -/
theorem C80_sprintf {n : Nat} {b : Buf} {cs : List Char} {k : Nat} (h : Holds n b cs k) (text : List UInt8) :
    ∃ b' ws cs' k', b.sprintf (some text) = .ok b' ∧ Lossy (text.take (n - 1)) ws ∧ Adds n cs k ws cs' k' ∧ Holds n b' cs' (k' + (text.length - (n - 1))) := by
  have ht : text.take (min (n - 1) text.length) = text.take (n - 1) := by
    by_cases e : n - 1 ≤ text.length
    · rw [Nat.min_eq_left e]
    · rw [Nat.min_eq_right (by omega), List.take_length, List.take_of_length_le (by omega)]
  obtain ⟨ws, hd, hl⟩ := decodeLossy_spec (text.take (n - 1)).length (text.take (n - 1)) (Nat.le_refl _)
  obtain ⟨b1, cs1, k1, e1, g1, a1⟩ := putAll_holds ws b cs k h
  obtain ⟨b2, e2, g2⟩ := nul_holds (b := { b1 with trunc := b1.trunc + (text.length - min (n - 1) text.length) }) (cs := cs1) g1.size g1.used g1.room g1.text
  refine ⟨b2, ws, cs1, k1, ?_, hl, a1, ?_⟩
  · simp only [Buf.sprintf, h.size, ht, hd, R.bind_ok, e1]
    exact e2
  · have : k1 + (text.length - (n - 1)) = ({ b1 with trunc := b1.trunc + (text.length - min (n - 1) text.length) } : Buf).trunc := by
      simp only [g1.trunc]; omega
    rw [this]; exact g2

/-- If `sprintf` formats valid text that fits, the text is added as it is. -/
theorem C80_sprintf_fits {n : Nat} {b : Buf} {cs ws : List Char} (h : Holds n b cs 0) (hf : (enc (cs ++ ws)).length + 1 ≤ n) :
    ∃ b', b.sprintf (some (enc ws)) = .ok b' ∧ Holds n b' (cs ++ ws) 0 := by
  have hlen : (enc (cs ++ ws)).length = (enc cs).length + (enc ws).length := by rw [enc_append, List.length_append]
  obtain ⟨b', vs, cs', k', e, hl, a, g⟩ := C80_sprintf h (enc ws)
  rw [List.take_of_length_le (by omega)] at hl
  have := hl.unique (Lossy.valid ws)
  subst this
  unfold Adds at a
  rw [if_pos rfl] at a
  obtain ⟨dropped, hc, hk⟩ := a
  have : dropped = [] := by
    cases dropped with
    | nil => rfl
    | cons c rest =>
      have h1 := hc.full c rest rfl
      have h2 := congrArg (fun x => (enc x).length) hc.split
      have h3 : enc (c :: rest) = enc [c] ++ enc rest := by rw [enc_cons, enc_single]
      simp only [enc_append, List.length_append, h3] at h1 h2
      omega
  subst this
  have hs := hc.split
  rw [List.append_nil] at hs
  refine ⟨b', e, ?_⟩
  rw [hs]
  have : k' + ((enc vs).length - (n - 1)) = 0 := by rw [hk, enc_nil]; simp only [List.length_nil]; omega
  rw [this] at g
  exact g

theorem readAll_map (l : List UInt8) : readAll (l.map some) = .ok l := by
  induction l with
  | nil => rfl
  | cons x l ih => simp only [List.map_cons, readAll, ih, R.bind_ok]

theorem initd_holds {n : Nat} {b : Buf} {cs : List Char} {k : Nat} (h : Holds n b cs k) : b.initd = .ok (enc cs ++ [0]) := by
  have hr := h.room
  unfold Buf.initd
  rw [h.size, h.used, decide_eq_true (by omega)]
  have : b.mem.take ((enc cs).length + 1) = (enc cs ++ [0]).map some := by
    rw [List.take_add_one, h.text, h.zero]; simp
  simp only [R.assert_true, R.bind_ok, this, readAll_map]
  simp

/-- What is held is read back as the same valid text; only bytes that were written are read. As a C string it is the text and a zero, unless there is a zero in the text. -/
theorem C80_read {n : Nat} {b : Buf} {cs : List Char} {k : Nat} (h : Holds n b cs k) :
    b.asStr = .ok (enc cs) ∧ b.asCstr = .ok (if (0 : UInt8) ∈ enc cs then none else some (enc cs ++ [0])) ∧ b.display = .ok (enc cs, if k = 0 then none else some k) ∧
    ∃ b', b.reset = .ok b' ∧ Holds n b' [] 0 := by
  have hi := initd_holds h
  have hs : b.asStr = .ok (enc cs) := by unfold Buf.asStr; rw [hi]; simp
  refine ⟨hs, ?_, ?_, ?_⟩
  · unfold Buf.asCstr; rw [hi]; simp
  · unfold Buf.display; rw [hs, h.trunc]; rfl
  · exact nul_holds (b := { b with used := 0, trunc := 0 }) (cs := []) h.size rfl (by have := h.room; rw [enc_nil]; simp only [List.length_nil]; omega) rfl

/-- Finding: a valid text that is too long is cut within a character, of which a replacement remains that was not in the text. -/
theorem C80_cut_char : ∃ (b b' : Buf) (text : List Char), Buf.new 4 = .ok b ∧ b.sprintf (some (enc text)) = .ok b' ∧ b'.asStr = .ok (enc ['�']) ∧ '�' ∉ text :=
  ⟨{ mem := [some 0, none, none, none], used := 0, trunc := 0 }, { mem := [some 0xef, some 0xbf, some 0xbd, some 0], used := 3, trunc := 1 }, ['𐍈'],
    by decide +kernel, by decide +kernel, by decide +kernel, by decide⟩

/-! ## Writing to a file -/

/-- What the file gets is a beginning of the text; all of it if and only if the result is a success. -/
theorem C80_fd {os : List Sys} {l w : List UInt8} {ok : Bool} (h : fdWrite os l = some (w, ok)) : w <+: l ∧ (ok = true ↔ w = l) := by
  induction os generalizing l w ok with
  | nil =>
    cases l with
    | nil => simp [fdWrite] at h; obtain ⟨rfl, rfl⟩ := h; simp
    | cons b l => simp [fdWrite] at h
  | cons o os ih =>
    cases l with
    | nil => simp [fdWrite] at h; obtain ⟨rfl, rfl⟩ := h; simp
    | cons b l =>
      cases o with
      | intr => simp only [fdWrite] at h; exact ih h
      | fail => simp [fdWrite] at h; obtain ⟨rfl, rfl⟩ := h; simp
      | took n =>
        cases n with
        | zero => simp [fdWrite] at h; obtain ⟨rfl, rfl⟩ := h; simp
        | succ n =>
          simp only [fdWrite] at h
          split at h
          · cases h
          · rename_i w' ok' e
            simp only [Option.some.injEq, Prod.mk.injEq] at h
            obtain ⟨rfl, rfl⟩ := h
            obtain ⟨⟨r, hr⟩, h2⟩ := ih e
            refine ⟨⟨r, ?_⟩, ?_⟩
            · rw [List.append_assoc, hr, List.take_append_drop]
            · rw [h2]
              constructor
              · intro e; rw [e, List.take_append_drop]
              · intro e
                apply List.append_cancel_left (as := (b :: l).take (n + 1))
                rw [e, List.take_append_drop]

/-- If `write` never fails and never returns zero, the text is written. -/
theorem C80_fd_progress {os : List Sys} {l : List UInt8} (hos : ∀ o ∈ os, o ≠ .fail ∧ o ≠ .took 0) (hn : l.length ≤ (os.filter (· ≠ .intr)).length) : fdWrite os l = some (l, true) := by
  induction os generalizing l with
  | nil =>
    have : l = [] := List.length_eq_zero_iff.mp (by simpa using hn)
    subst this; rfl
  | cons o os ih =>
    have ho := hos o (by simp)
    have hrest : ∀ o ∈ os, o ≠ .fail ∧ o ≠ .took 0 := fun x hx => hos x (by simp [hx])
    cases l with
    | nil => simp [fdWrite]
    | cons b l =>
      cases o with
      | fail => exact (ho.1 rfl).elim
      | intr => simp only [fdWrite]; exact ih hrest (by simpa using hn)
      | took n =>
        cases n with
        | zero => exact (ho.2 rfl).elim
        | succ n =>
          simp only [fdWrite]
          rw [ih hrest (by simp at hn ⊢; omega)]
          simp

end Shadow.FmtBuf
