import Verif.ProcMaps.Model
/-!
# C81: the maps of a process are read as the kernel wrote them
-/
namespace Shadow.ProcMaps

/-! ## The specification -/

/-- A digit: 0 to 9 and then the letters of either case. -/
def DigitIs (c : Char) (d : Nat) : Prop :=
  (d < 10 ∧ c.toNat = 48 + d) ∨ (10 ≤ d ∧ d < 36 ∧ (c.toNat = 97 + (d - 10) ∨ c.toNat = 65 + (d - 10)))

/-- The number `acc` followed by the digits `s` is `n`. -/
inductive Rep (radix : Nat) : Nat → List Char → Nat → Prop where
  | nil (acc : Nat) : Rep radix acc [] acc
  | cons {acc d n : Nat} {c : Char} {s : List Char} : DigitIs c d → d < radix → Rep radix (acc * radix + d) s n → Rep radix acc (c :: s) n

/-- A number without or with a sign. -/
def Num (radix : Nat) (s : List Char) (n : Nat) : Prop := ∃ ds, ds ≠ [] ∧ Rep radix 0 ds n ∧ (s = ds ∨ s = '+' :: ds)
def INum (radix : Nat) (s : List Char) (n : Int) : Prop := (∃ k, Num radix s k ∧ n = k) ∨ ∃ ds k, ds ≠ [] ∧ Rep radix 0 ds k ∧ s = '-' :: ds ∧ n = -(k : Int)

def Spaces (s : List Char) : Prop := ∀ c ∈ s, isSpace c = true
def Word (s : List Char) : Prop := ∀ c ∈ s, isSpace c = false

def stackColon : List Char := ['s', 't', 'a', 'c', 'k', ':']

/-- The meaning of the last field. -/
inductive PathIs : List Char → MPath → Prop where
  | file (s : List Char) : s.head? = some '/' → PathIs s (.path s)
  | initialStack : PathIs ['[', 's', 't', 'a', 'c', 'k', ']'] .initialStack
  | vdso : PathIs ['[', 'v', 'd', 's', 'o', ']'] .vdso
  | heap : PathIs ['[', 'h', 'e', 'a', 'p', ']'] .heap
  | thread (ds : List Char) (n : Nat) : ds ≠ [] → Rep 10 0 ds n → n < 2 ^ 31 → PathIs ('[' :: (stackColon ++ ds) ++ [']']) (.threadStack n)
  | special (s : List Char) : s ≠ [] → Word s → s ≠ ['s', 't', 'a', 'c', 'k'] → s ≠ ['v', 'd', 's', 'o'] → s ≠ ['h', 'e', 'a', 'p'] →
      (∀ ds n, ds ≠ [] → Rep 10 0 ds n → s ≠ stackColon ++ ds) → PathIs ('[' :: s ++ [']']) (.special s)

def deletedMark : List Char := ['(', 'd', 'e', 'l', 'e', 't', 'e', 'd', ')']

/-- What follows the inode. -/
inductive Tail : List Char → Option MPath → Bool → Prop where
  | none (sp : List Char) : Spaces sp → Tail sp none false
  | path (sp p sp' : List Char) (q : MPath) : Spaces sp → sp ≠ [] → Word p → PathIs p q → Spaces sp' → Tail (sp ++ (p ++ sp')) (some q) false
  | deleted (sp p sp' : List Char) (q : MPath) : Spaces sp → sp ≠ [] → Word p → PathIs p q → Spaces sp' → sp' ≠ [] → Tail (sp ++ (p ++ (sp' ++ deletedMark))) (some q) true

def bit (yes no : Char) (b : Bool) : Char := if b then yes else no

/-- What comes before the inode's end: `front … tail` is a line. -/
structure Front (sb se s1 s2 so s3 smj smn s4 sino : List Char) (m : Mapping) : Prop where
  first : Num 16 sb m.first ∧ m.first < 2 ^ 64
  last : Num 16 se m.last ∧ m.last < 2 ^ 64
  offset : Num 16 so m.offset ∧ m.offset < 2 ^ 64
  major : INum 16 smj m.major ∧ -2 ^ 31 ≤ m.major ∧ m.major < 2 ^ 31
  minor : INum 16 smn m.minor ∧ -2 ^ 31 ≤ m.minor ∧ m.minor < 2 ^ 31
  inode : Num 10 sino m.inode ∧ m.inode < 2 ^ 64
  sp1 : Spaces s1 ∧ s1 ≠ []
  sp2 : Spaces s2 ∧ s2 ≠ []
  sp3 : Spaces s3 ∧ s3 ≠ []
  sp4 : Spaces s4 ∧ s4 ≠ []

/-- A line: range, four letters, offset, device, inode and the rest. -/
def compose (sb se s1 : List Char) (r w x sh : Char) (s2 so s3 smj smn s4 sino tail : List Char) : List Char :=
  sb ++ '-' :: (se ++ (s1 ++ r :: w :: x :: sh :: (s2 ++ (so ++ (s3 ++ (smj ++ ':' :: (smn ++ (s4 ++ (sino ++ tail)))))))))

inductive Line : List Char → Mapping → Prop where
  | mk {sb se s1 s2 so s3 smj smn s4 sino tail : List Char} {m : Mapping} : Front sb se s1 s2 so s3 smj smn s4 sino m → Tail tail m.path m.deleted →
      Line (compose sb se s1 (bit 'r' '-' m.read) (bit 'w' '-' m.write) (bit 'x' '-' m.execute) (bit 's' 'p' m.shared) s2 so s3 smj smn s4 sino tail) m

/-! ## Numbers -/

theorem digit_iff {radix : Nat} {c : Char} {d : Nat} : digit radix c = some d ↔ DigitIs c d ∧ d < radix := by
  unfold digit DigitIs
  dsimp only
  constructor
  · intro h
    split at h
    · rename_i d' hd
      split at h
      · injection h with h; subst h
        refine ⟨?_, by assumption⟩
        split at hd
        · injection hd with hd; omega
        · split at hd
          · injection hd with hd; omega
          · split at hd
            · injection hd with hd; omega
            · cases hd
      · cases h
    · cases h
  · rintro ⟨h | ⟨h1, h2, h3⟩, hr⟩
    · rw [if_pos (by omega)]
      have : c.toNat - 48 = d := by omega
      simp only [this]
      rw [if_pos hr]
    · rw [if_neg (by omega)]
      rcases h3 with h3 | h3
      · rw [if_pos (by omega)]
        have : c.toNat - 87 = d := by omega
        simp only [this]
        rw [if_pos hr]
      · rw [if_neg (by omega), if_pos (by omega)]
        have : c.toNat - 55 = d := by omega
        simp only [this]
        rw [if_pos hr]

theorem Rep.le {radix acc n : Nat} {s : List Char} (hr : 1 ≤ radix) (h : Rep radix acc s n) : acc ≤ n := by
  induction h with
  | nil => exact Nat.le_refl _
  | @cons acc d n c s _ _ _ ih =>
    have : acc * 1 ≤ acc * radix := Nat.mul_le_mul_left _ hr
    omega

theorem digits_iff {radix lim : Nat} (hr : 1 ≤ radix) {s : List Char} {n : Nat} : ∀ {acc : Nat}, acc < lim → (digits radix lim acc s = some n ↔ Rep radix acc s n ∧ n < lim) := by
  induction s with
  | nil =>
    intro acc ha
    simp only [digits]
    constructor
    · intro h; injection h with h; subst h; exact ⟨.nil _, ha⟩
    · rintro ⟨h, _⟩; cases h; rfl
  | cons c s ih =>
    intro acc ha
    simp only [digits]
    constructor
    · intro h
      split at h
      · cases h
      · rename_i d hd
        obtain ⟨h1, h2⟩ := digit_iff.mp hd
        split at h
        · rename_i hl
          obtain ⟨h3, h4⟩ := (ih hl).mp h
          exact ⟨.cons h1 h2 h3, h4⟩
        · cases h
    · rintro ⟨h, hn⟩
      cases h with
      | cons h1 h2 h3 =>
        rw [digit_iff.mpr ⟨h1, h2⟩]
        have := h3.le hr
        simp only
        rw [if_pos (by omega)]
        exact (ih (by omega)).mpr ⟨h3, hn⟩

theorem Rep.head {radix acc n : Nat} {c : Char} {s : List Char} (h : Rep radix acc (c :: s) n) : ∃ d, DigitIs c d := by
  cases h with
  | cons h _ _ => exact ⟨_, h⟩

theorem Rep.mem {radix acc n : Nat} {s : List Char} (h : Rep radix acc s n) : ∀ c ∈ s, ∃ d, DigitIs c d := by
  induction h with
  | nil => intro c hc; cases hc
  | @cons _ d _ c s h1 _ _ ih =>
    intro x hx
    rcases List.mem_cons.mp hx with rfl | hx
    · exact ⟨d, h1⟩
    · exact ih x hx

theorem DigitIs.range {c : Char} {d : Nat} (h : DigitIs c d) : (48 ≤ c.toNat ∧ c.toNat ≤ 57) ∨ (97 ≤ c.toNat ∧ c.toNat ≤ 122) ∨ (65 ≤ c.toNat ∧ c.toNat ≤ 90) := by
  unfold DigitIs at h; omega

theorem DigitIs.ne {c x : Char} {d : Nat} (h : DigitIs c d) (hx : x.toNat < 48 ∨ x.toNat = 58 ∨ x.toNat = 91 ∨ x.toNat = 93) : c ≠ x := by
  rintro rfl; have := h.range; omega

theorem DigitIs.word {c : Char} {d : Nat} (h : DigitIs c d) : isSpace c = false := by
  have := h.range
  unfold isSpace
  simp
  omega

theorem parseU_iff {radix lim : Nat} (hr : 1 ≤ radix) (hl : 0 < lim) {s : List Char} {n : Nat} : parseU radix lim s = some n ↔ Num radix s n ∧ n < lim := by
  have key : ∀ ds, digits radix lim 0 ds = some n ↔ Rep radix 0 ds n ∧ n < lim := fun ds => digits_iff hr hl
  constructor
  · intro h
    unfold parseU at h
    split at h
    · cases h
    · cases h
    · rename_i cs hne
      obtain ⟨h1, h2⟩ := (key _).mp h
      exact ⟨⟨cs, fun e => hne (by rw [e]), h1, .inr rfl⟩, h2⟩
    · rename_i h0 _ _
      obtain ⟨h1, h2⟩ := (key _).mp h
      exact ⟨⟨_, h0, h1, .inl rfl⟩, h2⟩
  · rintro ⟨⟨ds, h0, h1, h2⟩, hn⟩
    have hd := (key ds).mpr ⟨h1, hn⟩
    cases ds with
    | nil => exact (h0 rfl).elim
    | cons c ds =>
      obtain ⟨d, hc⟩ := h1.head
      have hp : c ≠ '+' := hc.ne (.inl (by decide))
      rcases h2 with rfl | rfl
      · unfold parseU
        split
        · rename_i e; cases e
        · rename_i e; injection e with e; exact (hp e).elim
        · rename_i e; injection e with e; exact (hp e).elim
        · exact hd
      · unfold parseU
        split
        · rename_i e; cases e
        · rename_i e; injection e with _ e; cases e
        · rename_i e; injection e with _ e; rw [← e]; exact hd
        · rename_i h; exact (h _ rfl).elim

theorem parseI_iff {radix lim : Nat} (hr : 1 ≤ radix) (hl : 0 < lim) {s : List Char} {n : Int} : parseI radix lim s = some n ↔ INum radix s n ∧ -(lim : Int) ≤ n ∧ n < lim := by
  have key : ∀ ds k, digits radix lim 0 ds = some k ↔ Rep radix 0 ds k ∧ k < lim := fun ds k => digits_iff hr hl
  have key' : ∀ ds k, digits radix (lim + 1) 0 ds = some k ↔ Rep radix 0 ds k ∧ k < lim + 1 := fun ds k => digits_iff hr (by omega)
  constructor
  · intro h
    unfold parseI at h
    split at h
    · cases h
    · cases h
    · cases h
    · rename_i cs hne
      obtain ⟨k, hk, rfl⟩ := Option.map_eq_some_iff.mp h
      obtain ⟨h1, h2⟩ := (key _ _).mp hk
      exact ⟨.inl ⟨k, ⟨cs, fun e => hne (by rw [e]), h1, .inr rfl⟩, rfl⟩, by omega, by omega⟩
    · rename_i cs hne
      obtain ⟨k, hk, rfl⟩ := Option.map_eq_some_iff.mp h
      obtain ⟨h1, h2⟩ := (key' _ _).mp hk
      exact ⟨.inr ⟨cs, k, fun e => hne (by rw [e]), h1, rfl, rfl⟩, by omega, by omega⟩
    · rename_i h0 _ _ _ _
      obtain ⟨k, hk, rfl⟩ := Option.map_eq_some_iff.mp h
      obtain ⟨h1, h2⟩ := (key _ _).mp hk
      exact ⟨.inl ⟨k, ⟨_, h0, h1, .inl rfl⟩, rfl⟩, by omega, by omega⟩
  · rintro ⟨⟨k, ⟨ds, h0, h1, h2⟩, rfl⟩ | ⟨ds, k, h0, h1, rfl, rfl⟩, hlo, hhi⟩
    · have hd := (key ds k).mpr ⟨h1, by omega⟩
      cases ds with
      | nil => exact (h0 rfl).elim
      | cons c ds =>
        obtain ⟨d, hc⟩ := h1.head
        have hp : c ≠ '+' := hc.ne (.inl (by decide))
        have hm : c ≠ '-' := hc.ne (.inl (by decide))
        rcases h2 with rfl | rfl
        · unfold parseI
          split
          · rename_i e; cases e
          · rename_i e; injection e with e; exact (hp e).elim
          · rename_i e; injection e with e; exact (hm e).elim
          · rename_i e; injection e with e; exact (hp e).elim
          · rename_i e; injection e with e; exact (hm e).elim
          · rw [hd]; rfl
        · unfold parseI
          split
          · rename_i e; cases e
          · rename_i e; injection e with _ e; cases e
          · rename_i e; injection e with e; cases e
          · rename_i e; injection e with _ e; rw [← e, hd]; rfl
          · rename_i e; injection e with e; cases e
          · rename_i h _; exact (h _ rfl).elim
    · have hd := (key' ds k).mpr ⟨h1, by omega⟩
      cases ds with
      | nil => exact (h0 rfl).elim
      | cons c ds =>
        unfold parseI
        split
        · rename_i e; cases e
        · rename_i e; injection e with e; cases e
        · rename_i e; injection e with _ e; cases e
        · rename_i e; injection e with e; cases e
        · rename_i e; injection e with _ e; rw [← e, hd]; rfl
        · rename_i h; exact (h _ rfl).elim

/-! ## Matching -/

theorem down_to {f : List Char → Option (List (List Char))} {l : List Char} {min k0 : Nat} {caps : List (List Char)} (hm : min ≤ k0) (hs : f (l.drop k0) = some caps) :
    ∀ {K : Nat}, k0 ≤ K → (∀ j, k0 < j → j ≤ K → f (l.drop j) = none) → down f l min K = some (l.take k0 :: caps) := by
  intro K
  induction K with
  | zero =>
    intro hk _
    have : k0 = 0 := by omega
    subst this
    simp only [List.drop_zero] at hs
    simp [down, hs, show min = 0 by omega]
  | succ K ih =>
    intro hk hn
    simp only [down]
    rw [if_neg (by omega)]
    by_cases he : k0 = K + 1
    · subst he; rw [hs]
    · rw [hn (K + 1) (by omega) (Nat.le_refl _)]
      exact ih (by omega) (fun j h1 h2 => hn j h1 (by omega))

theorem takeWhile_all {p : Char → Bool} {a rest : List Char} (ha : ∀ c ∈ a, p c = true) (hr : ∀ c, rest.head? = some c → p c = false) : (a ++ rest).takeWhile p = a := by
  induction a with
  | nil =>
    cases rest with
    | nil => rfl
    | cons c rest => simp [hr c rfl]
  | cons c a ih =>
    simp only [List.cons_append, List.takeWhile, ha c (by simp)]
    rw [ih (fun x hx => ha x (by simp [hx]))]

/-- A run takes all of its kind when what follows fits. -/
theorem run_all {sp : Bool} {min : Nat} {is : List Item} {a rest : List Char} {caps : List (List Char)} (ha : ∀ c ∈ a, isSpace c = sp)
    (hr : ∀ c, rest.head? = some c → isSpace c = !sp) (hm : min ≤ a.length) (h : matchRe is rest = some caps) : matchRe (.run sp min :: is) (a ++ rest) = some (a :: caps) := by
  simp only [matchRe]
  rw [takeWhile_all (by intro c hc; simp [ha c hc]) (by intro c hc; simp [hr c hc])]
  have := down_to (f := matchRe is) (l := a ++ rest) (min := min) (k0 := a.length) (caps := caps) hm (by simpa using h) (Nat.le_refl _) (fun j h1 h2 => by omega)
  simpa using this

theorem lit_none {c : Char} {is : List Item} {l : List Char} (h : l.head? ≠ some c) : matchRe (.lit c :: is) l = none := by
  cases l with
  | nil => rfl
  | cons d l =>
    simp only [matchRe]
    rw [if_neg]
    rintro rfl; exact h rfl

/-- A run of other characters and a letter that occurs for the last time. -/
theorem run_lit {c : Char} {is : List Item} {a b rest : List Char} {caps : List (List Char)} (ha : Word a) (hne : a ≠ []) (hc : isSpace c = false)
    (hb : ∀ x ∈ b, isSpace x = false ∧ x ≠ c) (hr : ∀ x, rest.head? = some x → isSpace x = true) (h : matchRe is (b ++ rest) = some caps) :
    matchRe (.run false 1 :: .lit c :: is) (a ++ c :: (b ++ rest)) = some (a :: [c] :: caps) := by
  have hl : a ++ c :: (b ++ rest) = (a ++ c :: b) ++ rest := by simp
  have hw : ∀ x ∈ a ++ c :: b, isSpace x = false := by
    intro x hx
    rcases List.mem_append.mp hx with hx | hx
    · exact ha x hx
    · rcases List.mem_cons.mp hx with rfl | hx
      · exact hc
      · exact (hb x hx).1
  rw [matchRe, hl, takeWhile_all (by intro c hc; simp [hw c hc]) (by intro c hc; simp [hr c hc]), ← hl]
  have h0 : matchRe (.lit c :: is) ((a ++ c :: (b ++ rest)).drop a.length) = some ([c] :: caps) := by
    simp [matchRe, h]
  have := down_to (f := matchRe (.lit c :: is)) (l := a ++ c :: (b ++ rest)) (min := 1) (k0 := a.length) (K := (a ++ c :: b).length)
    (List.length_pos_iff.mpr hne) h0 (by simp) (by
      intro j h1 h2
      apply lit_none
      have e : (a ++ c :: (b ++ rest)).drop j = (b.drop (j - a.length - 1)) ++ rest := by
        have : j = a.length + ((j - a.length - 1) + 1) := by omega
        rw [this, List.drop_append]
        simp only [List.length_append, List.length_cons] at h2
        simp only [List.drop_of_length_le (show a.length ≤ a.length + (j - a.length - 1 + 1) by omega), List.nil_append, Nat.add_sub_cancel_left, List.drop_succ_cons]
        rw [List.drop_append_of_le_length (by omega)]
        simp only [Nat.add_sub_cancel]
      rw [e]
      intro hx
      cases hd : b.drop (j - a.length - 1) with
      | nil =>
        rw [hd] at hx
        have := hr c hx
        rw [hc] at this; cases this
      | cons y ys =>
        rw [hd] at hx
        simp at hx
        subst hx
        exact (hb y (List.mem_of_mem_drop (by rw [hd]; simp))).2 rfl)
  simpa using this

theorem Rep.word {radix acc n : Nat} {s : List Char} (h : Rep radix acc s n) : Word s := by
  intro c hc
  obtain ⟨d, hd⟩ := h.mem c hc
  exact hd.word

theorem Num.ne {radix n : Nat} {s : List Char} (h : Num radix s n) : s ≠ [] := by
  obtain ⟨ds, h0, _, rfl | rfl⟩ := h
  · exact h0
  · simp

theorem Num.word {radix n : Nat} {s : List Char} (h : Num radix s n) : Word s := by
  obtain ⟨ds, _, hr, rfl | rfl⟩ := h
  · exact hr.word
  · intro c hc
    rcases List.mem_cons.mp hc with rfl | hc
    · decide
    · exact hr.word c hc

theorem Num.mem {radix n : Nat} {s : List Char} (h : Num radix s n) : ∀ c ∈ s, c ≠ '-' ∧ c ≠ ':' := by
  have key : ∀ ds, Rep radix 0 ds n → ∀ c ∈ ds, c ≠ '-' ∧ c ≠ ':' := by
    intro ds hr c hc
    obtain ⟨d, hd⟩ := hr.mem c hc
    exact ⟨hd.ne (.inl (by decide)), hd.ne (.inr (.inl (by decide)))⟩
  obtain ⟨ds, _, hr, rfl | rfl⟩ := h
  · exact key _ hr
  · intro c hc
    rcases List.mem_cons.mp hc with rfl | hc
    · decide
    · exact key _ hr c hc

theorem INum.ne {radix : Nat} {n : Int} {s : List Char} (h : INum radix s n) : s ≠ [] := by
  rcases h with ⟨k, h, _⟩ | ⟨ds, k, h0, hr, rfl, _⟩
  · exact h.ne
  · simp

theorem INum.word {radix : Nat} {n : Int} {s : List Char} (h : INum radix s n) : Word s := by
  rcases h with ⟨k, h, _⟩ | ⟨ds, k, h0, hr, rfl, _⟩
  · exact h.word
  · intro c hc
    rcases List.mem_cons.mp hc with rfl | hc
    · decide
    · exact hr.word c hc

theorem INum.mem {radix : Nat} {n : Int} {s : List Char} (h : INum radix s n) : ∀ c ∈ s, c ≠ ':' := by
  rcases h with ⟨k, h, _⟩ | ⟨ds, k, h0, hr, rfl, _⟩
  · exact fun c hc => (h.mem c hc).2
  · intro c hc
    rcases List.mem_cons.mp hc with rfl | hc
    · decide
    · obtain ⟨d, hd⟩ := hr.mem c hc
      exact hd.ne (.inr (.inl (by decide)))

/-! ## Whole lines -/

theorem Spaces.head {s rest : List Char} (h : Spaces s) (hne : s ≠ []) : ∀ c, (s ++ rest).head? = some c → isSpace c = true := by
  cases s with
  | nil => exact (hne rfl).elim
  | cons x s => intro c hc; simp at hc; subst hc; exact h x (by simp)

theorem Word.head {s rest : List Char} (h : Word s) (hne : s ≠ []) : ∀ c, (s ++ rest).head? = some c → isSpace c = false := by
  cases s with
  | nil => exact (hne rfl).elim
  | cons x s => intro c hc; simp at hc; subst hc; exact h x (by simp)

/-- The four last parts take white space, a word, white space and a word. -/
theorem tail_match {a p b d : List Char} (ha : Spaces a) (hp : Word p) (hb : Spaces b) (hd : Word d) (h1 : p = [] → b = []) (h2 : b = [] → d = []) :
    matchRe [.run true 0, .run false 0, .run true 0, .run false 0] (a ++ (p ++ (b ++ d))) = some [a, p, b, d] := by
  have e : matchRe [.run false 0] (d ++ []) = some [d] := run_all hd (by simp) (Nat.zero_le _) rfl
  rw [List.append_nil] at e
  refine run_all ha ?_ (Nat.zero_le _) (run_all hp ?_ (Nat.zero_le _) (run_all hb ?_ (Nat.zero_le _) e))
  · by_cases hpe : p = []
    · rw [hpe, h1 hpe, h2 (h1 hpe)]; simp
    · exact Word.head hp hpe
  · by_cases hbe : b = []
    · rw [hbe, h2 hbe]; simp
    · exact Spaces.head hb hbe
  · by_cases hde : d = []
    · rw [hde]; simp
    · have := Word.head (rest := []) hd hde
      simpa using this

/-- The pieces of a line. -/
theorem line_match {sb se s1 s2 so s3 smj smn s4 sino a p b d : List Char} {r w x sh : Char} {m : Mapping} (h : Front sb se s1 s2 so s3 smj smn s4 sino m)
    (hr : isSpace r = false) (hw : isSpace w = false) (hx : isSpace x = false) (hsh : isSpace sh = false)
    (ha : Spaces a) (hp : Word p) (hb : Spaces b) (hd : Word d) (h0 : a = [] → p = []) (h1 : p = [] → b = []) (h2 : b = [] → d = []) :
    matchRe lineRe (compose sb se s1 r w x sh s2 so s3 smj smn s4 sino (a ++ (p ++ (b ++ d)))) =
      some [sb, ['-'], se, s1, [r], [w], [x], [sh], s2, so, s3, smj, [':'], smn, s4, sino, a, p, b, d] := by
  have ht : ∀ c, (a ++ (p ++ (b ++ d))).head? = some c → isSpace c = true := by
    by_cases hae : a = []
    · rw [hae, h0 hae, h1 (h0 hae), h2 (h1 (h0 hae))]; simp
    · exact Spaces.head ha hae
  have len : ∀ {s : List Char}, s ≠ [] → 1 ≤ s.length := fun hs => List.length_pos_iff.mpr hs
  unfold compose lineRe
  refine run_lit h.first.1.word h.first.1.ne (by decide) (fun c hc => ⟨h.last.1.word c hc, (h.last.1.mem c hc).1⟩) (Spaces.head h.sp1.1 h.sp1.2) ?_
  refine run_all h.last.1.word (Spaces.head h.sp1.1 h.sp1.2) (len h.last.1.ne) ?_
  refine run_all h.sp1.1 (by simp [hr]) (len h.sp1.2) ?_
  simp only [matchRe.eq_6, hr, hw, hx, hsh, if_true]
  suffices e : matchRe [.run true 1, .run false 1, .run true 1, .run false 1, .lit ':', .run false 1, .run true 1, .run false 1, .run true 0, .run false 0, .run true 0, .run false 0]
      (s2 ++ (so ++ (s3 ++ (smj ++ ':' :: (smn ++ (s4 ++ (sino ++ (a ++ (p ++ (b ++ d)))))))))) = some [s2, so, s3, smj, [':'], smn, s4, sino, a, p, b, d] by
    rw [e]; rfl
  refine run_all h.sp2.1 (Word.head h.offset.1.word h.offset.1.ne) (len h.sp2.2) ?_
  refine run_all h.offset.1.word (Spaces.head h.sp3.1 h.sp3.2) (len h.offset.1.ne) ?_
  refine run_all h.sp3.1 (Word.head h.major.1.word h.major.1.ne) (len h.sp3.2) ?_
  refine run_lit h.major.1.word h.major.1.ne (by decide) (fun c hc => ⟨h.minor.1.word c hc, h.minor.1.mem c hc⟩) (Spaces.head h.sp4.1 h.sp4.2) ?_
  refine run_all h.minor.1.word (Spaces.head h.sp4.1 h.sp4.2) (len h.minor.1.ne) ?_
  refine run_all h.sp4.1 (Word.head h.inode.1.word h.inode.1.ne) (len h.sp4.2) ?_
  exact run_all h.inode.1.word ht (len h.inode.1.ne) (tail_match ha hp hb hd h1 h2)

theorem parseBit_bit {yes no : Char} (h : yes ≠ no) (b : Bool) : parseBit yes no [bit yes no b] = some b := by
  cases b
  · simp [parseBit, bit, Ne.symm h]
  · simp [parseBit, bit]

theorem parseBit_iff {yes no c : Char} (h : yes ≠ no) {b : Bool} : parseBit yes no [c] = some b ↔ c = bit yes no b := by
  unfold parseBit bit
  cases b <;> grind

/-! ## Paths -/

theorem special_match {s : List Char} (h : Word s) (hne : s ≠ []) : matchRe specialRe ('[' :: s ++ [']']) = some [['['], s, [']']] := by
  have e : matchRe [.run false 1, .lit ']'] (s ++ ']' :: ([] ++ [])) = some [s, [']']] := run_lit h hne (by decide) (by simp) (by simp) rfl
  simp only [specialRe, List.cons_append, matchRe.eq_4, if_true]
  simp only [List.append_nil] at e
  rw [e]; rfl

theorem thread_digits {ds : List Char} {n : Nat} (h : Rep 10 0 ds n) : ds.all (fun c => (digit 10 c).isSome) = true := by
  rw [List.all_eq_true]
  have : ∀ {acc ds n}, Rep 10 acc ds n → ∀ c ∈ ds, (digit 10 c).isSome = true := by
    intro acc ds n h
    induction h with
    | nil => intro c hc; cases hc
    | cons h1 h2 _ ih =>
      intro c hc
      rcases List.mem_cons.mp hc with rfl | hc
      · rw [digit_iff.mpr ⟨h1, h2⟩]; rfl
      · exact ih c hc
  exact this h

theorem digits_rep {ds : List Char} (h : ds.all (fun c => (digit 10 c).isSome) = true) : ∀ acc, ∃ n, Rep 10 acc ds n := by
  induction ds with
  | nil => exact fun acc => ⟨acc, .nil _⟩
  | cons c ds ih =>
    intro acc
    simp only [List.all_cons, Bool.and_eq_true] at h
    obtain ⟨d, hd⟩ := Option.isSome_iff_exists.mp h.1
    obtain ⟨h1, h2⟩ := digit_iff.mp hd
    obtain ⟨n, hn⟩ := ih h.2 (acc * 10 + d)
    exact ⟨n, .cons h1 h2 hn⟩

theorem parsePath_of {p : List Char} {q : MPath} (h : PathIs p q) : parsePath p = some q := by
  cases h with
  | file s h => unfold parsePath; rw [if_pos h]
  | initialStack => decide
  | vdso => decide
  | heap => decide
  | thread ds n h0 hr hn =>
    have hw : Word (stackColon ++ ds) := by
      intro c hc
      rcases List.mem_append.mp hc with hc | hc
      · exact (by decide : ∀ c ∈ stackColon, isSpace c = false) c hc
      · exact hr.word c hc
    unfold parsePath
    rw [if_neg (by simp), special_match hw (by simp [stackColon])]
    simp only [parseSpecial]
    have e1 : (stackColon ++ ds).take 6 = stackColon := by simp [stackColon]
    have e2 : (stackColon ++ ds).drop 6 = ds := by simp [stackColon]
    have hlen : (stackColon ++ ds).length > 6 := by
      have := List.length_pos_iff.mpr h0
      simp [stackColon]; omega
    rw [e2, if_pos ⟨e1, hlen, thread_digits hr⟩, (parseI_iff (by decide) (by decide)).mpr ⟨.inl ⟨n, ⟨ds, h0, hr, .inl rfl⟩, rfl⟩, by omega, by omega⟩]
  | special s hne hw n1 n2 n3 n4 =>
    unfold parsePath
    rw [if_neg (by simp), special_match hw hne]
    simp only [parseSpecial]
    rw [if_neg, if_neg n1, if_neg n2, if_neg n3]
    rintro ⟨h1, h2, h3⟩
    obtain ⟨n, hn⟩ := digits_rep h3 0
    refine n4 (s.drop 6) n ?_ hn ?_
    · intro e
      have := List.drop_eq_nil_iff.mp e
      omega
    · have := List.take_append_drop 6 s
      rw [h1] at this
      exact this.symm

/-- The pieces fit the parts. -/
def Fits : List Item → List (List Char) → Prop
  | [], [] => True
  | .lit c :: is, x :: xs => x = [c] ∧ Fits is xs
  | .one sp :: is, x :: xs => (∃ c, x = [c] ∧ isSpace c = sp) ∧ Fits is xs
  | .run sp min :: is, x :: xs => (∀ c ∈ x, isSpace c = sp) ∧ min ≤ x.length ∧ Fits is xs
  | _, _ => False

theorem down_sound {f : List Char → Option (List (List Char))} {l : List Char} {min : Nat} {caps : List (List Char)} :
    ∀ {k : Nat}, k ≤ l.length → down f l min k = some caps → ∃ j c', j ≤ k ∧ min ≤ j ∧ caps = l.take j :: c' ∧ f (l.drop j) = some c' := by
  intro k
  induction k with
  | zero =>
    intro _ h
    simp only [down] at h
    split at h
    · obtain ⟨c', h1, h2⟩ := Option.map_eq_some_iff.mp h
      exact ⟨0, c', Nat.le_refl _, by omega, by simpa using h2.symm, by simpa using h1⟩
    · cases h
  | succ k ih =>
    intro hk h
    simp only [down] at h
    split at h
    · cases h
    · split at h
      · rename_i c' hc'
        injection h with h
        exact ⟨k + 1, c', Nat.le_refl _, by omega, h.symm, hc'⟩
      · obtain ⟨j, c', h1, h2, h3, h4⟩ := ih (by omega) h
        exact ⟨j, c', by omega, h2, h3, h4⟩

theorem take_takeWhile {p : Char → Bool} : ∀ {l : List Char} {j : Nat}, j ≤ (l.takeWhile p).length → ∀ c ∈ l.take j, p c = true := by
  intro l
  induction l with
  | nil => intro j _ c hc; simp at hc
  | cons x l ih =>
    intro j hj c hc
    cases j with
    | zero => simp at hc
    | succ j =>
      by_cases hx : p x = true
      · simp [List.takeWhile, hx] at hj
        simp at hc
        rcases hc with rfl | hc
        · exact hx
        · exact ih hj c hc
      · simp [List.takeWhile, hx] at hj

theorem matchRe_sound : ∀ {is : List Item} {l : List Char} {caps : List (List Char)}, matchRe is l = some caps → caps.flatten = l ∧ Fits is caps := by
  intro is
  induction is with
  | nil =>
    intro l caps h
    cases l with
    | nil => simp only [matchRe] at h; injection h with h; subst h; exact ⟨rfl, trivial⟩
    | cons => simp [matchRe] at h
  | cons i is ih =>
    intro l caps h
    cases i with
    | lit c =>
      cases l with
      | nil => simp [matchRe] at h
      | cons d l =>
        simp only [matchRe] at h
        split at h
        · rename_i e; subst e
          obtain ⟨c', h1, rfl⟩ := Option.map_eq_some_iff.mp h
          obtain ⟨h2, h3⟩ := ih h1
          exact ⟨by simp [h2], rfl, h3⟩
        · cases h
    | one sp =>
      cases l with
      | nil => simp [matchRe] at h
      | cons d l =>
        simp only [matchRe] at h
        split at h
        · rename_i e
          obtain ⟨c', h1, rfl⟩ := Option.map_eq_some_iff.mp h
          obtain ⟨h2, h3⟩ := ih h1
          exact ⟨by simp [h2], ⟨d, rfl, e⟩, h3⟩
        · cases h
    | run sp min =>
      simp only [matchRe] at h
      obtain ⟨j, c', h1, h2, rfl, h4⟩ := down_sound (List.IsPrefix.length_le (List.takeWhile_prefix _)) h
      obtain ⟨h5, h6⟩ := ih h4
      refine ⟨by simp [h5], ?_, ?_, h6⟩
      · intro c hc
        have := take_takeWhile h1 c hc
        simpa using this
      · have := List.IsPrefix.length_le (List.takeWhile_prefix (l := l) (fun c => isSpace c == sp))
        rw [List.length_take]; omega

theorem pathIs_of {p : List Char} {q : MPath} (h : parsePath p = some q) : PathIs p q := by
  unfold parsePath at h
  split at h
  · rename_i hh; injection h with h; subst h; exact .file _ hh
  · split at h
    · rename_i a inner b hm
      obtain ⟨h1, h2⟩ := matchRe_sound hm
      simp only [specialRe, Fits, and_true] at h2
      obtain ⟨rfl, h3, h4, rfl⟩ := h2
      have hne : inner ≠ [] := by rintro rfl; simp at h4
      have e : p = '[' :: inner ++ [']'] := by rw [← h1]; simp
      subst e
      unfold parseSpecial at h
      split at h
      · rename_i hc
        split at h
        · rename_i n hn
          injection h with h; subst h
          have e2 : inner = stackColon ++ inner.drop 6 := by
            have := List.take_append_drop 6 inner
            rw [hc.1] at this; exact this.symm
          obtain ⟨k, hk⟩ := digits_rep hc.2.2 0
          have hd0 : inner.drop 6 ≠ [] := by intro e; have := List.drop_eq_nil_iff.mp e; omega
          obtain ⟨hn1, hn2, hn3⟩ := (parseI_iff (by decide) (by decide)).mp hn
          rcases hn1 with ⟨k', ⟨ds, g0, g1, g2⟩, rfl⟩ | ⟨ds, k', g0, g1, g2, _⟩
          · rcases g2 with g2 | g2
            · rw [e2, g2]
              exact .thread ds k' g0 g1 (by omega)
            · rw [g2] at hk
              obtain ⟨d, hd⟩ := hk.head
              exact (hd.ne (.inl (by decide)) rfl).elim
          · rw [g2] at hk
            obtain ⟨d, hd⟩ := hk.head
            exact (hd.ne (.inl (by decide)) rfl).elim
        · cases h
      · rename_i hn
        split at h
        · rename_i e; injection h with h; subst h; subst e; exact .initialStack
        · split at h
          · rename_i e; injection h with h; subst h; subst e; exact .vdso
          · split at h
            · rename_i e; injection h with h; subst h; subst e; exact .heap
            · rename_i n1 n2 n3
              injection h with h; subst h
              refine .special _ hne h3 n1 n2 n3 ?_
              rintro ds n g0 g1 rfl
              refine hn ⟨by simp [stackColon], ?_, ?_⟩
              · have := List.length_pos_iff.mpr g0
                simp [stackColon]; omega
              · have e2 : (stackColon ++ ds).drop 6 = ds := by simp [stackColon]
                rw [e2]; exact thread_digits g1
    · cases h

theorem spaces_nil : Spaces [] := fun _ h => (List.not_mem_nil h).elim
theorem word_nil : Word [] := fun _ h => (List.not_mem_nil h).elim

theorem PathIs.ne {p : List Char} {q : MPath} (h : PathIs p q) : p ≠ [] := by
  cases h <;> simp
  rename_i h; rintro rfl; simp at h

/-- What is made of the pieces. -/
theorem parseLine_front {sb se s1 s2 so s3 smj smn s4 sino a p b d : List Char} {m : Mapping} (h : Front sb se s1 s2 so s3 smj smn s4 sino m)
    (ha : Spaces a) (hp : Word p) (hb : Spaces b) (hd : Word d) (h0 : a = [] → p = []) (h1 : p = [] → b = []) (h2 : b = [] → d = []) :
    parseLine (compose sb se s1 (bit 'r' '-' m.read) (bit 'w' '-' m.write) (bit 'x' '-' m.execute) (bit 's' 'p' m.shared) s2 so s3 smj smn s4 sino (a ++ (p ++ (b ++ d)))) =
      (parsePathField p).bind fun path => (parseDeleted d).bind fun deleted => some { m with path, deleted } := by
  have hb' : ∀ {yes no : Char} (x : Bool), isSpace yes = false → isSpace no = false → isSpace (bit yes no x) = false := by
    intro yes no x h1 h2; cases x <;> simp [bit, h1, h2]
  unfold parseLine
  rw [line_match h (hb' _ (by decide) (by decide)) (hb' _ (by decide) (by decide)) (hb' _ (by decide) (by decide)) (hb' _ (by decide) (by decide)) ha hp hb hd h0 h1 h2]
  have u : ∀ {radix lim n s}, 1 ≤ radix → 0 < lim → Num radix s n ∧ n < lim → parseU radix lim s = some n := fun a b c => (parseU_iff a b).mpr c
  have hi : ∀ {s n}, INum 16 s n ∧ -2 ^ 31 ≤ n ∧ n < 2 ^ 31 → parseI 16 (2 ^ 31) s = some n := fun c => (parseI_iff (by decide) (by decide)).mpr c
  simp only [u (by decide) (by decide) h.first, u (by decide) (by decide) h.last, u (by decide) (by decide) h.offset, u (by decide) (by decide) h.inode,
    hi h.major, hi h.minor, parseBit_bit (show 'r' ≠ '-' by decide), parseBit_bit (show 'w' ≠ '-' by decide), parseBit_bit (show 'x' ≠ '-' by decide),
    parseBit_bit (show 's' ≠ 'p' by decide), Option.bind_eq_bind, Option.bind_some]

/-! ## The theorems -/

/-- Every line in the kernel's form is read as the mapping it describes. -/
theorem C81_read {l : List Char} {m : Mapping} (h : Line l m) : parseLine l = some m := by
  cases h with
  | @mk sb se s1 s2 so s3 smj smn s4 sino tail _ hf ht =>
    obtain ⟨f1, f2, f3, f4, f5, f6, f7, f8, f9, f10, path, deleted⟩ := m
    simp only at ht
    cases ht with
    | none sp hs =>
      have := parseLine_front hf hs word_nil spaces_nil word_nil (fun _ => rfl) (fun _ => rfl) (fun _ => rfl)
      simp only [List.append_nil] at this
      exact this
    | path sp p sp' q h1 h2 h3 h4 h5 =>
      have := parseLine_front hf h1 h3 h5 word_nil (fun e => (h2 e).elim) (fun e => (h4.ne e).elim) (fun _ => rfl)
      simp only [List.append_nil] at this
      refine this.trans ?_
      simp only [parsePathField]
      rw [if_neg h4.ne, parsePath_of h4]; rfl
    | deleted sp p sp' q h1 h2 h3 h4 h5 h6 =>
      have := parseLine_front hf h1 h3 h5 (d := deletedMark) (by unfold Word; decide) (fun e => (h2 e).elim) (fun e => (h4.ne e).elim) (fun e => (h6 e).elim)
      refine this.trans ?_
      simp only [parsePathField]
      rw [if_neg h4.ne, parsePath_of h4]; rfl

/-- A line describes one mapping. -/
theorem C81_unique {l : List Char} {m m' : Mapping} (h : Line l m) (h' : Line l m') : m = m' := by
  have := (C81_read h).symm.trans (C81_read h')
  injection this

/-- Whatever is read stands in the line, field by field. -/
theorem C81_sound {l : List Char} {m : Mapping} (h : parseLine l = some m) : ∃ sb se s1 s2 so s3 smj smn s4 sino a p b d,
    Front sb se s1 s2 so s3 smj smn s4 sino m ∧
    l = compose sb se s1 (bit 'r' '-' m.read) (bit 'w' '-' m.write) (bit 'x' '-' m.execute) (bit 's' 'p' m.shared) s2 so s3 smj smn s4 sino (a ++ (p ++ (b ++ d))) ∧
    Spaces a ∧ Word p ∧ Spaces b ∧ Word d ∧ (p = [] ∧ m.path = none ∨ ∃ q, m.path = some q ∧ PathIs p q) ∧ (d = [] ∧ m.deleted = false ∨ d = deletedMark ∧ m.deleted = true) := by
  unfold parseLine at h
  split at h
  · rename_i b _ e w1 r w x sh w2 off w3 mj _ mn w4 ino w5 path w6 del hm
    obtain ⟨h1, h2⟩ := matchRe_sound hm
    simp only [lineRe, Fits, and_true] at h2
    obtain ⟨_, _, rfl, _, _, g1, g1', ⟨r, rfl, _⟩, ⟨w, rfl, _⟩, ⟨x, rfl, _⟩, ⟨sh, rfl, _⟩, g2, g2', _, _, g3, g3', _, _, rfl, _, _, g4, g4', _, _, ga, _, gp, _, gb, _, gd, _⟩ := h2
    simp only [Option.bind_eq_bind, Option.bind_eq_some_iff] at h
    obtain ⟨v1, k1, v2, k2, v3, k3, v4, k4, v5, k5, v6, k6, v7, k7, v8, k8, v9, k9, v10, k10, v11, k11, v12, k12, h⟩ := h
    injection h with h
    subst h
    have ne : ∀ {s : List Char}, 1 ≤ s.length → s ≠ [] := by rintro s hs rfl; simp at hs
    rw [parseBit_iff (by decide)] at k3 k4 k5 k6
    subst k3 k4 k5 k6
    refine ⟨b, e, w1, w2, off, w3, mj, mn, w4, ino, w5, path, w6, del, ?_, ?_, ga, gp, gb, gd, ?_, ?_⟩
    · exact { first := (parseU_iff (by decide) (by decide)).mp k1
              last := (parseU_iff (by decide) (by decide)).mp k2
              offset := (parseU_iff (by decide) (by decide)).mp k7
              major := (parseI_iff (by decide) (by decide)).mp k8
              minor := (parseI_iff (by decide) (by decide)).mp k9
              inode := (parseU_iff (by decide) (by decide)).mp k10
              sp1 := ⟨g1, ne g1'⟩, sp2 := ⟨g2, ne g2'⟩, sp3 := ⟨g3, ne g3'⟩, sp4 := ⟨g4, ne g4'⟩ }
    · rw [← h1]; simp [compose]
    · unfold parsePathField at k11
      split at k11
      · rename_i e; injection k11 with k11; exact .inl ⟨e, k11.symm⟩
      · obtain ⟨q, hq, rfl⟩ := Option.map_eq_some_iff.mp k11
        exact .inr ⟨q, rfl, pathIs_of hq⟩
    · unfold parseDeleted at k12
      split at k12
      · rename_i e; injection k12 with k12; exact .inl ⟨e, k12.symm⟩
      · split at k12
        · rename_i e; injection k12 with k12; exact .inr ⟨e, k12.symm⟩
        · cases k12
  · cases h

/-- White space among the ASCII characters. -/
theorem C81_space {c : Char} (h : c.toNat < 128) : isSpace c = true ↔ c = ' ' ∨ c = '\t' ∨ c = '\n' ∨ c.toNat = 11 ∨ c.toNat = 12 ∨ c = '\r' := by
  have e : ∀ d : Char, c = d ↔ c.toNat = d.toNat := fun d => ⟨fun h => by rw [h], fun h => Char.toNat_inj.mp h⟩
  simp only [e, show (' ' : Char).toNat = 32 from rfl, show ('\t' : Char).toNat = 9 from rfl, show ('\n' : Char).toNat = 10 from rfl, show ('\r' : Char).toNat = 13 from rfl]
  unfold isSpace
  simp
  omega

/-- FINDING: a path with a blank in it, which the kernel prints as it is, is refused. -/
theorem C81_blank {sb se s1 s2 so s3 smj smn s4 sino a p b d : List Char} {m : Mapping} (h : Front sb se s1 s2 so s3 smj smn s4 sino m)
    (ha : Spaces a ∧ a ≠ []) (hp : Word p ∧ p ≠ []) (hb : Spaces b ∧ b ≠ []) (hd : Word d ∧ d ≠ []) (hdel : d ≠ deletedMark) :
    parseLine (compose sb se s1 (bit 'r' '-' m.read) (bit 'w' '-' m.write) (bit 'x' '-' m.execute) (bit 's' 'p' m.shared) s2 so s3 smj smn s4 sino (a ++ (p ++ (b ++ d)))) = none := by
  rw [parseLine_front h ha.1 hp.1 hb.1 hd.1 (fun e => (ha.2 e).elim) (fun e => (hp.2 e).elim) (fun e => (hb.2 e).elim)]
  have : parseDeleted d = none := by unfold parseDeleted; rw [if_neg hd.2]; exact if_neg hdel
  rw [this]
  cases parsePathField p <;> rfl

/-- FINDING: a name that begins with neither a slash nor a bracket, as `anon_inode:[perf_event]`, is refused. -/
theorem C81_other {sb se s1 s2 so s3 smj smn s4 sino a p b : List Char} {m : Mapping} (h : Front sb se s1 s2 so s3 smj smn s4 sino m)
    (ha : Spaces a ∧ a ≠ []) (hp : Word p ∧ p ≠ []) (hb : Spaces b) (h1 : p.head? ≠ some '/') (h2 : p.head? ≠ some '[') :
    parseLine (compose sb se s1 (bit 'r' '-' m.read) (bit 'w' '-' m.write) (bit 'x' '-' m.execute) (bit 's' 'p' m.shared) s2 so s3 smj smn s4 sino (a ++ (p ++ b))) = none := by
  have := parseLine_front h ha.1 hp.1 hb word_nil (fun e => (ha.2 e).elim) (fun e => (hp.2 e).elim) (fun _ => rfl)
  simp only [List.append_nil] at this
  rw [this, parsePathField, if_neg hp.2]
  cases hq : parsePath p with
  | none => rfl
  | some q =>
    exfalso
    cases pathIs_of hq <;> simp_all

/-! ## Whole files -/

/-- The text of a file with these lines. -/
def unlines : List (List Char) → List Char
  | [] => []
  | l :: ls => l ++ '\n' :: unlines ls

theorem lines_word {l rest cur : List Char} (hl : '\n' ∉ l) : lines (l ++ rest) cur = lines rest (l.reverse ++ cur) := by
  induction l generalizing cur with
  | nil => rfl
  | cons c l ih =>
    simp only [List.mem_cons, not_or] at hl
    have : lines (c :: (l ++ rest)) cur = lines (l ++ rest) (c :: cur) := by
      rw [lines, if_neg (fun e => hl.1 e.symm)]
    rw [List.cons_append, this, ih hl.2]
    simp

theorem lines_unlines {ls : List (List Char)} (h : ∀ l ∈ ls, '\n' ∉ l ∧ l.getLast? ≠ some '\r') : lines (unlines ls) [] = ls := by
  induction ls with
  | nil => rfl
  | cons l ls ih =>
    obtain ⟨h1, h2⟩ := h l (by simp)
    simp only [unlines]
    rw [lines_word h1, List.append_nil]
    rw [lines, if_pos rfl, ih (fun l hl => h l (by simp [hl]))]
    congr 1
    unfold endLine
    split
    · rename_i c e
      have : l = (('\r' :: c)).reverse := by rw [← e]; simp
      rw [this] at h2
      simp at h2
    · simp

theorem parseAll_iff {ls : List (List Char)} {ms : List Mapping} : parseAll ls = some ms ↔ ls.map parseLine = ms.map some := by
  induction ls generalizing ms with
  | nil => cases ms <;> simp [parseAll]
  | cons l ls ih =>
    simp only [parseAll]
    constructor
    · intro h
      split at h
      · rename_i m ms' h1 h2
        injection h with h; subst h
        simp [h1, ih.mp h2]
      · cases h
    · intro h
      cases ms with
      | nil => simp at h
      | cons m ms =>
        simp only [List.map_cons, List.cons.injEq] at h
        rw [h.1, ih.mpr h.2]

/-- A file gives one mapping for each line, in order. -/
theorem C81_file {ls : List (List Char)} {ms : List Mapping} (h : ∀ l ∈ ls, '\n' ∉ l ∧ l.getLast? ≠ some '\r') :
    parseFile (unlines ls) = some ms ↔ ls.map parseLine = ms.map some := by
  rw [parseFile, lines_unlines h, parseAll_iff]

/-- FINDING: one line that is refused makes the whole file unreadable. -/
theorem C81_one_bad {ls : List (List Char)} {l : List Char} (h : ∀ l ∈ ls, '\n' ∉ l ∧ l.getLast? ≠ some '\r') (hl : l ∈ ls) (hb : parseLine l = none) : parseFile (unlines ls) = none := by
  cases e : parseFile (unlines ls) with
  | none => rfl
  | some ms =>
    have := (C81_file h).mp e
    have hm : none ∈ ms.map some := by rw [← this, ← hb]; exact List.mem_map_of_mem hl
    simp at hm

end Shadow.ProcMaps
