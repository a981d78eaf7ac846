import Verif.ProcMaps.Props
import Verif.Gml.Model
/-!
# C82: network graphs are read as written
-/
namespace Shadow.Gml
open Shadow.ProcMaps (Rep DigitIs digits_iff takeWhile_all)

/-! ## The specification: a grammar -/

def Blank (s : List Char) : Prop := ∀ c ∈ s, c = ' ' ∨ c = '\t'
def White (c : Char) : Prop := c = ' ' ∨ c = '\t' ∨ c = '\r' ∨ c = '\n'
/-- White space with a line break in it. -/
def Break (s : List Char) : Prop := (∀ c ∈ s, White c) ∧ ∃ c ∈ s, c = '\r' ∨ c = '\n'
def Digit (c : Char) : Prop := '0' ≤ c ∧ c ≤ '9'
def Letter (c : Char) : Prop := ('a' ≤ c ∧ c ≤ 'z') ∨ ('A' ≤ c ∧ c ≤ 'Z') ∨ c = '_'
/-- A key is an identifier. -/
def KeyText (k : List Char) : Prop := ∃ c t, k = c :: t ∧ Letter c ∧ ∀ x ∈ t, Letter x ∨ Digit x
def Sign (s : List Char) : Prop := s = [] ∨ s = ['+'] ∨ s = ['-']
def Digits (s : List Char) : Prop := ∀ c ∈ s, Digit c
inductive Mant : List Char → Prop where
  | whole (a : List Char) : a ≠ [] → Digits a → Mant a
  | point (a b : List Char) : a ≠ [] → Digits a → Digits b → Mant (a ++ '.' :: b)
  | frac (b : List Char) : b ≠ [] → Digits b → Mant ('.' :: b)
inductive Expo : List Char → Prop where
  | none : Expo []
  | some (c : Char) (s a : List Char) : c = 'e' ∨ c = 'E' → Sign s → a ≠ [] → Digits a → Expo (c :: s ++ a)
def FloatText (s : List Char) : Prop := ∃ sg m e, Sign sg ∧ Mant m ∧ Expo e ∧ s = sg ++ (m ++ e)
/-- The digits of a number of 31 bits. -/
def IntText (s : List Char) (n : Nat) : Prop := s ≠ [] ∧ Rep 10 0 s n ∧ n < 2 ^ 31

inductive ValText : List Char → Val → Prop where
  | int (s : List Char) (n : Nat) : IntText s n → ValText s (.int n)
  | float (s : List Char) : FloatText s → (∀ n, ¬ IntText s n) → ValText s (.float s)
  | str (s : List Char) : s ≠ [] → '"' ∉ s → ValText ('"' :: s ++ ['"']) (.str s)

/-- Between a key and its value there is a blank, unless the value cannot be a part of the key. -/
def Sep (b s : List Char) : Prop := Blank b ∧ (b = [] → ∀ c, s.head? = some c → ¬ (Letter c ∨ Digit c))

/-- `key value` on lines. -/
inductive Pairs : List Char → List Pair → Prop where
  | nil : Pairs [] []
  | cons {k b s br t : List Char} {v : Val} {ps : List Pair} : KeyText k → Sep b s → ValText s v → Break br → Pairs t ps → Pairs (k ++ (b ++ (s ++ (br ++ t)))) ((k, v) :: ps)

/-- `[`, pairs with distinct keys, `]`. -/
inductive Block : List Char → List Pair → Prop where
  | mk {b br t br' : List Char} {ps : List Pair} : Blank b → Break br → Pairs t ps → (ps.map Prod.fst).Nodup → Break br' → Block (b ++ '[' :: (br ++ (t ++ ']' :: br'))) ps

/-- The pairs of a node: `id` is a number if it is there. -/
def NodeOf (ps : List Pair) (n : Node) : Prop :=
  ((∃ i, n.id = some i ∧ (kId, Val.int i) ∈ ps) ∨ (n.id = none ∧ ∀ v, (kId, v) ∉ ps)) ∧ n.other = ps.filter (fun p => p.1 ≠ kId)
def EdgeOf (ps : List Pair) (e : Edge) : Prop :=
  (kSource, Val.int e.source) ∈ ps ∧ (kTarget, Val.int e.target) ∈ ps ∧ e.other = ps.filter (fun p => p.1 ≠ kSource ∧ p.1 ≠ kTarget)

inductive ItemText : List Char → Item → Prop where
  | node {t : List Char} {ps : List Pair} {n : Node} : Block t ps → NodeOf ps n → ItemText (kNode ++ t) (.node n)
  | edge {t : List Char} {ps : List Pair} {e : Edge} : Block t ps → EdgeOf ps e → ItemText (kEdge ++ t) (.edge e)
  | directed {b s br : List Char} {x : Bool} : Sep b s → ValText s (.int (if x then 1 else 0)) → Break br → ItemText (kDirected ++ (b ++ (s ++ br))) (.directed x)
  | kv {k b s br : List Char} {v : Val} : KeyText k → k ≠ kNode → k ≠ kEdge → k ≠ kDirected → Sep b s → ValText s v → Break br → ItemText (k ++ (b ++ (s ++ br))) (.kv (k, v))

inductive Items : List Char → List Item → Prop where
  | nil : Items [] []
  | cons {t t' : List Char} {i : Item} {is : List Item} : ItemText t i → Items t' is → Items (t ++ t') (i :: is)

/-- The graph made of these items: at most one says whether it is directed, and the other keys are distinct. -/
inductive Graph : List Item → Gml → Prop where
  | mk {is : List Item} {g : Gml} : g.nodes = is.filterMap Item.node? → g.edges = is.filterMap Item.edge? → g.other = is.filterMap Item.kv? → (g.other.map Prod.fst).Nodup →
      is.filterMap Item.directed? = [] ∧ g.directed = false ∨ is.filterMap Item.directed? = [g.directed] → Graph is g

/-- A text that ends with the bracket that closes the graph. -/
inductive Doc : List Char → Gml → Prop where
  | mk {w b br t : List Char} {is : List Item} {g : Gml} : (∀ c ∈ w, White c) → Blank b → Break br → Items t is → Graph is g →
      Doc (w ++ (kGraph ++ (b ++ '[' :: (br ++ (t ++ [']']))))) g

/-! ## Characters -/

theorem isSp_iff {c : Char} : isSp c = true ↔ c = ' ' ∨ c = '\t' := by simp [isSp]
theorem isMs_iff {c : Char} : isMs c = true ↔ White c := by simp [isMs, White, or_assoc]
theorem char_le {a b : Char} : a ≤ b ↔ a.toNat ≤ b.toNat := by
  rw [Char.le_def, UInt32.le_iff_toNat_le]; rfl
theorem isDigit_iff {c : Char} : isDigit c = true ↔ Digit c := by
  simp [isDigit, Digit, char_le, show ('0' : Char).toNat = 48 from rfl, show ('9' : Char).toNat = 57 from rfl]
theorem isKey1_iff {c : Char} : isKey1 c = true ↔ Letter c := by
  simp [isKey1, isAlpha, Letter, char_le, show ('a' : Char).toNat = 97 from rfl, show ('z' : Char).toNat = 122 from rfl, show ('A' : Char).toNat = 65 from rfl, show ('Z' : Char).toNat = 90 from rfl, or_assoc]
theorem isKeyc_iff {c : Char} : isKeyc c = true ↔ Letter c ∨ Digit c := by
  have h1 := @isKey1_iff c
  have h2 := @isDigit_iff c
  simp only [isKey1, Bool.or_eq_true] at h1
  rw [isKeyc, ← h1, ← h2]
  simp only [Bool.or_eq_true]
  constructor
  · rintro ((h | h) | h) <;> simp [h]
  · rintro ((h | h) | h) <;> simp [h]

theorem digitIs_iff {c : Char} : Digit c ↔ ∃ d, DigitIs c d ∧ d < 10 := by
  rw [← isDigit_iff]
  simp only [isDigit, Bool.and_eq_true, decide_eq_true_eq]
  constructor
  · intro h; exact ⟨c.toNat - 48, .inl ⟨by omega, by omega⟩, by omega⟩
  · rintro ⟨d, h | h, hd⟩ <;> omega

theorem not_true {b : Bool} : b = false ↔ ¬ (b = true) := by cases b <;> simp

/-- The kinds of characters exclude each other. -/
theorem white_apart {c : Char} (h : White c) : isKey1 c = false ∧ isKeyc c = false ∧ isDigit c = false ∧ c ≠ '[' ∧ c ≠ ']' ∧ c ≠ '"' ∧ c ≠ '.' ∧ c ≠ 'e' ∧ c ≠ 'E' ∧ c ≠ '+' ∧ c ≠ '-' := by
  rcases h with rfl | rfl | rfl | rfl <;> decide

theorem digit_apart {c : Char} (h : Digit c) : isSp c = false ∧ isMs c = false ∧ c ≠ '.' ∧ c ≠ 'e' ∧ c ≠ 'E' ∧ c ≠ '+' ∧ c ≠ '-' ∧ c ≠ '"' := by
  rw [← isDigit_iff] at h
  refine ⟨?_, ?_, ?_, ?_, ?_, ?_, ?_, ?_⟩ <;> (first | (cases e : isSp c with | false => rfl | true => rw [isSp_iff] at e; rcases e with rfl | rfl <;> revert h <;> decide) |
    (cases e : isMs c with | false => rfl | true => rw [isMs_iff] at e; have := (white_apart e).2.2.1; simp [this] at h) | (rintro rfl; revert h; decide))

theorem key_apart {c : Char} (h : Letter c ∨ Digit c) : isMs c = false ∧ c ≠ '[' ∧ c ≠ ']' ∧ c ≠ '"' := by
  rw [← isKeyc_iff] at h
  refine ⟨?_, ?_, ?_, ?_⟩ <;> (first | (cases e : isMs c with | false => rfl | true => rw [isMs_iff] at e; have := (white_apart e).2.1; simp [this] at h) | (rintro rfl; revert h; decide))

theorem sp_ms {c : Char} (h : isSp c = true) : isMs c = true := by
  rw [isSp_iff] at h; rw [isMs_iff]; rcases h with h | h <;> simp [White, h]

/-! ## Runs -/

theorem dropWhile_all {p : Char → Bool} {a rest : List Char} (ha : ∀ c ∈ a, p c = true) (hr : ∀ c, rest.head? = some c → p c = false) : (a ++ rest).dropWhile p = rest := by
  have h := List.takeWhile_append_dropWhile (p := p) (l := a ++ rest)
  rw [takeWhile_all ha hr] at h
  exact List.append_cancel_left h

theorem dropWhile_head {p : Char → Bool} {l : List Char} : ∀ c, (l.dropWhile p).head? = some c → p c = false := by
  induction l with
  | nil => intro c h; simp at h
  | cons x l ih =>
    intro c h
    by_cases hx : p x = true
    · rw [List.dropWhile_cons_of_pos hx] at h; exact ih c h
    · rw [List.dropWhile_cons_of_neg hx] at h; simp at h; subst h; simpa using hx

theorem takeWhile_mem {p : Char → Bool} {l : List Char} : ∀ c ∈ l.takeWhile p, p c = true := by
  induction l with
  | nil => intro c h; simp at h
  | cons x l ih =>
    intro c h
    by_cases hx : p x = true
    · rw [List.takeWhile_cons_of_pos hx] at h
      rcases List.mem_cons.mp h with rfl | h
      · exact hx
      · exact ih c h
    · rw [List.takeWhile_cons_of_neg hx] at h; cases h

theorem head_append {a r : List Char} (h : a ≠ []) : (a ++ r).head? = a.head? := by
  cases a with
  | nil => exact (h rfl).elim
  | cons => rfl

/-- The beginning of `r` is no white space. -/
def Stops (r : List Char) : Prop := ∀ c, r.head? = some c → isMs c = false

theorem newline_iff {l r : List Char} : newline l = some r ↔ ∃ br, l = br ++ r ∧ Break br ∧ Stops r := by
  constructor
  · intro h
    unfold newline at h
    split at h
    · cases h
    · rename_i c t hd
      split at h
      · rename_i hc
        injection h with h
        have hs := dropWhile_head (p := isSp) (l := l) c (by rw [hd]; rfl)
        have e1 : ((c :: t).dropWhile isMs).dropWhile isSp = (c :: t).dropWhile isMs := by
          have hh := dropWhile_head (p := isMs) (l := c :: t)
          cases e : (c :: t).dropWhile isMs with
          | nil => rfl
          | cons x xs =>
            have : isMs x = false := hh x (by rw [e]; rfl)
            refine List.dropWhile_cons_of_neg ?_
            intro hx; rw [sp_ms hx] at this; cases this
        rw [e1] at h
        refine ⟨l.takeWhile isSp ++ (c :: t).takeWhile isMs, ?_, ⟨?_, c, ?_, ?_⟩, ?_⟩
        · rw [← h, List.append_assoc, List.takeWhile_append_dropWhile, ← hd, List.takeWhile_append_dropWhile]
        · intro x hx
          rw [← isMs_iff]
          rcases List.mem_append.mp hx with hx | hx
          · exact sp_ms (takeWhile_mem x hx)
          · exact takeWhile_mem x hx
        · rw [List.takeWhile_cons_of_pos hc]; simp
        · rw [isMs_iff] at hc
          rw [not_true, isSp_iff] at hs
          rcases hc with hc | hc | hc | hc
          · exact (hs (.inl hc)).elim
          · exact (hs (.inr hc)).elim
          · exact .inl hc
          · exact .inr hc
        · rw [← h]; exact dropWhile_head
      · cases h
  · rintro ⟨br, rfl, ⟨h1, c, h2, h3⟩, h4⟩
    obtain ⟨x, hx⟩ : ∃ x, x = br.dropWhile isSp := ⟨_, rfl⟩
    have hsplit := List.takeWhile_append_dropWhile (p := isSp) (l := br)
    have hne : br.dropWhile isSp ≠ [] := by
      intro e
      rw [e, List.append_nil] at hsplit
      have := takeWhile_mem (p := isSp) c (by rw [hsplit]; exact h2)
      rw [isSp_iff] at this
      rcases h3 with rfl | rfl <;> revert this <;> decide
    have hd : (br ++ r).dropWhile isSp = br.dropWhile isSp ++ r := by
      have : br ++ r = br.takeWhile isSp ++ (br.dropWhile isSp ++ r) := by rw [← List.append_assoc, hsplit]
      rw [this]
      apply dropWhile_all takeWhile_mem
      intro c hc
      rw [head_append hne] at hc
      exact dropWhile_head c hc
    have hw : ∀ c ∈ br.dropWhile isSp, isMs c = true := by
      intro c hc
      rw [isMs_iff]
      apply h1
      rw [← hsplit]; exact List.mem_append_right _ hc
    unfold newline
    rw [hd]
    cases e : br.dropWhile isSp with
    | nil => exact (hne e).elim
    | cons y ys =>
      rw [e] at hw
      simp only [List.cons_append]
      rw [if_pos (hw y (by simp)), ← List.cons_append, dropWhile_all hw h4]
      congr 1
      cases r with
      | nil => rfl
      | cons z r =>
        refine List.dropWhile_cons_of_neg ?_
        intro hz
        have := h4 z rfl
        rw [sp_ms hz] at this; cases this

theorem key_iff {l k r : List Char} : key l = some (k, r) ↔ l = k ++ r ∧ KeyText k ∧ ∀ c, r.head? = some c → isKeyc c = false := by
  constructor
  · intro h
    unfold key at h
    split at h
    · cases h
    · rename_i c t
      split at h
      · rename_i hc
        injection h with h; injection h with h1 h2
        subst h1 h2
        refine ⟨by rw [List.cons_append, List.takeWhile_append_dropWhile], ⟨c, _, rfl, isKey1_iff.mp hc, fun x hx => isKeyc_iff.mp (takeWhile_mem x hx)⟩, dropWhile_head⟩
      · cases h
  · rintro ⟨rfl, ⟨c, t, rfl, h1, h2⟩, h3⟩
    simp only [List.cons_append, key]
    rw [if_pos (isKey1_iff.mpr h1), takeWhile_all (fun x hx => isKeyc_iff.mpr (h2 x hx)) h3, dropWhile_all (fun x hx => isKeyc_iff.mpr (h2 x hx)) h3]

/-! ## Values -/

theorem rep_digits {acc n : Nat} {s : List Char} (h : Rep 10 acc s n) : Digits s := by
  induction h with
  | nil => intro c hc; cases hc
  | cons h1 h2 _ ih =>
    intro c hc
    rcases List.mem_cons.mp hc with rfl | hc
    · exact digitIs_iff.mpr ⟨_, h1, h2⟩
    · exact ih c hc

theorem int_sound {l r : List Char} {v : Val} (h : int l = some (v, r)) : ∃ s n, v = .int n ∧ IntText s n ∧ l = s ++ r := by
  unfold int at h
  split at h
  · cases h
  · rename_i hne
    split at h
    · rename_i n hn
      injection h with h; injection h with h1 h2
      obtain ⟨g1, g2⟩ := (digits_iff (by decide) (by decide)).mp hn
      exact ⟨_, n, h1.symm, ⟨hne, g1, g2⟩, by rw [← h2, List.takeWhile_append_dropWhile]⟩
    · cases h

theorem int_of {s r : List Char} {n : Nat} (h : IntText s n) (hr : ∀ c, r.head? = some c → isDigit c = false) : int (s ++ r) = some (.int n, r) := by
  have hd : ∀ c ∈ s, isDigit c = true := fun c hc => isDigit_iff.mpr (rep_digits h.2.1 c hc)
  unfold int
  rw [takeWhile_all hd hr, dropWhile_all hd hr, if_neg h.1, (digits_iff (by decide) (by decide)).mpr ⟨h.2.1, h.2.2⟩]

theorem scanSign_sound (l : List Char) : Sign (scanSign l).1 ∧ l = (scanSign l).1 ++ (scanSign l).2 := by
  unfold scanSign Sign
  cases l with
  | nil => simp
  | cons c t =>
    simp only
    split
    · rename_i h; rcases h with rfl | rfl <;> simp
    · simp

theorem scanSign_of {s r : List Char} (hs : Sign s) (hr : ∀ c, r.head? = some c → c ≠ '+' ∧ c ≠ '-') : scanSign (s ++ r) = (s, r) := by
  rcases hs with rfl | rfl | rfl
  · cases r with
    | nil => rfl
    | cons c r =>
      have := hr c rfl
      simp [scanSign, this.1, this.2]
  · simp [scanSign]
  · simp [scanSign]

theorem digits_take (l : List Char) : Digits (l.takeWhile isDigit) := fun c hc => isDigit_iff.mp (takeWhile_mem c hc)

theorem scanMant_sound {l m r : List Char} (h : scanMant l = some (m, r)) : Mant m ∧ l = m ++ r := by
  unfold scanMant at h
  split at h
  · split at h
    · cases h
    · rename_i c t _
      split at h
      · rename_i hc
        injection h with h; injection h with h1 h2
        subst h1 h2
        rw [hc.1]
        exact ⟨.frac _ hc.2 (digits_take _), by rw [List.cons_append, List.takeWhile_append_dropWhile]⟩
      · cases h
  · rename_i hne
    have hsp := List.takeWhile_append_dropWhile (p := isDigit) (l := l)
    split at h
    · rename_i e
      injection h with h; injection h with h1 h2
      subst h1 h2
      rw [e] at hsp
      exact ⟨.whole _ hne (digits_take _), hsp.symm⟩
    · rename_i c t e
      rw [e] at hsp
      split at h
      · rename_i hc
        injection h with h; injection h with h1 h2
        subst h1 h2 hc
        refine ⟨.point _ _ hne (digits_take _) (digits_take _), ?_⟩
        rw [List.append_assoc, List.cons_append, List.takeWhile_append_dropWhile, hsp]
      · injection h with h; injection h with h1 h2
        subst h1 h2
        exact ⟨.whole _ hne (digits_take _), hsp.symm⟩

theorem mem_digits {a : List Char} (h : Digits a) : ∀ c ∈ a, isDigit c = true := fun c hc => isDigit_iff.mpr (h c hc)

theorem scanMant_of {m r : List Char} (hm : Mant m) (hr : ∀ c, r.head? = some c → isDigit c = false ∧ c ≠ '.') : scanMant (m ++ r) = some (m, r) := by
  cases hm with
  | whole a h0 h1 =>
    unfold scanMant
    rw [takeWhile_all (mem_digits h1) (fun c hc => (hr c hc).1), dropWhile_all (mem_digits h1) (fun c hc => (hr c hc).1), if_neg h0]
    cases r with
    | nil => rfl
    | cons c r => simp only; rw [if_neg (hr c rfl).2]
  | point a b h0 h1 h2 =>
    have hp : ∀ c, ('.' :: (b ++ r)).head? = some c → isDigit c = false := by intro c hc; simp at hc; subst hc; decide
    unfold scanMant
    rw [List.append_assoc, List.cons_append, takeWhile_all (mem_digits h1) hp, dropWhile_all (mem_digits h1) hp, if_neg h0]
    simp only [if_true]
    rw [takeWhile_all (mem_digits h2) (fun c hc => (hr c hc).1), dropWhile_all (mem_digits h2) (fun c hc => (hr c hc).1)]
  | frac b h0 h2 =>
    unfold scanMant
    have : ('.' :: b ++ r).takeWhile isDigit = [] := by rw [List.cons_append]; exact List.takeWhile_cons_of_neg (by decide)
    rw [this, if_pos rfl]
    simp only [List.cons_append]
    rw [takeWhile_all (mem_digits h2) (fun c hc => (hr c hc).1), dropWhile_all (mem_digits h2) (fun c hc => (hr c hc).1), if_pos ⟨trivial, h0⟩]

theorem scanExp_sound {l e r : List Char} (h : scanExp l = some (e, r)) : Expo e ∧ l = e ++ r := by
  unfold scanExp at h
  split at h
  · injection h with h; injection h with h1 h2; subst h1 h2; exact ⟨.none, rfl⟩
  · rename_i c t
    split at h
    · rename_i hc
      split at h
      · cases h
      · rename_i hne
        injection h with h; injection h with h1 h2
        subst h1 h2
        obtain ⟨g1, g2⟩ := scanSign_sound t
        refine ⟨.some c _ _ hc g1 hne (digits_take _), ?_⟩
        rw [List.append_assoc, List.cons_append, List.takeWhile_append_dropWhile, ← g2]
    · injection h with h; injection h with h1 h2; subst h1 h2; exact ⟨.none, rfl⟩

theorem scanExp_of {e r : List Char} (he : Expo e) (hr : ∀ c, r.head? = some c → isDigit c = false ∧ c ≠ 'e' ∧ c ≠ 'E') : scanExp (e ++ r) = some (e, r) := by
  cases he with
  | none =>
    cases r with
    | nil => rfl
    | cons c r => simp only [List.nil_append, scanExp]; rw [if_neg]; rintro (h | h) <;> simp_all
  | some c s a hc hs h0 h1 =>
    have e1 : scanSign (s ++ (a ++ r)) = (s, a ++ r) := by
      apply scanSign_of hs
      intro x hx
      rw [head_append h0] at hx
      have := digit_apart (h1 x (List.mem_of_mem_head? hx))
      exact ⟨this.2.2.2.2.2.1, this.2.2.2.2.2.2.1⟩
    simp only [List.cons_append, List.append_assoc, scanExp]
    rw [if_pos hc, e1]
    simp only
    rw [takeWhile_all (mem_digits h1) (fun c hc => (hr c hc).1), dropWhile_all (mem_digits h1) (fun c hc => (hr c hc).1), if_neg h0]

theorem float_sound {l r : List Char} {v : Val} (h : float l = some (v, r)) : ∃ s, v = .float s ∧ FloatText s ∧ l = s ++ r := by
  unfold float at h
  split at h
  · cases h
  · rename_i m l2 hm
    split at h
    · cases h
    · rename_i e l3 he
      injection h with h; injection h with h1 h2
      subst h2
      obtain ⟨g1, g2⟩ := scanSign_sound l
      obtain ⟨g3, g4⟩ := scanMant_sound hm
      obtain ⟨g5, g6⟩ := scanExp_sound he
      refine ⟨_, h1.symm, ⟨_, m, e, g1, g3, g5, rfl⟩, ?_⟩
      rw [List.append_assoc, List.append_assoc, ← g6, ← g4, ← g2]

theorem mant_head {m : List Char} (h : Mant m) : ∃ c t, m = c :: t ∧ (Digit c ∨ c = '.') := by
  cases h with
  | whole a h0 h1 =>
    cases m with
    | nil => exact (h0 rfl).elim
    | cons c t => exact ⟨c, t, rfl, .inl (h1 c (by simp))⟩
  | point a b h0 h1 _ =>
    cases a with
    | nil => exact (h0 rfl).elim
    | cons c t => exact ⟨c, t ++ '.' :: b, rfl, .inl (h1 c (by simp))⟩
  | frac b _ _ => exact ⟨'.', b, rfl, .inr rfl⟩

theorem float_of {s r : List Char} (hs : FloatText s) (hr : ∀ c, r.head? = some c → White c) : float (s ++ r) = some (.float s, r) := by
  obtain ⟨sg, m, e, h1, h2, h3, rfl⟩ := hs
  have e1 : scanSign (sg ++ (m ++ (e ++ r))) = (sg, m ++ (e ++ r)) := by
    apply scanSign_of h1
    intro c hc
    obtain ⟨x, t, rfl, hx⟩ := mant_head h2
    simp at hc
    subst hc
    rcases hx with hx | rfl
    · have := digit_apart hx; exact ⟨this.2.2.2.2.2.1, this.2.2.2.2.2.2.1⟩
    · decide
  have e3 : scanExp (e ++ r) = some (e, r) := scanExp_of h3 (fun c hc => by have := white_apart (hr c hc); exact ⟨this.2.2.1, this.2.2.2.2.2.2.2.1, this.2.2.2.2.2.2.2.2.1⟩)
  have e2 : scanMant (m ++ (e ++ r)) = some (m, e ++ r) := by
    apply scanMant_of h2
    intro c hc
    cases h3 with
    | none => have := white_apart (hr c hc); exact ⟨this.2.2.1, this.2.2.2.2.2.2.1⟩
    | some x s a hx _ _ _ =>
      simp at hc
      subst hc
      rcases hx with rfl | rfl <;> decide
  unfold float
  rw [List.append_assoc, List.append_assoc, e1]
  simp only [e2, e3]

theorem float_mem {s : List Char} (h : FloatText s) : ∀ c ∈ s, isMs c = false := by
  have hd : ∀ a, Digits a → ∀ c ∈ a, isMs c = false := fun a ha c hc => (digit_apart (ha c hc)).2.1
  have hsg : ∀ a, Sign a → ∀ c ∈ a, isMs c = false := by
    rintro a (rfl | rfl | rfl) c hc <;> simp at hc <;> subst hc <;> decide
  obtain ⟨sg, m, e, h1, h2, h3, rfl⟩ := h
  intro c hc
  rcases List.mem_append.mp hc with hc | hc
  · exact hsg _ h1 c hc
  · rcases List.mem_append.mp hc with hc | hc
    · cases h2 with
      | whole _ _ ha => exact hd _ ha c hc
      | point a b _ ha hb =>
        rcases List.mem_append.mp hc with hc | hc
        · exact hd _ ha c hc
        · rcases List.mem_cons.mp hc with rfl | hc
          · decide
          · exact hd _ hb c hc
      | frac b _ hb =>
        rcases List.mem_cons.mp hc with rfl | hc
        · decide
        · exact hd _ hb c hc
    · cases h3 with
      | none => cases hc
      | some x s a hx hs _ ha =>
        rcases List.mem_append.mp hc with hc | hc
        · rcases List.mem_cons.mp hc with rfl | hc
          · rcases hx with rfl | rfl <;> decide
          · exact hsg _ hs c hc
        · exact hd _ ha c hc

theorem escaped_sound {l s r : List Char} : ∀ {st : Bool}, escaped st l = some (s, r) → l = s ++ r ∧ '"' ∉ s ∧ (st = false → s ≠ []) ∧ (∀ c, r.head? = some c → c = '"') := by
  induction l generalizing s r with
  | nil =>
    intro st h
    simp only [escaped] at h
    split at h
    · injection h with h; injection h with h1 h2; subst h1 h2; simp_all
    · cases h
  | cons c t ih =>
    intro st h
    unfold escaped at h
    split at h
    · rename_i hc
      obtain ⟨⟨s', r'⟩, h1, h2⟩ := Option.map_eq_some_iff.mp h
      injection h2 with h2 h3
      subst h2 h3
      obtain ⟨g1, g2, _, g4⟩ := ih h1
      refine ⟨by simp [g1], ?_, by simp, g4⟩
      simp only [List.mem_cons, not_or]
      exact ⟨fun e => hc e.symm, g2⟩
    · rename_i hc
      have hc : c = '"' := Decidable.not_not.mp hc
      rw [if_neg (by rw [hc]; decide)] at h
      split at h
      · rename_i hst
        injection h with h; injection h with h1 h2; subst h1 h2
        refine ⟨rfl, by simp, by simp [hst], ?_⟩
        intro x hx; simp at hx; rw [← hx]; exact hc
      · cases h

theorem escaped_of {s r : List Char} (hq : '"' ∉ s) : ∀ {st : Bool}, (st = false → s ≠ []) → escaped st (s ++ '"' :: r) = some (s, '"' :: r) := by
  induction s with
  | nil =>
    intro st h
    cases st with
    | false => exact (h rfl rfl).elim
    | true => unfold escaped; simp
  | cons c s ih =>
    intro st _
    simp only [List.mem_cons, not_or] at hq
    rw [List.cons_append]
    unfold escaped
    rw [if_pos (fun e => hq.1 e.symm), ih hq.2 (by simp)]
    rfl

theorem string_sound {l r : List Char} {v : Val} (h : string l = some (v, r)) : ∃ s, v = .str s ∧ s ≠ [] ∧ '"' ∉ s ∧ l = ('"' :: s ++ ['"']) ++ r := by
  unfold string at h
  split at h
  · cases h
  · split at h
    · rename_i hc
      split at h
      · rename_i s d r' he
        split at h
        · rename_i hd
          injection h with h; injection h with h1 h2
          subst h2 hc hd
          obtain ⟨g1, g2, g3, _⟩ := escaped_sound he
          exact ⟨s, h1.symm, g3 rfl, g2, by simp [g1]⟩
        · cases h
      · cases h
    · cases h

theorem string_of {s r : List Char} (h0 : s ≠ []) (hq : '"' ∉ s) : string (('"' :: s ++ ['"']) ++ r) = some (.str s, r) := by
  have : ('"' :: s ++ ['"']) ++ r = '"' :: (s ++ '"' :: r) := by simp
  rw [this, string, if_pos rfl, escaped_of hq (fun _ => h0)]
  simp

theorem val_head {s : List Char} {v : Val} (h : ValText s v) : ∃ c t, s = c :: t ∧ isMs c = false := by
  cases h with
  | int _ n hi =>
    cases s with
    | nil => exact (hi.1 rfl).elim
    | cons c t => exact ⟨c, t, rfl, (digit_apart (rep_digits hi.2.1 c (by simp))).2.1⟩
  | float _ hf _ =>
    cases s with
    | nil =>
      obtain ⟨sg, m, e, _, hm, _, he⟩ := hf
      obtain ⟨c, t, rfl, _⟩ := mant_head hm
      cases sg <;> simp at he
    | cons c t => exact ⟨c, t, rfl, float_mem hf c (by simp)⟩
  | str s _ _ => exact ⟨'"', s ++ ['"'], rfl, by decide⟩

theorem break_head {br : List Char} (h : Break br) (r : List Char) : ∀ c, (br ++ r).head? = some c → White c := by
  obtain ⟨h1, x, h2, _⟩ := h
  cases br with
  | nil => cases h2
  | cons y br => intro c hc; simp at hc; subst hc; exact h1 y (by simp)

theorem withBreak_sound {x : Option (Val × List Char)} {v : Val} {r : List Char} (h : withBreak x = some (v, r)) : ∃ br, x = some (v, br ++ r) ∧ Break br ∧ Stops r := by
  unfold withBreak at h
  split at h
  · cases h
  · rename_i v' r0
    split at h
    · cases h
    · rename_i r1 hn
      injection h with h; injection h with h1 h2
      subst h1 h2
      obtain ⟨br, rfl, hb, hs⟩ := newline_iff.mp hn
      exact ⟨br, rfl, hb, hs⟩

theorem withBreak_of {v : Val} {br r : List Char} (hb : Break br) (hs : Stops r) : withBreak (some (v, br ++ r)) = some (v, r) := by
  simp only [withBreak]
  rw [newline_iff.mpr ⟨br, rfl, hb, hs⟩]

theorem blank_sp {b : List Char} (h : Blank b) : ∀ c ∈ b, isSp c = true := fun c hc => isSp_iff.mpr (h c hc)

/-- Values are read as the grammar says. -/
theorem value_iff {l r : List Char} {v : Val} : value l = some (v, r) ↔ ∃ b s br, l = b ++ (s ++ (br ++ r)) ∧ Blank b ∧ ValText s v ∧ Break br ∧ Stops r := by
  constructor
  · intro h
    have hsp := List.takeWhile_append_dropWhile (p := isSp) (l := l)
    have hb : Blank (l.takeWhile isSp) := fun c hc => isSp_iff.mp (takeWhile_mem c hc)
    unfold value at h
    split at h
    · rename_i hi
      injection h with h; subst h
      obtain ⟨br, h1, h2, h3⟩ := withBreak_sound hi
      obtain ⟨s, n, rfl, g1, g2⟩ := int_sound h1
      exact ⟨_, s, br, by rw [← g2, hsp], hb, .int s n g1, h2, h3⟩
    · rename_i hni
      split at h
      · rename_i hi
        injection h with h; subst h
        obtain ⟨br, h1, h2, h3⟩ := withBreak_sound hi
        obtain ⟨s, rfl, g1, g2⟩ := float_sound h1
        refine ⟨_, s, br, by rw [← g2, hsp], hb, .float s g1 ?_, h2, h3⟩
        intro n hn
        rw [g2, int_of hn (fun c hc => (white_apart (break_head h2 r c hc)).2.2.1), withBreak_of h2 h3] at hni
        cases hni
      · obtain ⟨br, h1, h2, h3⟩ := withBreak_sound h
        obtain ⟨s, rfl, g0, g1, g2⟩ := string_sound h1
        exact ⟨_, _, br, by rw [← g2, hsp], hb, .str s g0 g1, h2, h3⟩
  · rintro ⟨b, s, br, rfl, h1, h2, h3, h4⟩
    have hd : (b ++ (s ++ (br ++ r))).dropWhile isSp = s ++ (br ++ r) := by
      apply dropWhile_all (blank_sp h1)
      intro c hc
      obtain ⟨x, t, rfl, hx⟩ := val_head h2
      simp at hc; subst hc
      cases e : isSp x with
      | false => rfl
      | true => rw [sp_ms e] at hx; cases hx
    have hw := break_head h3 r
    have hnd : ∀ c, (br ++ r).head? = some c → isDigit c = false := fun c hc => (white_apart (hw c hc)).2.2.1
    unfold value
    rw [hd]
    cases h2 with
    | int _ n hi => rw [int_of hi hnd, withBreak_of h3 h4]
    | float _ hf hn =>
      have hni : withBreak (int (s ++ (br ++ r))) = none := by
        cases e : withBreak (int (s ++ (br ++ r))) with
        | none => rfl
        | some x =>
          obtain ⟨v, r'⟩ := x
          exfalso
          obtain ⟨br', g1, g2, g3⟩ := withBreak_sound e
          obtain ⟨s', n, rfl, g4, g5⟩ := int_sound g1
          -- `s'` is `s`: it stops at the first white space
          have hs1 : (s ++ (br ++ r)).takeWhile (fun c => !isMs c) = s :=
            takeWhile_all (fun c hc => by simp [float_mem hf c hc]) (fun c hc => by simp [isMs_iff.mpr (hw c hc)])
          have hs2 : (s' ++ (br' ++ r')).takeWhile (fun c => !isMs c) = s' :=
            takeWhile_all (fun c hc => by simp [(digit_apart (rep_digits g4.2.1 c hc)).2.1]) (fun c hc => by simp [isMs_iff.mpr (break_head g2 r' c hc)])
          rw [g5, hs2] at hs1
          subst hs1
          exact hn n g4
      rw [hni, float_of hf hw, withBreak_of h3 h4]
    | str s h0 hq =>
      have e1 : int ('"' :: s ++ ['"'] ++ (br ++ r)) = none := by
        unfold int
        have : ('"' :: s ++ ['"'] ++ (br ++ r)).takeWhile isDigit = [] := by simp only [List.cons_append]; exact List.takeWhile_cons_of_neg (by decide)
        rw [if_pos this]
      have e2 : float ('"' :: s ++ ['"'] ++ (br ++ r)) = none := by
        unfold float
        have e : scanSign ('"' :: s ++ ['"'] ++ (br ++ r)) = ([], '"' :: s ++ ['"'] ++ (br ++ r)) := by simp [scanSign]
        rw [e]
        have : scanMant ('"' :: s ++ ['"'] ++ (br ++ r)) = none := by
          unfold scanMant
          have : ('"' :: s ++ ['"'] ++ (br ++ r)).takeWhile isDigit = [] := by simp only [List.cons_append]; exact List.takeWhile_cons_of_neg (by decide)
          rw [if_pos this]
          simp
        simp only [this]
      rw [e1, e2, string_of h0 hq]
      simp only [withBreak]
      rw [newline_iff.mpr ⟨br, rfl, h3, h4⟩]

/-! ## Blocks -/

theorem sep_head {b s br r : List Char} {v : Val} (h : Sep b s) (hv : ValText s v) : ∀ c, (b ++ (s ++ (br ++ r))).head? = some c → isKeyc c = false := by
  intro c hc
  by_cases hb : b = []
  · subst hb
    obtain ⟨x, t, rfl, _⟩ := val_head hv
    simp at hc; subst hc
    rw [not_true, isKeyc_iff]
    exact h.2 rfl x rfl
  · rw [head_append hb] at hc
    have := h.1 c (List.mem_of_mem_head? hc)
    refine (white_apart ?_).2.1
    rcases this with h | h <;> simp [White, h]

theorem sep_of {b s br r : List Char} {v : Val} (hb : Blank b) (hv : ValText s v) (h : ∀ c, (b ++ (s ++ (br ++ r))).head? = some c → isKeyc c = false) : Sep b s := by
  refine ⟨hb, ?_⟩
  rintro rfl c hc
  rw [← isKeyc_iff, ← not_true]
  apply h
  obtain ⟨x, t, rfl, _⟩ := val_head hv
  exact hc

/-- A key with its value. -/
theorem key_value {l k r : List Char} {v : Val} : (∃ l1, key l = some (k, l1) ∧ value l1 = some (v, r)) ↔
    ∃ b s br, l = k ++ (b ++ (s ++ (br ++ r))) ∧ KeyText k ∧ Sep b s ∧ ValText s v ∧ Break br ∧ Stops r := by
  constructor
  · rintro ⟨l1, h1, h2⟩
    obtain ⟨rfl, hk, hh⟩ := key_iff.mp h1
    obtain ⟨b, s, br, rfl, h3, h4, h5, h6⟩ := value_iff.mp h2
    exact ⟨b, s, br, rfl, hk, sep_of h3 h4 hh, h4, h5, h6⟩
  · rintro ⟨b, s, br, rfl, hk, hs, hv, hb, hr⟩
    exact ⟨_, key_iff.mpr ⟨rfl, hk, sep_head hs hv⟩, value_iff.mpr ⟨b, s, br, rfl, hs.1, hv, hb, hr⟩⟩

theorem key_stops {k r : List Char} (h : KeyText k) : Stops (k ++ r) := by
  obtain ⟨c, t, rfl, hc, _⟩ := h
  intro x hx
  simp at hx; subst hx
  exact (key_apart (.inl hc)).1

theorem key_head {k r : List Char} (h : KeyText k) : ∃ c t, k ++ r = c :: t ∧ c ≠ ']' := by
  obtain ⟨c, t, rfl, hc, _⟩ := h
  exact ⟨c, t ++ r, rfl, (key_apart (.inl hc)).2.2.1⟩

theorem stops_close (r : List Char) : Stops (']' :: r) := by
  intro c hc; simp at hc; subst hc; decide

theorem pairs_stops {t : List Char} {ps : List Pair} (h : Pairs t ps) (r : List Char) : Stops (t ++ ']' :: r) := by
  cases h with
  | nil => exact stops_close r
  | cons hk _ _ _ _ => rw [List.append_assoc]; exact key_stops hk

theorem val_ne {s : List Char} {v : Val} (h : ValText s v) : s ≠ [] := by
  obtain ⟨c, t, rfl, _⟩ := val_head h; simp

theorem pairs_iff {f : Nat} : ∀ {l r : List Char} {ps : List Pair}, l.length < f → (pairs f l = some (ps, r) ↔ ∃ t, l = t ++ ']' :: r ∧ Pairs t ps) := by
  induction f with
  | zero => intro l r ps h; omega
  | succ f ih =>
    intro l r ps hf
    constructor
    · intro h
      cases l with
      | nil => simp [pairs] at h
      | cons c t =>
        simp only [pairs] at h
        split at h
        · rename_i hc
          injection h with h; injection h with h1 h2; subst h1 h2 hc
          exact ⟨[], rfl, .nil⟩
        · split at h
          · cases h
          · rename_i k l1 hk
            split at h
            · cases h
            · rename_i v l2 hv
              split at h
              · cases h
              · rename_i ps' r' hp
                injection h with h; injection h with h1 h2; subst h1 h2
                obtain ⟨b, s, br, e, g1, g2, g3, g4, g5⟩ := key_value.mp ⟨l1, hk, hv⟩
                have hlen : l2.length < f := by
                  have := congrArg List.length e
                  have hs := List.length_pos_iff.mpr (val_ne g3)
                  simp only [List.length_append, List.length_cons] at this hf
                  omega
                obtain ⟨t', rfl, g6⟩ := (ih hlen).mp hp
                refine ⟨_, ?_, .cons g1 g2 g3 g4 g6⟩
                rw [e]; simp only [List.append_assoc]
    · rintro ⟨t, rfl, hp⟩
      cases hp with
      | nil => simp [pairs]
      | @cons k b s br t v ps hk hs hv hb hp =>
        have e : k ++ (b ++ (s ++ (br ++ t))) ++ ']' :: r = k ++ (b ++ (s ++ (br ++ (t ++ ']' :: r)))) := by simp only [List.append_assoc]
        rw [e] at hf ⊢
        obtain ⟨l1, h1, h2⟩ := key_value.mpr ⟨b, s, br, rfl, hk, hs, hv, hb, pairs_stops hp r⟩
        have hl : (t ++ ']' :: r).length < f := by
          have hs := List.length_pos_iff.mpr (val_ne hv)
          simp only [List.length_append, List.length_cons] at hf ⊢
          omega
        obtain ⟨c, u, hcu, hc⟩ := key_head (r := b ++ (s ++ (br ++ (t ++ ']' :: r)))) hk
        rw [hcu] at h1 ⊢
        simp only [pairs]
        rw [if_neg hc, h1]
        simp only [h2]
        rw [(ih hl).mpr ⟨t, rfl, hp⟩]

theorem distinct_iff {ps : List Pair} : distinct ps = true ↔ (ps.map Prod.fst).Nodup := by
  induction ps with
  | nil => simp [distinct]
  | cons p ps ih =>
    simp only [distinct, Bool.and_eq_true, List.map_cons, List.nodup_cons, ih]
    refine and_congr ?_ Iff.rfl
    simp only [Bool.not_eq_true', List.any_eq_false, List.mem_map, not_exists, not_and]
    constructor
    · intro h x hx e; exact h x hx (by simp [e])
    · intro h x hx e; exact h x hx (by simpa using e)

theorem block_iff {l r : List Char} {ps : List Pair} : block l = some (ps, r) ↔ ∃ t, l = t ++ r ∧ Block t ps ∧ Stops r := by
  constructor
  · intro h
    have hsp := List.takeWhile_append_dropWhile (p := isSp) (l := l)
    unfold block at h
    split at h
    · cases h
    · rename_i c t hd
      split at h
      · rename_i hc
        split at h
        · cases h
        · rename_i l1 hn
          split at h
          · cases h
          · rename_i ps' l2 hp
            split at h
            · rename_i hdist
              split at h
              · cases h
              · rename_i r' hn'
                injection h with h; injection h with h1 h2; subst h1 h2 hc
                obtain ⟨br, rfl, g1, _⟩ := newline_iff.mp hn
                obtain ⟨t, rfl, g3⟩ := (pairs_iff (Nat.lt_succ_self _)).mp hp
                obtain ⟨br', rfl, g4, g5⟩ := newline_iff.mp hn'
                refine ⟨_, ?_, .mk (b := l.takeWhile isSp) (fun c hc => isSp_iff.mp (takeWhile_mem c hc)) g1 g3 (distinct_iff.mp hdist) g4, g5⟩
                conv => lhs; rw [← hsp, hd]
                simp
            · cases h
      · cases h
  · rintro ⟨t, rfl, hb, hr⟩
    cases hb with
    | @mk b br t br' _ h1 h2 h3 h4 h5 =>
      have e : b ++ '[' :: (br ++ (t ++ ']' :: br')) ++ r = b ++ '[' :: (br ++ (t ++ ']' :: (br' ++ r))) := by simp
      have hd : (b ++ '[' :: (br ++ (t ++ ']' :: (br' ++ r)))).dropWhile isSp = '[' :: (br ++ (t ++ ']' :: (br' ++ r))) :=
        dropWhile_all (blank_sp h1) (by intro c hc; simp at hc; subst hc; decide)
      unfold block
      rw [e, hd]
      simp only [if_true]
      rw [newline_iff.mpr ⟨br, rfl, h2, pairs_stops h3 _⟩]
      simp only
      rw [(pairs_iff (Nat.lt_succ_self _)).mpr ⟨t, rfl, h3⟩]
      simp only [distinct_iff.mpr h4, if_true]
      rw [newline_iff.mpr ⟨br', rfl, h5, hr⟩]

theorem get_iff {k : List Char} {ps : List Pair} (hn : (ps.map Prod.fst).Nodup) {v : Val} : get k ps = some v ↔ (k, v) ∈ ps := by
  induction ps with
  | nil => simp [get]
  | cons p ps ih =>
    simp only [List.map_cons, List.nodup_cons] at hn
    simp only [get]
    split
    · rename_i e
      subst e
      constructor
      · intro h; injection h with h; subst h; simp
      · intro h
        rcases List.mem_cons.mp h with h | h
        · rw [← h]
        · exact (hn.1 (List.mem_map.mpr ⟨_, h, rfl⟩)).elim
    · rename_i e
      rw [ih hn.2]
      simp only [List.mem_cons]
      constructor
      · exact .inr
      · rintro (h | h)
        · rw [← h] at e; exact (e rfl).elim
        · exact h

theorem get_none {k : List Char} {ps : List Pair} (hn : (ps.map Prod.fst).Nodup) : get k ps = none ↔ ∀ v, (k, v) ∉ ps := by
  constructor
  · intro h v hv
    rw [← get_iff hn, h] at hv; cases hv
  · intro h
    cases e : get k ps with
    | none => rfl
    | some v => exact (h v ((get_iff hn).mp e)).elim

theorem toNode_iff {ps : List Pair} {n : Node} (hn : (ps.map Prod.fst).Nodup) : toNode ps = some n ↔ NodeOf ps n := by
  have hw : without kId ps = ps.filter (fun p => p.1 ≠ kId) := by
    unfold without; congr 1; funext p; by_cases h : p.1 = kId <;> simp [h]
  obtain ⟨id, other⟩ := n
  unfold toNode NodeOf
  rw [hw]
  constructor
  · intro h
    split at h
    · rename_i i hi
      injection h with h; injection h with h1 h2; subst h1 h2
      exact ⟨.inl ⟨i, rfl, (get_iff hn).mp hi⟩, rfl⟩
    · cases h
    · rename_i hi
      injection h with h; injection h with h1 h2; subst h1 h2
      exact ⟨.inr ⟨rfl, (get_none hn).mp hi⟩, rfl⟩
  · rintro ⟨⟨i, rfl, hi⟩ | ⟨rfl, hi⟩, rfl⟩
    · rw [(get_iff hn).mpr hi]
    · rw [(get_none hn).mpr hi]

theorem toEdge_iff {ps : List Pair} {e : Edge} (hn : (ps.map Prod.fst).Nodup) : toEdge ps = some e ↔ EdgeOf ps e := by
  have hw : without kTarget (without kSource ps) = ps.filter (fun p => p.1 ≠ kSource ∧ p.1 ≠ kTarget) := by
    unfold without; rw [List.filter_filter]; congr 1; funext p; by_cases h : p.1 = kSource <;> by_cases h' : p.1 = kTarget <;> simp [h, h']
  obtain ⟨s, t, other⟩ := e
  unfold toEdge EdgeOf
  rw [hw]
  constructor
  · intro h
    split at h
    · rename_i s' t' hs ht
      injection h with h; injection h with h1 h2 h3; subst h1 h2 h3
      exact ⟨(get_iff hn).mp hs, (get_iff hn).mp ht, rfl⟩
    · cases h
  · rintro ⟨hs, ht, rfl⟩
    rw [(get_iff hn).mpr hs, (get_iff hn).mpr ht]

theorem toBool_iff {v : Val} {b : Bool} : toBool v = some b ↔ v = .int (if b then 1 else 0) := by
  unfold toBool
  split <;> cases b <;> simp_all

/-! ## Items -/

theorem kNode_text : KeyText kNode := ⟨_, _, rfl, by unfold Letter; decide, by unfold Letter Digit; decide⟩
theorem kEdge_text : KeyText kEdge := ⟨_, _, rfl, by unfold Letter; decide, by unfold Letter Digit; decide⟩
theorem kDirected_text : KeyText kDirected := ⟨_, _, rfl, by unfold Letter; decide, by unfold Letter Digit; decide⟩

theorem block_head {t r : List Char} {ps : List Pair} (h : Block t ps) : ∀ c, (t ++ r).head? = some c → isKeyc c = false := by
  cases h with
  | @mk b br t br' _ h1 _ _ _ _ =>
    intro c hc
    cases b with
    | nil => simp at hc; subst hc; decide
    | cons x b =>
      simp at hc; subst hc
      refine (white_apart ?_).2.1
      rcases h1 x (by simp) with h | h <;> simp [White, h]

theorem block_nodup {t : List Char} {ps : List Pair} (h : Block t ps) : (ps.map Prod.fst).Nodup := by
  cases h; assumption

theorem item_iff {l r : List Char} {i : Item} : item l = some (i, r) ↔ ∃ t, l = t ++ r ∧ ItemText t i ∧ Stops r := by
  constructor
  · intro h
    unfold item at h
    split at h
    · cases h
    · rename_i k l1 hk
      split at h
      · rename_i hkk; subst hkk
        split at h
        · cases h
        · rename_i ps r' hb
          obtain ⟨n, hn, h⟩ := Option.map_eq_some_iff.mp h
          injection h with h1 h2; subst h1 h2
          obtain ⟨t, rfl, g1, g2⟩ := block_iff.mp hb
          obtain ⟨rfl, _, _⟩ := key_iff.mp hk
          exact ⟨kNode ++ t, by simp, .node g1 ((toNode_iff (block_nodup g1)).mp hn), g2⟩
      · rename_i n1
        split at h
        · rename_i hkk; subst hkk
          split at h
          · cases h
          · rename_i ps r' hb
            obtain ⟨n, hn, h⟩ := Option.map_eq_some_iff.mp h
            injection h with h1 h2; subst h1 h2
            obtain ⟨t, rfl, g1, g2⟩ := block_iff.mp hb
            obtain ⟨rfl, _, _⟩ := key_iff.mp hk
            exact ⟨kEdge ++ t, by simp, .edge g1 ((toEdge_iff (block_nodup g1)).mp hn), g2⟩
        · rename_i n2
          split at h
          · rename_i hkk; subst hkk
            split at h
            · cases h
            · rename_i v r' hv
              obtain ⟨b, hb, h⟩ := Option.map_eq_some_iff.mp h
              injection h with h1 h2; subst h1 h2
              obtain ⟨b', s, br, rfl, _, g2, g3, g4, g5⟩ := key_value.mp ⟨l1, hk, hv⟩
              rw [toBool_iff.mp hb] at g3
              exact ⟨kDirected ++ (b' ++ (s ++ br)), by simp, .directed g2 g3 g4, g5⟩
          · rename_i n3
            split at h
            · cases h
            · rename_i v r' hv
              injection h with h; injection h with h1 h2; subst h1 h2
              obtain ⟨b', s, br, rfl, g1, g2, g3, g4, g5⟩ := key_value.mp ⟨l1, hk, hv⟩
              exact ⟨k ++ (b' ++ (s ++ br)), by simp, .kv g1 n1 n2 n3 g2 g3 g4, g5⟩
  · rintro ⟨t, rfl, hi, hr⟩
    unfold item
    cases hi with
    | node hb hn =>
      rw [List.append_assoc, key_iff.mpr ⟨rfl, kNode_text, block_head hb⟩]
      simp only [if_true]
      rw [block_iff.mpr ⟨_, rfl, hb, hr⟩]
      simp only [(toNode_iff (block_nodup hb)).mpr hn, Option.map_some]
    | edge hb hn =>
      rw [List.append_assoc, key_iff.mpr ⟨rfl, kEdge_text, block_head hb⟩]
      simp only [if_neg (show ¬ kEdge = kNode by decide), if_true]
      rw [block_iff.mpr ⟨_, rfl, hb, hr⟩]
      simp only [(toEdge_iff (block_nodup hb)).mpr hn, Option.map_some]
    | @directed b s br x hs hv hb =>
      have e : kDirected ++ (b ++ (s ++ br)) ++ r = kDirected ++ (b ++ (s ++ (br ++ r))) := by simp only [List.append_assoc]
      obtain ⟨l1, h1, h2⟩ := key_value.mpr ⟨b, s, br, rfl, kDirected_text, hs, hv, hb, hr⟩
      rw [e, h1]
      simp only [if_neg (show ¬ kDirected = kNode by decide), if_neg (show ¬ kDirected = kEdge by decide), if_true, h2]
      rw [toBool_iff.mpr rfl]; rfl
    | @kv k b s br v hk n1 n2 n3 hs hv hb =>
      have e : k ++ (b ++ (s ++ br)) ++ r = k ++ (b ++ (s ++ (br ++ r))) := by simp only [List.append_assoc]
      obtain ⟨l1, h1, h2⟩ := key_value.mpr ⟨b, s, br, rfl, hk, hs, hv, hb, hr⟩
      rw [e, h1]
      simp only [if_neg n1, if_neg n2, if_neg n3, h2]

theorem item_head {t : List Char} {i : Item} (h : ItemText t i) : ∃ k u, KeyText k ∧ t = k ++ u := by
  cases h with
  | node => exact ⟨_, _, kNode_text, rfl⟩
  | edge => exact ⟨_, _, kEdge_text, rfl⟩
  | directed => exact ⟨_, _, kDirected_text, rfl⟩
  | kv hk => exact ⟨_, _, hk, rfl⟩

theorem items_stops {t : List Char} {is : List Item} (h : Items t is) (r : List Char) : Stops (t ++ ']' :: r) := by
  cases h with
  | nil => exact stops_close r
  | cons hi _ =>
    obtain ⟨k, u, hk, rfl⟩ := item_head hi
    rw [List.append_assoc, List.append_assoc]; exact key_stops hk

theorem items_iff {f : Nat} : ∀ {l r : List Char} {is : List Item}, l.length < f → (items f l = some (is, r) ↔ ∃ t, l = t ++ ']' :: r ∧ Items t is) := by
  induction f with
  | zero => intro l r ps h; omega
  | succ f ih =>
    intro l r is hf
    constructor
    · intro h
      cases l with
      | nil => simp [items] at h
      | cons c t =>
        simp only [items] at h
        split at h
        · rename_i hc
          injection h with h; injection h with h1 h2; subst h1 h2 hc
          exact ⟨[], rfl, .nil⟩
        · split at h
          · cases h
          · rename_i i l1 hi
            split at h
            · cases h
            · rename_i is' r' hp
              injection h with h; injection h with h1 h2; subst h1 h2
              obtain ⟨t1, e, g1, g2⟩ := item_iff.mp hi
              have hlen : l1.length < f := by
                obtain ⟨k, u, hk, rfl⟩ := item_head g1
                obtain ⟨x, y, rfl, _⟩ := hk
                have := congrArg List.length e
                simp only [List.length_append, List.length_cons] at this hf
                omega
              obtain ⟨t', rfl, g6⟩ := (ih hlen).mp hp
              exact ⟨_, by rw [e]; simp only [List.append_assoc], .cons g1 g6⟩
    · rintro ⟨t, rfl, hp⟩
      cases hp with
      | nil => simp [items]
      | @cons t t' i is hi hp =>
        have h1 := item_iff.mpr ⟨t, rfl, hi, items_stops hp r⟩
        obtain ⟨k, u, hk, rfl⟩ := item_head hi
        obtain ⟨c, w, hcw, hc⟩ := key_head (r := u ++ (t' ++ ']' :: r)) hk
        have hl : (t' ++ ']' :: r).length < f := by
          obtain ⟨x, y, rfl, _⟩ := hk
          simp only [List.length_append, List.length_cons] at hf ⊢
          omega
        have e : k ++ u ++ t' ++ ']' :: r = k ++ (u ++ (t' ++ ']' :: r)) := by simp only [List.append_assoc]
        rw [List.append_assoc, hcw] at h1
        rw [e, hcw]
        simp only [items]
        rw [if_neg hc, h1]
        simp only
        rw [(ih hl).mpr ⟨t', rfl, hp⟩]

theorem assemble_iff {is : List Item} {g : Gml} : assemble is = some g ↔ Graph is g := by
  obtain ⟨gd, gn, ge, go⟩ := g
  unfold assemble
  constructor
  · intro h
    split at h
    · cases h
    · rename_i hl
      split at h
      · rename_i hd
        injection h with h; injection h with h1 h2 h3 h4; subst h1 h2 h3 h4
        refine .mk rfl rfl rfl (distinct_iff.mp hd) ?_
        cases e : is.filterMap Item.directed? with
        | nil => left; simp
        | cons x xs =>
          rw [e] at hl
          cases xs with
          | nil => right; simp
          | cons => simp at hl
      · cases h
  · rintro ⟨h1, h2, h3, h4, h5⟩
    simp only at h1 h2 h3 h4 h5
    subst h1 h2 h3
    rcases h5 with ⟨h5, rfl⟩ | h5
    · rw [if_neg (by simp [h5]), if_pos (distinct_iff.mpr h4), h5]; rfl
    · rw [if_neg (by simp [h5]), if_pos (distinct_iff.mpr h4), h5]; rfl

theorem tag_iff {k l r : List Char} : tag k l = some r ↔ l = k ++ r := by
  induction k generalizing l with
  | nil => simp [tag]
  | cons c k ih =>
    cases l with
    | nil => simp [tag]
    | cons d l =>
      simp only [tag]
      split
      · rename_i e; subst e; rw [ih]; simp
      · rename_i e; simp only [List.cons_append, List.cons.injEq]
        constructor
        · intro h; cases h
        · intro h; exact (e h.1.symm).elim

/-! ## The theorems -/

/-- A text is read as a graph exactly if it begins with a text of that graph in the grammar. -/
theorem C82_grammar {l : List Char} {g : Gml} : parse l = some g ↔ ∃ t rest, l = t ++ rest ∧ Doc t g := by
  constructor
  · intro h
    have hsp := List.takeWhile_append_dropWhile (p := isMs) (l := l)
    unfold parse at h
    split at h
    · cases h
    · rename_i l1 h1
      rw [tag_iff] at h1
      have hsp1 := List.takeWhile_append_dropWhile (p := isSp) (l := l1)
      split at h
      · cases h
      · rename_i c t hd
        split at h
        · rename_i hc; subst hc
          split at h
          · cases h
          · rename_i l2 hn
            split at h
            · cases h
            · rename_i is r hi
              obtain ⟨br, rfl, g1, _⟩ := newline_iff.mp hn
              obtain ⟨t', rfl, g2⟩ := (items_iff (Nat.lt_succ_self _)).mp hi
              refine ⟨_, r, ?_, .mk (w := l.takeWhile isMs) (b := l1.takeWhile isSp) (fun c hc => isMs_iff.mp (takeWhile_mem c hc)) (fun c hc => isSp_iff.mp (takeWhile_mem c hc)) g1 g2 (assemble_iff.mp h)⟩
              conv => lhs; rw [← hsp, h1, ← hsp1, hd]
              simp only [List.append_assoc, List.cons_append, List.nil_append]
        · cases h
  · rintro ⟨_, rest, rfl, h⟩
    cases h with
    | @mk w b br t is _ h1 h2 h3 h4 h5 =>
      have e : w ++ (kGraph ++ (b ++ '[' :: (br ++ (t ++ [']'])))) ++ rest = w ++ (kGraph ++ (b ++ '[' :: (br ++ (t ++ ']' :: rest)))) := by
        simp only [List.append_assoc, List.cons_append, List.nil_append]
      have hd : (w ++ (kGraph ++ (b ++ '[' :: (br ++ (t ++ ']' :: rest))))).dropWhile isMs = kGraph ++ (b ++ '[' :: (br ++ (t ++ ']' :: rest))) :=
        dropWhile_all (fun c hc => isMs_iff.mpr (h1 c hc)) (by intro c hc; simp [kGraph] at hc; subst hc; decide)
      have hd2 : (b ++ '[' :: (br ++ (t ++ ']' :: rest))).dropWhile isSp = '[' :: (br ++ (t ++ ']' :: rest)) :=
        dropWhile_all (blank_sp h2) (by intro c hc; simp at hc; subst hc; decide)
      unfold parse
      rw [e, hd, tag_iff.mpr rfl]
      simp only [hd2, if_true]
      rw [newline_iff.mpr ⟨br, rfl, h3, items_stops h4 rest⟩]
      simp only
      rw [(items_iff (Nat.lt_succ_self _)).mpr ⟨t, rfl, h4⟩]
      exact assemble_iff.mpr h5

/-- A text denotes one graph. -/
theorem C82_unique {t : List Char} {g g' : Gml} (h : Doc t g) (h' : Doc t g') : g = g' := by
  have h1 : parse t = some g := C82_grammar.mpr ⟨t, [], by simp, h⟩
  have h2 : parse t = some g' := C82_grammar.mpr ⟨t, [], by simp, h'⟩
  rw [h1] at h2; injection h2

/-- FINDING: nothing that follows the closing bracket is looked at. -/
theorem C82_rest {t : List Char} {g : Gml} (h : Doc t g) (rest : List Char) : parse (t ++ rest) = some g :=
  C82_grammar.mpr ⟨t, rest, rfl, h⟩

theorem pairs_int {t : List Char} {ps : List Pair} (h : Pairs t ps) : ∀ k n, (k, Val.int n) ∈ ps → n < 2 ^ 31 := by
  induction h with
  | nil => intro k n h; cases h
  | cons _ _ hv _ _ ih =>
    intro k n h
    rcases List.mem_cons.mp h with h | h
    · injection h with h1 h2
      subst h2
      cases hv with
      | int _ _ hi => exact hi.2.2
    · exact ih k n h

theorem items_mem {t : List Char} {is : List Item} (h : Items t is) : ∀ i ∈ is, ∃ t, ItemText t i := by
  induction h with
  | nil => intro i h; cases h
  | cons h1 _ ih =>
    intro i h
    rcases List.mem_cons.mp h with rfl | h
    · exact ⟨_, h1⟩
    · exact ih i h

/-- Numbers of nodes are those in the text: the conversion to 32 bits does not change them. -/
theorem C82_ids {l : List Char} {g : Gml} (h : parse l = some g) : (∀ n ∈ g.nodes, ∀ i, n.id = some i → i < 2 ^ 31) ∧ ∀ e ∈ g.edges, e.source < 2 ^ 31 ∧ e.target < 2 ^ 31 := by
  obtain ⟨t, rest, hl, hd⟩ := C82_grammar.mp h
  clear h hl
  cases hd with
  | @mk w b br t is _ _ _ _ hi hg =>
    obtain ⟨g1, g2, _, _, _⟩ := hg
    rw [g1, g2]
    clear g1 g2
    have key := items_mem hi
    constructor
    · intro n hn i hid
      obtain ⟨x, hx, e⟩ := List.mem_filterMap.mp hn
      obtain ⟨t, ht⟩ := key x hx
      cases ht <;> simp [Item.node?] at e
      rename_i hb hno
      subst e
      cases hb with
      | mk _ _ hp _ _ =>
        rcases hno.1 with ⟨j, hj, hm⟩ | ⟨hj, _⟩
        · rw [hj] at hid; injection hid with hid; subst hid; exact pairs_int hp _ _ hm
        · rw [hj] at hid; cases hid
    · intro n hn
      obtain ⟨x, hx, e⟩ := List.mem_filterMap.mp hn
      obtain ⟨t, ht⟩ := key x hx
      cases ht <;> simp [Item.edge?] at e
      rename_i hb hno
      subst e
      cases hb with
      | mk _ _ hp _ _ => exact ⟨pairs_int hp _ _ hno.1, pairs_int hp _ _ hno.2.1⟩

/-- FINDING: a backslash escapes nothing, a quote after it ends the string. -/
theorem C82_no_escape {b s r : List Char} {c : Char} (hb : Blank b) (hs : '"' ∉ s) (hc : ¬ White c) : value (b ++ ('"' :: (s ++ '\\' :: '"' :: c :: r))) = none := by
  cases e : value (b ++ ('"' :: (s ++ '\\' :: '"' :: c :: r))) with
  | none => rfl
  | some x =>
    exfalso
    obtain ⟨v, r'⟩ := x
    obtain ⟨b', s', br, he, g1, g2, g3, g4⟩ := value_iff.mp e
    have h1 : (b ++ ('"' :: (s ++ '\\' :: '"' :: c :: r))).dropWhile isSp = '"' :: (s ++ '\\' :: '"' :: c :: r) :=
      dropWhile_all (blank_sp hb) (by intro c hc; simp at hc; subst hc; decide)
    have h2 : (b' ++ (s' ++ (br ++ r'))).dropWhile isSp = s' ++ (br ++ r') := by
      apply dropWhile_all (blank_sp g1)
      intro x hx
      obtain ⟨y, t, rfl, hy⟩ := val_head g2
      simp at hx; subst hx
      cases e : isSp y with
      | false => rfl
      | true => rw [sp_ms e] at hy; cases hy
    rw [he, h2] at h1
    cases g2 with
    | int _ n hi =>
      obtain ⟨y, t, rfl, hy⟩ : ∃ y t, s' = y :: t ∧ Digit y := by
        cases s' with
        | nil => exact (hi.1 rfl).elim
        | cons y t => exact ⟨y, t, rfl, rep_digits hi.2.1 y (by simp)⟩
      simp at h1
      exact (digit_apart hy).2.2.2.2.2.2.2 h1.1
    | float _ hf _ =>
      obtain ⟨sg, m, ex, k1, k2, _, rfl⟩ := hf
      obtain ⟨y, t, rfl, hy⟩ := mant_head k2
      rcases k1 with rfl | rfl | rfl
      · simp at h1
        rcases hy with hy | hy
        · exact (digit_apart hy).2.2.2.2.2.2.2 h1.1
        · rw [hy] at h1; exact absurd h1.1 (by decide)
      · simp at h1
      · simp at h1
    | str u h0 hq =>
      have h3 : u ++ '"' :: (br ++ r') = (s ++ ['\\']) ++ '"' :: (c :: r) := by simpa using h1
      have hs' : '"' ∉ s ++ ['\\'] := by simp [hs]
      have t1 : (u ++ '"' :: (br ++ r')).takeWhile (fun c => c != '"') = u := takeWhile_all (fun c hc => by simp; rintro rfl; exact hq hc) (by intro c hc; simp at hc; simp [← hc])
      have t2 : ((s ++ ['\\']) ++ '"' :: (c :: r)).takeWhile (fun c => c != '"') = s ++ ['\\'] := takeWhile_all (fun c hc => by simp; rintro rfl; exact hs' hc) (by intro c hc; simp at hc; simp [← hc])
      rw [h3, t2] at t1
      rw [← t1] at h3
      have h4 := List.append_cancel_left h3
      injection h4 with _ h4
      exact hc (break_head g3 r' c (by rw [h4]; rfl))

end Shadow.Gml
