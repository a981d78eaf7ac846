import Verif.MemInfo.Model

/-!
# C105: the reported memory is what the kernel says, in bytes
-/
namespace Shadow.MemInfo

/-! ## Specification: lines as the kernel writes them -/

/-- A line: a name, spaces, digits, and whether " kB" follows. -/
structure Line where
  name : Str
  pad : Nat
  digits : List Nat
  kb : Bool

/-- Names without colon and white space; decimal digits, at least one. -/
def Line.Ok (l : Line) : Prop := (∀ c ∈ l.name, c ≠ ':' ∧ ws c = false) ∧ l.digits ≠ [] ∧ ∀ d ∈ l.digits, d < 10

/-- The character of a digit. -/
def chr (d : Nat) : Char := Char.ofNat (48 + d)

def Line.text (l : Line) : Str := l.name ++ ':' :: (List.replicate l.pad ' ' ++ (l.digits.map chr ++ if l.kb then [' ', 'k', 'B'] else []))

/-- The number that digits stand for: each counts ten times as much as the next. -/
def value : List Nat → Nat
  | [] => 0
  | d :: l => d * 10 ^ l.length + value l

/-- In bytes. -/
def Line.bytes (l : Line) : Nat := value l.digits * if l.kb then 1024 else 1

/-! ## Lemmas -/

theorem digit_chr (d : Nat) (h : d < 10) : digit (chr d) = some d ∧ ws (chr d) = false ∧ chr d ≠ ' ' ∧ chr d ≠ '+' := by
  have : ∀ d : Fin 10, digit (chr d) = some d.1 ∧ ws (chr d) = false ∧ chr d ≠ ' ' ∧ chr d ≠ '+' := by decide +kernel
  exact this ⟨d, h⟩

theorem splitOnce_none (c : Char) (s : Str) (h : c ∉ s) : splitOnce c s = none := by
  induction s with
  | nil => rfl
  | cons x s ih =>
    simp only [List.mem_cons, not_or] at h
    rw [splitOnce, if_neg (Ne.symm h.1), ih h.2]; rfl

theorem splitOnce_some (c : Char) (a b : Str) (h : c ∉ a) : splitOnce c (a ++ c :: b) = some (a, b) := by
  induction a with
  | nil => simp [splitOnce]
  | cons x a ih =>
    simp only [List.mem_cons, not_or] at h
    rw [List.cons_append, splitOnce, if_neg (Ne.symm h.1), ih h.2]; rfl

theorem rsplitOnce_none (c : Char) (s : Str) (h : c ∉ s) : rsplitOnce c s = none := by
  rw [rsplitOnce, splitOnce_none c _ (by simpa using h)]; rfl

theorem rsplitOnce_some (c : Char) (a b : Str) (h : c ∉ b) : rsplitOnce c (a ++ c :: b) = some (a, b) := by
  have : (a ++ c :: b).reverse = b.reverse ++ c :: a.reverse := by simp
  rw [rsplitOnce, this, splitOnce_some c _ _ (by simpa using h)]
  simp

theorem dropWhile_head (s : Str) (h : ∀ c, s.head? = some c → ws c = false) : s.dropWhile ws = s := by
  cases s with
  | nil => rfl
  | cons c s => rw [List.dropWhile_cons, h c rfl]; rfl

theorem trim_id (s : Str) (h1 : ∀ c, s.head? = some c → ws c = false) (h2 : ∀ c, s.getLast? = some c → ws c = false) : trim s = s := by
  unfold trim
  rw [dropWhile_head s h1, dropWhile_head s.reverse (by simpa using h2), List.reverse_reverse]

theorem trim_pad (n : Nat) (s : Str) : trim (List.replicate n ' ' ++ s) = trim s := by
  unfold trim
  congr 3
  induction n with
  | zero => rfl
  | succ n ih => rw [List.replicate_succ, List.cons_append, List.dropWhile_cons]; simpa [ws] using ih

theorem parseFrom_digits (l : List Nat) (h : ∀ d ∈ l, d < 10) (acc : Nat) (ha : acc < 2 ^ 64) :
    parseFrom acc (l.map chr) = if acc * 10 ^ l.length + value l < 2 ^ 64 then some (acc * 10 ^ l.length + value l) else none := by
  induction l generalizing acc with
  | nil => simp [parseFrom, value]; omega
  | cons d l ih =>
    have e : acc * 10 ^ (d :: l).length + value (d :: l) = (acc * 10 + d) * 10 ^ l.length + value l := by
      simp only [List.length_cons, value, Nat.pow_succ, Nat.add_mul]
      rw [Nat.mul_comm (10 ^ l.length) 10, ← Nat.mul_assoc]; omega
    rw [List.map_cons, parseFrom, (digit_chr d (h d (by simp))).1]
    simp only
    rw [e]
    split
    · rename_i hd
      exact ih (fun d hd => h d (by simp [hd])) _ hd
    · rename_i hd
      have : acc * 10 + d ≤ (acc * 10 + d) * 10 ^ l.length := Nat.le_mul_of_pos_right _ (Nat.pow_pos (by omega))
      rw [if_neg (by omega)]

theorem parse_digits (l : List Nat) (h0 : l ≠ []) (h : ∀ d ∈ l, d < 10) : parse (l.map chr) = if value l < 2 ^ 64 then some (value l) else none := by
  have e : parse (l.map chr) = parseFrom 0 (l.map chr) := by
    cases l with
    | nil => exact absurd rfl h0
    | cons d l =>
      have := (digit_chr d (h d (by simp))).2.2.2
      rw [List.map_cons]
      unfold parse
      split
      · rename_i hx; cases hx
      · rename_i hx; injection hx with hx _; exact absurd hx this
      · rfl
  rw [e, parseFrom_digits l h 0 (by omega)]
  simp

theorem map_chr (l : List Nat) (h : ∀ d ∈ l, d < 10) : ∀ c ∈ l.map chr, ws c = false ∧ c ≠ ' ' := by
  intro c hc
  obtain ⟨d, hd, rfl⟩ := List.mem_map.1 hc
  have := digit_chr d (h d hd)
  exact ⟨this.2.1, this.2.2.1⟩

theorem line_text (l : Line) (h : l.Ok) : line l.text = some (l.name, l.digits.map chr, if l.kb then some ['k', 'B'] else none) := by
  obtain ⟨hn, h0, hd⟩ := h
  have hm := map_chr l.digits hd
  have hc : ':' ∉ l.name := fun x => (hn _ x).1 rfl
  have tn : trim l.name = l.name := trim_id _ (fun c hc => (hn c (List.mem_of_head? hc)).2) (fun c hc => (hn c (List.mem_of_getLast? hc)).2)
  have hh : ∀ r c, (l.digits.map chr ++ r).head? = some c → ws c = false := by
    intro r c hx
    cases hl : l.digits with
    | nil => exact absurd hl h0
    | cons d k =>
      rw [hl] at hx hm
      simp at hx
      exact (hm c (by simp [hx])).1
  unfold line Line.text
  rw [splitOnce_some ':' _ _ hc]
  simp only [trim_pad, tn]
  cases hk : l.kb with
  | true =>
    simp only [if_true]
    rw [trim_id _ (hh _) (by intro c hx; simp at hx; subst hx; decide), rsplitOnce_some ' ' _ _ (by decide)]
  | false =>
    simp only [Bool.false_eq_true, if_false]
    rw [trim_id _ (hh _) (by intro c hx; rw [List.append_nil] at hx; exact (hm c (List.mem_of_getLast? hx)).1), List.append_nil, rsplitOnce_none ' ' _ (fun x => (hm _ x).2 rfl)]

/-- What a line does. -/
theorem step_text (m : Info) (l : Line) (h : l.Ok) (hv : value l.digits < 2 ^ 64) (n : Str) :
    step m l.text n = if n = l.name ∧ n ∈ known then (if l.bytes < 2 ^ 64 then some l.bytes else none) else m n := by
  unfold step
  rw [line_text l h]
  simp only
  rw [parse_digits l.digits h.2.1 h.2.2, if_pos hv]
  simp only
  by_cases hk : known.contains l.name = true
  · rw [if_pos hk]
    have hk' : l.name ∈ known := by simpa using hk
    by_cases hn : n = l.name
    · subst hn
      simp only [if_true, true_and, hk']
      unfold asBaseUnit Line.bytes
      cases l.kb <;> simp
    · simp [hn]
  · have hk' : l.name ∉ known := by simpa using hk
    rw [if_neg hk, if_neg]
    rintro ⟨rfl, h2⟩
    exact hk' h2

/-! ## Theorems -/

/-- For every file of lines as the kernel writes them, with numbers of 64 bits and each name once: a field that is kept is there if, and only if, it is in the file, with the number of bytes that the line says, unless
that is too much for 64 bits. -/
theorem C105_fields (ls : List Line) (h : ∀ l ∈ ls, l.Ok ∧ value l.digits < 2 ^ 64) (hn : (ls.map (·.name)).Nodup) :
    (∀ l ∈ ls, l.name ∈ known → meminfo (ls.map Line.text) l.name = if l.bytes < 2 ^ 64 then some l.bytes else none)
      ∧ ∀ n, (n ∉ known ∨ ∀ l ∈ ls, l.name ≠ n) → meminfo (ls.map Line.text) n = none := by
  have gen : ∀ m : Info, (∀ l ∈ ls, l.name ∈ known → (ls.map Line.text).foldl step m l.name = if l.bytes < 2 ^ 64 then some l.bytes else none)
      ∧ ∀ n, (n ∉ known ∨ ∀ l ∈ ls, l.name ≠ n) → (ls.map Line.text).foldl step m n = m n := by
    induction ls with
    | nil => intro m; exact ⟨by simp, by simp⟩
    | cons l ls ih =>
      intro m
      simp only [List.map_cons, List.nodup_cons] at hn
      have hl := h l (by simp)
      obtain ⟨i1, i2⟩ := ih (fun x hx => h x (by simp [hx])) hn.2 (step m l.text)
      constructor
      · intro x hx hk
        rw [List.map_cons, List.foldl_cons]
        rcases List.mem_cons.1 hx with rfl | hx
        · rw [i2 x.name (.inr (fun y hy e => hn.1 (List.mem_map.2 ⟨y, hy, e⟩))), step_text m x hl.1 hl.2, if_pos ⟨rfl, hk⟩]
        · exact i1 x hx hk
      · intro n hx
        rw [List.map_cons, List.foldl_cons, i2 n (hx.imp id fun f y hy => f y (by simp [hy])), step_text m l hl.1 hl.2, if_neg]
        rintro ⟨rfl, hk⟩
        rcases hx with hx | hx
        · exact hx hk
        · exact hx l (by simp) rfl
  exact gen fun _ => none

/-- A line without a colon changes nothing, wherever it is. -/
theorem C105_other (m : Info) (l : Str) (h : ':' ∉ l) : step m l = m := by
  unfold step line
  rw [splitOnce_none ':' l h]

/-- A word: something, without white space. -/
def Word (w : Str) : Prop := w ≠ [] ∧ ∀ c ∈ w, ws c = false

/-- A line with a name, spaces, a word and a unit. -/
theorem line_words (name w u : Str) (pad : Nat) (hn : ∀ c ∈ name, c ≠ ':' ∧ ws c = false) (hw : Word w) (hu : Word u) :
    line (name ++ ':' :: (List.replicate pad ' ' ++ (w ++ ' ' :: u))) = some (name, w, some u) := by
  have hc : ':' ∉ name := fun x => (hn _ x).1 rfl
  have tn : trim name = name := trim_id _ (fun c hc => (hn c (List.mem_of_head? hc)).2) (fun c hc => (hn c (List.mem_of_getLast? hc)).2)
  have h1 : ∀ c, (w ++ ' ' :: u).head? = some c → ws c = false := by
    intro c hx
    cases w with
    | nil => exact absurd rfl hw.1
    | cons x w => simp at hx; exact hw.2 c (by simp [hx])
  have h2 : ∀ c, (w ++ ' ' :: u).getLast? = some c → ws c = false := by
    intro c hx
    have : (w ++ ' ' :: u).getLast? = u.getLast? := by
      have e : w ++ ' ' :: u = (w ++ [' ']) ++ u := by simp
      rw [e, List.getLast?_append, List.getLast?_eq_some_getLast hu.1]; rfl
    rw [this] at hx
    exact hu.2 c (List.mem_of_getLast? hx)
  have h3 : ' ' ∉ u := fun x => by have := hu.2 _ x; simp [ws] at this
  unfold line
  rw [splitOnce_some ':' _ _ hc]
  simp only [trim_pad, tn]
  rw [trim_id _ h1 h2, rsplitOnce_some ' ' _ _ h3]

theorem parseFrom_bad (w : Str) (c : Char) (hc : c ∈ w) (hd : digit c = none) (acc : Nat) : parseFrom acc w = none := by
  induction w generalizing acc with
  | nil => simp at hc
  | cons x w ih =>
    rw [parseFrom]
    rcases List.mem_cons.1 hc with rfl | hc
    · rw [hd]
    · cases digit x with
      | none => rfl
      | some d =>
        simp only
        split
        · exact ih hc _
        · rfl

/-- A number in a unit other than bytes and kilobytes is not reported, rather than reported wrong. -/
theorem C105_unit (m : Info) (name u : Str) (pad : Nat) (ds : List Nat) (hn : ∀ c ∈ name, c ≠ ':' ∧ ws c = false) (hk : name ∈ known) (h0 : ds ≠ []) (hd : ∀ d ∈ ds, d < 10) (hv : value ds < 2 ^ 64) (hu : Word u)
    (hb : u ≠ ['B']) (hkb : u ≠ ['k', 'B']) : step m (name ++ ':' :: (List.replicate pad ' ' ++ (ds.map chr ++ ' ' :: u))) name = none := by
  unfold step
  rw [line_words name _ u pad hn ⟨by simpa using h0, fun c hc => (map_chr ds hd c hc).1⟩ hu]
  simp only
  rw [parse_digits ds h0 hd, if_pos hv]
  simp only
  rw [if_pos (by simpa using hk), if_pos rfl]
  simp [asBaseUnit, hb, hkb]

/-- A line in which a character other than a digit stands in the number, but for a plus in front, changes nothing. -/
theorem C105_bad (m : Info) (name w u : Str) (pad : Nat) (hn : ∀ c ∈ name, c ≠ ':' ∧ ws c = false) (hw : Word w) (hu : Word u) (c : Char) (hc : c ∈ w) (hd : c.toNat < 48 ∨ 57 < c.toNat) (hp : c ≠ '+') :
    step m (name ++ ':' :: (List.replicate pad ' ' ++ (w ++ ' ' :: u))) = m := by
  have hdig : digit c = none := by
    unfold digit
    rw [if_neg]
    have e1 : '0'.toNat = 48 := rfl
    have e2 : '9'.toNat = 57 := rfl
    omega
  have : parse w = none := by
    unfold parse
    split
    · rfl
    · exact parseFrom_bad _ c ((List.mem_cons.1 hc).resolve_left hp) hdig _
    · exact parseFrom_bad _ c hc hdig _
  unfold step
  rw [line_words name w u pad hn hw hu]
  simp only
  rw [this]

/-- The names of the fields that are kept. -/
theorem C105_known (n : String) : n.toList ∈ known ↔ n = "MemTotal" ∨ n = "MemFree" ∨ n = "SwapTotal" ∨ n = "SwapFree" ∨ n = "Buffers" ∨ n = "Cached" ∨ n = "SReclaimable" ∨ n = "Shmem" := by
  have : ∀ k : String, n.toList = k.toList ↔ n = k := fun k => ⟨fun h => String.toList_inj.1 h, fun h => by rw [h]⟩
  simp only [known, List.mem_cons, List.not_mem_nil, or_false, this]

/-- No field is ever there whose name is not kept, and every number fits in 64 bits, whatever the file says. -/
theorem C105_sound (lines : List Str) (n : Str) (v : Nat) (h : meminfo lines n = some v) : n ∈ known ∧ v < 2 ^ 64 := by
  have gen : ∀ (lines : List Str) (m : Info), (∀ n v, m n = some v → n ∈ known ∧ v < 2 ^ 64) → ∀ n v, lines.foldl step m n = some v → n ∈ known ∧ v < 2 ^ 64 := by
    intro lines
    induction lines with
    | nil => intro m hm; exact hm
    | cons l lines ih =>
      intro m hm
      apply ih
      intro n v hs
      unfold step at hs
      cases hl : line l with
      | none => rw [hl] at hs; exact hm n v hs
      | some t =>
        obtain ⟨name, val, unit⟩ := t
        rw [hl] at hs
        simp only at hs
        cases hp : parse val with
        | none => rw [hp] at hs; exact hm n v hs
        | some w =>
          rw [hp] at hs
          simp only at hs
          by_cases hk : known.contains name = true
          · rw [if_pos hk] at hs
            by_cases hn : n = name
            · subst hn
              rw [if_pos rfl] at hs
              refine ⟨by simpa using hk, ?_⟩
              unfold asBaseUnit at hs
              simp only at hs
              split at hs
              · cases hs
              · split at hs
                · cases hs; assumption
                · cases hs
            · rw [if_neg hn] at hs; exact hm n v hs
          · rw [if_neg hk] at hs; exact hm n v hs
  exact gen lines (fun _ => none) (by simp) n v h

/-! ### Examples -/

theorem C105_example : (⟨"MemTotal".toList, 7, [1, 6, 0], true⟩ : Line).text = "MemTotal:       160 kB".toList ∧ value [1, 6, 0] = 160
    ∧ meminfo ["MemTotal:       160 kB".toList, "HugePages_Total:   5".toList, "nothing".toList, "MemFree: x kB".toList, "Cached: 7".toList, "Shmem: 1 MB".toList] "MemTotal".toList = some 163840
    ∧ meminfo ["Cached: 7".toList] "Cached".toList = some 7 ∧ meminfo ["MemFree: x kB".toList] "MemFree".toList = none ∧ meminfo ["Shmem: 1 MB".toList] "Shmem".toList = none
    ∧ meminfo ["Shmem: 18014398509481984 kB".toList] "Shmem".toList = none := by
  decide +kernel

theorem C105_example_ok : (⟨"MemTotal".toList, 7, [1, 6, 0], true⟩ : Line).Ok := by
  refine ⟨by decide, by simp, by decide⟩

end Shadow.MemInfo
