import Verif.Units.Model
/-!
# C43, C46: configured quantities convert exactly and parse to what they say
-/
namespace Shadow.Units

variable {P : Type}

/-! ## C43: conversion -/

/-- **C43.**  What every answer of a conversion means.  `ok`: the same physical quantity (value times
    magnitude); `precision`: the new prefix does not divide the old one; `bounds`: the exact result
    does not fit a `u64`; `panic`: the conversion factor itself does not fit a `u64`. -/
theorem C43_convert (T : PrefixType P) (hm : ∀ p, 0 < T.mag p) (q : Qty P) (t : P) :
    match convert T q t with
    | .ok r => r.pre = t ∧ r.value * T.mag t = q.value * T.mag q.pre ∧ r.value ≤ u64Max
    | .precision => ¬ T.mag t ∣ T.mag q.pre
    | .bounds => T.mag t ∣ T.mag q.pre ∧ ∀ v, v * T.mag t = q.value * T.mag q.pre → u64Max < v
    | .panic => T.mag t ∣ T.mag q.pre ∧ u64Max * T.mag t < T.mag q.pre := by
  have ht := hm t
  unfold convert factor
  by_cases hd : T.mag q.pre % T.mag t = 0
  · obtain ⟨k, hk⟩ := Nat.dvd_of_mod_eq_zero hd
    have hq : T.mag q.pre / T.mag t = k := by rw [hk]; exact Nat.mul_div_cancel_left k ht
    have hx : ∀ v, v * T.mag t = q.value * T.mag q.pre ↔ v = q.value * k := by
      intro v
      rw [hk, show q.value * (T.mag t * k) = (q.value * k) * T.mag t by
        rw [Nat.mul_comm (T.mag t), Nat.mul_assoc]]
      exact ⟨fun h => Nat.eq_of_mul_eq_mul_right ht h, fun h => by rw [h]⟩
    rw [if_neg (by simp [hd])]
    simp only [hq]
    by_cases h1 : k > u64Max
    · rw [if_pos h1]
      refine ⟨⟨k, hk⟩, ?_⟩
      rw [hk, Nat.mul_comm]
      exact Nat.mul_lt_mul_of_pos_left (by omega) ht
    · rw [if_neg h1]
      by_cases h2 : q.value * k > u64Max
      · rw [if_pos h2]
        exact ⟨⟨k, hk⟩, fun v hv => by rw [(hx v).mp hv]; omega⟩
      · rw [if_neg h2]
        exact ⟨rfl, (hx _).mpr rfl, Nat.le_of_not_lt h2⟩
  · rw [if_pos hd]
    exact fun h => hd (Nat.mod_eq_zero_of_dvd h)

/-- All magnitudes are positive. -/
theorem si_pos (p) : 0 < si.mag p := by cases p <;> decide
theorem siUpper_pos (p) : 0 < siUpper.mag p := by cases p <;> decide
theorem tm_pos (p) : 0 < tm.mag p := by cases p <;> decide
theorem tmUpper_pos (p) : 0 < tmUpper.mag p := by cases p <;> decide

/-- **C43.**  A conversion succeeds exactly when the target prefix divides the source prefix and the
    exact result fits, for the prefix types used by the configuration; in particular none panics. -/
theorem C43_succeeds_iff (T : PrefixType P) (hm : ∀ p, 0 < T.mag p) (q : Qty P) (t : P)
    (hs : T.mag q.pre ≤ u64Max * T.mag t) :
    (∃ r, convert T q t = .ok r) ↔
      T.mag t ∣ T.mag q.pre ∧ ∃ v, v ≤ u64Max ∧ v * T.mag t = q.value * T.mag q.pre := by
  have h := C43_convert T hm q t
  constructor
  · rintro ⟨r, hr⟩
    rw [hr] at h
    refine ⟨?_, r.value, h.2.2, h.2.1⟩
    unfold convert factor at hr
    by_cases hd : T.mag q.pre % T.mag t = 0
    · exact Nat.dvd_of_mod_eq_zero hd
    · simp [hd] at hr
  · rintro ⟨h1, v, h2, h3⟩
    cases hc : convert T q t with
    | ok r => exact ⟨r, rfl⟩
    | precision => rw [hc] at h; exact absurd h1 h
    | bounds => rw [hc] at h; have := h.2 v h3; omega
    | panic => rw [hc] at h; have := h.2; omega

/-- No conversion of a time, a byte count or a bandwidth panics. -/
theorem C43_no_panic :
    (∀ (q : Qty SiUpper) t, convert siUpper q t ≠ .panic)
    ∧ (∀ (q : Qty Tm) t, convert tm q t ≠ .panic)
    ∧ (∀ (q : Qty TmUpper) t, convert tmUpper q t ≠ .panic) := by
  refine ⟨fun q t h => ?_, fun q t h => ?_, fun q t h => ?_⟩
  · have := C43_convert siUpper siUpper_pos q t
    rw [h] at this
    have h2 := this.2
    revert h2
    cases q.pre <;> cases t <;> decide
  · have := C43_convert tm tm_pos q t
    rw [h] at this
    have h2 := this.2
    revert h2
    cases q.pre <;> cases t <;> decide
  · have := C43_convert tmUpper tmUpper_pos q t
    rw [h] at this
    have h2 := this.2
    revert h2
    cases q.pre <;> cases t <;> decide

/-- The general prefix type does panic: converting any tera- or tebi- quantity, even zero, to nano. -/
theorem C43_si_panics (v : Nat) :
    convert si ⟨v, .tera⟩ .nano = .panic ∧ convert si ⟨v, .tebi⟩ .nano = .panic := by
  constructor <;> simp [convert, factor, si, u64Max]

/-- **C43.**  Converting there and back gives the quantity one started with, whenever both conversions
    succeed. -/
theorem C43_roundtrip (T : PrefixType P) (hm : ∀ p, 0 < T.mag p) (q r s : Qty P) (t : P)
    (h1 : convert T q t = .ok r) (h2 : convert T r q.pre = .ok s) : s = q := by
  have a := C43_convert T hm q t
  have b := C43_convert T hm r q.pre
  rw [h1] at a; rw [h2] at b
  obtain ⟨a1, a2, _⟩ := a
  obtain ⟨b1, b2, _⟩ := b
  rw [a1, a2] at b2
  cases s; cases q
  simp only at b1 b2
  have := Nat.eq_of_mul_eq_mul_right (hm _) b2
  simp [b1, this]

/-- **C43.**  Converting in two steps is converting in one. -/
theorem C43_compose (T : PrefixType P) (hm : ∀ p, 0 < T.mag p) (q r s : Qty P) (t u : P)
    (h1 : convert T q t = .ok r) (h2 : convert T r u = .ok s)
    (hs : T.mag q.pre ≤ u64Max * T.mag u) : convert T q u = .ok s := by
  have a := C43_convert T hm q t
  have b := C43_convert T hm r u
  rw [h1] at a; rw [h2] at b
  obtain ⟨a1, a2, _⟩ := a
  obtain ⟨b1, b2, b3⟩ := b
  rw [a1, a2] at b2
  have d1 : T.mag t ∣ T.mag q.pre := by
    by_cases hd : T.mag q.pre % T.mag t = 0
    · exact Nat.dvd_of_mod_eq_zero hd
    · simp [convert, factor, hd] at h1
  have d2 : T.mag u ∣ T.mag t := by
    by_cases hd : T.mag r.pre % T.mag u = 0
    · rw [a1] at hd; exact Nat.dvd_of_mod_eq_zero hd
    · simp [convert, factor, hd] at h2
  obtain ⟨x, hx⟩ := (C43_succeeds_iff T hm q u hs).mpr ⟨Nat.dvd_trans d2 d1, s.value, b3, b2⟩
  have c := C43_convert T hm q u
  rw [hx] at c
  rw [hx]
  cases x; cases s
  obtain ⟨c1, c2, _⟩ := c
  simp only at b1 b2 c1 c2
  have := Nat.eq_of_mul_eq_mul_right (hm _) (b2.trans c2.symm)
  simp [b1, c1, this]

/-- **C43.**  A configured time becomes exactly its number of nanoseconds, or the program panics when
    that exceeds a `u64` (about 584 years). -/
theorem C43_nanos (q : Qty Tm) :
    toNanos q = if q.value * tm.mag q.pre ≤ u64Max then some (q.value * tm.mag q.pre) else none := by
  have h := C43_convert tm tm_pos q .nano
  have hn := C43_no_panic.2.1 q .nano
  have e : tm.mag .nano = 1 := rfl
  unfold toNanos
  cases hc : convert tm q .nano with
  | ok r =>
    rw [hc] at h
    obtain ⟨_, h2, h3⟩ := h
    rw [e, Nat.mul_one] at h2
    simp only [← h2, h3, if_true]
  | precision => rw [hc, e] at h; exact absurd (Nat.one_dvd _) h
  | bounds =>
    rw [hc, e] at h
    have := h.2 (q.value * tm.mag q.pre) (Nat.mul_one _)
    simp [show ¬ q.value * tm.mag q.pre ≤ u64Max by omega]
  | panic => exact absurd hc hn

/-- A conversion to a larger prefix is refused even when the value divides: 60 seconds are not
    converted to one minute. -/
theorem C43_refuses_exact : convert tm ⟨60, .sec⟩ .min = .precision := by rfl

example : convert tm ⟨10, .min⟩ .sec = .ok ⟨600, .sec⟩ := by rfl
example : convert siUpper ⟨20000000, .tebi⟩ .base = .bounds := by rfl
example : toNanos ⟨3, .hour⟩ = some 10800000000000 := by rfl
example : toNanos ⟨6000000, .hour⟩ = none := by rfl

/-! ## C46: text

Specification: a text denotes a quantity if it is an optional plus sign, a decimal number, white
space, a prefix name or nothing, a suffix or nothing, and trailing white space on the same line. -/

/-- Positional value of decimal digits. -/
def posVal : Str → Nat
  | [] => 0
  | c :: s => (c.toNat - 48) * 10 ^ s.length + posVal s

structure Denotes (T : PrefixType P) (sufs : List Str) (s : Str) (q : Qty P) : Prop where
  ex : ∃ plus ds sp name suf tail,
    s = plus ++ ds ++ sp ++ name ++ suf ++ tail
    ∧ (plus = [] ∨ plus = ['+'])
    ∧ ds ≠ [] ∧ (∀ c ∈ ds, isDigit c = true) ∧ posVal ds = q.value ∧ q.value ≤ u64Max
    ∧ (∀ c ∈ sp, isWs c = true)
    ∧ ((name = [] ∧ q.pre = T.dflt) ∨ name ∈ T.names q.pre)
    ∧ (suf = [] ∨ suf ∈ sufs)
    ∧ (∀ c ∈ tail, isWs c = true ∧ c ≠ '\n')

/-- Conditions on the finite tables that make the grammar unambiguous. -/
structure WF (T : PrefixType P) (sufs : List Str) : Prop where
  complete : ∀ p, p ∈ T.all
  nonempty : ∀ p ∈ T.all, ∀ n ∈ T.names p, n ≠ []
  nameChars : ∀ p ∈ T.all, ∀ n ∈ T.names p, ∀ c ∈ n, isDigit c = false ∧ c ≠ '.' ∧ isWs c = false
  sufChars : ∀ n ∈ sufs, ∀ c ∈ n, isDigit c = false ∧ c ≠ '.' ∧ isWs c = false
  unique : ∀ p ∈ T.all, ∀ n ∈ T.names p, parsePrefix T n = some p
  strip : ∀ n ∈ [] :: T.all.flatMap T.names, ∀ suf ∈ [] :: sufs,
    (sufs.findSome? (stripSuffix (n ++ suf))).getD (n ++ suf) = n
  shown : ∀ p ∈ T.all, (T.shown p = [] ∧ p = T.dflt) ∨ T.shown p ∈ T.names p

theorem wf_time : WF tm timeSuffixes :=
  ⟨by intro p; cases p <;> decide, by decide, by decide, by decide, by decide, by decide, by decide⟩
theorem wf_timeUpper : WF tmUpper timeSuffixes :=
  ⟨by intro p; cases p <;> decide, by decide, by decide, by decide, by decide, by decide, by decide⟩
theorem wf_bytes : WF siUpper byteSuffixes :=
  ⟨by intro p; cases p <;> decide, by decide, by decide, by decide, by decide, by decide, by decide⟩
theorem wf_bits : WF siUpper bitSuffixes :=
  ⟨by intro p; cases p <;> decide, by decide, by decide, by decide, by decide, by decide, by decide⟩

/-! ### Numbers -/

theorem digits_spec (s : Str) : ∀ acc v, digits acc s = some v ↔
    (∀ c ∈ s, isDigit c = true) ∧ v = acc * 10 ^ s.length + posVal s := by
  induction s with
  | nil => intro acc v; simp only [digits, posVal]; simp; exact eq_comm
  | cons c s ih =>
    intro acc v
    simp only [digits]
    by_cases hc : isDigit c = true
    · simp only [hc, if_true, ih, List.mem_cons, forall_eq_or_imp, true_and, posVal, List.length_cons]
      have : (acc * 10 + (c.toNat - 48)) * 10 ^ s.length + posVal s
          = acc * 10 ^ (s.length + 1) + ((c.toNat - 48) * 10 ^ s.length + posVal s) := by
        rw [Nat.add_mul, Nat.pow_succ, Nat.mul_assoc, Nat.mul_comm 10, Nat.add_assoc]
      rw [this]
    · simp [hc]

theorem posVal_append (a b : Str) : posVal (a ++ b) = posVal a * 10 ^ b.length + posVal b := by
  induction a with
  | nil => simp [posVal]
  | cons c a ih =>
    simp only [List.cons_append, posVal, ih, List.length_append, Nat.pow_add, Nat.add_mul,
      Nat.mul_assoc, Nat.add_assoc]

theorem digitChar (d : Nat) (h : d < 10) : isDigit (Char.ofNat (48 + d)) = true
    ∧ (Char.ofNat (48 + d)).toNat - 48 = d := by
  have : d = 0 ∨ d = 1 ∨ d = 2 ∨ d = 3 ∨ d = 4 ∨ d = 5 ∨ d = 6 ∨ d = 7 ∨ d = 8 ∨ d = 9 := by omega
  rcases this with rfl | rfl | rfl | rfl | rfl | rfl | rfl | rfl | rfl | rfl <;> decide

theorem showNat_spec (n : Nat) : showNat n ≠ [] ∧ (∀ c ∈ showNat n, isDigit c = true)
    ∧ posVal (showNat n) = n := by
  induction n using Nat.strongRecOn with
  | ind n ih =>
    unfold showNat
    by_cases h : n < 10
    · simp only [h, if_true]
      have := digitChar n h
      refine ⟨by simp, by simpa using this.1, ?_⟩
      simpa [posVal] using this.2
    · simp only [h, if_false]
      have hd := digitChar (n % 10) (Nat.mod_lt _ (by omega))
      obtain ⟨_, i2, i3⟩ := ih (n / 10) (by omega)
      refine ⟨by simp, ?_, ?_⟩
      · intro c hc
        rcases List.mem_append.mp hc with hc | hc
        · exact i2 c hc
        · simp only [List.mem_singleton] at hc; subst hc; exact hd.1
      · rw [posVal_append, i3]
        simp only [posVal, List.length_cons, List.length_nil, Nat.pow_zero, Nat.mul_one, hd.2]
        omega

theorem parseBody_spec (s : Str) (v : Nat) : parseBody s = some v ↔
    s ≠ [] ∧ (∀ c ∈ s, isDigit c = true) ∧ posVal s = v ∧ v ≤ u64Max := by
  unfold parseBody
  by_cases hs : s = []
  · simp [hs]
  · rw [if_neg hs]
    have hd := digits_spec s 0
    cases h : digits 0 s with
    | none =>
      simp only [reduceCtorEq, ne_eq, false_iff]
      rintro ⟨_, h1, h2, _⟩
      have := (hd v).mpr ⟨h1, by omega⟩
      rw [h] at this; simp at this
    | some y =>
      have hy := (hd y).mp h
      have e : posVal s = y := by omega
      simp only [e, ne_eq, hs, not_false_eq_true, true_and]
      constructor
      · intro hx
        split at hx
        · have := Option.some.inj hx; subst this
          exact ⟨hy.1, rfl, by assumption⟩
        · simp at hx
      · rintro ⟨_, rfl, hle⟩
        rw [if_pos hle]

/-! ### Lists -/

theorem takeWhile_append_stop {p : Char → Bool} {a b : Str} (ha : ∀ c ∈ a, p c = true)
    (hb : ∀ c ∈ b, p c = false) : (a ++ b).takeWhile p = a := by
  induction a with
  | nil => cases b with
    | nil => rfl
    | cons c b => simp [hb c (by simp)]
  | cons c a ih =>
    simp only [List.cons_append, List.takeWhile, ha c (by simp)]
    rw [ih (fun x hx => ha x (List.mem_cons_of_mem _ hx))]

theorem dropWhile_all {p : Char → Bool} {a b : Str} (ha : ∀ c ∈ a, p c = true) :
    (a ++ b).dropWhile p = b.dropWhile p := by
  induction a with
  | nil => rfl
  | cons c a ih =>
    simp only [List.cons_append, List.dropWhile, ha c (by simp)]
    exact ih (fun x hx => ha x (List.mem_cons_of_mem _ hx))

theorem dropWhile_stop {p : Char → Bool} {a b : Str} (hne : a ≠ []) (ha : ∀ c ∈ a, p c = false) :
    (a ++ b).dropWhile p = a ++ b := by
  cases a with
  | nil => exact absurd rfl hne
  | cons c a => simp [ha c (by simp)]

theorem dropWhile_prefix (p : Char → Bool) (s : Str) :
    ∃ a, s = a ++ s.dropWhile p ∧ ∀ c ∈ a, p c = true := by
  induction s with
  | nil => exact ⟨[], rfl, by simp⟩
  | cons c s ih =>
    obtain ⟨a, h1, h2⟩ := ih
    by_cases hc : p c = true
    · refine ⟨c :: a, by simp only [List.dropWhile, hc, List.cons_append, ← h1], ?_⟩
      intro x hx
      rcases List.mem_cons.mp hx with rfl | hx
      · exact hc
      · exact h2 x hx
    · exact ⟨[], by simp [List.dropWhile, hc], by simp⟩

theorem trimEnd_suffix (s : Str) : ∃ a, s = trimEnd s ++ a ∧ ∀ c ∈ a, isWs c = true := by
  obtain ⟨a, h1, h2⟩ := dropWhile_prefix isWs s.reverse
  refine ⟨a.reverse, ?_, fun c hc => h2 c (List.mem_reverse.mp hc)⟩
  have := congrArg List.reverse h1
  simpa [trimEnd] using this

theorem trimEnd_stop {a b : Str} (ha : ∀ c ∈ a, isWs c = false) (hb : ∀ c ∈ b, isWs c = true) :
    trimEnd (a ++ b) = a := by
  unfold trimEnd
  rw [List.reverse_append, dropWhile_all (fun c hc => hb c (List.mem_reverse.mp hc))]
  by_cases hne : a = []
  · subst hne; rfl
  · have := dropWhile_stop (p := isWs) (a := a.reverse) (b := []) (by simpa using hne)
      (fun c hc => ha c (List.mem_reverse.mp hc))
    simp only [List.append_nil] at this
    rw [this, List.reverse_reverse]

theorem dropWhile_idem (p : Char → Bool) (s : Str) : (s.dropWhile p).dropWhile p = s.dropWhile p := by
  induction s with
  | nil => rfl
  | cons c s ih =>
    by_cases hc : p c = true
    · simp only [List.dropWhile, hc]; exact ih
    · simp [List.dropWhile, hc]

theorem digit_notWs (c : Char) (h : isDigit c = true ∨ c = '.' ∨ c = '+' ∨ c = '-') :
    isWs c = false := by
  have hr : 43 ≤ c.toNat ∧ c.toNat ≤ 57 := by
    rcases h with h | rfl | rfl | rfl
    · simp only [isDigit, decide_eq_true_eq] at h
      have h1 : (48 : Nat) ≤ c.toNat := by exact h.1
      have h2 : c.toNat ≤ 57 := by exact h.2
      omega
    all_goals decide
  simp only [isWs, decide_eq_false_iff_not]
  omega

theorem stripSuffix_some {u suf x : Str} (h : stripSuffix u suf = some x) : u = x ++ suf := by
  unfold stripSuffix at h
  split at h
  · rename_i hs
    have hs := List.isSuffixOf_iff_suffix.mp hs
    obtain ⟨y, rfl⟩ := hs
    simp at h
    rw [← h]
  · simp at h

/-! ### The parser accepts exactly the grammar -/

theorem ws_notNum (c : Char) (h : isWs c = true) : isNumChar c = false := by
  cases hd : isNumChar c with
  | false => rfl
  | true =>
    simp only [isNumChar, Bool.or_eq_true, decide_eq_true_eq] at hd
    have := digit_notWs c (by rcases hd with h | h <;> simp [h])
    simp [this] at h

/-- **C46.**  A text is accepted exactly if it denotes a quantity, and is read as that quantity. -/
theorem C46_parse_iff (T : PrefixType P) (sufs : List Str) (wf : WF T sufs) (s : Str) (q : Qty P) :
    parse T sufs s = some q ↔ Denotes T sufs s q := by
  constructor
  · intro h
    unfold parse at h
    cases hc : captures s with
    | none => simp [hc] at h
    | some cr =>
      obtain ⟨num, rest⟩ := cr
      simp only [hc] at h
      -- the groups
      obtain ⟨sign, num', hsign, hhead, hnum, hnch, sp, hsp, hrest, hnl⟩ :
          ∃ sign num' : Str, (sign = [] ∨ sign = ['+'] ∨ sign = ['-'])
            ∧ True
            ∧ num = sign ++ num'
            ∧ (∀ c ∈ num', isNumChar c = true)
            ∧ ∃ sp, (∀ c ∈ sp, isWs c = true) ∧ s = sign ++ num' ++ sp ++ rest
              ∧ '\n' ∉ rest ∧ rest.dropWhile isWs = rest := by
        unfold captures at hc
        simp only at hc
        have hsig : (signOf s = [] ∨ signOf s = ['+'] ∨ signOf s = ['-'])
            ∧ s = signOf s ++ s.drop (signOf s).length := by
          unfold signOf
          cases s with
          | nil => simp
          | cons c r =>
            by_cases h1 : c = '+'
            · subst h1; simp
            · by_cases h2 : c = '-'
              · subst h2; simp
              · simp [h1, h2]
        split at hc
        · simp at hc
        · rename_i hnl
          simp only [Option.some.injEq, Prod.mk.injEq] at hc
          obtain ⟨h1, h2⟩ := hc
          have htw := List.takeWhile_append_dropWhile (p := isNumChar) (l := s.drop (signOf s).length)
          obtain ⟨sp, hsp1, hsp2⟩ := dropWhile_prefix isWs
            ((s.drop (signOf s).length).dropWhile isNumChar)
          rw [h2] at hsp1 hnl
          refine ⟨signOf s, _, hsig.1, trivial, h1.symm, ?_, sp, hsp2, ?_, hnl, ?_⟩
          · intro c hc; exact List.all_eq_true.mp List.all_takeWhile c hc
          · rw [List.append_assoc, List.append_assoc, ← hsp1, htw]; exact hsig.2
          · rw [← h2]; exact dropWhile_idem _ _
      have hnws : ∀ c ∈ num, isWs c = false := by
        intro c hcm
        apply digit_notWs
        rw [hnum] at hcm
        rcases List.mem_append.mp hcm with hm | hm
        · rcases hsign with rfl | rfl | rfl
          · simp at hm
          · simp at hm; simp [hm]
          · simp at hm; simp [hm]
        · have := hnch c hm
          simp only [isNumChar, Bool.or_eq_true, decide_eq_true_eq] at this
          rcases this with h | h <;> simp [h]
      have htrim : trim num = num := by
        unfold trim
        by_cases hne : num = []
        · rw [hne]; rfl
        · have h1 := dropWhile_stop (b := []) hne hnws
          have h2 := trimEnd_stop (b := []) hnws (by simp)
          simp only [List.append_nil] at h1 h2
          rw [h1, h2]
      rw [htrim] at h
      have hunit : trim rest = trimEnd rest := by unfold trim; rw [hnl.2]
      rw [hunit] at h
      obtain ⟨tail, ht1, ht2⟩ := trimEnd_suffix rest
      -- the prefix
      obtain ⟨name, suf, hu, hsuf, p, hp, hname⟩ : ∃ name suf : Str, trimEnd rest = name ++ suf
          ∧ (suf = [] ∨ suf ∈ sufs) ∧ ∃ p,
          (if (sufs.findSome? (stripSuffix (trimEnd rest))).getD (trimEnd rest) = [] then some T.dflt
            else parsePrefix T ((sufs.findSome? (stripSuffix (trimEnd rest))).getD (trimEnd rest)))
              = some p
          ∧ ((name = [] ∧ p = T.dflt) ∨ name ∈ T.names p) := by
        cases hx : (if (sufs.findSome? (stripSuffix (trimEnd rest))).getD (trimEnd rest) = [] then some T.dflt
            else parsePrefix T ((sufs.findSome? (stripSuffix (trimEnd rest))).getD (trimEnd rest))) with
        | none => simp [hx] at h
        | some p =>
          have hnm : ∀ n : Str, (if n = [] then some T.dflt else parsePrefix T n) = some p →
              ((n = [] ∧ p = T.dflt) ∨ n ∈ T.names p) := by
            intro n hn
            by_cases he : n = []
            · simp only [he, if_true, Option.some.injEq] at hn
              exact .inl ⟨he, hn.symm⟩
            · simp only [he, if_false, parsePrefix] at hn
              have := List.find?_some hn
              exact .inr (by simpa using this)
          cases hf : sufs.findSome? (stripSuffix (trimEnd rest)) with
          | none =>
            rw [hf] at hx
            exact ⟨_, [], (List.append_nil _).symm, .inl rfl, p, rfl, hnm _ hx⟩
          | some n =>
            rw [hf] at hx
            obtain ⟨suf, hm, hst⟩ := List.exists_of_findSome?_eq_some hf
            exact ⟨n, suf, stripSuffix_some hst, .inr hm, p, rfl, hnm _ hx⟩
      rw [hp] at h
      simp only at h
      -- the number
      cases hv : parseU64 num with
      | none => simp [hv] at h
      | some v =>
        simp only [hv, Option.some.injEq] at h
        subst h
        have hnumber : (sign = [] ∨ sign = ['+']) ∧ num' ≠ [] ∧ (∀ c ∈ num', isDigit c = true)
            ∧ posVal num' = v ∧ v ≤ u64Max := by
          unfold parseU64 at hv
          rw [hnum] at hv
          rcases hsign with rfl | rfl | rfl
          · have hnp : ([] ++ num').head? ≠ some '+' := by
              cases num' with
              | nil => simp
              | cons c r =>
                intro he
                simp at he
                subst he
                have := hnch '+' (by simp)
                simp [isNumChar, isDigit] at this
            rw [if_neg hnp] at hv
            have := parseBody_spec _ _ |>.mp hv
            exact ⟨.inl rfl, this⟩
          · rw [if_pos (by simp)] at hv
            have := parseBody_spec _ _ |>.mp hv
            exact ⟨.inr rfl, this⟩
          · rw [if_neg (by simp)] at hv
            have := (parseBody_spec _ _ |>.mp hv).2.1 '-' (by simp)
            simp [isDigit] at this
        obtain ⟨g1, g2, g3, g4, g5⟩ := hnumber
        refine ⟨sign, num', sp, name, suf, tail, ?_, g1, g2, g3, g4, g5, hsp, hname, hsuf, ?_⟩
        · rw [hrest, ht1, hu]; simp
        · intro c hc
          refine ⟨ht2 c hc, fun e => hnl.1 ?_⟩
          rw [ht1]; exact List.mem_append_right _ (e ▸ hc)
  · rintro ⟨plus, ds, sp, name, suf, tail, rfl, hplus, hdne, hds, hval, hmax, hsp, hname, hsuf, htail⟩
    have hnameC : ∀ c ∈ name, isDigit c = false ∧ c ≠ '.' ∧ isWs c = false := by
      rcases hname with ⟨rfl, _⟩ | hn
      · simp
      · exact wf.nameChars _ (wf.complete _) _ hn
    have hsufC : ∀ c ∈ suf, isDigit c = false ∧ c ≠ '.' ∧ isWs c = false := by
      rcases hsuf with rfl | hn
      · simp
      · exact wf.sufChars _ hn
    have hu : ∀ c ∈ name ++ suf, isDigit c = false ∧ c ≠ '.' ∧ isWs c = false := by
      intro c hc
      rcases List.mem_append.mp hc with h | h
      · exact hnameC c h
      · exact hsufC c h
    have hnum : ∀ c ∈ ds, isNumChar c = true := fun c hc => by simp [isNumChar, hds c hc]
    have hrest : ∀ c ∈ sp ++ (name ++ suf ++ tail), isNumChar c = false := by
      intro c hc
      rcases List.mem_append.mp hc with h | h
      · exact ws_notNum c (hsp c h)
      · rcases List.mem_append.mp h with h | h
        · have := hu c h; simp [isNumChar, this.1, this.2.1]
        · exact ws_notNum c (htail c h).1
    obtain ⟨d, ds', rfl⟩ : ∃ d ds', ds = d :: ds' := by
      cases ds with
      | nil => exact absurd rfl hdne
      | cons d ds' => exact ⟨d, ds', rfl⟩
    have hd := hds d (by simp)
    have hdp : d ≠ '+' ∧ d ≠ '-' := by
      constructor <;> rintro rfl <;> simp [isDigit] at hd
    have hsign : signOf (plus ++ (d :: ds') ++ sp ++ name ++ suf ++ tail) = plus := by
      rcases hplus with rfl | rfl
      · simp [signOf, hdp]
      · simp [signOf]
    have hdrop : (plus ++ (d :: ds') ++ sp ++ name ++ suf ++ tail).drop plus.length
        = (d :: ds') ++ (sp ++ (name ++ suf ++ tail)) := by
      simp only [List.append_assoc, List.drop_left]
    have htake := takeWhile_append_stop hnum hrest
    have hdw : ((d :: ds') ++ (sp ++ (name ++ suf ++ tail))).dropWhile isNumChar
        = sp ++ (name ++ suf ++ tail) := by
      rw [dropWhile_all hnum]
      by_cases he : sp ++ (name ++ suf ++ tail) = []
      · rw [he]; rfl
      · have := dropWhile_stop (b := []) he hrest
        simpa using this
    -- after white space
    have hws : ∃ rest, (sp ++ (name ++ suf ++ tail)).dropWhile isWs = rest
        ∧ '\n' ∉ rest ∧ trim rest = name ++ suf := by
      rw [dropWhile_all hsp]
      by_cases he : name ++ suf = []
      · rw [he, List.nil_append]
        have : tail.dropWhile isWs = [] := by
          have := dropWhile_all (b := []) (fun c hc => (htail c hc).1)
          simpa using this
        rw [this]
        exact ⟨[], rfl, by simp, rfl⟩
      · rw [dropWhile_stop he (fun c hc => (hu c hc).2.2)]
        refine ⟨_, rfl, ?_, ?_⟩
        · intro hm
          rcases List.mem_append.mp hm with h | h
          · have := (hu _ h).2.2; revert this; decide
          · exact (htail _ h).2 rfl
        · unfold trim
          rw [dropWhile_stop he (fun c hc => (hu c hc).2.2)]
          exact trimEnd_stop (fun c hc => (hu c hc).2.2) (fun c hc => (htail c hc).1)
    obtain ⟨rest, hr1, hr2, hr3⟩ := hws
    have hcap : captures (plus ++ (d :: ds') ++ sp ++ name ++ suf ++ tail)
        = some (plus ++ (d :: ds'), rest) := by
      unfold captures
      rw [hsign, hdrop]
      simp only [htake, hdw, hr1, hr2, if_false]
    have hnt : trim (plus ++ (d :: ds')) = plus ++ (d :: ds') := by
      have hall : ∀ c ∈ plus ++ (d :: ds'), isWs c = false := by
        intro c hc
        apply digit_notWs
        rcases List.mem_append.mp hc with h | h
        · rcases hplus with rfl | rfl
          · simp at h
          · simp at h; simp [h]
        · exact .inl (hds c h)
      have h1 := dropWhile_stop (b := []) (by simp) hall
      have h2 := trimEnd_stop (b := []) hall (by simp)
      simp only [List.append_nil] at h1 h2
      unfold trim
      rw [h1, h2]
    have hnum64 : parseU64 (plus ++ (d :: ds')) = some q.value := by
      unfold parseU64
      have hb : parseBody (d :: ds') = some q.value :=
        (parseBody_spec _ _).mpr ⟨hdne, hds, hval, hmax⟩
      rcases hplus with rfl | rfl
      · rw [if_neg (by simp [hdp.1])]; exact hb
      · rw [if_pos (by simp)]; exact hb
    have hstrip : (sufs.findSome? (stripSuffix (name ++ suf))).getD (name ++ suf) = name := by
      apply wf.strip
      · rcases hname with ⟨rfl, _⟩ | hn
        · simp
        · exact List.mem_cons_of_mem _ (List.mem_flatMap.mpr ⟨_, wf.complete _, hn⟩)
      · rcases hsuf with rfl | hn
        · simp
        · exact List.mem_cons_of_mem _ hn
    have hpre : (if name = [] then some T.dflt else parsePrefix T name) = some q.pre := by
      rcases hname with ⟨rfl, hq⟩ | hn
      · simp [hq]
      · rw [if_neg (wf.nonempty _ (wf.complete _) _ hn)]
        exact wf.unique _ (wf.complete _) _ hn
    unfold parse
    rw [hcap]
    simp only [hnt, hr3, hstrip, hpre, hnum64]

/-- **C46.**  What is printed is read back as the same quantity. -/
theorem C46_roundtrip (T : PrefixType P) (sufs : List Str) (wf : WF T sufs) (q : Qty P)
    (h : q.value ≤ u64Max) : parse T sufs (display T sufs q) = some q := by
  rw [C46_parse_iff T sufs wf]
  have hs := showNat_spec q.value
  refine ⟨[], showNat q.value, [' '], T.shown q.pre, sufs.headD [], [], ?_, .inl rfl, hs.1, hs.2.1,
    hs.2.2, h, by decide, ?_, ?_, by simp⟩
  · simp [display]
  · exact wf.shown _ (wf.complete _)
  · cases sufs with
    | nil => simp
    | cons a l => simp

/-- **C46.**  The quantity a text denotes is unique. -/
theorem C46_unambiguous (T : PrefixType P) (sufs : List Str) (wf : WF T sufs) (s : Str) (q r : Qty P)
    (h1 : Denotes T sufs s q) (h2 : Denotes T sufs s r) : q = r := by
  rw [← C46_parse_iff T sufs wf] at h1 h2
  rw [h1] at h2
  exact Option.some.inj h2

/-- **C46.**  For the four kinds of configured quantities. -/
theorem C46_all :
    (∀ s q, parse tm timeSuffixes s = some q ↔ Denotes tm timeSuffixes s q)
    ∧ (∀ s q, parse tmUpper timeSuffixes s = some q ↔ Denotes tmUpper timeSuffixes s q)
    ∧ (∀ s q, parse siUpper byteSuffixes s = some q ↔ Denotes siUpper byteSuffixes s q)
    ∧ (∀ s q, parse siUpper bitSuffixes s = some q ↔ Denotes siUpper bitSuffixes s q) :=
  ⟨C46_parse_iff _ _ wf_time, C46_parse_iff _ _ wf_timeUpper, C46_parse_iff _ _ wf_bytes,
    C46_parse_iff _ _ wf_bits⟩

/-! ### The meaning of the spellings

Independent tables: spelling and size in the smallest unit (nanoseconds, seconds, one). -/

def timeTable : List (String × Nat) :=
  [("ns", 1), ("nanosecond", 1), ("nanoseconds", 1),
   ("us", 1000), ("μs", 1000), ("microsecond", 1000), ("microseconds", 1000),
   ("ms", 1000000), ("millisecond", 1000000), ("milliseconds", 1000000),
   ("s", 1000000000), ("sec", 1000000000), ("secs", 1000000000), ("second", 1000000000),
   ("seconds", 1000000000),
   ("m", 60000000000), ("min", 60000000000), ("mins", 60000000000), ("minute", 60000000000),
   ("minutes", 60000000000),
   ("h", 3600000000000), ("hr", 3600000000000), ("hrs", 3600000000000), ("hour", 3600000000000),
   ("hours", 3600000000000)]

def timeUpperTable : List (String × Nat) :=
  [("s", 1), ("sec", 1), ("secs", 1), ("second", 1), ("seconds", 1),
   ("m", 60), ("min", 60), ("mins", 60), ("minute", 60), ("minutes", 60),
   ("h", 3600), ("hr", 3600), ("hrs", 3600), ("hour", 3600), ("hours", 3600)]

def siTable : List (String × Nat) :=
  [("K", 1000), ("kilo", 1000), ("Ki", 1024), ("kibi", 1024),
   ("M", 1000000), ("mega", 1000000), ("Mi", 1048576), ("mebi", 1048576),
   ("G", 1000000000), ("giga", 1000000000), ("Gi", 1073741824), ("gibi", 1073741824),
   ("T", 1000000000000), ("tera", 1000000000000), ("Ti", 1099511627776), ("tebi", 1099511627776)]

/-- The spellings of the prefix type mean what the table says, and there are no others; no spelling
    means `unit`. -/
def Means (T : PrefixType P) (table : List (String × Nat)) (unit : Nat) : Prop :=
  (∀ p n, n ∈ T.names p ↔ ∃ e ∈ table, e.1.toList = n ∧ e.2 = T.mag p) ∧ T.mag T.dflt = unit

theorem means_of_check (T : PrefixType P) (table : List (String × Nat)) (unit : Nat)
    (complete : ∀ p, p ∈ T.all)
    (h1 : ∀ p ∈ T.all, ∀ n ∈ T.names p, (String.ofList n, T.mag p) ∈ table)
    (h2 : ∀ p ∈ T.all, ∀ e ∈ table, e.2 = T.mag p → e.1.toList ∈ T.names p)
    (h3 : T.mag T.dflt = unit) : Means T table unit := by
  refine ⟨fun p n => ⟨fun h => ⟨_, h1 p (complete p) n h, by simp, rfl⟩, ?_⟩, h3⟩
  rintro ⟨e, he, rfl, hm⟩
  exact h2 p (complete p) e he hm

/-- **C46.**  Every spelling has its physical meaning, for all four tables of the configuration. -/
theorem C46_meaning : Means tm timeTable 1000000000 ∧ Means tmUpper timeUpperTable 1
    ∧ Means siUpper siTable 1 := by
  refine ⟨means_of_check _ _ _ wf_time.complete ?_ ?_ rfl,
    means_of_check _ _ _ wf_timeUpper.complete ?_ ?_ rfl,
    means_of_check _ _ _ wf_bytes.complete ?_ ?_ rfl⟩ <;> decide

/-- The general SI prefix type has the same ratios (in units of 10^-9). -/
theorem C46_si_meaning : ∀ e ∈ siTable ++ [("n", 0), ("u", 0), ("m", 0)], ∀ p ∈ si.all,
    e.1.toList ∈ si.names p → si.mag p = match p with
      | .nano => 1
      | .micro => 1000
      | .milli => 1000000
      | _ => e.2 * 1000000000 := by decide

example : parse tm timeSuffixes (w "10  min ") = some ⟨10, .min⟩ := by decide
example : parse siUpper bitSuffixes (w "+10Mbits") = some ⟨10, .mega⟩ := by decide
example : parse siUpper byteSuffixes (w "16 Kibytes") = some ⟨16, .kibi⟩ := by decide
example : parse tm timeSuffixes (w "10") = some ⟨10, .sec⟩ := by decide
example : parse tm timeSuffixes (w "-10 ms") = none ∧ parse tm timeSuffixes (w "10.5 ms") = none
    ∧ parse tm timeSuffixes (w "99999999999999999999 s") = none := by decide
example : display siUpper byteSuffixes ⟨12, .mebi⟩ = w "12 MiB" := by
  simp [display, showNat, siUpper, byteSuffixes, w]

end Shadow.Units
