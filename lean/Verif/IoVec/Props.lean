import Verif.IoVec.Model

/-!
# Scattered buffers: properties (C51)

The specification knows only the list of addresses that the buffers of a program make up, one after
the other.
-/
namespace Shadow.IoVec
open Shadow.Base

variable {α : Type}

/-- The addresses of a buffer. -/
def Iov.addrs (v : Iov) : List Nat := List.range' v.base v.len

/-- The addresses of a list of buffers, in the order in which data goes through them. -/
def addrs (vs : List Iov) : List Nat := vs.flatMap Iov.addrs

/-- What is left for a reader or writer. -/
def Cursor.left (c : Cursor) : List Nat := addrs (c.cur.toList ++ c.iovs)

/-- `m` faults at one of the addresses. -/
def Faults (m : Mem α) (as : List Nat) : Prop := ∃ a ∈ as, m a = none

/-- The bytes at the addresses are `bs`. -/
def Holds (m : Mem α) (as : List Nat) (bs : List α) : Prop := as.map m = bs.map some

/-! ## Lemmas -/

theorem range'_split (a k n : Nat) (h : k ≤ n) :
    List.range' a n = List.range' a k ++ List.range' (a + k) (n - k) := by
  obtain ⟨d, rfl⟩ : ∃ d, n = k + d := ⟨n - k, by omega⟩
  rw [Nat.add_sub_cancel_left]
  induction k generalizing a with
  | zero => simp
  | succ k ih =>
    rw [show k + 1 + d = (k + d) + 1 by omega, List.range'_succ, List.range'_succ, ih (a + 1) (by omega)]
    simp [Nat.add_assoc, Nat.add_comm 1 k]

theorem load_spec (m : Mem α) (a n : Nat) :
    (load m a n = none ∧ Faults m (List.range' a n)) ∨
    (∃ bs, load m a n = some bs ∧ Holds m (List.range' a n) bs ∧ bs.length = n) := by
  induction n generalizing a with
  | zero => exact .inr ⟨[], rfl, rfl, rfl⟩
  | succ n ih =>
    unfold load
    rw [List.range'_succ]
    cases hm : m a with
    | none => exact .inl ⟨rfl, a, .head _, hm⟩
    | some b =>
      rcases ih (a + 1) with ⟨h, x, hx, hmx⟩ | ⟨bs, h, hh, hl⟩
      · exact .inl ⟨by rw [h], x, .tail _ hx, hmx⟩
      · refine .inr ⟨b :: bs, by rw [h], ?_, by simp [hl]⟩
        unfold Holds at hh ⊢
        simp [hm, hh]

theorem left_none (vs : List Iov) : (⟨vs, none⟩ : Cursor).left = addrs vs := rfl

theorem left_some (vs : List Iov) (v : Iov) :
    (⟨vs, some v⟩ : Cursor).left = v.addrs ++ addrs vs := rfl

theorem addrs_cons (v : Iov) (vs : List Iov) : addrs (v :: vs) = v.addrs ++ addrs vs := rfl

theorem addrs_length (vs : List Iov) : (addrs vs).length = (vs.map (·.len)).sum := by
  induction vs with
  | nil => rfl
  | cons v vs ih => simp [addrs_cons, Iov.addrs, ih]

theorem left_after (vs : List Iov) (src : Iov) (k : Nat) (h : k ≤ src.len) :
    (⟨vs, some src⟩ : Cursor).left = List.range' src.base k ++
      (⟨vs, if src.len - k = 0 then none else some ⟨src.base + k, src.len - k⟩⟩ : Cursor).left := by
  rw [left_some, Iov.addrs, range'_split _ k _ h, List.append_assoc]
  congr 1
  split
  · rename_i h0
    rw [left_none, h0]; rfl
  · rfl

theorem Faults.mono {m : Mem α} {as bs : List Nat} (h : Faults m as) (hs : ∀ x ∈ as, x ∈ bs) :
    Faults m bs := by
  obtain ⟨a, ha, hm⟩ := h
  exact ⟨a, hs a ha, hm⟩

theorem Holds.append {m : Mem α} {as as' : List Nat} {bs bs' : List α} (h : Holds m as bs)
    (h' : Holds m as' bs') : Holds m (as ++ as') (bs ++ bs') := by
  unfold Holds at *
  simp [h, h']

theorem Holds.length {m : Mem α} {as : List Nat} {bs : List α} (h : Holds m as bs) :
    bs.length = as.length := by
  have := congrArg List.length h
  simpa using this.symm

theorem Holds.not_faults {m : Mem α} {as : List Nat} {bs : List α} (h : Holds m as bs) :
    ¬ Faults m as := by
  rintro ⟨a, ha, hm⟩
  have : m a ∈ bs.map some := h ▸ List.mem_map_of_mem ha
  rw [hm] at this
  simp at this

theorem Holds.unique {m : Mem α} {as : List Nat} {bs bs' : List α} (h : Holds m as bs)
    (h' : Holds m as bs') : bs = bs' := by
  unfold Holds at *
  rw [h] at h'
  exact (List.map_inj_right fun _ _ h => Option.some.inj h).1 h'

theorem mem_take_range' {x a n : Nat} {l : List Nat} {k : Nat} (h : x ∈ List.range' a n)
    (hn : n ≤ k) : x ∈ (List.range' a n ++ l).take k := by
  rw [List.take_append, List.take_of_length_le (by simpa using hn)]
  exact List.mem_append_left _ h

/-! ## Reading -/

/-- The result of the loop. -/
def ReadSpec (m : Mem α) (c : Cursor) (n : Nat) (acc : List α) :
    R (Res (List α × Cursor)) → Prop
  | .panic => False
  | .ok .fault => acc = [] ∧ Faults m (c.left.take n)
  | .ok (.ok (out, c')) => ∃ as bs, out = acc ++ bs ∧ c.left = as ++ c'.left ∧ Holds m as bs ∧
      bs.length ≤ n ∧ (bs.length = n ∨ c'.left = [] ∨
        (out ≠ [] ∧ Faults m (c'.left.take (n - bs.length))))

theorem readLoop_spec (m : Mem α) (fuel : Nat) (c : Cursor) (n : Nat) (acc : List α)
    (hf : 2 * c.iovs.length + (if c.cur.isSome then 2 else 1) ≤ fuel) :
    ReadSpec m c n acc (readLoop m fuel c n acc) := by
  induction fuel generalizing c n acc with
  | zero => exfalso; revert hf; split <;> omega
  | succ fuel ih =>
    unfold readLoop
    by_cases hn : n = 0
    · rw [if_pos hn]
      exact ⟨[], [], by simp, by simp, rfl, by simp, .inl (by simp [hn])⟩
    rw [if_neg hn]
    obtain ⟨vs, cur⟩ := c
    cases cur with
    | none =>
      cases vs with
      | nil =>
        exact ⟨[], [], by simp, by simp, rfl, by simp, .inr (.inl rfl)⟩
      | cons v vs =>
        simp only
        have := ih ⟨vs, some v⟩ n acc (by simp at hf ⊢; omega)
        exact this
    | some src =>
      simp only [Iov.front, Iov.back, copyFrom]
      have hk : min src.len n ≤ src.len := Nat.min_le_left ..
      have hkn : min src.len n ≤ n := Nat.min_le_right ..
      generalize hkk : min src.len n = k at hk hkn
      simp only [decide_eq_true hk, R.assert_true, R.bind_ok, decide_true]
      rcases load_spec m src.base k with ⟨h1, h2⟩ | ⟨bs, h1, h2, h3⟩
      · rw [h1]
        have hfl : Faults m ((⟨vs, some src⟩ : Cursor).left.take n) := by
          obtain ⟨x, hx, hm⟩ := h2
          refine ⟨x, ?_, hm⟩
          rw [left_after vs src k hk]
          exact mem_take_range' hx hkn
        simp only
        split
        · rename_i h0
          exact ⟨List.length_eq_zero_iff.1 h0, hfl⟩
        · rename_i h0
          refine ⟨[], [], by simp, by simp, rfl, by simp, .inr (.inr ⟨?_, by simpa using hfl⟩)⟩
          intro h; rw [h] at h0; exact h0 rfl
      · rw [h1]
        simp only
        have hfuel : 2 * vs.length +
            (if (if src.len - k = 0 then none else some (⟨src.base + k, src.len - k⟩ : Iov)).isSome
              then 2 else 1) ≤ fuel ∨ n - k = 0 := by
          simp only [Option.isSome_some, if_true] at hf
          by_cases h0 : src.len - k = 0
          · left
            simp [h0]; omega
          · right; omega
        have hsplit := left_after vs src k hk
        have main : ReadSpec m
            ⟨vs, if src.len - k = 0 then none else some ⟨src.base + k, src.len - k⟩⟩ (n - k)
            (acc ++ bs) (readLoop m fuel
              ⟨vs, if src.len - k = 0 then none else some ⟨src.base + k, src.len - k⟩⟩ (n - k)
              (acc ++ bs)) := by
          rcases hfuel with h | h
          · exact ih _ _ _ h
          · cases fuel with
            | zero => simp only [Option.isSome_some, if_true] at hf; omega
            | succ fuel =>
              unfold readLoop
              rw [if_pos h]
              exact ⟨[], [], by simp, by simp, rfl, by simp, .inl (by simp [h])⟩
        generalize readLoop m fuel _ _ _ = r at main
        cases r with
        | panic => exact main
        | ok r =>
          cases r with
          | fault =>
            obtain ⟨h4, h5⟩ := main
            obtain ⟨h6, h7⟩ := List.append_eq_nil_iff.1 h4
            subst h6; subst h7
            have hk0 : k = 0 := by simpa using h3.symm
            subst hk0
            refine ⟨rfl, ?_⟩
            rw [hsplit]
            simpa using h5
          | ok p =>
            obtain ⟨out, c'⟩ := p
            obtain ⟨as, bs', ho, hl, hh, hle, hend⟩ := main
            refine ⟨List.range' src.base k ++ as, bs ++ bs', by rw [ho, List.append_assoc], ?_,
              h2.append hh, by simp; omega, ?_⟩
            · rw [hsplit, hl, List.append_assoc]
            · simp only [List.length_append, h3]
              rcases hend with h | h | ⟨h, h'⟩
              · exact .inl (by omega)
              · exact .inr (.inl h)
              · refine .inr (.inr ⟨h, ?_⟩)
                rwa [show n - (k + bs'.length) = n - k - bs'.length by omega]

/-- **Reading.**  A read never panics.  It returns the bytes at the next addresses in order, none
skipped, none twice, and at most as many as asked for; fewer only at the end of the buffers or in
front of a fault among the bytes asked for.  It fails only if there is such a fault and nothing was
read. -/
theorem C51_read (m : Mem α) (c : Cursor) (n : Nat) :
    (∃ as bs c', read m c n = .ok (.ok (bs, c')) ∧ c.left = as ++ c'.left ∧ Holds m as bs ∧
      bs.length ≤ n ∧ (bs.length = n ∨ c'.left = [] ∨
        (bs ≠ [] ∧ Faults m (c'.left.take (n - bs.length))))) ∨
    (read m c n = .ok .fault ∧ Faults m (c.left.take n)) := by
  have h := readLoop_spec m (2 * c.iovs.length + 3) c n [] (by split <;> omega)
  unfold read
  generalize readLoop m _ c n [] = r at h
  match r, h with
  | .ok .fault, h => exact .inr ⟨rfl, h.2⟩
  | .ok (.ok (out, c')), ⟨as, bs, ho, h1, h2, h3, h4⟩ =>
    rw [List.nil_append] at ho
    subst ho
    exact .inl ⟨as, out, c', rfl, h1, h2, h3, h4⟩

theorem readExactLoop_spec (m : Mem α) (fuel : Nat) (c : Cursor) (n : Nat) (acc : List α)
    (hf : n < fuel) :
    (∃ as bs c', readExactLoop m fuel c n acc = .ok (.ok (acc ++ bs, c')) ∧ c.left = as ++ c'.left ∧
      Holds m as bs ∧ bs.length = n) ∨
    (readExactLoop m fuel c n acc = .ok .fault ∧ Faults m (c.left.take n)) ∨
    (readExactLoop m fuel c n acc = .ok .short ∧ ¬ Faults m c.left ∧ c.left.length < n) := by
  induction fuel generalizing c n acc with
  | zero => omega
  | succ fuel ih =>
    unfold readExactLoop
    by_cases hn : n = 0
    · rw [if_pos hn]
      exact .inl ⟨[], [], c, by simp, by simp, rfl, by simp [hn]⟩
    rw [if_neg hn]
    rcases C51_read m c n with ⟨as, bs, c', h1, h2, h3, h4, h5⟩ | ⟨h1, h2⟩
    · rw [h1]
      simp only [R.bind_ok]
      by_cases h0 : bs.length = 0
      · rw [if_pos h0]
        have hb : bs = [] := List.length_eq_zero_iff.1 h0
        subst hb
        rcases h5 with h5 | h5 | ⟨h5, _⟩
        · exact absurd h5.symm hn
        · have ha : as = [] := List.length_eq_zero_iff.1 (by rw [← h3.length]; rfl)
          rw [ha, h5] at h2
          refine .inr (.inr ⟨rfl, ?_, by rw [h2]; simp; omega⟩)
          rw [h2]
          rintro ⟨a, ha, _⟩
          cases ha
        · exact absurd rfl h5
      · rw [if_neg h0]
        have hlen := h3.length
        rcases ih c' (n - bs.length) (acc ++ bs) (by omega) with
          ⟨as', bs', c'', h6, h7, h8, h9⟩ | ⟨h6, h7⟩ | ⟨h6, h7, h8⟩
        · exact .inl ⟨as ++ as', bs ++ bs', c'', by rw [h6, List.append_assoc],
            by rw [h2, h7, List.append_assoc], h3.append h8, by simp; omega⟩
        · refine .inr (.inl ⟨h6, ?_⟩)
          rw [h2, List.take_append]
          refine h7.mono fun x hx => List.mem_append_right _ ?_
          rw [← hlen]
          exact hx
        · refine .inr (.inr ⟨h6, ?_, by rw [h2]; simp; omega⟩)
          rw [h2]
          rintro ⟨a, ha, hm⟩
          rcases List.mem_append.1 ha with ha | ha
          · exact h3.not_faults ⟨a, ha, hm⟩
          · exact h7 ⟨a, ha, hm⟩
    · rw [h1]
      exact .inr (.inl ⟨rfl, h2⟩)

/-- **Reading a whole message.**  `read_exact` gives the next `n` bytes when all of them can be
accessed; it faults exactly when one of them cannot be; it runs short exactly when there are fewer
than `n` and all can be accessed. -/
theorem C51_read_exact (m : Mem α) (c : Cursor) (n : Nat) :
    (¬ Faults m (c.left.take n) ∧ n ≤ c.left.length ∧ ∃ bs c',
      readExact m c n = .ok (.ok (bs, c')) ∧ Holds m (c.left.take n) bs ∧
      c'.left = c.left.drop n) ∨
    (Faults m (c.left.take n) ∧ readExact m c n = .ok .fault) ∨
    (¬ Faults m (c.left.take n) ∧ c.left.length < n ∧ readExact m c n = .ok .short) := by
  unfold readExact
  rcases readExactLoop_spec m (n + 1) c n [] (by omega) with
    ⟨as, bs, c', h1, h2, h3, h4⟩ | ⟨h1, h2⟩ | ⟨h1, h2, h3⟩
  · have hl : as.length = n := by rw [← h3.length, h4]
    have ht : c.left.take n = as := by rw [h2, ← hl, List.take_left]
    rw [List.nil_append] at h1
    refine .inl ⟨by rw [ht]; exact h3.not_faults, by rw [h2]; simp; omega, bs, c', h1,
      by rw [ht]; exact h3, by rw [h2, ← hl, List.drop_left]⟩
  · exact .inr (.inl ⟨h2, h1⟩)
  · exact .inr (.inr ⟨fun h => h2 (h.mono fun x hx => List.mem_of_mem_take hx), h3, h1⟩)

/-! ## Writing -/

/-- Write the bytes to the addresses, one after the other. -/
def poke (m : Mem α) : List Nat → List α → Mem α
  | a :: as, b :: bs => poke (fun x => if x = a then some b else m x) as bs
  | _, _ => m

/-- The same addresses can be accessed. -/
def SameDom (m m' : Mem α) : Prop := ∀ a, m a = none ↔ m' a = none

theorem SameDom.faults {m m' : Mem α} (h : SameDom m m') (as : List Nat) :
    Faults m as ↔ Faults m' as := by
  constructor
  · rintro ⟨a, ha, hm⟩; exact ⟨a, ha, (h a).1 hm⟩
  · rintro ⟨a, ha, hm⟩; exact ⟨a, ha, (h a).2 hm⟩

theorem store_poke (m : Mem α) (a : Nat) (bs : List α) :
    store m a bs = poke m (List.range' a bs.length) bs := by
  induction bs generalizing m a with
  | nil => rfl
  | cons b bs ih =>
    rw [List.length_cons, List.range'_succ]
    exact ih _ _

theorem poke_append (m : Mem α) (as as' : List Nat) (bs bs' : List α) (h : as.length = bs.length) :
    poke m (as ++ as') (bs ++ bs') = poke (poke m as bs) as' bs' := by
  induction as generalizing m bs with
  | nil => cases bs <;> simp_all [poke]
  | cons a as ih =>
    cases bs with
    | nil => cases h
    | cons b bs =>
      simp only [List.cons_append, poke]
      exact ih _ _ (by simpa using h)

theorem poke_dom (m : Mem α) (as : List Nat) (bs : List α) (h : ¬ Faults m as) :
    SameDom m (poke m as bs) := by
  induction as generalizing m bs with
  | nil => intro a; simp [poke]
  | cons a as ih =>
    cases bs with
    | nil => intro a; simp [poke]
    | cons b bs =>
      have hd : SameDom m (fun x => if x = a then some b else m x) := by
        intro x
        simp only
        split
        · rename_i hx
          simp only [reduceCtorEq, iff_false]
          intro hm
          exact h ⟨a, .head _, hx ▸ hm⟩
        · rfl
      have h' : ¬ Faults (fun x => if x = a then some b else m x) as := by
        intro hf
        exact h (((hd.faults as).2 hf).mono fun x hx => .tail _ hx)
      intro x
      rw [hd x]
      exact ih _ bs h' x

/-- The result of the loop. -/
def WriteSpec (m : Mem α) (c : Cursor) (bs : List α) (done : Nat) :
    R (Res (Nat × Cursor) × Mem α) → Prop
  | .panic => False
  | .ok (.fault, m') => done = 0 ∧ m' = m ∧ Faults m (c.left.take bs.length)
  | .ok (.ok (k, c'), m') => ∃ as i, k = done + i ∧ i ≤ bs.length ∧ as.length = i ∧
      c.left = as ++ c'.left ∧ ¬ Faults m as ∧ m' = poke m as (bs.take i) ∧
      (i = bs.length ∨ c'.left = [] ∨
        (k ≠ 0 ∧ Faults m (c'.left.take (bs.length - i))))

theorem writeLoop_spec (fuel : Nat) (m : Mem α) (c : Cursor) (bs : List α) (done : Nat)
    (hf : 2 * c.iovs.length + (if c.cur.isSome then 2 else 1) ≤ fuel) :
    WriteSpec m c bs done (writeLoop fuel m c bs done) := by
  induction fuel generalizing m c bs done with
  | zero => exfalso; revert hf; split <;> omega
  | succ fuel ih =>
    have nofault : ∀ m : Mem α, ¬ Faults m [] := fun m => by rintro ⟨a, ha, _⟩; cases ha
    unfold writeLoop
    by_cases hn : bs.length = 0
    · rw [if_pos hn]
      exact ⟨[], 0, rfl, by omega, rfl, rfl, nofault m, by simp [poke], .inl (by omega)⟩
    rw [if_neg hn]
    obtain ⟨vs, cur⟩ := c
    cases cur with
    | none =>
      cases vs with
      | nil => exact ⟨[], 0, rfl, by omega, rfl, rfl, nofault m, by simp [poke], .inr (.inl rfl)⟩
      | cons v vs =>
        simp only
        exact ih m ⟨vs, some v⟩ bs done (by simp at hf ⊢; omega)
    | some dst =>
      simp only [Iov.front, Iov.back, copyTo]
      have hk : min dst.len bs.length ≤ dst.len := Nat.min_le_left ..
      have hkn : min dst.len bs.length ≤ bs.length := Nat.min_le_right ..
      generalize hkk : min dst.len bs.length = k at hk hkn
      have hlen : (bs.take k).length = k := by simp; omega
      simp only [decide_eq_true hk, R.assert_true, R.bind_ok, hlen, decide_true]
      have hsplit := left_after vs dst k hk
      rcases load_spec m dst.base k with ⟨h1, h2⟩ | ⟨old, h1, h2, h3⟩
      · rw [h1]
        have hfl : Faults m ((⟨vs, some dst⟩ : Cursor).left.take bs.length) := by
          obtain ⟨x, hx, hm⟩ := h2
          refine ⟨x, ?_, hm⟩
          rw [hsplit]
          exact mem_take_range' hx hkn
        simp only [Option.isSome_none, Bool.false_eq_true, if_false]
        split
        · rename_i h0
          exact ⟨h0, rfl, hfl⟩
        · rename_i h0
          exact ⟨[], 0, rfl, by omega, rfl, rfl, nofault m, by simp [poke],
            .inr (.inr ⟨h0, by simpa using hfl⟩)⟩
      · rw [h1]
        simp only [Option.isSome_some, if_true]
        have hpoke : store m dst.base (bs.take k) =
            poke m (List.range' dst.base k) (bs.take k) := by rw [store_poke, hlen]
        have hdom := poke_dom m (List.range' dst.base k) (bs.take k) h2.not_faults
        have hfuel : 2 * vs.length +
            (if (if dst.len - k = 0 then none else some (⟨dst.base + k, dst.len - k⟩ : Iov)).isSome
              then 2 else 1) ≤ fuel ∨ bs.length - k = 0 := by
          simp only [Option.isSome_some, if_true] at hf
          by_cases h0 : dst.len - k = 0
          · left
            simp [h0]; omega
          · right; omega
        rw [hpoke]
        generalize poke m (List.range' dst.base k) (bs.take k) = m1 at hdom hpoke
        have main : WriteSpec m1
            ⟨vs, if dst.len - k = 0 then none else some ⟨dst.base + k, dst.len - k⟩⟩ (bs.drop k)
            (done + k) (writeLoop fuel m1
              ⟨vs, if dst.len - k = 0 then none else some ⟨dst.base + k, dst.len - k⟩⟩ (bs.drop k)
              (done + k)) := by
          rcases hfuel with h | h
          · exact ih _ _ _ _ h
          · cases fuel with
            | zero => simp only [Option.isSome_some, if_true] at hf; omega
            | succ fuel =>
              unfold writeLoop
              rw [if_pos (show (bs.drop k).length = 0 by rw [List.length_drop]; exact h)]
              exact ⟨[], 0, rfl, by omega, rfl, rfl, nofault _, by simp [poke],
                .inl (by rw [List.length_drop]; omega)⟩
        generalize writeLoop fuel m1 _ _ _ = r at main
        cases r with
        | panic => exact main
        | ok r =>
          obtain ⟨r, m'⟩ := r
          cases r with
          | fault =>
            obtain ⟨h4, h5, h6⟩ := main
            have hk0 : k = 0 := by omega
            subst hk0
            refine ⟨by omega, ?_, ?_⟩
            · rw [h5, ← hpoke]; simp [store]
            · rw [hsplit, hdom.faults]
              simpa using h6
          | ok p =>
            obtain ⟨kk, c'⟩ := p
            obtain ⟨as, i, hkk', hi, hil, hl, hnf, hm', hend⟩ := main
            rw [List.length_drop] at hi hend
            refine ⟨List.range' dst.base k ++ as, k + i, by omega, by omega, by simp [hil], ?_, ?_,
              ?_, ?_⟩
            · rw [hsplit, hl, List.append_assoc]
            · rintro ⟨a, ha, hm⟩
              rcases List.mem_append.1 ha with ha | ha
              · exact h2.not_faults ⟨a, ha, hm⟩
              · exact hnf ⟨a, ha, (hdom a).1 hm⟩
            · rw [show bs.take (k + i) = bs.take k ++ (bs.drop k).take i from List.take_add,
                poke_append _ _ _ _ _ (by simp [hlen]), hm', ← hpoke, store_poke, hlen]
            · rcases hend with h | h | ⟨h, h'⟩
              · exact .inl (by omega)
              · exact .inr (.inl h)
              · refine .inr (.inr ⟨h, ?_⟩)
                rw [hdom.faults, show bs.length - (k + i) = bs.length - k - i by omega]
                exact h'

/-- **Writing.**  A write never panics.  It puts the first bytes at the next addresses in order and
changes nothing else; fewer than given only at the end of the buffers or in front of a fault.  It
fails only if there is such a fault, and then nothing was written. -/
theorem C51_write (m : Mem α) (c : Cursor) (bs : List α) :
    (∃ as k c' m', write m c bs = .ok (.ok (k, c'), m') ∧ k ≤ bs.length ∧ as.length = k ∧
      c.left = as ++ c'.left ∧ ¬ Faults m as ∧ m' = poke m as (bs.take k) ∧
      (k = bs.length ∨ c'.left = [] ∨ (k ≠ 0 ∧ Faults m (c'.left.take (bs.length - k))))) ∨
    (write m c bs = .ok (.fault, m) ∧ Faults m (c.left.take bs.length)) := by
  have h := writeLoop_spec (2 * c.iovs.length + 3) m c bs 0 (by split <;> omega)
  unfold write
  generalize writeLoop _ m c bs 0 = r at h
  match r, h with
  | .ok (.fault, m'), ⟨_, h1, h2⟩ => subst h1; exact .inr ⟨rfl, h2⟩
  | .ok (.ok (k, c'), m'), ⟨as, i, hk, h1, h2, h3, h4, h5, h6⟩ =>
    rw [Nat.zero_add] at hk
    subst hk
    exact .inl ⟨as, k, c', m', rfl, h1, h2, h3, h4, h5, h6⟩

theorem writeAllLoop_spec (fuel : Nat) (m : Mem α) (c : Cursor) (bs : List α)
    (hf : bs.length < fuel) :
    (∃ as c', writeAllLoop fuel m c bs = .ok (.ok c', poke m as bs) ∧ c.left = as ++ c'.left ∧
      as.length = bs.length ∧ ¬ Faults m as) ∨
    (∃ as k, ∃ c' : Cursor, writeAllLoop fuel m c bs = .ok (.fault, poke m as (bs.take k)) ∧
      as.length = k ∧ c.left = as ++ c'.left ∧ ¬ Faults m as ∧ k ≤ bs.length ∧
      Faults m (c.left.take bs.length)) ∨
    (writeAllLoop fuel m c bs = .ok (.short, poke m c.left bs) ∧ ¬ Faults m c.left ∧
      c.left.length < bs.length) := by
  have nofault : ∀ m : Mem α, ¬ Faults m [] := fun m => by rintro ⟨a, ha, _⟩; cases ha
  induction fuel generalizing m c bs with
  | zero => omega
  | succ fuel ih =>
    unfold writeAllLoop
    by_cases hn : bs.length = 0
    · rw [if_pos hn]
      exact .inl ⟨[], c, by simp [poke], by simp, by simp [hn], nofault m⟩
    rw [if_neg hn]
    rcases C51_write m c bs with ⟨as, k, c', m', h1, h2, h3, h4, h5, h6, h7⟩ | ⟨h1, h2⟩
    · rw [h1]
      simp only [R.bind_ok]
      by_cases h0 : k = 0
      · rw [if_pos h0]
        have ha : as = [] := List.length_eq_zero_iff.1 (by omega)
        subst ha
        rcases h7 with h7 | h7 | ⟨h7, _⟩
        · omega
        · rw [h7] at h4
          refine .inr (.inr ⟨?_, by rw [h4]; exact nofault m, by rw [h4]; simp; omega⟩)
          rw [h4, h6]; simp [poke]
        · exact absurd h0 h7
      · rw [if_neg h0]
        have hdom : SameDom m m' := by rw [h6]; exact poke_dom m as _ h5
        have hsplit : bs = bs.take k ++ bs.drop k := (List.take_append_drop k bs).symm
        have hlk : (bs.take k).length = k := by simp; omega
        have cat : ∀ as' xs, poke m' as' xs = poke m (as ++ as') (bs.take k ++ xs) := fun as' xs => by
          rw [poke_append _ _ _ _ _ (by omega), ← h6]
        rcases ih m' c' (bs.drop k) (by rw [List.length_drop]; omega) with
          ⟨as', c'', h8, h9, h10, h11⟩ | ⟨as', k', c'', h8, h9, h10, h11, h12, h13⟩ | ⟨h8, h9, h10⟩
        · refine .inl ⟨as ++ as', c'', ?_, by rw [h4, h9, List.append_assoc], ?_, ?_⟩
          · rw [h8, cat, ← hsplit]
          · rw [List.length_append, h10, List.length_drop]; omega
          · rintro ⟨a, ha, hm⟩
            rcases List.mem_append.1 ha with ha | ha
            · exact h5 ⟨a, ha, hm⟩
            · exact h11 ⟨a, ha, (hdom a).1 hm⟩
        · rw [List.length_drop] at h12 h13
          refine .inr (.inl ⟨as ++ as', k + k', c'', ?_, by simp; omega,
            by rw [h4, h10, List.append_assoc], ?_, by omega, ?_⟩)
          · rw [h8, cat, show bs.take (k + k') = bs.take k ++ (bs.drop k).take k' from List.take_add]
          · rintro ⟨a, ha, hm⟩
            rcases List.mem_append.1 ha with ha | ha
            · exact h5 ⟨a, ha, hm⟩
            · exact h11 ⟨a, ha, (hdom a).1 hm⟩
          · rw [h4, List.take_append]
            refine ((hdom.faults _).2 h13).mono fun x hx => List.mem_append_right _ ?_
            rw [h3]
            exact hx
        · refine .inr (.inr ⟨?_, ?_, ?_⟩)
          · rw [h8, cat, ← hsplit, h4]
          · rw [h4]
            rintro ⟨a, ha, hm⟩
            rcases List.mem_append.1 ha with ha | ha
            · exact h5 ⟨a, ha, hm⟩
            · exact h9 ⟨a, ha, (hdom a).1 hm⟩
          · rw [List.length_drop] at h10
            rw [h4, List.length_append]; omega
    · rw [h1]
      exact .inr (.inl ⟨[], 0, c, by simp [poke], rfl, by simp, nofault m, by omega, h2⟩)

/-- **Writing a whole message.**  `write_all` puts all bytes at the next addresses when all of them
can be accessed; it faults exactly when one of them cannot be, with a prefix written; it runs short
exactly when there is no room for all. -/
theorem C51_write_all (m : Mem α) (c : Cursor) (bs : List α) :
    (¬ Faults m (c.left.take bs.length) ∧ bs.length ≤ c.left.length ∧ ∃ c',
      writeAll m c bs = .ok (.ok c', poke m (c.left.take bs.length) bs) ∧
      c'.left = c.left.drop bs.length) ∨
    (Faults m (c.left.take bs.length) ∧ ∃ k, k < bs.length ∧
      writeAll m c bs = .ok (.fault, poke m (c.left.take k) (bs.take k)) ∧
      ¬ Faults m (c.left.take k)) ∨
    (¬ Faults m (c.left.take bs.length) ∧ c.left.length < bs.length ∧
      writeAll m c bs = .ok (.short, poke m c.left bs)) := by
  unfold writeAll
  rcases writeAllLoop_spec (bs.length + 1) m c bs (by omega) with
    ⟨as, c', h1, h2, h3, h4⟩ | ⟨as, k, c', h1, h2, h3, h4, h5, h6⟩ | ⟨h1, h2, h3⟩
  · have ht : c.left.take bs.length = as := by rw [h2, ← h3, List.take_left]
    refine .inl ⟨by rw [ht]; exact h4, by rw [h2]; simp; omega, c', by rw [ht]; exact h1,
      by rw [h2, ← h3, List.drop_left]⟩
  · have ht : c.left.take k = as := by rw [h3, ← h2, List.take_left]
    refine .inr (.inl ⟨h6, k, ?_, by rw [ht]; exact h1, by rw [ht]; exact h4⟩)
    rcases Nat.lt_or_eq_of_le h5 with h | h
    · exact h
    · rw [← h, ht] at h6; exact absurd h6 h4
  · exact .inr (.inr ⟨fun h => h2 (h.mono fun x hx => List.mem_of_mem_take hx), h3, h1⟩)

/-- What the program sees of the bytes written, when its buffers do not overlap. -/
theorem C51_written (m : Mem α) (as : List Nat) (bs : List α) (hnd : as.Nodup)
    (hl : bs.length ≤ as.length) :
    Holds (poke m as bs) (as.take bs.length) bs ∧
    (∀ a, a ∉ as.take bs.length → poke m as bs a = m a) := by
  have keep : ∀ (m : Mem α) as bs a, a ∉ as → poke m as bs a = m a := by
    intro m as
    induction as generalizing m with
    | nil => intro bs a _; simp [poke]
    | cons x as ih =>
      intro bs a ha
      cases bs with
      | nil => simp [poke]
      | cons b bs =>
        simp only [poke]
        rw [ih _ bs a (fun h => ha (.tail _ h))]
        exact if_neg fun (h : a = x) => ha (by rw [h]; exact .head _)
  induction as generalizing m bs with
  | nil =>
    cases bs with
    | nil => exact ⟨rfl, fun a _ => rfl⟩
    | cons b bs => simp at hl
  | cons x as ih =>
    cases bs with
    | nil => exact ⟨rfl, fun a _ => rfl⟩
    | cons b bs =>
      obtain ⟨hx, hnd'⟩ := List.nodup_cons.1 hnd
      obtain ⟨h1, h2⟩ := ih (fun y => if y = x then some b else m y) bs hnd' (by simpa using hl)
      simp only [List.length_cons, List.take_succ_cons, poke]
      refine ⟨?_, fun a ha => ?_⟩
      · unfold Holds at h1 ⊢
        rw [List.map_cons, h1, List.map_cons, keep _ _ _ _ hx]
        simp
      · rw [h2 a fun h => ha (.tail _ h)]
        exact if_neg fun (h : a = x) => ha (by rw [h]; exact .head _)

/-- **The conversion of errors cannot panic.**  With the length that the sockets compute, even when
that sum wraps around, reading a message of that length and writing one of at most that length never
run short. -/
theorem C51_no_panic (m : Mem α) (iovs : List Iov) :
    readExact m (Cursor.new iovs) (totalLen iovs) ≠ .ok .short ∧
    readExact m (Cursor.new iovs) (totalLen iovs) ≠ .panic ∧
    (∀ bs : List α, bs.length ≤ totalLen iovs → ∀ m',
      writeAll m (Cursor.new iovs) bs ≠ .ok (.short, m') ∧
      writeAll m (Cursor.new iovs) bs ≠ .panic) := by
  have hlen : totalLen iovs ≤ (Cursor.new iovs).left.length := by
    show totalLen iovs ≤ (addrs iovs).length
    rw [addrs_length]
    exact Nat.mod_le ..
  refine ⟨fun h => ?_, fun h => ?_, fun bs hbs m' => ⟨fun h => ?_, fun h => ?_⟩⟩
  · rcases C51_read_exact m (Cursor.new iovs) (totalLen iovs) with
      ⟨_, _, _, _, h1, _⟩ | ⟨_, h1⟩ | ⟨_, h1, _⟩
    · rw [h1] at h; cases h
    · rw [h1] at h; cases h
    · omega
  · rcases C51_read_exact m (Cursor.new iovs) (totalLen iovs) with
      ⟨_, _, _, _, h1, _⟩ | ⟨_, h1⟩ | ⟨_, h1, _⟩
    · rw [h1] at h; cases h
    · rw [h1] at h; cases h
    · omega
  · rcases C51_write_all m (Cursor.new iovs) bs with
      ⟨_, _, _, h1, _⟩ | ⟨_, _, _, h1, _⟩ | ⟨_, h1, _⟩
    · rw [h1] at h; cases h
    · rw [h1] at h; cases h
    · omega
  · rcases C51_write_all m (Cursor.new iovs) bs with
      ⟨_, _, _, h1, _⟩ | ⟨_, _, _, h1, _⟩ | ⟨_, h1, _⟩
    · rw [h1] at h; cases h
    · rw [h1] at h; cases h
    · omega

/-- **Round trip.**  Bytes written through some buffers that do not overlap are read back through
buffers that cover the same addresses, however the two lists cut them up. -/
theorem C51_round_trip (m : Mem α) (vs ws : List Iov) (bs : List α) (hsame : addrs vs = addrs ws)
    (hnd : (addrs vs).Nodup) (hl : bs.length ≤ (addrs vs).length)
    (hok : ¬ Faults m ((addrs vs).take bs.length)) :
    ∃ c m' c', writeAll m (Cursor.new vs) bs = .ok (.ok c, m') ∧
      readExact m' (Cursor.new ws) bs.length = .ok (.ok (bs, c')) := by
  rcases C51_write_all m (Cursor.new vs) bs with ⟨_, _, c, h1, _⟩ | ⟨h, _⟩ | ⟨_, h, _⟩
  · obtain ⟨hh, _⟩ := C51_written m ((addrs vs).take bs.length) bs
      (List.Nodup.sublist (List.take_sublist ..) hnd) (by simp; omega)
    rw [List.take_take, Nat.min_self] at hh
    have hnf := hh.not_faults
    rcases C51_read_exact (poke m ((addrs vs).take bs.length) bs) (Cursor.new ws) bs.length with
      ⟨_, _, bs', c', h2, h3, _⟩ | ⟨h, _⟩ | ⟨_, h, _⟩
    · have : bs' = bs := by
        refine Holds.unique h3 ?_
        show Holds _ ((addrs ws).take bs.length) bs
        rw [← hsame]; exact hh
      subst this
      exact ⟨c, _, c', h1, h2⟩
    · exfalso
      apply hnf
      have h : Faults _ ((addrs ws).take bs.length) := h
      rw [← hsame] at h; exact h
    · exfalso
      have : (addrs ws).length < bs.length := h
      rw [← hsame] at this
      omega
  · exact absurd h hok
  · exfalso
    have : (addrs vs).length < bs.length := h
    omega

/-! ## Examples -/

/-- Memory with bytes at 100 to 199, each holding its address. -/
def mem1 : Mem Nat := fun a => if 100 ≤ a ∧ a < 200 then some a else none

/-- Three buffers, one empty (at an address that faults), read in pieces of four. -/
example : read mem1 (Cursor.new [⟨100, 3⟩, ⟨0, 0⟩, ⟨150, 3⟩]) 4 =
    .ok (.ok ([100, 101, 102, 150], ⟨[], some ⟨151, 2⟩⟩)) := by decide +kernel

/-- A fault behind three good bytes: the first read stops there, and the message as a whole
faults. -/
example : read mem1 (Cursor.new [⟨100, 3⟩, ⟨198, 3⟩]) 6 =
    .ok (.ok ([100, 101, 102], ⟨[], some ⟨198, 3⟩⟩)) := by decide +kernel
example : readExact mem1 (Cursor.new [⟨100, 3⟩, ⟨198, 3⟩]) 6 = .ok .fault := by decide +kernel
example : readExact mem1 (Cursor.new [⟨100, 3⟩, ⟨198, 3⟩]) 5 =
    .ok (.ok ([100, 101, 102, 198, 199], ⟨[], some ⟨200, 1⟩⟩)) := by decide +kernel

example : addrs [⟨100, 3⟩, ⟨150, 2⟩] = addrs [⟨100, 1⟩, ⟨101, 2⟩, ⟨150, 2⟩] ∧
    (addrs [⟨100, 3⟩, ⟨150, 2⟩]).Nodup := by decide

/-- The sum wraps around: two huge buffers seem to have one byte. -/
example : totalLen [⟨100, 2 ^ 64 - 1⟩, ⟨150, 2⟩] = 1 := by decide

end Shadow.IoVec
