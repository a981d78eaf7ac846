import Verif.Tally.Model
/-!
# Lists of ranges as sets of sequence numbers

`Cov rs x` says that `x` lies in one of the ranges; `WF` is the representation invariant.  The
lemmas say that the list operations of the tally are the set operations they stand for.
-/

namespace Shadow.Tally
open Shadow.Base

/-- `x` lies in one of the ranges. -/
def Cov (rs : List Rng) (x : Int) : Prop := ∃ r ∈ rs, r.lo ≤ x ∧ x < r.hi

/-- No range is empty, and they are in order with a gap between any two. -/
def WF (rs : List Rng) : Prop := (∀ r ∈ rs, r.lo < r.hi) ∧ rs.Pairwise (fun a b => a.hi < b.lo)

theorem cov_nil (x : Int) : ¬ Cov [] x := by simp [Cov]
theorem cov_cons (r : Rng) (rs : List Rng) (x : Int) :
    Cov (r :: rs) x ↔ (r.lo ≤ x ∧ x < r.hi) ∨ Cov rs x := by simp [Cov]
theorem cov_append (a b : List Rng) (x : Int) : Cov (a ++ b) x ↔ Cov a x ∨ Cov b x := by
  simp [Cov, or_and_right, exists_or]

theorem wf_nil : WF [] := by simp [WF]

theorem wf_cons {r : Rng} {rs : List Rng} :
    WF (r :: rs) ↔ r.lo < r.hi ∧ (∀ b ∈ rs, r.hi < b.lo) ∧ WF rs := by
  simp only [WF, List.mem_cons, List.pairwise_cons]
  constructor
  · rintro ⟨h1, h2, h3⟩
    exact ⟨h1 r (.inl rfl), h2, fun b hb => h1 b (.inr hb), h3⟩
  · rintro ⟨h1, h2, h3, h4⟩
    refine ⟨?_, h2, h4⟩
    rintro b (rfl | hb)
    · exact h1
    · exact h3 b hb

theorem WF.sorted : ∀ {rs : List Rng}, WF rs → stillSorted rs = true
  | [], _ => rfl
  | [_], _ => rfl
  | a :: b :: rest, h => by
    have h' := wf_cons.1 h
    simp only [stillSorted, Bool.and_eq_true, decide_eq_true_eq]
    exact ⟨⟨h'.1, h'.2.1 b (by simp)⟩, h'.2.2.sorted⟩

/-! ## Insertion -/

/-- A sorted list splits into what lies before, what touches and what lies after a range. -/
theorem split3 (v : Rng) (hv : v.lo < v.hi) : ∀ (rs : List Rng), WF rs →
    ∃ A B C, rs = A ++ (B ++ C) ∧ (∀ r ∈ A, r.hi < v.lo) ∧
      (∀ r ∈ B, r.lo ≤ v.hi ∧ v.lo ≤ r.hi) ∧ (∀ r ∈ C, v.hi < r.lo)
  | [], _ => ⟨[], [], [], by simp⟩
  | r :: rs, h => by
    have h' := wf_cons.1 h
    obtain ⟨A, B, C, e, hA, hB, hC⟩ := split3 v hv rs h'.2.2
    by_cases h1 : r.hi < v.lo
    · exact ⟨r :: A, B, C, by simp [e], by grind, hB, hC⟩
    · by_cases h2 : v.hi < r.lo
      · refine ⟨[], [], r :: rs, by simp, by simp, by simp, ?_⟩
        intro b hb
        rcases List.mem_cons.1 hb with rfl | hb
        · exact h2
        · have := h'.2.1 b hb; omega
      · have hAnil : A = [] := by
          cases A with
          | nil => rfl
          | cons a A =>
            have := hA a (by simp)
            have := h'.2.1 a (by simp [e])
            have := (h'.2.2.1 a (by simp [e]))
            omega
        subst hAnil
        exact ⟨[], r :: B, C, by simpa using e, by simp, by grind, hC⟩

theorem merg_pre (v : Rng) (hv : v.lo < v.hi) (D : List Rng) : ∀ (A : List Rng) (i : Nat),
    (∀ r ∈ A, r.lo < r.hi) → (∀ r ∈ A, r.hi < v.lo) →
    mergable v (A ++ D) i none = mergable v D (i + A.length) none
  | [], i, _, _ => by simp
  | r :: A, i, hp, h => by
    have h1 := h r (by simp)
    have h2 := hp r (by simp)
    have c1 : v.hi ≥ r.lo := by omega
    have c2 : (r.overlap v || r.adj v) = false := by
      simp [Rng.overlap, Rng.adj]; omega
    have := merg_pre v hv D A (i + 1) (by grind) (by grind)
    simp only [List.cons_append, mergable, c1, c2, if_true, Bool.and_false]
    simpa [Nat.add_comm, Nat.add_left_comm, Nat.add_assoc] using this

theorem merg_post (v : Rng) (C : List Rng) (hC : ∀ r ∈ C, v.hi < r.lo) (k : Option Nat) (i : Nat) :
    mergable v C i k = (k, i) := by
  cases C with
  | nil => rfl
  | cons r C =>
    have := hC r (by simp)
    have c : ¬ v.hi ≥ r.lo := by omega
    simp [mergable, c]

theorem merg_mid (v : Rng) (C : List Rng) (hC : ∀ r ∈ C, v.hi < r.lo) : ∀ (B : List Rng) (i k : Nat),
    (∀ r ∈ B, r.lo ≤ v.hi) → mergable v (B ++ C) i (some k) = (some k, i + B.length)
  | [], i, k, _ => by simpa using merg_post v C hC (some k) i
  | r :: B, i, k, h => by
    have c1 : v.hi ≥ r.lo := h r (by simp)
    have := merg_mid v C hC B (i + 1) k (by grind)
    simp only [List.cons_append, mergable, c1, if_true, Option.isNone_some, Bool.false_and,
      Bool.false_eq_true, if_false]
    simpa [Nat.add_comm, Nat.add_left_comm, Nat.add_assoc] using this

theorem fold_merge (v : Rng) : ∀ (B : List Rng) (x : Rng), x.lo ≤ v.lo → v.hi ≤ x.hi →
    v.lo < v.hi → (∀ r ∈ B, r.lo < r.hi) → (∀ r ∈ B, r.lo ≤ v.hi ∧ v.lo ≤ r.hi) →
    ((B.foldl Rng.merge x).lo ≤ v.lo ∧ v.hi ≤ (B.foldl Rng.merge x).hi) ∧
    (∀ y, ((B.foldl Rng.merge x).lo ≤ y ∧ y < (B.foldl Rng.merge x).hi) ↔
      (x.lo ≤ y ∧ y < x.hi) ∨ Cov B y) ∧
    (∀ c : Int, c < x.lo → (∀ r ∈ B, c < r.lo) → c < (B.foldl Rng.merge x).lo) ∧
    (∀ c : Int, x.hi < c → (∀ r ∈ B, r.hi < c) → (B.foldl Rng.merge x).hi < c)
  | [], x, h1, h2, _, _, _ => by
    refine ⟨⟨h1, h2⟩, fun y => ?_, fun c h _ => h, fun c h _ => h⟩
    simp [cov_nil]
  | r :: B, x, h1, h2, h3, hp, h4 => by
    have hr := h4 r (by simp)
    have hrp := hp r (by simp)
    have ih := fold_merge v B (x.merge r) (by simp [Rng.merge]; omega) (by simp [Rng.merge]; omega)
      h3 (by grind) (by grind)
    simp only [List.foldl_cons]
    refine ⟨ih.1, fun y => ?_, fun c h hc => ?_, fun c h hc => ?_⟩
    · rw [ih.2.1 y, cov_cons]
      simp only [Rng.merge]
      grind
    · exact ih.2.2.1 c (by have := hc r (by simp); simp [Rng.merge]; omega) (by grind)
    · exact ih.2.2.2 c (by have := hc r (by simp); simp [Rng.merge]; omega) (by grind)

/-- Insertion adds exactly the elements of the range and keeps the list well formed. -/
theorem insertCore_spec {rs : List Rng} {v : Rng} (h : WF rs) (hv : v.lo < v.hi) :
    WF (insertCore rs v) ∧ ∀ y, Cov (insertCore rs v) y ↔ Cov rs y ∨ (v.lo ≤ y ∧ y < v.hi) := by
  obtain ⟨A, B, C, rfl, hA, hB, hC⟩ := split3 v hv rs h
  have hp := h.1
  have hA' : ∀ r ∈ A, r.lo < r.hi := fun r hr => hp r (by simp [hr])
  have hB' : ∀ r ∈ B, r.lo < r.hi := fun r hr => hp r (by simp [hr])
  have hC' : ∀ r ∈ C, r.lo < r.hi := fun r hr => hp r (by simp [hr])
  have hpw := h.2
  rw [List.pairwise_append, List.pairwise_append] at hpw
  obtain ⟨pA, ⟨pB, pC, pBC⟩, pABC⟩ := hpw
  cases B with
  | nil =>
    have e : insertCore (A ++ ([] ++ C)) v = A ++ v :: C := by
      simp only [insertCore, List.nil_append, merg_pre v hv C A 0 hA' hA, merg_post v C hC]
      simp
    rw [e]
    refine ⟨⟨by grind, ?_⟩, fun y => ?_⟩
    · rw [List.pairwise_append]
      refine ⟨pA, List.pairwise_cons.2 ⟨hC, pC⟩, ?_⟩
      intro a ha b hb
      rcases List.mem_cons.1 hb with rfl | hb
      · exact hA a ha
      · exact pABC a ha b (by simp [hb])
    · simp only [cov_append, cov_cons, cov_nil, false_or]
      grind
  | cons b B =>
    have hb := hB b (by simp)
    have hbp := hB' b (by simp)
    have e : insertCore (A ++ ((b :: B) ++ C)) v = A ++ B.foldl Rng.merge (b.merge v) :: C := by
      have m : mergable v (A ++ ((b :: B) ++ C)) 0 none = (some A.length, A.length + 1 + B.length) := by
        rw [merg_pre v hv _ A 0 hA' hA]
        have c1 : v.hi ≥ b.lo := by omega
        have c2 : (b.overlap v || b.adj v) = true := by
          simp [Rng.overlap, Rng.adj]; omega
        simp only [List.cons_append, mergable, c1, c2, if_true, Option.isNone_none, Bool.and_self,
          Nat.zero_add]
        exact merg_mid v C hC B (A.length + 1) A.length (by grind)
      simp only [insertCore, m]
      have g : (A ++ (b :: B ++ C)).getD A.length v = b := by
        simp [List.getD]
      have d1 : (A ++ (b :: B ++ C)).drop (A.length + 1) = B ++ C := by
        simp [List.drop_append]
      have d2 : (A ++ (b :: B ++ C)).drop (A.length + 1 + B.length) = C := by
        rw [← List.drop_drop, d1]; simp
      rw [g, d1, d2]
      simp
    rw [e]
    have f := fold_merge v B (b.merge v) (by simp [Rng.merge]; omega) (by simp [Rng.merge]; omega) hv
      (by grind) (by grind)
    have pb := List.pairwise_cons.1 pB
    have hlo : ∀ a ∈ A, a.hi < (B.foldl Rng.merge (b.merge v)).lo := by
      intro a ha
      refine f.2.2.1 a.hi ?_ ?_
      · have := pABC a ha b (by simp)
        have := hA a ha
        simp [Rng.merge]; omega
      · intro r hr; exact pABC a ha r (by simp [hr])
    have hhi : ∀ c ∈ C, (B.foldl Rng.merge (b.merge v)).hi < c.lo := by
      intro c hc
      refine f.2.2.2 c.lo ?_ ?_
      · have := pBC b (by simp) c hc
        have := hC c hc
        simp [Rng.merge]; omega
      · intro r hr; exact pBC r (by simp [hr]) c hc
    refine ⟨⟨?_, ?_⟩, fun y => ?_⟩
    · intro r hr
      rcases List.mem_append.1 hr with hr | hr
      · exact hA' r hr
      · rcases List.mem_cons.1 hr with rfl | hr
        · have := f.1; omega
        · exact hC' r hr
    · rw [List.pairwise_append]
      refine ⟨pA, List.pairwise_cons.2 ⟨hhi, pC⟩, ?_⟩
      intro a ha c hc
      rcases List.mem_cons.1 hc with rfl | hc
      · exact hlo a ha
      · exact pABC a ha c (by simp [hc])
    · rw [cov_append, cov_cons, f.2.1 y, cov_append, cov_append, cov_cons]
      simp only [Rng.merge]
      grind

theorem insert_spec {rs : List Rng} {v : Rng} (h : WF rs) (hv : v.lo < v.hi) :
    ∃ rs', insert rs v = .ok rs' ∧ WF rs' ∧
      ∀ y, Cov rs' y ↔ Cov rs y ∨ (v.lo ≤ y ∧ y < v.hi) := by
  have g := insertCore_spec h hv
  exact ⟨_, by simp [insert, h.sorted, g.1.sorted], g⟩

/-! ## Subtraction -/

theorem subGo_spec : ∀ (n : Nat) (cur : Rng) (ls rs : List Rng), WF (cur :: ls) → WF rs →
    2 * (ls.length + rs.length) + 1 +
      (match rs with | [] => 0 | j :: _ => if cur.overlap j then 1 else 0) ≤ n →
    WF (subGo n cur ls rs) ∧ (∀ r ∈ subGo n cur ls rs, cur.lo ≤ r.lo) ∧
    ∀ y, Cov (subGo n cur ls rs) y ↔ Cov (cur :: ls) y ∧ ¬ Cov rs y := by
  intro n
  induction n with
  | zero => intro cur ls rs _ _ h; omega
  | succ n ih =>
    intro cur ls rs hl hr hn
    have hl' := wf_cons.1 hl
    cases rs with
    | nil =>
      refine ⟨hl, ?_, fun y => by simp [subGo, cov_nil]⟩
      intro r hr
      rcases List.mem_cons.1 hr with rfl | hr
      · exact Int.le_refl _
      · have := hl'.2.1 r hr; omega
    | cons j rs =>
      have hr' := wf_cons.1 hr
      simp only [subGo]
      by_cases c1 : j.hi ≤ cur.lo
      · simp only [c1, if_true]
        have := ih cur ls rs hl hr'.2.2 (by
          simp only [List.length_cons] at hn
          cases rs with
          | nil => simp at hn ⊢; omega
          | cons k rs => simp only; simp only [List.length_cons] at hn ⊢; split <;> omega)
        refine ⟨this.1, this.2.1, fun y => ?_⟩
        rw [this.2.2 y, cov_cons j]
        constructor
        · rintro ⟨h1, h2⟩
          refine ⟨h1, ?_⟩
          rintro (h3 | h3)
          · rw [cov_cons] at h1
            rcases h1 with h1 | ⟨r, hr, h1⟩
            · omega
            · have := hl'.2.1 r hr; omega
          · exact h2 h3
        · rintro ⟨h1, h2⟩; exact ⟨h1, fun h => h2 (.inr h)⟩
      · simp only [c1, if_false]
        by_cases c2 : cur.hi ≤ j.lo
        · simp only [c2, if_true]
          have nocur : ∀ y, cur.lo ≤ y → y < cur.hi → ¬ Cov (j :: rs) y := by
            rintro y h1 h2 ⟨r, hm, h3, h4⟩
            rcases List.mem_cons.1 hm with rfl | hm
            · omega
            · have := hr'.2.1 r hm; omega
          cases ls with
          | nil =>
            refine ⟨wf_cons.2 ⟨hl'.1, by simp, wf_nil⟩, by simp, fun y => ?_⟩
            simp only [cov_cons cur, cov_nil, or_false]
            constructor
            · intro h; exact ⟨h, nocur y h.1 h.2⟩
            · exact fun h => h.1
          | cons l ls =>
            have := ih l ls (j :: rs) hl'.2.2 hr (by
              simp only [List.length_cons] at hn ⊢; split <;> omega)
            have hcl := hl'.2.1 l (by simp)
            refine ⟨wf_cons.2 ⟨hl'.1, ?_, this.1⟩, ?_, fun y => ?_⟩
            · intro b hb; have := this.2.1 b hb; omega
            · intro r hm
              rcases List.mem_cons.1 hm with rfl | hm
              · exact Int.le_refl _
              · have := this.2.1 r hm; have := hl'.1; omega
            · simp only
              rw [cov_cons cur, this.2.2 y, cov_cons cur (l :: ls)]
              constructor
              · rintro (h | h)
                · exact ⟨.inl h, nocur y h.1 h.2⟩
                · exact ⟨.inr h.1, h.2⟩
              · rintro ⟨h | h, h'⟩
                · exact .inl h
                · exact .inr ⟨h, h'⟩
        · simp only [c2, if_false]
          have ov : cur.overlap j = true := by simp [Rng.overlap]; omega
          simp only [ov, if_true, List.length_cons] at hn
          by_cases d1 : cur.lo < j.lo
          · by_cases d2 : j.hi < cur.hi
            · have e : subOne cur j = [⟨cur.lo, j.lo⟩, ⟨j.hi, cur.hi⟩] := by
                simp [subOne, ov, d1, d2]
              simp only [e]
              have := ih ⟨j.hi, cur.hi⟩ ls (j :: rs) (wf_cons.2 ⟨d2, hl'.2⟩) hr (by
                simp [Rng.overlap]; omega)
              refine ⟨wf_cons.2 ⟨d1, ?_, this.1⟩, ?_, fun y => ?_⟩
              · intro b hb
                have := this.2.1 b hb
                have := hr'.1
                simp at *; omega
              · intro r hm
                rcases List.mem_cons.1 hm with rfl | hm
                · exact Int.le_refl _
                · have := this.2.1 r hm
                  have := hr'.1
                  simp at *; omega
              · rw [cov_cons, this.2.2 y, cov_cons _ ls, cov_cons cur]
                constructor
                · rintro (h | h)
                  · simp only at h
                    refine ⟨.inl (by omega), ?_⟩
                    rintro ⟨r, hm, h3, h4⟩
                    rcases List.mem_cons.1 hm with rfl | hm
                    · omega
                    · have := hr'.2.1 r hm; have := hr'.1; omega
                  · refine ⟨?_, h.2⟩
                    rcases h.1 with h | h
                    · simp only at h; exact .inl (by omega)
                    · exact .inr h
                · rintro ⟨h | h, h'⟩
                  · by_cases q : y < j.lo
                    · exact .inl (by simp; omega)
                    · have : ¬ y < j.hi := by
                        intro q'
                        exact h' ⟨j, by simp, by omega, q'⟩
                      exact .inr ⟨.inl (by simp; omega), h'⟩
                  · exact .inr ⟨.inr h, h'⟩
            · have e : subOne cur j = [⟨cur.lo, j.lo⟩] := by simp [subOne, ov, d1, d2]
              simp only [e]
              have := ih ⟨cur.lo, j.lo⟩ ls (j :: rs)
                (wf_cons.2 ⟨d1, fun b hb => by have := hl'.2.1 b hb; simp only; omega, hl'.2.2⟩) hr (by
                simp [Rng.overlap]; omega)
              refine ⟨this.1, this.2.1, fun y => ?_⟩
              rw [this.2.2 y, cov_cons _ ls, cov_cons cur]
              constructor
              · rintro ⟨h | h, h'⟩
                · simp only at h; exact ⟨.inl (by omega), h'⟩
                · exact ⟨.inr h, h'⟩
              · rintro ⟨h | h, h'⟩
                · refine ⟨.inl ?_, h'⟩
                  have : ¬ j.lo ≤ y := fun q => h' ⟨j, by simp, q, by omega⟩
                  simp only; omega
                · exact ⟨.inr h, h'⟩
          · by_cases d2 : j.hi < cur.hi
            · have e : subOne cur j = [⟨j.hi, cur.hi⟩] := by simp [subOne, ov, d1, d2]
              simp only [e]
              have := ih ⟨j.hi, cur.hi⟩ ls (j :: rs) (wf_cons.2 ⟨d2, hl'.2⟩) hr (by
                simp [Rng.overlap]; omega)
              refine ⟨this.1, fun r hm => by have := this.2.1 r hm; simp only at this; omega, fun y => ?_⟩
              rw [this.2.2 y, cov_cons _ ls, cov_cons cur]
              constructor
              · rintro ⟨h | h, h'⟩
                · simp only at h; exact ⟨.inl (by omega), h'⟩
                · exact ⟨.inr h, h'⟩
              · rintro ⟨h | h, h'⟩
                · refine ⟨.inl ?_, h'⟩
                  have : ¬ y < j.hi := fun q => h' ⟨j, by simp, by omega, q⟩
                  simp only; omega
                · exact ⟨.inr h, h'⟩
            · have e : subOne cur j = [] := by simp [subOne, ov, d1, d2]
              simp only [e]
              have gone : ∀ y, cur.lo ≤ y → y < cur.hi → Cov (j :: rs) y := fun y h1 h2 =>
                ⟨j, by simp, by omega, by omega⟩
              cases ls with
              | nil =>
                refine ⟨wf_nil, by simp, fun y => ?_⟩
                simp only [cov_cons cur, cov_nil, or_false, false_iff]
                rintro ⟨h, h'⟩
                exact h' (gone y h.1 h.2)
              | cons l ls =>
                have := ih l ls (j :: rs) hl'.2.2 hr (by
                  simp only [List.length_cons] at hn ⊢; split <;> omega)
                have hcl := hl'.2.1 l (by simp)
                refine ⟨this.1, fun r hm => by have := this.2.1 r hm; have := hl'.1; omega, fun y => ?_⟩
                simp only
                rw [this.2.2 y, cov_cons cur]
                constructor
                · rintro ⟨h, h'⟩; exact ⟨.inr h, h'⟩
                · rintro ⟨h | h, h'⟩
                  · exact absurd (gone y h.1 h.2) h'
                  · exact ⟨h, h'⟩

/-- Subtraction is set difference and keeps lists well formed. -/
theorem subtract_spec {l r : List Rng} (hl : WF l) (hr : WF r) :
    ∃ d, subtract l r = .ok d ∧ WF d ∧ ∀ y, Cov d y ↔ Cov l y ∧ ¬ Cov r y := by
  have key : WF (subtractCore l r) ∧ ∀ y, Cov (subtractCore l r) y ↔ Cov l y ∧ ¬ Cov r y := by
    cases r with
    | nil => simp [subtractCore, hl, cov_nil]
    | cons j rs =>
      cases l with
      | nil => simp [subtractCore, wf_nil, cov_nil]
      | cons c ls =>
        have := subGo_spec (2 * ((c :: ls).length + (j :: rs).length) + 2) c ls (j :: rs) hl hr (by
          simp only [List.length_cons]; split <;> omega)
        exact ⟨this.1, this.2.2⟩
  refine ⟨_, ?_, key⟩
  have h1 : ((subtractCore l r).all fun r => decide (r.lo < r.hi)) = true := by
    rw [List.all_eq_true]; intro x hx; simpa using key.1.1 x hx
  simp [subtract, h1, key.1.sorted]

/-- The assertion of `range_subtract`. -/
theorem subOne_sorted {l r : Rng} (hr : r.lo < r.hi) :
    stillSorted (subOne l r) = true := by
  unfold subOne
  split
  · split <;> split <;> simp [stillSorted]
    omega
  · rfl

/-! ## Tidying -/

theorem tidy_spec {rs : List Rng} (h : WF rs) (a : Int) :
    ∃ d, tidy a rs = .ok d ∧ WF d ∧ (∀ y, Cov d y → Cov rs y) ∧
      ∀ y, a ≤ y → (Cov d y ↔ Cov rs y) := by
  cases rs with
  | nil => exact ⟨[], by simp [tidy, stillSorted], wf_nil, fun y h => h, fun y _ => Iff.rfl⟩
  | cons f rest =>
    have h' := wf_cons.1 h
    by_cases c1 : a ≥ f.lo ∧ a < f.hi - 1
    · have w : WF (⟨a, f.hi⟩ :: rest) := wf_cons.2 ⟨by simp only; omega, h'.2.1, h'.2.2⟩
      refine ⟨⟨a, f.hi⟩ :: rest, ?_, w, fun y => ?_, fun y hy => ?_⟩
      · simp [tidy, h.sorted, c1, w.sorted]
      · rw [cov_cons, cov_cons]; simp only; rintro (q | q)
        · exact .inl (by omega)
        · exact .inr q
      · rw [cov_cons, cov_cons]; simp only
        constructor
        · rintro (q | q)
          · exact .inl (by omega)
          · exact .inr q
        · rintro (q | q)
          · exact .inl (by omega)
          · exact .inr q
    · by_cases c2 : a ≥ f.hi - 1
      · have w : WF ((f :: rest).filter (fun r => !decide (a ≥ r.hi))) :=
          ⟨fun r hr => h.1 r (List.mem_filter.1 hr).1,
            h.2.sublist List.filter_sublist⟩
        refine ⟨_, ?_, w, fun y => ?_, fun y hy => ?_⟩
        · simp only [tidy, h.sorted, c1, c2, if_false, if_true, w.sorted, R.assert_true, R.bind_ok,
            R.pure_eq]
        · rintro ⟨r, hr, q⟩
          exact ⟨r, (List.mem_filter.1 hr).1, q⟩
        · constructor
          · rintro ⟨r, hr, q⟩
            exact ⟨r, (List.mem_filter.1 hr).1, q⟩
          · rintro ⟨r, hr, q⟩
            refine ⟨r, List.mem_filter.2 ⟨hr, ?_⟩, q⟩
            simp; omega
      · exact ⟨f :: rest, by simp [tidy, h.sorted, c1, c2], h, fun y h => h, fun y _ => Iff.rfl⟩

theorem rangesContains_iff (rs : List Rng) (v : Int) : rangesContains rs v = true ↔ Cov rs v := by
  simp [rangesContains, Cov, Rng.contains]

end Shadow.Tally
