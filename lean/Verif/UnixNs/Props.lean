import Verif.UnixNs.Model

/-!
# C18: abstract unix socket names
-/
namespace Shadow.UnixNs

open Shadow.Base

variable {σ : Type} [DecidableEq σ]

/-! ### Specification -/

/-- A socket that holds a name. -/
structure Holder (σ : Type) where
  socket : σ
  ty : Ty
  name : Name
deriving DecidableEq

/-- Histories, with the names that are held. -/
inductive Run : Ns σ → List (Holder σ) → Prop where
  | new : Run Ns.new []
  | bind {n n' live t name s} : Run n live → n.bind t name s = (n', none) → Run n' (live ++ [⟨s, t, name⟩])
  | autobind {n n' live t name s rng} : Run n live → n.autobind t s rng = .ok (n', .inl name) →
      Run n' (live ++ [⟨s, t, name⟩])
  | unbind {n n' live t name} : Run n live → n.unbind t name = (n', none) →
      Run n' (live.filter (fun h => decide (¬ (h.ty = t ∧ h.name = name))))
  | close {n n' live s} : Run n live → n.close s = .ok n' → Run n' (live.filter (fun h => decide (h.socket ≠ s)))

/-- The names that autobind may choose: five of the characters a-f and 0-9 (unix(7)). -/
def AutoName (name : Name) : Prop :=
  name.length = 5 ∧ ∀ c ∈ name, (97 ≤ c ∧ c ≤ 102) ∨ (48 ≤ c ∧ c ≤ 57)

/-- Someone holds the name. -/
def Held (live : List (Holder σ)) (t : Ty) (name : Name) : Prop := ∃ h ∈ live, h.ty = t ∧ h.name = name

/-! ### Names -/

theorem charset_length : charset.length = 16 := rfl

theorem mem_charset (c : Nat) : c ∈ charset ↔ (97 ≤ c ∧ c ≤ 102) ∨ (48 ≤ c ∧ c ≤ 57) := by
  unfold charset
  simp only [List.mem_cons, List.not_mem_nil, or_false]
  omega

theorem digits_length (l i : Nat) : (digits l i).length = l := by
  induction l generalizing i with
  | zero => rfl
  | succ l ih => simp [digits, ih]

theorem getD_mem {i : Nat} (h : i < 16) : charset.getD i 0 ∈ charset := by
  rw [List.getD_eq_getElem?_getD, List.getElem?_eq_getElem (by rw [charset_length]; exact h)]
  exact List.getElem_mem _

theorem digits_mem (l i : Nat) : ∀ c ∈ digits l i, c ∈ charset := by
  induction l generalizing i with
  | zero => simp [digits]
  | succ l ih =>
    intro c hc
    rw [digits, List.mem_append] at hc
    rcases hc with hc | hc
    · exact ih _ c hc
    · rw [List.mem_singleton.1 hc]
      exact getD_mem (Nat.mod_lt _ (by rw [charset_length]; decide))

/-- Every name over the character set is the name of some index. -/
theorem digits_surj (l : Nat) (name : Name) (hl : name.length = l) (hc : ∀ c ∈ name, c ∈ charset) :
    ∃ i, i < charset.length ^ l ∧ digits l i = name := by
  induction l generalizing name with
  | zero =>
    have : name = [] := List.length_eq_zero_iff.1 hl
    exact ⟨0, by simp, by rw [this]; rfl⟩
  | succ l ih =>
    have hne : name ≠ [] := by intro hh; rw [hh] at hl; cases hl
    have hsplit := List.dropLast_concat_getLast hne
    obtain ⟨i, hi, hd⟩ := ih name.dropLast (by simp [hl]) (fun c hcm => hc c (List.dropLast_subset _ hcm))
    obtain ⟨j, hj, hjc⟩ := List.getElem_of_mem (hc _ (List.getLast_mem hne))
    have hj16 : j < 16 := hj
    have e1 : (i * 16 + j) / 16 = i := by omega
    have e2 : (i * 16 + j) % 16 = j := by omega
    refine ⟨i * 16 + j, ?_, ?_⟩
    · rw [charset_length, Nat.pow_succ] at *
      omega
    · rw [digits, charset_length, e1, e2, hd]
      rw [List.getD_eq_getElem?_getD, List.getElem?_eq_getElem hj, Option.getD_some, hjc]
      exact hsplit

theorem autoName_iff (name : Name) : AutoName name ↔ ∃ i, i < charset.length ^ nameLen ∧ digits nameLen i = name := by
  constructor
  · rintro ⟨h1, h2⟩
    exact digits_surj nameLen name h1 (fun c hc => (mem_charset c).2 (h2 c hc))
  · rintro ⟨i, -, rfl⟩
    exact ⟨digits_length _ _, fun c hc => (mem_charset c).1 (digits_mem _ _ c hc)⟩

omit [DecidableEq σ] in
theorem linearSearch_spec (n : Ns σ) (t : Ty) (l : List Nat) (hl : ∀ i ∈ l, i < charset.length ^ nameLen) :
    (∃ i ∈ l, n.linearSearch t l = .ok (some (digits nameLen i)) ∧ n.map t (digits nameLen i) = none) ∨
    (n.linearSearch t l = .ok none ∧ ∀ i ∈ l, n.map t (digits nameLen i) ≠ none) := by
  induction l with
  | nil => exact Or.inr ⟨rfl, by simp⟩
  | cons x xs ih =>
    have hx : incrementalName nameLen x = .ok (digits nameLen x) := by
      unfold incrementalName
      rw [decide_eq_true (hl x (List.mem_cons_self ..))]
      rfl
    rw [Ns.linearSearch, hx, R.bind_ok]
    by_cases hf : n.map t (digits nameLen x) = none
    · rw [if_pos hf]
      exact Or.inl ⟨x, List.mem_cons_self .., rfl, hf⟩
    · rw [if_neg hf]
      rcases ih (fun i hi => hl i (List.mem_cons_of_mem _ hi)) with ⟨i, h1, h2, h3⟩ | ⟨h1, h2⟩
      · exact Or.inl ⟨i, List.mem_cons_of_mem _ h1, h2, h3⟩
      · refine Or.inr ⟨h1, ?_⟩
        intro i hi
        rcases List.mem_cons.1 hi with rfl | hi
        · exact hf
        · exact h2 i hi

omit [DecidableEq σ] in
/-- What `autobind` does, for all random names. -/
theorem autobind_spec (n : Ns σ) (t : Ty) (s : σ) {rng : Nat → Name} (hr : ∀ i, AutoName (rng i)) :
    (∃ name, n.autobind t s rng = .ok (n.insert t name s, .inl name) ∧ AutoName name ∧ n.map t name = none) ∨
    (n.autobind t s rng = .ok (n, .inr .noNamesAvailable) ∧ ∀ name, AutoName name → n.map t name ≠ none) := by
  unfold Ns.autobind Ns.chooseName
  cases hf : ((List.range 10).map rng).find? (fun name => decide (n.map t name = none)) with
  | some name =>
    left
    have h1 : n.map t name = none := by simpa using List.find?_some hf
    obtain ⟨i, -, hi⟩ := List.mem_map.1 (List.mem_of_find?_eq_some hf)
    refine ⟨name, ?_, hi ▸ hr i, h1⟩
    simp [h1]
  | none =>
    rcases linearSearch_spec n t (List.range (charset.length ^ nameLen)) (fun i hi => List.mem_range.1 hi) with
      ⟨i, h1, h2, h3⟩ | ⟨h1, h2⟩
    · left
      refine ⟨digits nameLen i, ?_, (autoName_iff _).2 ⟨i, List.mem_range.1 h1, rfl⟩, h3⟩
      dsimp only
      rw [h2, R.bind_ok]
      simp [h3]
    · right
      refine ⟨?_, ?_⟩
      · dsimp only
        rw [h1]
        rfl
      · intro name hn
        obtain ⟨i, hi, rfl⟩ := (autoName_iff name).1 hn
        exact h2 i (List.mem_range.2 hi)

omit [DecidableEq σ] in
/-- Without a constraint on the random names. -/
theorem autobind_ok {n n' : Ns σ} {t : Ty} {s : σ} {rng : Nat → Name} {name : Name}
    (h : n.autobind t s rng = .ok (n', .inl name)) : n' = n.insert t name s ∧ n.map t name = none := by
  unfold Ns.autobind at h
  rw [R.bind_eq_ok] at h
  obtain ⟨r, -, h⟩ := h
  cases r with
  | none => cases h
  | some m =>
    simp only [R.bind_eq_ok, R.assert_eq_ok, decide_eq_true_eq] at h
    obtain ⟨_, h1, h2⟩ := h
    cases h2
    exact ⟨rfl, h1⟩

/-! ### Invariant -/

def Holder.key (h : Holder σ) : σ × Ty × Name := (h.socket, h.ty, h.name)

structure Inv (n : Ns σ) (live : List (Holder σ)) : Prop where
  holds : ∀ t name s, n.map t name = some s ↔ ⟨s, t, name⟩ ∈ live
  lis : n.listeners.Perm (live.map Holder.key)
  excl : live.Pairwise (fun a b => ¬ (a.ty = b.ty ∧ a.name = b.name))

omit [DecidableEq σ] in
theorem Inv.none_iff {n : Ns σ} {live : List (Holder σ)} (h : Inv n live) (t : Ty) (name : Name) :
    n.map t name = none ↔ ¬ Held live t name := by
  constructor
  · rintro hn ⟨⟨s, t', name'⟩, hm, rfl, rfl⟩
    rw [(h.holds _ _ s).2 hm] at hn
    cases hn
  · intro hn
    cases hx : n.map t name with
    | none => rfl
    | some s => exact absurd ⟨_, (h.holds t name s).1 hx, rfl, rfl⟩ hn

omit [DecidableEq σ] in
theorem insert_inv {n : Ns σ} {live : List (Holder σ)} (h : Inv n live) {t : Ty} {name : Name} (hn : n.map t name = none) (s : σ) :
    Inv (n.insert t name s) (live ++ [⟨s, t, name⟩]) := by
  have hnh := (h.none_iff t name).1 hn
  refine ⟨?_, ?_, ?_⟩
  · intro t' name' s'
    simp only [Ns.insert]
    by_cases hc : t' = t ∧ name' = name
    · rw [if_pos hc]
      obtain ⟨rfl, rfl⟩ := hc
      constructor
      · intro hh; cases hh; exact List.mem_append_right _ (List.mem_singleton.2 rfl)
      · intro hm
        rcases List.mem_append.1 hm with hm | hm
        · exact absurd ⟨_, hm, rfl, rfl⟩ hnh
        · cases List.mem_singleton.1 hm; rfl
    · rw [if_neg hc, h.holds]
      constructor
      · exact fun hm => List.mem_append_left _ hm
      · intro hm
        rcases List.mem_append.1 hm with hm | hm
        · exact hm
        · cases List.mem_singleton.1 hm; exact absurd ⟨rfl, rfl⟩ hc
  · rw [List.map_append]
    exact (h.lis.cons _).trans (List.perm_append_comm (l₁ := [_]) (l₂ := live.map Holder.key))
  · rw [List.pairwise_append]
    refine ⟨h.excl, by simp, ?_⟩
    intro a ha b hb
    cases List.mem_singleton.1 hb
    rintro ⟨e1, e2⟩
    exact hnh ⟨a, ha, e1, e2⟩

omit [DecidableEq σ] in
theorem filter_one {live : List (Holder σ)} {x : Holder σ}
    (he : live.Pairwise (fun a b => ¬ (a.ty = b.ty ∧ a.name = b.name))) (hm : x ∈ live) :
    live.Perm (x :: live.filter (fun h => decide (¬ (h.ty = x.ty ∧ h.name = x.name)))) := by
  obtain ⟨l1, l2, rfl⟩ := List.append_of_mem hm
  rw [List.pairwise_append, List.pairwise_cons] at he
  obtain ⟨-, ⟨h2, -⟩, h4⟩ := he
  have e1 : l1.filter (fun h => decide (¬ (h.ty = x.ty ∧ h.name = x.name))) = l1 :=
    List.filter_eq_self.2 (fun a ha => decide_eq_true (h4 a ha x (List.mem_cons_self ..)))
  have e2 : l2.filter (fun h => decide (¬ (h.ty = x.ty ∧ h.name = x.name))) = l2 :=
    List.filter_eq_self.2 (fun a ha => decide_eq_true (fun hh => h2 a ha ⟨hh.1.symm, hh.2.symm⟩))
  rw [List.filter_append, List.filter_cons_of_neg (by simp), e1, e2]
  exact List.perm_middle

theorem unbind_spec {n : Ns σ} {live : List (Holder σ)} (h : Inv n live) (t : Ty) (name : Name) :
    (¬ Held live t name ∧ n.unbind t name = (n, some .nameNotFound)) ∨
    (Held live t name ∧ ∃ n', n.unbind t name = (n', none) ∧
      Inv n' (live.filter (fun h => decide (¬ (h.ty = t ∧ h.name = name))))) := by
  unfold Ns.unbind
  cases hx : n.map t name with
  | none => exact Or.inl ⟨(h.none_iff t name).1 hx, rfl⟩
  | some s =>
    right
    have hm := (h.holds t name s).1 hx
    refine ⟨⟨_, hm, rfl, rfl⟩, _, rfl, ?_, ?_, ?_⟩
    · intro t' name' s'
      simp only [List.mem_filter, decide_eq_true_eq]
      by_cases hc : t' = t ∧ name' = name
      · rw [if_pos hc]; simp [hc]
      · rw [if_neg hc, h.holds]; simp [hc]
    · have := filter_one h.excl hm
      have h1 := (h.lis.trans (this.map Holder.key)).erase (s, t, name)
      simpa [Holder.key] using h1
    · exact h.excl.filter _

/-- The close listeners of a socket run without a panic and remove exactly its names. -/
theorem runClose_spec {n : Ns σ} {live : List (Holder σ)} (h : Inv n live) (s : σ) (l : List (σ × Ty × Name))
    (hl : l.Perm ((live.filter (fun h => decide (h.socket = s))).map Holder.key)) :
    ∃ n', n.runClose l = .ok n' ∧ Inv n' (live.filter (fun h => decide (h.socket ≠ s))) := by
  induction l generalizing n live with
  | nil =>
    refine ⟨n, rfl, ?_⟩
    have h0 : live.filter (fun h => decide (h.socket = s)) = [] := List.map_eq_nil_iff.1 (List.nil_perm.1 hl)
    rw [List.filter_eq_nil_iff] at h0
    rw [List.filter_eq_self.2]
    · exact h
    · intro a ha
      simpa using h0 a ha
  | cons x xs ih =>
    obtain ⟨s', t, name⟩ := x
    obtain ⟨y, hy, hk⟩ := List.mem_map.1 (hl.mem_iff.1 (List.mem_cons_self ..))
    obtain ⟨hy1, hy2⟩ := List.mem_filter.1 hy
    have hys : y.socket = s := by simpa using hy2
    obtain ⟨ys, yt, yn⟩ := y
    obtain ⟨rfl, rfl, rfl⟩ : s' = ys ∧ t = yt ∧ name = yn := by
      simp only [Holder.key, Prod.mk.injEq] at hk
      exact ⟨hk.1.symm, hk.2.1.symm, hk.2.2.symm⟩
    have hys : s' = s := hys
    subst hys
    rw [Ns.runClose]
    rcases unbind_spec h t name with ⟨hn, -⟩ | ⟨-, n', e, hi⟩
    · exact absurd ⟨_, hy1, rfl, rfl⟩ hn
    · rw [e]
      obtain ⟨n2, e2, h2⟩ := ih hi (by
        rw [List.filter_filter]
        have hone := filter_one (x := ⟨s', t, name⟩) h.excl hy1
        have h3 : (live.filter (fun h => decide (h.socket = s'))).Perm
            (⟨s', t, name⟩ :: (live.filter (fun h => decide (¬ (h.ty = t ∧ h.name = name)))).filter
              (fun h => decide (h.socket = s'))) := by
          refine (hone.filter _).trans ?_
          rw [List.filter_cons_of_pos (by simp)]
        have h4 := hl.trans (h3.map Holder.key)
        rw [List.map_cons, List.filter_filter] at h4
        exact h4.cons_inv)
      refine ⟨n2, e2, ?_⟩
      rw [List.filter_filter] at h2
      have hcongr : live.filter (fun h => decide (h.socket ≠ s') && decide (¬ (h.ty = t ∧ h.name = name))) =
          live.filter (fun h => decide (h.socket ≠ s')) := by
        apply List.filter_congr
        intro a ha
        by_cases hs : a.socket = s'
        · simp [hs]
        · have : ¬ (a.ty = t ∧ a.name = name) := by
            rintro ⟨rfl, rfl⟩
            have h5 := (h.holds a.ty a.name a.socket).2 ha
            rw [(h.holds a.ty a.name s').2 hy1] at h5
            exact hs (Option.some.inj h5).symm
          simp [hs, this]
      rw [hcongr] at h2
      exact h2

theorem close_spec {n : Ns σ} {live : List (Holder σ)} (h : Inv n live) (s : σ) :
    ∃ n', n.close s = .ok n' ∧ Inv n' (live.filter (fun h => decide (h.socket ≠ s))) := by
  apply runClose_spec h s
  have h1 := h.lis.filter (fun l => decide (l.1 = s))
  rw [List.filter_map] at h1
  exact h1

theorem Run.inv {n : Ns σ} {live : List (Holder σ)} (h : Run n live) : Inv n live := by
  induction h with
  | new => exact ⟨by simp [Ns.new], .refl _, .nil⟩
  | @bind n n' live t name s _ hx ih =>
    unfold Ns.bind at hx
    split at hx
    · cases hx
    · rename_i hn
      cases hx
      exact insert_inv ih hn s
  | @autobind n n' live t name s rng _ hx ih =>
    obtain ⟨rfl, hn⟩ := autobind_ok hx
    exact insert_inv ih hn s
  | @unbind n n' live t name _ hx ih =>
    rcases unbind_spec ih t name with ⟨-, e⟩ | ⟨-, n2, e, e2⟩
    · rw [e] at hx; cases hx
    · rw [e] at hx; cases hx; exact e2
  | @close n n' live s _ hx ih =>
    obtain ⟨n2, e, e2⟩ := close_spec ih s
    rw [e] at hx
    cases hx
    exact e2

/-! ### C18 -/

/-- **C18**: at most one socket of a type holds a name, and a lookup finds exactly the holder. -/
theorem C18_exclusive {n : Ns σ} {live : List (Holder σ)} (h : Run n live) :
    live.Pairwise (fun a b => ¬ (a.ty = b.ty ∧ a.name = b.name)) ∧
    ∀ t name s, n.lookup t name = some s ↔ ⟨s, t, name⟩ ∈ live := ⟨h.inv.excl, h.inv.holds⟩

/-- **C18**: binding fails exactly if the name is held, and then changes nothing. -/
theorem C18_bind {n : Ns σ} {live : List (Holder σ)} (h : Run n live) (t : Ty) (name : Name) (s : σ) :
    (Held live t name → n.bind t name s = (n, some .nameInUse)) ∧
    (¬ Held live t name → ∃ n', n.bind t name s = (n', none)) := by
  unfold Ns.bind
  constructor
  · intro hh
    split
    · rfl
    · rename_i hn; exact absurd hh ((h.inv.none_iff t name).1 hn)
  · intro hh
    rw [(h.inv.none_iff t name).2 hh]
    exact ⟨_, rfl⟩

/-- **C18**: unbinding works exactly for held names; closing a socket never panics.  What they leave is
    said by `Run`: that name is free again, or all names of the socket are. -/
theorem C18_release {n : Ns σ} {live : List (Holder σ)} (h : Run n live) :
    (∀ t name, Held live t name ↔ ∃ n', n.unbind t name = (n', none)) ∧
    (∀ s, ∃ n', n.close s = .ok n' ∧ Run n' (live.filter (fun h => decide (h.socket ≠ s))) ∧
      ∀ t name, n.lookup t name = some s → n'.lookup t name = none) := by
  constructor
  · intro t name
    rcases unbind_spec h.inv t name with ⟨e0, e⟩ | ⟨e0, n2, e, -⟩
    · rw [e]; simp [e0]
    · rw [e]; simp [e0]
  · intro s
    obtain ⟨n', e, e2⟩ := close_spec h.inv s
    refine ⟨n', e, .close h e, ?_⟩
    intro t name hl
    have hm := (h.inv.holds t name s).1 hl
    refine (e2.none_iff t name).2 ?_
    rintro ⟨⟨s2, t2, name2⟩, h1, h2, h3⟩
    simp only at h2 h3
    subst h2 h3
    obtain ⟨h4, h5⟩ := List.mem_filter.1 h1
    have h6 := (h.inv.holds _ _ _).2 h4
    rw [(h.inv.holds _ _ s).2 hm] at h6
    cases h6
    simp at h5

/-- **C18**: autobind never panics, returns a name of the documented shape that nobody held, and fails
    exactly if all such names are held. -/
theorem C18_autobind {n : Ns σ} {live : List (Holder σ)} (h : Run n live) (t : Ty) (s : σ) {rng : Nat → Name}
    (hr : ∀ i, AutoName (rng i)) :
    (∃ n' name, n.autobind t s rng = .ok (n', .inl name) ∧ AutoName name ∧ ¬ Held live t name ∧ n'.lookup t name = some s) ∨
    (n.autobind t s rng = .ok (n, .inr .noNamesAvailable) ∧ ∀ name, AutoName name → Held live t name) := by
  rcases autobind_spec n t s hr with ⟨name, e, h1, h2⟩ | ⟨e, h1⟩
  · exact Or.inl ⟨_, name, e, h1, (h.inv.none_iff t name).1 h2, by simp [Ns.lookup, Ns.insert]⟩
  · refine Or.inr ⟨e, ?_⟩
    intro name hn
    by_cases hh : Held live t name
    · exact hh
    · exact absurd ((h.inv.none_iff t name).2 hh) (h1 name hn)

/-- There are 16^5 such names: the indexes below 16^5 give different ones. -/
theorem digits_inj (l : Nat) {i j : Nat} (hi : i < 16 ^ l) (hj : j < 16 ^ l) (h : digits l i = digits l j) : i = j := by
  induction l generalizing i j with
  | zero => simp at hi hj; omega
  | succ l ih =>
    rw [digits, digits, charset_length] at h
    obtain ⟨h1, h2⟩ := List.append_inj' h rfl
    have h3 : i / 16 = j / 16 := ih (by rw [Nat.pow_succ] at hi; omega) (by rw [Nat.pow_succ] at hj; omega) h1
    have hinj : ∀ a b : Fin 16, charset.getD a.val 0 = charset.getD b.val 0 → a = b := by decide
    have h4 := hinj ⟨i % 16, by omega⟩ ⟨j % 16, by omega⟩ (by simpa using h2)
    have h5 : i % 16 = j % 16 := congrArg Fin.val h4
    omega

/-- **C18**: the names of autobind correspond one to one to the numbers below 16^5. -/
theorem C18_name_count : ∃ f : Nat → Name, (∀ i, i < 16 ^ 5 → AutoName (f i)) ∧
    (∀ i j, i < 16 ^ 5 → j < 16 ^ 5 → f i = f j → i = j) ∧ (∀ name, AutoName name → ∃ i, i < 16 ^ 5 ∧ f i = name) :=
  ⟨digits nameLen, fun i hi => (autoName_iff _).2 ⟨i, hi, rfl⟩, fun _ _ hi hj h => digits_inj 5 hi hj h,
    fun name hn => (autoName_iff name).1 hn⟩

/-! ### Examples -/

/-- "aaaaa" -/
def nameA : Name := [97, 97, 97, 97, 97]

/-- Socket 1 takes "aaaaa", socket 2 the same name of another type; after closing socket 1 the name can be bound
    again. -/
def scenario : R (List (Option Nat)) := do
  let r := (Ns.new : Ns Nat).bind .stream nameA 1
  let r ← r.1.autobind .dgram 2 (fun _ => nameA)
  let a := r.1.lookup .stream nameA
  let b := r.1.lookup .dgram nameA
  let n ← r.1.close 1
  let c := n.lookup .stream nameA
  let r := n.bind .stream nameA 3
  return [a, b, c, r.1.lookup .stream nameA, r.1.lookup .dgram nameA]

example : scenario = .ok [some 1, some 2, none, some 3, some 2] := by decide +kernel

/-- The linear search skips names that are held. -/
example : ((Ns.new : Ns Nat).bind .stream nameA 1).1.linearSearch .stream [0, 1, 2] = .ok (some [97, 97, 97, 97, 98]) := by
  decide +kernel

/-- `incremental_name` as in the unit test of the source. -/
example : digits 5 0 = nameA ∧ digits 5 16 = [97, 97, 97, 98, 97] ∧ digits 5 1048575 = [57, 57, 57, 57, 57] := by
  decide +kernel

/-- The hypotheses are met: two holders, one of them closed. -/
example : ∃ n : Ns Nat, Run n [⟨2, .dgram, nameA⟩, ⟨3, .stream, nameA⟩] := by
  have h1 : Run _ [(⟨1, .stream, nameA⟩ : Holder Nat)] := Run.bind (t := .stream) (name := nameA) (s := 1) Run.new rfl
  have h2 := Run.autobind (t := .dgram) (s := 2) (rng := fun _ => nameA) (name := nameA) h1 rfl
  have h3 := Run.close (s := 1) h2 rfl
  exact ⟨_, Run.bind (t := .stream) (name := nameA) (s := 3) h3 rfl⟩

example : AutoName nameA := ⟨rfl, by decide⟩

end Shadow.UnixNs
