import Verif.Preload.Model
/-!
# C91: the libraries of the simulator come first in every program, once, and nothing else of the environment changes
-/
namespace Shadow.Preload

open Shadow.Base

/-! ## What lists of libraries are

ld.so(8): "The items of the list can be separated by spaces or colons, and there is no support for escaping either separator." -/

def Sep (c : Nat) : Prop := c = 32 ∨ c = 58

/-- A text is a list of these items. -/
inductive Items : List Nat → List (List Nat) → Prop where
  | one {p : List Nat} : (∀ c ∈ p, ¬ Sep c) → Items p [p]
  | more {p s : List Nat} {c : Nat} {ps : List (List Nat)} : (∀ c ∈ p, ¬ Sep c) → Sep c → Items s ps → Items (p ++ c :: s) (p :: ps)

theorem isSep_iff (c : Nat) : isSep c = true ↔ Sep c := by simp [isSep, Sep]

theorem split_ne (s : List Nat) : split s ≠ [] := by
  cases s with
  | nil => simp [split]
  | cons c s =>
    simp only [split]
    split
    · simp
    · split <;> simp

theorem items_split (s : List Nat) : Items s (split s) := by
  induction s with
  | nil => exact .one (by simp)
  | cons c s ih =>
    simp only [split]
    split
    · rename_i hc
      exact .more (p := []) (by simp) ((isSep_iff c).1 hc) ih
    · rename_i hc
      have hc' : ¬ Sep c := fun h => hc ((isSep_iff c).2 h)
      cases hs : split s with
      | nil => exact absurd hs (split_ne s)
      | cons p ps =>
        rw [hs] at ih
        cases ih with
        | one h => exact .one (by simpa [hc'] using h)
        | more h hd hi => exact .more (p := c :: p) (by simpa [hc'] using h) hd hi

/-- A text is just one list of items. -/
theorem Items.eq {s : List Nat} {l : List (List Nat)} (h : Items s l) : l = split s := by
  induction h with
  | one h =>
    rename_i p
    induction p with
    | nil => rfl
    | cons c p ih =>
      have h' := ih fun d hd => h d (List.mem_cons_of_mem _ hd)
      have hc : isSep c = false := by
        have := h c List.mem_cons_self
        simpa [← isSep_iff] using this
      simp [split, hc, ← h']
  | more h hc hi ih =>
    rename_i p s c ps
    induction p with
    | nil => simp [split, (isSep_iff c).2 hc, ← ih]
    | cons d p ih2 =>
      have h' := ih2 fun d hd => h d (List.mem_cons_of_mem _ hd)
      have hd : isSep d = false := by
        have := h d List.mem_cons_self
        simpa [← isSep_iff] using this
      simp [split, hd, ← h']

theorem items_join {l : List (List Nat)} (hl : l ≠ []) (h : ∀ p ∈ l, ∀ c ∈ p, ¬ Sep c) : Items (join l) l := by
  induction l with
  | nil => exact absurd rfl hl
  | cons p l ih =>
    cases l with
    | nil => simpa [join] using Items.one (h p List.mem_cons_self)
    | cons q l =>
      have := ih (by simp) fun r hr => h r (List.mem_cons_of_mem _ hr)
      simpa [join] using Items.more (h p List.mem_cons_self) (.inr rfl) this

theorem Items.sepFree {s : List Nat} {l : List (List Nat)} (h : Items s l) : ∀ p ∈ l, ∀ c ∈ p, ¬ Sep c := by
  induction h with
  | one h => simpa using h
  | more h _ _ ih => simpa using ⟨h, ih⟩

theorem Items.mem {s : List Nat} {l : List (List Nat)} (h : Items s l) : ∀ p ∈ l, ∀ c ∈ p, c ∈ s := by
  induction h with
  | one h => simp
  | more h _ _ ih =>
    intro p hp c hc
    rcases List.mem_cons.1 hp with rfl | hp
    · exact List.mem_append_left _ hc
    · exact List.mem_append_right _ (List.mem_cons_of_mem _ (ih p hp c hc))

theorem zero_join (l : List (List Nat)) (h : ∀ p ∈ l, 0 ∉ p) : 0 ∉ join l := by
  cases l with
  | nil => simp [join]
  | cons p l =>
    simp only [join, List.mem_append, List.mem_flatten, List.mem_map, not_or, not_exists, not_and]
    refine ⟨h p List.mem_cons_self, ?_⟩
    rintro _ ⟨q, hq, rfl⟩
    simpa using h q (List.mem_cons_of_mem _ hq)

/-! ## The change of one entry -/

/-- What may be injected: no separators, no byte 0. -/
def Fit (inj : List (List Nat)) : Prop := ∀ p ∈ inj, (∀ c ∈ p, ¬ Sep c) ∧ 0 ∉ p

/-- `new` is the value that `old` becomes: the injected libraries in their order, then the others that were there, in theirs. -/
def Becomes (inj : List (List Nat)) (old new : List Nat) : Prop :=
  ∃ before after, Items old before ∧ Items new after ∧ after = inj ++ before.filter (fun p => p ∉ inj)

theorem fit_assert {inj : List (List Nat)} : inj.all (fun p => !p.any isSep) = true ↔ ∀ p ∈ inj, ∀ c ∈ p, ¬ Sep c := by
  simp only [List.all_eq_true, Bool.not_eq_true', List.any_eq_false, isSep_iff]

/-- The old value is all spaces and colons, and nothing is injected: only then are there no items left, and none are needed. -/
theorem value_ok {inj : List (List Nat)} (hf : Fit inj) {old : List Nat} (ho : 0 ∉ old) (hne : inj ≠ [] ∨ ∃ p ∈ split old, p ∉ inj) :
    ∃ new, value old inj = .ok (key ++ new) ∧ Becomes inj old new ∧ 0 ∉ new := by
  have hs : ((split old).filter (fun p => !inj.contains p)) = (split old).filter (fun p => p ∉ inj) := by congr 1; funext p; simp
  have hz : 0 ∉ join (inj ++ (split old).filter (fun p => p ∉ inj)) := by
    apply zero_join
    intro p hp
    rcases List.mem_append.1 hp with h | h
    · exact (hf p h).2
    · exact fun h0 => ho ((items_split old).mem p (List.mem_filter.1 h).1 0 h0)
  refine ⟨join (inj ++ (split old).filter (fun p => p ∉ inj)), ?_, ⟨_, _, items_split old, items_join ?_ ?_, rfl⟩, hz⟩
  · have h1 : inj.all (fun p => !p.any isSep) = true := fit_assert.2 fun p hp => (hf p hp).1
    have h2 : (!(key ++ join (inj ++ (split old).filter (fun p => p ∉ inj))).contains 0) = true := by
      simp only [List.contains_eq_mem, List.mem_append, Bool.not_eq_true', decide_eq_false_iff_not, not_or]
      exact ⟨by decide, hz⟩
    simp only [value, hs, h1, h2, R.assert_true, R.bind_ok]
  · rcases hne with h | ⟨p, hp, hq⟩
    · simp [h]
    · intro e
      have : p ∈ inj ++ (split old).filter (fun p => p ∉ inj) := List.mem_append_right _ (List.mem_filter.2 ⟨hp, by simpa using hq⟩)
      rw [e] at this; simp at this
  · intro p hp
    rcases List.mem_append.1 hp with h | h
    · exact (hf p h).1
    · exact (items_split old).sepFree p (List.mem_filter.1 h).1

theorem left_over (inj : List (List Nat)) (old : List Nat) : inj ≠ [] ∨ ∃ p ∈ split old, p ∉ inj := by
  cases inj with
  | cons p l => simp
  | nil =>
    refine .inr ?_
    obtain ⟨p, l, h⟩ := List.exists_cons_of_ne_nil (split_ne old)
    exact ⟨p, by simp [h], by simp⟩

theorem prefix_iff (e : List Nat) : key.isPrefixOf e = true ↔ ∃ old, e = key ++ old := by
  rw [List.isPrefixOf_iff_prefix]
  exact ⟨fun ⟨t, h⟩ => ⟨t, h.symm⟩, fun ⟨t, h⟩ => ⟨t, h.symm⟩⟩

/-- An entry that says what to load. -/
def Says (e : List Nat) : Prop := ∃ old, e = key ++ old

theorem replace_some {inj : List (List Nat)} {pre : List (List Nat)} (hp : ∀ e ∈ pre, ¬ Says e) (old : List Nat) (post : List (List Nat)) {v : List Nat}
    (hv : value old inj = .ok v) : replace inj (pre ++ (key ++ old) :: post) = some (.ok (pre ++ v :: post)) := by
  induction pre with
  | nil =>
    have : key.isPrefixOf (key ++ old) = true := (prefix_iff _).2 ⟨old, rfl⟩
    simp only [List.nil_append, replace, this, if_true, List.drop_left, hv, R.bind_ok]
  | cons e pre ih =>
    have he : ¬ key.isPrefixOf e = true := fun h => hp e List.mem_cons_self ((prefix_iff e).1 h)
    have := ih fun x hx => hp x (List.mem_cons_of_mem _ hx)
    simp only [List.cons_append, replace, he, Bool.false_eq_true, if_false, this, R.bind_ok]

theorem replace_none {inj : List (List Nat)} {env : List (List Nat)} (hp : ∀ e ∈ env, ¬ Says e) : replace inj env = none := by
  induction env with
  | nil => rfl
  | cons e env ih =>
    have he : ¬ key.isPrefixOf e = true := fun h => hp e List.mem_cons_self ((prefix_iff e).1 h)
    simp only [replace, he, Bool.false_eq_true, if_false, ih fun x hx => hp x (List.mem_cons_of_mem _ hx)]

theorem first_or_none (env : List (List Nat)) : (∀ e ∈ env, ¬ Says e) ∨ ∃ pre old post, env = pre ++ (key ++ old) :: post ∧ ∀ e ∈ pre, ¬ Says e := by
  induction env with
  | nil => simp
  | cons e env ih =>
    by_cases he : Says e
    · obtain ⟨old, rfl⟩ := he
      exact .inr ⟨[], old, env, rfl, by simp⟩
    · rcases ih with h | ⟨pre, old, post, rfl, h⟩
      · exact .inl (by simpa [he] using h)
      · exact .inr ⟨e :: pre, old, post, rfl, by simpa [he] using h⟩

/-! ## The theorems -/

/-- **The libraries of the simulator are loaded first.** The first entry of the environment that says what to load then says: these libraries in their order, then those
    that were there before, each of the simulator's just once. All other entries and their order stay. If no entry says what to load there is a new one at the end. -/
theorem C91_inject {env inj : List (List Nat)} (hf : Fit inj) (he : ∀ e ∈ env, 0 ∉ e) :
    (∃ pre old post new, env = pre ++ (key ++ old) :: post ∧ (∀ e ∈ pre, ¬ Says e) ∧ inject env inj = .ok (pre ++ (key ++ new) :: post) ∧ Becomes inj old new)
    ∨ ((∀ e ∈ env, ¬ Says e) ∧ ∃ new, inject env inj = .ok (env ++ [key ++ new]) ∧ Becomes inj [] new) := by
  rcases first_or_none env with h | ⟨pre, old, post, rfl, h⟩
  · obtain ⟨new, hv, hb, _⟩ := value_ok hf (old := []) (by simp) (left_over inj [])
    exact .inr ⟨h, new, by simp [inject, replace_none h, hv], hb⟩
  · have ho : 0 ∉ old := fun h0 => he (key ++ old) (by simp) (List.mem_append_right _ h0)
    obtain ⟨new, hv, hb, _⟩ := value_ok hf ho (left_over inj old)
    exact .inl ⟨pre, old, post, new, rfl, h, by simp [inject, replace_some h old post hv], hb⟩

/-- **Once is enough**: a program that starts another with the environment that it was given itself adds nothing. -/
theorem C91_again {env env' inj : List (List Nat)} (hf : Fit inj) (he : ∀ e ∈ env, 0 ∉ e) (h : inject env inj = .ok env') : inject env' inj = .ok env' := by
  have again : ∀ {old new : List Nat}, value old inj = .ok (key ++ new) → Becomes inj old new → 0 ∉ new → value new inj = .ok (key ++ new) := by
    intro old new hv ⟨before, after, hb, ha, e⟩ h0
    have h1 : split new = inj ++ (split old).filter (fun p => p ∉ inj) := by rw [← ha.eq, e, hb.eq]
    have h2 : (split new).filter (fun p => !inj.contains p) = (split old).filter (fun p => !inj.contains p) := by
      have hn : inj.filter (fun p => !inj.contains p) = [] := by
        rw [List.filter_eq_nil_iff]; intro p hp; simp [hp]
      have hd : (fun p => !inj.contains p) = (fun p => decide (p ∉ inj)) := by funext p; simp
      rw [h1, List.filter_append, hn, List.nil_append, hd, List.filter_filter]
      simp
    simp only [value] at hv ⊢
    rw [h2]; exact hv
  rcases first_or_none env with hn | ⟨pre, old, post, rfl, hn⟩
  · obtain ⟨new, hv, hb, h0⟩ := value_ok hf (old := []) (by simp) (left_over inj [])
    have : env' = env ++ [key ++ new] := by
      have h' : inject env inj = .ok (env ++ [key ++ new]) := by simp [inject, replace_none hn, hv]
      exact R.ok.inj (h.symm.trans h')
    subst this
    have := replace_some hn new [] (again hv hb h0)
    simp [inject, this]
  · have ho : 0 ∉ old := fun h0 => he (key ++ old) (by simp) (List.mem_append_right _ h0)
    obtain ⟨new, hv, hb, h0⟩ := value_ok hf ho (left_over inj old)
    have : env' = pre ++ (key ++ new) :: post := by
      have h' : inject (pre ++ (key ++ old) :: post) inj = .ok (pre ++ (key ++ new) :: post) := by simp [inject, replace_some hn old post hv]
      exact R.ok.inj (h.symm.trans h')
    subst this
    have := replace_some hn new post (again hv hb h0)
    simp [inject, this]

/-- Starting any number of programs one after the other. -/
def chain (inj : List (List Nat)) : Nat → List (List Nat) → R (List (List Nat))
  | 0, env => .ok env
  | n + 1, env => do
    let env' ← inject env inj
    chain inj n env'

/-- **The environment does not grow** over any number of programs that start one another. -/
theorem C91_chain {env env' inj : List (List Nat)} (hf : Fit inj) (he : ∀ e ∈ env, 0 ∉ e) (h : inject env inj = .ok env') (n : Nat) : chain inj (n + 1) env = .ok env' := by
  have key : ∀ n, chain inj n env' = .ok env' := by
    intro n
    induction n with
    | zero => rfl
    | succ n ih => simp [chain, C91_again hf he h, ih]
  simp [chain, h, key]

/-- A library whose path has a separator makes the simulator fail, whatever the environment. -/
theorem C91_separator {env inj : List (List Nat)} {p : List Nat} {c : Nat} (hp : p ∈ inj) (hc : c ∈ p) (hs : Sep c) : inject env inj = .panic := by
  have hv : ∀ old, value old inj = .panic := by
    intro old
    have : inj.all (fun p => !p.any isSep) = false := by
      rw [Bool.eq_false_iff]
      exact fun h => fit_assert.1 h p hp c hc hs
    simp [value, this]
  have hr : ∀ env, replace inj env = none ∨ replace inj env = some .panic := by
    intro env
    induction env with
    | nil => exact .inl rfl
    | cons e env ih =>
      simp only [replace]
      split
      · simp [hv]
      · rcases ih with ih | ih <;> simp [ih]
  rcases hr env with h | h <;> simp [inject, h, hv]

/-- **Finding**: of several entries that say what to load just the first is changed. (The comment in the code says that the loader goes by the first one. The loader
    is not modelled; if it goes by a later one, the libraries of the simulator are missing there.) -/
theorem C91_two {inj pre mid post : List (List Nat)} {a b : List Nat} (hf : Fit inj) (hp : ∀ e ∈ pre, ¬ Says e) (hz : 0 ∉ a) :
    ∃ new, inject (pre ++ (key ++ a) :: mid ++ (key ++ b) :: post) inj = .ok (pre ++ (key ++ new) :: mid ++ (key ++ b) :: post) := by
  obtain ⟨new, hv, _, _⟩ := value_ok hf hz (left_over inj a)
  have := replace_some hp a (mid ++ (key ++ b) :: post) hv
  exact ⟨new, by simpa [inject] using by simp [this]⟩

/-! ## Examples (97 is a, 98 is b, 99 is c, 47 is the slash) -/

theorem ex_fit : Fit [[47, 97], [47, 98]] := by simp [Fit, Sep]

/-- `X=`, `LD_PRELOAD=/c /a` becomes `X=`, `LD_PRELOAD=/a:/b:/c`. -/
theorem ex_inject : inject [[88, 61], key ++ [47, 99, 32, 47, 97]] [[47, 97], [47, 98]] = .ok [[88, 61], key ++ [47, 97, 58, 47, 98, 58, 47, 99]] := by decide +kernel

/-- Without an entry there is a new one, with an empty item at its end. -/
theorem ex_new : inject [[88, 61]] [[47, 97]] = .ok [[88, 61], key ++ [47, 97, 58]] := by decide +kernel

theorem ex_two : inject [key ++ [47, 99], key ++ [47, 98]] [[47, 97]] = .ok [key ++ [47, 97, 58, 47, 99], key ++ [47, 98]] := by decide +kernel

end Shadow.Preload
