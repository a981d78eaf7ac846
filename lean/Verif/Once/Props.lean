import Verif.Once.Model
/-!
# C89: exactly one thread is the first
-/
namespace Shadow.Once

variable {V : Type} [DecidableEq V]

/-- A call is the first with its value exactly if it says so. -/
def Firsts (log : List (V × Bool)) : Prop := ∀ (before after : List (V × Bool)) (v : V) (b : Bool), log = before ++ (v, b) :: after → (b = true ↔ ∀ x ∈ before, x.1 ≠ v)

omit [DecidableEq V] in
theorem firsts_snoc {log : List (V × Bool)} {v : V} {b : Bool} (h : Firsts log) (hb : b = true ↔ ∀ x ∈ log, x.1 ≠ v) : Firsts (log ++ [(v, b)]) := by
  intro before after w c e
  rcases List.eq_nil_or_concat after with rfl | ⟨after', z, rfl⟩
  · have := List.append_inj' e rfl
    obtain ⟨rfl, h2⟩ := this
    simp only [List.cons.injEq, Prod.mk.injEq, and_true] at h2
    obtain ⟨rfl, rfl⟩ := h2
    exact hb
  · have e' : log ++ [(v, b)] = (before ++ (w, c) :: after') ++ [z] := by rw [e]; simp
    exact h before after' w c (List.append_inj' e' rfl).1

structure Inv (s : St V) : Prop where
  firsts : Firsts s.log
  set : ∀ v, v ∈ s.set ↔ ∃ b, (v, b) ∈ s.log

theorem Inv.step {s s' : St V} {a : Act V} (h : Inv s) (hs : Shadow.Once.step s a = some s') : Inv s' := by
  have none_iff : ∀ v, v ∉ s.set ↔ ∀ x ∈ s.log, x.1 ≠ v := fun v => by
    rw [h.set v]
    exact ⟨fun hn x hx e => hn ⟨x.2, e ▸ hx⟩, fun hn ⟨b, hb⟩ => hn _ hb rfl⟩
  cases a with
  | call t v =>
    simp only [Shadow.Once.step] at hs
    split at hs
    · obtain rfl := Option.some.inj hs; exact ⟨h.firsts, h.set⟩
    · cases hs
  | read t =>
    simp only [Shadow.Once.step] at hs
    split at hs
    · rename_i v _
      split at hs
      · rename_i hv
        obtain rfl := Option.some.inj hs
        refine ⟨firsts_snoc h.firsts ?_, fun w => ?_⟩
        · rw [← none_iff]; simp [hv]
        · show w ∈ s.set ↔ ∃ b, (w, b) ∈ s.log ++ [(v, false)]
          rw [h.set w]
          constructor
          · rintro ⟨b, hb⟩; exact ⟨b, List.mem_append_left _ hb⟩
          · rintro ⟨b, hb⟩
            rcases List.mem_append.1 hb with hb | hb
            · exact ⟨b, hb⟩
            · have : w = v := congrArg Prod.fst (List.mem_singleton.1 hb)
              rw [this]; exact (h.set v).1 hv
      · obtain rfl := Option.some.inj hs; exact ⟨h.firsts, h.set⟩
    · cases hs
  | write t =>
    simp only [Shadow.Once.step] at hs
    split at hs
    · rename_i v _
      obtain rfl := Option.some.inj hs
      refine ⟨firsts_snoc h.firsts ?_, fun w => ?_⟩
      · rw [← none_iff]; unfold put; split <;> simp_all
      · show w ∈ (put s.set v).2 ↔ ∃ b, (w, b) ∈ s.log ++ [(v, (put s.set v).1)]
        have : w ∈ (put s.set v).2 ↔ w ∈ s.set ∨ w = v := by
          unfold put; split
          · rename_i hv; exact ⟨.inl, fun hw => hw.elim id (fun e => e ▸ hv)⟩
          · simp only [List.mem_cons]; exact or_comm
        rw [this, h.set w]
        constructor
        · rintro (⟨b, hb⟩ | rfl)
          · exact ⟨b, List.mem_append_left _ hb⟩
          · exact ⟨_, List.mem_append_right _ (List.mem_singleton.2 rfl)⟩
        · rintro ⟨b, hb⟩
          rcases List.mem_append.1 hb with hb | hb
          · exact .inl ⟨b, hb⟩
          · exact .inr (congrArg Prod.fst (List.mem_singleton.1 hb))
    · cases hs

theorem Inv.run {s s' : St V} (as : List (Act V)) (h : Inv s) (hr : Shadow.Once.run s as = some s') : Inv s' := by
  induction as generalizing s with
  | nil => obtain rfl := Option.some.inj hr; exact h
  | cons a as ih =>
    simp only [Shadow.Once.run] at hr
    split at hr
    · rename_i s1 h1; exact ih (h.step h1) hr
    · cases hr

omit [DecidableEq V] in
theorem Inv.init : Inv (St.init : St V) := ⟨fun b a v c e => by simp [St.init] at e, fun v => by simp [St.init]⟩

/-- **Among calls with the same value, exactly the first says that it is the first.** In every interleaving of any number of threads, and in the order in which the
    calls end. -/
theorem C89_first {as : List (Act V)} {s : St V} (hr : run St.init as = some s) : Firsts s.log := (Inv.init.run as hr).firsts

theorem count_first {log : List (V × Bool)} (h : Firsts log) (v : V) : (log.filter (fun x => x = (v, true))).length = if ∃ b, (v, b) ∈ log then 1 else 0 := by
  obtain ⟨n, hn⟩ : ∃ n, log.length = n := ⟨_, rfl⟩
  induction n generalizing log with
  | zero => simp [List.length_eq_zero_iff.1 hn]
  | succ n ih =>
    rcases List.eq_nil_or_concat log with rfl | ⟨log', ⟨w, c⟩, rfl⟩
    · simp at hn
    rename_i log
    rw [List.concat_eq_append] at *
    have ih := fun h => ih (log := log') h (by simpa using hn)
    generalize log' = log at *
    have hpre : Firsts log := fun b a u d e => h b (a ++ [(w, c)]) u d (by rw [e]; simp)
    have hlast := h log [] w c rfl
    rw [List.filter_append, List.length_append, ih hpre]
    by_cases e : w = v
    · subst e
      by_cases hc : c = true
      · have hnone := hlast.1 hc
        have : ¬ ∃ b, (w, b) ∈ log := fun ⟨b, hb⟩ => hnone _ hb rfl
        subst hc
        rw [if_neg this, if_pos ⟨true, by simp⟩]
        simp
      · have hex : ∃ b, (w, b) ∈ log := by
          apply Classical.byContradiction
          intro hn
          exact hc (hlast.2 fun x hx e => hn ⟨x.2, e ▸ hx⟩)
        have hcf : c = false := by simpa using hc
        obtain ⟨b, hb⟩ := hex
        rw [if_pos ⟨b, hb⟩, if_pos ⟨b, List.mem_append_left _ hb⟩]
        simp [hcf]
    · have : (∃ b, (v, b) ∈ log ++ [(w, c)]) ↔ ∃ b, (v, b) ∈ log := by
        constructor
        · rintro ⟨b, hb⟩
          rcases List.mem_append.1 hb with hb | hb
          · exact ⟨b, hb⟩
          · exact absurd (congrArg Prod.fst (List.mem_singleton.1 hb)).symm e
        · rintro ⟨b, hb⟩; exact ⟨b, List.mem_append_left _ hb⟩
      simp only [this]
      have hf : [(w, c)].filter (fun x => x = (v, true)) = [] := by simp [e]
      rw [hf]; simp

/-- **For every value for which a call has ended, exactly one message has the first level.** -/
theorem C89_one {as : List (Act V)} {s : St V} (hr : run St.init as = some s) (v : V) :
    (s.log.filter (fun x => x = (v, true))).length = if ∃ b, (v, b) ∈ s.log then 1 else 0 := count_first (C89_first hr) v

/-- **A call ends after at most two steps of its own**, whatever the others do. -/
theorem C89_ends (s : St V) (t : Nat) :
    (∀ v, s.th t = .reading v → ∃ s', step s (.read t) = some s' ∧ ((s'.th t = .idle ∧ s'.log = s.log ++ [(v, false)]) ∨ (s'.th t = .writing v ∧ s'.log = s.log)))
    ∧ (∀ v, s.th t = .writing v → ∃ s' b, step s (.write t) = some s' ∧ s'.th t = .idle ∧ s'.log = s.log ++ [(v, b)]) := by
  constructor
  · intro v hv
    simp only [step, hv]
    split
    · exact ⟨_, rfl, .inl ⟨by simp [St.at], rfl⟩⟩
    · exact ⟨_, rfl, .inr ⟨by simp [St.at], rfl⟩⟩
  · intro v hv
    simp only [step, hv]
    exact ⟨_, _, rfl, by simp [St.at], rfl⟩

/-- Others do not move a thread. -/
theorem C89_still {s s' : St V} {a : Act V} (hs : step s a = some s') {t : Nat} (ha : a ≠ .read t ∧ a ≠ .write t ∧ ∀ v, a ≠ .call t v) : s'.th t = s.th t := by
  have hat : ∀ u p, u ≠ t → (s.at u p).th t = s.th t := fun u p hu => by simp [St.at, Ne.symm hu]
  cases a with
  | call u v =>
    have hu : u ≠ t := fun e => ha.2.2 v (by rw [e])
    simp only [step] at hs
    split at hs
    · obtain rfl := Option.some.inj hs; exact hat u _ hu
    · cases hs
  | read u =>
    have hu : u ≠ t := fun e => ha.1 (by rw [e])
    simp only [step] at hs
    split at hs
    · split at hs <;> (obtain rfl := Option.some.inj hs; exact hat u _ hu)
    · cases hs
  | write u =>
    have hu : u ≠ t := fun e => ha.2.1 (by rw [e])
    simp only [step] at hs
    split at hs
    · obtain rfl := Option.some.inj hs; exact hat u _ hu
    · cases hs

/-- **A line without a value has the first level once.** -/
theorem C89_line (first rest n : Nat) : levels first rest false (n + 1) = first :: List.replicate n rest := by
  have : ∀ n, levels first rest true n = List.replicate n rest := by
    intro n
    induction n with
    | zero => rfl
    | succ n ih => simp [levels, exchange, level, ih, List.replicate_succ]
  simp [levels, exchange, level, this]

/-! ### Examples -/

/-- Two threads find that a value is not there; one is the first. -/
theorem ex_race : (run (St.init : St Nat) [.call 0 5, .call 1 5, .read 0, .read 1, .write 1, .write 0, .call 2 5, .read 2, .call 2 6, .read 2, .write 2]).map (·.log) =
    some [(5, true), (5, false), (5, false), (6, true)] := by decide +kernel

end Shadow.Once
