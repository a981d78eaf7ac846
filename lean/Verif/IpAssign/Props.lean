import Verif.IpAssign.Model
/-!
# C20: automatic IP assignment gives unique usable addresses
-/
namespace Shadow.IpAssign

variable {T : Type}

/-! ## Specification -/

/-- A usable IPv4 address: not ending in `.0` or `.255`. -/
def Usable (a : Nat) : Prop := a < 4294967296 ∧ a % 256 ≠ 0 ∧ a % 256 ≠ 255

/-- `a` is the least usable address above `last` that `taken` does not contain. -/
def LeastFree (taken : Addr → Prop) (last a : Nat) : Prop :=
  last < a ∧ Usable a ∧ ¬ taken (.v4 a) ∧ ∀ b, last < b → b < a → Usable b → taken (.v4 b)

theorem incGo_spec (fuel : Nat) : ∀ n, n + fuel = 4294967296 →
    (∀ a, incGo n fuel = some a → n ≤ a ∧ Usable a ∧ ∀ b, n ≤ b → b < a → ¬ Usable b)
    ∧ (incGo n fuel = none → ∀ b, n ≤ b → ¬ Usable b) := by
  induction fuel with
  | zero =>
    intro n hn
    refine ⟨by simp [incGo], fun _ b hb hu => ?_⟩
    have := hu.1; omega
  | succ f ih =>
    intro n hn
    simp only [incGo]
    split
    · rename_i hbad
      have ih := ih (n + 1) (by omega)
      have hnu : ¬ Usable n := by rintro ⟨_, h1, h2⟩; omega
      refine ⟨fun a ha => ?_, fun ha b hb => ?_⟩
      · obtain ⟨h1, h2, h3⟩ := ih.1 a ha
        refine ⟨by omega, h2, fun b hb hba => ?_⟩
        by_cases hbn : b = n
        · subst hbn; exact hnu
        · exact h3 b (by omega) hba
      · by_cases hbn : b = n
        · subst hbn; exact hnu
        · exact ih.2 ha b (by omega)
    · rename_i hok
      refine ⟨fun a ha => ?_, by simp⟩
      obtain rfl := Option.some.inj ha
      exact ⟨Nat.le_refl _, ⟨by omega, by omega, by omega⟩, fun b hb hba => by omega⟩

theorem increment_spec (last : Nat) (h : last < 4294967296) :
    (∀ a, increment last = some a → last < a ∧ Usable a ∧ ∀ b, last < b → b < a → ¬ Usable b)
    ∧ (increment last = none → ∀ b, last < b → ¬ Usable b) :=
  incGo_spec _ (last + 1) (by omega)

theorem findFree_spec (map : Addr → Option T) (fuel : Nat) : ∀ last, last < 4294967296 →
    4294967296 ≤ last + fuel →
    (∀ a, findFree map last fuel = some a → LeastFree (fun x => map x ≠ none) last a)
    ∧ (findFree map last fuel = none → ∀ b, last < b → Usable b → map (.v4 b) ≠ none) := by
  induction fuel with
  | zero => intro last h1 h2; omega
  | succ f ih =>
    intro last hl hf
    have hs := increment_spec last hl
    simp only [findFree]
    cases hi : increment last with
    | none =>
      refine ⟨by simp, fun _ b hb hu => absurd hu (hs.2 hi b hb)⟩
    | some a =>
      obtain ⟨h1, h2, h3⟩ := hs.1 a hi
      simp only
      cases hm : map (.v4 a) with
      | none =>
        refine ⟨fun x hx => ?_, by simp⟩
        obtain rfl := Option.some.inj hx
        exact ⟨h1, h2, by simp [hm], fun b hb hba hu => absurd hu (h3 b hb hba)⟩
      | some v =>
        have ih := ih a h2.1 (by omega)
        refine ⟨fun x hx => ?_, fun hx b hb hu => ?_⟩
        · obtain ⟨g1, g2, g3, g4⟩ := ih.1 x hx
          refine ⟨by omega, g2, g3, fun b hb hbx hu => ?_⟩
          rcases Nat.lt_trichotomy b a with hc | hc | hc
          · exact absurd hu (h3 b hb hc)
          · subst hc; simp [hm]
          · exact g4 b hc hbx hu
        · rcases Nat.lt_trichotomy b a with hc | hc | hc
          · exact absurd hu (h3 b hb hc)
          · subst hc; simp [hm]
          · exact ih.2 hx b hc hu

/-- **C20.**  Automatic assignment returns the least usable unassigned address above the last
    automatically assigned one, binds exactly it, and fails (panics) only if there is none. -/
theorem C20_assign (s : St T) (h : s.last < 4294967296) (node : T) :
    (∀ a s', s.assign node = some (a, s') →
      LeastFree (fun x => s.getNode x ≠ none) s.last a
      ∧ s'.last = a ∧ s'.getNode (.v4 a) = some node
      ∧ ∀ x, x ≠ .v4 a → s'.getNode x = s.getNode x)
    ∧ (s.assign node = none ↔ ¬ ∃ a, LeastFree (fun x => s.getNode x ≠ none) s.last a) := by
  have hs := findFree_spec s.map 4294967296 s.last h (by omega)
  unfold St.assign
  cases hf : findFree s.map s.last 4294967296 with
  | none =>
    refine ⟨by simp, ⟨fun _ => ?_, by simp⟩⟩
    rintro ⟨a, h1, h2, h3, h4⟩
    exact h3 (hs.2 hf a h1 h2)
  | some a =>
    refine ⟨fun x s' hx => ?_, ⟨by simp, fun hn => absurd ⟨a, hs.1 a hf⟩ hn⟩⟩
    simp only [Option.some.injEq, Prod.mk.injEq] at hx
    obtain ⟨rfl, rfl⟩ := hx
    refine ⟨hs.1 _ hf, rfl, by simp [St.getNode], fun y hy => by simp [St.getNode, hy]⟩

/-- **C20.**  Manual assignment of a taken address is refused and changes nothing; of a free address
    it binds exactly that address. -/
theorem C20_assign_ip (s : St T) (node : T) (addr : Addr) :
    (s.getNode addr ≠ none → s.assignIp node addr = (false, s))
    ∧ (s.getNode addr = none → (s.assignIp node addr).1 = true
      ∧ (s.assignIp node addr).2.last = s.last
      ∧ (s.assignIp node addr).2.getNode addr = some node
      ∧ ∀ x, x ≠ addr → (s.assignIp node addr).2.getNode x = s.getNode x) := by
  unfold St.assignIp St.getNode
  cases hm : s.map addr with
  | none => refine ⟨by simp, fun _ => ⟨rfl, rfl, by simp, fun x hx => by simp [hx]⟩⟩
  | some v => exact ⟨fun _ => rfl, by simp⟩

/-! ## Histories -/

/-- The bindings a history made, in order: automatic ones and accepted manual ones. -/
def bindings : List (Op T × Ans) → List (Addr × T)
  | [] => []
  | (.auto n, .auto a) :: l => (.v4 a, n) :: bindings l
  | (.manual n a, .manual true) :: l => (a, n) :: bindings l
  | _ :: l => bindings l

/-- The automatically assigned addresses of a history, in order. -/
def autos : List (Op T × Ans) → List Nat
  | [] => []
  | (_, .auto a) :: l => a :: autos l
  | _ :: l => autos l

theorem run_inv (ops : List (Op T)) : ∀ (s : St T), s.last < 4294967296 →
    ∀ l s', s.run ops = some (l, s') →
    s'.last < 4294967296
    ∧ (∀ x v, s'.getNode x = some v ↔ s.getNode x = some v ∨ (x, v) ∈ bindings l)
    ∧ (∀ p ∈ bindings l, s.getNode p.1 = none)
    ∧ (bindings l).Pairwise (fun p q => p.1 ≠ q.1)
    ∧ (∀ a ∈ autos l, s.last < a ∧ Usable a)
    ∧ (autos l).Pairwise (· < ·) := by
  induction ops with
  | nil =>
    intro s hs l s' h
    simp only [St.run, Option.some.injEq, Prod.mk.injEq] at h
    obtain ⟨rfl, rfl⟩ := h
    exact ⟨hs, by simp [bindings], by simp [bindings], by simp [bindings], by simp [autos],
      by simp [autos]⟩
  | cons o os ih =>
    intro s hs l s' h
    simp only [St.run] at h
    cases hst : s.step o with
    | none => simp [hst] at h
    | some r =>
      obtain ⟨an, s1⟩ := r
      simp only [hst] at h
      cases hrun : s1.run os with
      | none => simp [hrun] at h
      | some q =>
        obtain ⟨l1, s2⟩ := q
        simp only [hrun, Option.some.injEq, Prod.mk.injEq] at h
        obtain ⟨rfl, rfl⟩ := h
        cases o with
        | auto n =>
          simp only [St.step, Option.map_eq_some_iff] at hst
          obtain ⟨⟨a, sx⟩, hx, he⟩ := hst
          simp only [Prod.mk.injEq] at he
          obtain ⟨rfl, rfl⟩ := he
          obtain ⟨⟨g1, g2, g3, _⟩, g5, g6, g7⟩ := (C20_assign s hs n).1 a sx hx
          have g3 : s.getNode (.v4 a) = none := by simpa using g3
          have ih := ih sx (by rw [g5]; exact g2.1) l1 s2 hrun
          obtain ⟨i1, i2, i3, i4, i5, i6⟩ := ih
          simp only [bindings, autos]
          refine ⟨i1, ?_, ?_, ?_, ?_, ?_⟩
          · intro x v
            rw [i2]
            by_cases hxa : x = .v4 a
            · subst hxa
              rw [g6, g3]
              simp only [List.mem_cons, Prod.mk.injEq, true_and, Option.some.injEq]
              constructor
              · rintro (rfl | h)
                · exact .inr (.inl rfl)
                · exact .inr (.inr h)
              · rintro (h | rfl | h)
                · simp at h
                · exact .inl rfl
                · exact .inr h
            · rw [g7 x hxa]
              simp [hxa]
          · intro p hp
            rcases List.mem_cons.mp hp with rfl | hp
            · exact g3
            · have := i3 p hp
              by_cases hxa : p.1 = .v4 a
              · rw [hxa]; exact g3
              · rwa [g7 _ hxa] at this
          · refine List.pairwise_cons.mpr ⟨fun p hp e => ?_, i4⟩
            have := i3 p hp
            rw [← e, g6] at this
            simp at this
          · intro b hb
            rcases List.mem_cons.mp hb with rfl | hb
            · exact ⟨g1, g2⟩
            · have := i5 b hb
              rw [g5] at this
              exact ⟨by omega, this.2⟩
          · refine List.pairwise_cons.mpr ⟨fun b hb => ?_, i6⟩
            have := i5 b hb
            rw [g5] at this
            exact this.1
        | manual n ad =>
          simp only [St.step, Option.some.injEq, Prod.mk.injEq] at hst
          obtain ⟨rfl, rfl⟩ := hst
          have hm := C20_assign_ip s n ad
          by_cases hfree : s.getNode ad = none
          · obtain ⟨m1, m2, m3, m4⟩ := hm.2 hfree
            have ih := ih _ (by rw [m2]; exact hs) l1 s2 hrun
            obtain ⟨i1, i2, i3, i4, i5, i6⟩ := ih
            rw [m1]
            simp only [bindings, autos]
            refine ⟨i1, ?_, ?_, ?_, ?_, i6⟩
            · intro x v
              rw [i2]
              by_cases hxa : x = ad
              · subst hxa
                rw [m3, hfree]
                simp only [List.mem_cons, Prod.mk.injEq, true_and, Option.some.injEq]
                constructor
                · rintro (rfl | h)
                  · exact .inr (.inl rfl)
                  · exact .inr (.inr h)
                · rintro (h | rfl | h)
                  · simp at h
                  · exact .inl rfl
                  · exact .inr h
              · rw [m4 x hxa]
                simp [hxa]
            · intro p hp
              rcases List.mem_cons.mp hp with rfl | hp
              · exact hfree
              · have := i3 p hp
                by_cases hxa : p.1 = ad
                · rw [hxa]; exact hfree
                · rwa [m4 _ hxa] at this
            · refine List.pairwise_cons.mpr ⟨fun p hp e => ?_, i4⟩
              have := i3 p hp
              rw [← e, m3] at this
              simp at this
            · intro b hb
              have := i5 b hb
              rwa [m2] at this
          · have e := hm.1 hfree
            rw [e] at hrun ⊢
            simp only [bindings, autos]
            exact ih s hs l1 s2 hrun

/-- **C20.**  In any history from a new table: no address is bound twice, an address finds exactly the
    node it was bound to, automatic addresses are usable, above 11.0.0.0 and strictly increasing. -/
theorem C20_history (ops : List (Op T)) (l : List (Op T × Ans)) (s : St T)
    (h : (St.new : St T).run ops = some (l, s)) :
    (∀ x v, s.getNode x = some v ↔ (x, v) ∈ bindings l)
    ∧ (bindings l).Pairwise (fun p q => p.1 ≠ q.1)
    ∧ (∀ a ∈ autos l, 184549376 < a ∧ Usable a)
    ∧ (autos l).Pairwise (· < ·) := by
  obtain ⟨_, h2, _, h4, h5, h6⟩ := run_inv ops St.new (by simp [St.new]) l s h
  refine ⟨fun x v => ?_, h4, h5, h6⟩
  rw [h2]
  simp [St.getNode, St.new]

/-! ## Examples -/

/-- Manual 11.0.0.2, automatic 11.0.0.1, automatic skips to 11.0.0.3, 11.0.0.2 is refused. -/
def exOps : List (Op Nat) :=
  [.manual 7 (.v4 184549378), .auto 1, .auto 2, .manual 3 (.v4 184549378), .manual 3 (.v6 5)]

theorem exInc (n : Nat) (h1 : n + 1 < 4294967296) (h : (n + 1) % 256 ≠ 0) (h' : (n + 1) % 256 ≠ 255) :
    increment n = some (n + 1) := by
  unfold increment
  obtain ⟨f, hf⟩ : ∃ f, 4294967296 - (n + 1) = f + 1 := ⟨4294967296 - (n + 1) - 1, by omega⟩
  rw [hf]
  simp [incGo, h, h']

example : ((St.new : St Nat).run exOps).map (·.1.map (·.2)) =
    some [.manual true, .auto 184549377, .auto 184549379, .manual false, .manual true] := by
  simp [St.run, exOps, St.step, St.assignIp, St.assign, St.new, findFree, exInc]

/-- 11.0.0.254 is followed by 11.0.1.1. -/
example : (incGo (184549376 + 255) 10) = some (184549376 + 257) := by decide

/-- At the very end of the address space the increment panics. -/
example : increment 4294967294 = none := by
  simp [increment, incGo]

end Shadow.IpAssign
