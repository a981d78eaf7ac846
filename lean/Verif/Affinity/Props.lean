import Verif.Affinity.Model
/-!
# C85: workers are spread evenly over the processors
-/
namespace Shadow.Affinity

open Shadow.Base

/-! ## The specification

Everything is said about the list of the processors that the earlier workers got. -/

def onCpu (h : List Cpu) (n : Int) : Nat := h.countP fun c => decide (c.num = n)
def onCore (h : List Cpu) (n : Int) : Nat := h.countP fun c => decide (c.core = n)
def onSocket (h : List Cpu) (n : Int) : Nat := h.countP fun c => decide (c.socket = n)
def onNode (h : List Cpu) (n : Int) : Nat := h.countP fun c => decide (c.node = n)

/-- One processor is to be preferred to another: fewer workers on it; then fewer on its core; then more on its socket; then more on its node; then the lower number. -/
def Better (h : List Cpu) (a b : Cpu) : Prop :=
  onCpu h a.num < onCpu h b.num ∨ (onCpu h a.num = onCpu h b.num ∧
  (onCore h a.core < onCore h b.core ∨ (onCore h a.core = onCore h b.core ∧
  (onSocket h b.socket < onSocket h a.socket ∨ (onSocket h a.socket = onSocket h b.socket ∧
  (onNode h b.node < onNode h a.node ∨ (onNode h a.node = onNode h b.node ∧ a.num < b.num)))))))

/-- Processors that may be used: those that the process was allowed to use, if their number is below eight times the number of processors. -/
def Usable (cpus : List Cpu) (allowed : Nat → Bool) (c : Cpu) : Prop := c ∈ cpus ∧ 0 ≤ c.num ∧ c.num < 8 * (cpus.length : Int) ∧ allowed c.num.toNat = true

/-! ## Lemmas -/

/-- The tables hold what the history says. -/
structure Holds (cpus : List Cpu) (allowed : Nat → Bool) (s : Pl) (h : List Cpu) : Prop where
  same : s.cpus = cpus
  allow : s.allowed = allowed
  cpu : ∀ n, s.cpuL n = onCpu h n
  core : ∀ n, s.coreL n = onCore h n
  sock : ∀ n, s.sockL n = onSocket h n
  node : ∀ n, s.nodeL n = onNode h n

theorem Holds.init (cpus : List Cpu) (allowed : Nat → Bool) : Holds cpus allowed (Pl.init cpus allowed) [] := by
  constructor <;> intros <;> rfl

theorem Holds.update {cpus : List Cpu} {allowed : Nat → Bool} {s : Pl} {h : List Cpu} (hs : Holds cpus allowed s h) (c : Cpu) : Holds cpus allowed (s.update c) (c :: h) := by
  constructor
  · exact hs.same
  · exact hs.allow
  · intro n; have := hs.cpu; simp only [Pl.update, inc, onCpu, List.countP_cons, decide_eq_true_eq] at *; grind
  · intro n; have := hs.core; simp only [Pl.update, inc, onCore, List.countP_cons, decide_eq_true_eq] at *; grind
  · intro n; have := hs.sock; simp only [Pl.update, inc, onSocket, List.countP_cons, decide_eq_true_eq] at *; grind
  · intro n; have := hs.node; simp only [Pl.update, inc, onNode, List.countP_cons, decide_eq_true_eq] at *; grind

theorem eligible_iff {cpus : List Cpu} {allowed : Nat → Bool} {s : Pl} {h : List Cpu} (hs : Holds cpus allowed s h) (c : Cpu) :
    (c ∈ cpus ∧ s.eligible c = true) ↔ Usable cpus allowed c := by
  unfold Pl.eligible inSet Usable
  rw [hs.same, hs.allow]
  simp only [Bool.and_eq_true, decide_eq_true_eq]
  constructor
  · rintro ⟨h1, ⟨h2, h3⟩, h4⟩; exact ⟨h1, h2, by omega, h4⟩
  · rintro ⟨h1, h2, h3, h4⟩; exact ⟨h1, ⟨h2, by omega⟩, h4⟩

theorem compare_iff {cpus : List Cpu} {allowed : Nat → Bool} {s : Pl} {h : List Cpu} (hs : Holds cpus allowed s h) (l r : Cpu) : s.compare l r = 1 ↔ Better h r l := by
  unfold Pl.compare Better
  rw [hs.cpu, hs.cpu, hs.core, hs.core, hs.sock, hs.sock, hs.node, hs.node]
  repeat' split
  all_goals omega

theorem Better.trans {h : List Cpu} {a b c : Cpu} (h1 : Better h a b) (h2 : Better h b c) : Better h a c := by unfold Better at *; omega

theorem Better.total (h : List Cpu) (a b : Cpu) : Better h a b ∨ a.num = b.num ∨ Better h b a := by unfold Better; omega

theorem Better.irrefl {h : List Cpu} {a b : Cpu} (h1 : Better h a b) (h2 : Better h b a) : False := by unfold Better at *; omega

/-- With what the scan starts and what it finds. -/
theorem scan_spec {cpus : List Cpu} {allowed : Nat → Bool} {s : Pl} {h : List Cpu} (hs : Holds cpus allowed s h) :
    ∀ (l : List Cpu) (cur : Cpu), (s.scan cur l = cur ∨ (s.scan cur l ∈ l ∧ s.eligible (s.scan cur l) = true)) ∧
      ¬ Better h cur (s.scan cur l) ∧ ∀ d ∈ l, s.eligible d = true → ¬ Better h d (s.scan cur l)
  | [], cur => ⟨.inl rfl, fun hb => hb.irrefl hb, by simp⟩
  | r :: rest, cur => by
    simp only [Pl.scan]
    have hc := compare_iff hs cur r
    by_cases hx : s.eligible r = true ∧ s.compare cur r = 1
    · rw [if_pos (by simp [hx])]
      obtain ⟨h1, h2, h3⟩ := scan_spec hs rest r
      have hb := hc.mp hx.2
      have key : ∀ d, (d = r ∨ d = cur ∨ (d ∈ rest ∧ s.eligible d = true)) → ¬ Better h d (s.scan r rest) := by
        rintro d (rfl | rfl | ⟨hd, he⟩)
        · exact h2
        · exact fun hh => h2 (hb.trans hh)
        · exact h3 d hd he
      refine ⟨?_, key cur (.inr (.inl rfl)), fun d hd he => key d ?_⟩
      · rcases h1 with h1 | h1
        · right; rw [h1]; exact ⟨by simp, hx.1⟩
        · right; exact ⟨List.mem_cons_of_mem _ h1.1, h1.2⟩
      · rcases List.mem_cons.mp hd with rfl | hd
        · exact .inl rfl
        · exact .inr (.inr ⟨hd, he⟩)
    · rw [if_neg (by simpa using hx)]
      obtain ⟨h1, h2, h3⟩ := scan_spec hs rest cur
      refine ⟨?_, h2, fun d hd he => ?_⟩
      · rcases h1 with h1 | h1
        · exact .inl h1
        · right; exact ⟨List.mem_cons_of_mem _ h1.1, h1.2⟩
      · rcases List.mem_cons.mp hd with rfl | hd
        · intro hh
          have hn : ¬ Better h d cur := fun hb => hx ⟨he, hc.mpr hb⟩
          rcases Better.total h cur d with hb | hb | hb
          · exact h2 (hb.trans hh)
          · rcases Better.total h cur (s.scan cur rest) with hb' | hb' | hb'
            · exact h2 hb'
            · unfold Better at *; omega
            · unfold Better at *; omega
          · exact hn hb
        · exact h3 d hd he

theorem best_spec {cpus : List Cpu} {allowed : Nat → Bool} {s : Pl} {h : List Cpu} (hs : Holds cpus allowed s h) :
    (s.best = .panic ∧ ∀ c, ¬ Usable cpus allowed c) ∨
    (∃ c, s.best = .ok c ∧ Usable cpus allowed c ∧ ∀ d, Usable cpus allowed d → ¬ Better h d c) := by
  unfold Pl.best
  by_cases h0 : 0 < s.cpus.length
  · simp only [h0, decide_true, R.assert_true, R.bind_ok]
    have hsp := List.takeWhile_append_dropWhile (p := fun c => !s.eligible c) (l := s.cpus)
    have htw : ∀ c ∈ s.cpus.takeWhile (fun c => !s.eligible c), s.eligible c = false := fun c hc => by
      have := List.all_takeWhile (p := fun c => !s.eligible c) (l := s.cpus)
      rw [List.all_eq_true] at this
      simpa using this c hc
    split
    · rename_i hd
      left
      refine ⟨rfl, fun c hc => ?_⟩
      obtain ⟨hm, he⟩ := (eligible_iff hs c).mpr hc
      rw [hd, List.append_nil] at hsp
      rw [← hs.same, ← hsp] at hm
      rw [htw c hm] at he; cases he
    · rename_i c rest hd
      right
      have hce : s.eligible c = true := by
        have := List.head?_dropWhile_not (fun c => !s.eligible c) s.cpus
        rw [hd] at this
        simpa using this
      obtain ⟨h1, h2, h3⟩ := scan_spec hs rest c
      have hmem : ∀ d, d = c ∨ d ∈ rest → d ∈ cpus := fun d hdd => by
        rw [← hs.same, ← hsp, hd]
        rcases hdd with rfl | hdd <;> simp [*]
      refine ⟨_, rfl, ?_, fun d hu => ?_⟩
      · rcases h1 with h1 | h1
        · rw [h1]; exact (eligible_iff hs c).mp ⟨hmem c (.inl rfl), hce⟩
        · exact (eligible_iff hs _).mp ⟨hmem _ (.inr h1.1), h1.2⟩
      · obtain ⟨hm, he⟩ := (eligible_iff hs d).mpr hu
        rw [← hs.same, ← hsp, List.mem_append, hd] at hm
        rcases hm with hm | hm
        · rw [htw d hm] at he; cases he
        · rcases List.mem_cons.mp hm with rfl | hm
          · exact h2
          · exact h3 d hm he
  · left
    simp only [h0, decide_false, R.assert_false, R.bind_panic, true_and]
    rintro c ⟨hc, _⟩
    rw [← hs.same] at hc
    cases hl : s.cpus with
    | nil => rw [hl] at hc; cases hc
    | cons a l => rw [hl] at h0; simp at h0

theorem workers_inv {cpus : List Cpu} {allowed : Nat → Bool} {n : Nat} {s : Pl} {h : List Cpu} (hw : (Pl.init cpus allowed).workers n = .ok (s, h)) : Holds cpus allowed s h := by
  induction n generalizing s h with
  | zero => simp only [Pl.workers] at hw; cases hw; exact Holds.init _ _
  | succ n ih =>
    simp only [Pl.workers] at hw
    obtain ⟨⟨s1, h1⟩, e1, hw⟩ := R.bind_eq_ok.mp hw
    obtain ⟨⟨s2, c⟩, e2, hw⟩ := R.bind_eq_ok.mp hw
    simp only [Pl.good] at e2
    obtain ⟨c', e3, e2⟩ := R.bind_eq_ok.mp e2
    cases e2; cases hw
    exact (ih e1).update c

/-! ## Theorems -/

/-- Every worker gets the best usable processor with respect to what the workers before it got; there is just one best if numbers are unique. -/
theorem C85_choice {cpus : List Cpu} {allowed : Nat → Bool} {n : Nat} {s : Pl} {h : List Cpu} (hw : (Pl.init cpus allowed).workers n = .ok (s, h)) :
    h.length = n ∧ ∀ c t later, h = later ++ c :: t → Usable cpus allowed c ∧ (∀ d, Usable cpus allowed d → ¬ Better t d c) ∧
      ∀ d, Usable cpus allowed d → d.num ≠ c.num → Better t c d := by
  induction n generalizing s h with
  | zero => simp only [Pl.workers] at hw; cases hw; refine ⟨rfl, fun c t later e => ?_⟩; cases later <;> cases e
  | succ n ih =>
    simp only [Pl.workers] at hw
    obtain ⟨⟨s1, h1⟩, e1, hw⟩ := R.bind_eq_ok.mp hw
    obtain ⟨⟨s2, c0⟩, e2, hw⟩ := R.bind_eq_ok.mp hw
    simp only [Pl.good] at e2
    obtain ⟨c', e3, e2⟩ := R.bind_eq_ok.mp e2
    cases e2; cases hw
    obtain ⟨i1, i2⟩ := ih e1
    refine ⟨by simp [i1], fun c t later e => ?_⟩
    cases later with
    | nil =>
      simp only [List.nil_append, List.cons.injEq] at e
      obtain ⟨rfl, rfl⟩ := e
      rcases best_spec (workers_inv e1) with ⟨q1, _⟩ | ⟨c2, q1, h2, h3⟩
      · rw [q1] at e3; cases e3
      · rw [q1] at e3; cases e3
        refine ⟨h2, h3, fun d hd hn => ?_⟩
        rcases Better.total h1 c0 d with hb | hb | hb
        · exact hb
        · exact absurd hb.symm hn
        · exact absurd hb (h3 d hd)
    | cons x later =>
      simp only [List.cons_append, List.cons.injEq] at e
      exact i2 c t later e.2

/-- The only failure is that no processor may be used; then the first worker already fails. -/
theorem C85_none (cpus : List Cpu) (allowed : Nat → Bool) (n : Nat) : (Pl.init cpus allowed).workers n = .panic ↔ 0 < n ∧ ∀ c, ¬ Usable cpus allowed c := by
  induction n with
  | zero => simp [Pl.workers]
  | succ n ih =>
    cases hw : (Pl.init cpus allowed).workers n with
    | panic =>
      have hp := ih.mp hw
      simp only [Pl.workers, hw, R.bind_panic, true_iff]
      exact ⟨by omega, hp.2⟩
    | ok x =>
      obtain ⟨s1, h1⟩ := x
      simp only [Pl.workers, hw, R.bind_ok, Pl.good]
      rcases best_spec (workers_inv hw) with ⟨e, hn⟩ | ⟨c, e, hc, _⟩
      · rw [e]; simp [hn]
      · rw [e]; simp only [R.bind_ok, reduceCtorEq, false_iff]
        intro hh; exact hh.2 c hc

/-- Processors are used evenly: at any time the numbers of workers on two usable processors differ by at most one, and no other processor has any. -/
theorem C85_even {cpus : List Cpu} {allowed : Nat → Bool} {n : Nat} {s : Pl} {h : List Cpu} (hw : (Pl.init cpus allowed).workers n = .ok (s, h)) :
    (∀ c d, Usable cpus allowed c → Usable cpus allowed d → onCpu h c.num ≤ onCpu h d.num + 1) ∧ ∀ c ∈ h, Usable cpus allowed c := by
  have hc := (C85_choice hw).2
  clear hw
  induction h with
  | nil => exact ⟨fun c d _ _ => by simp [onCpu], by simp⟩
  | cons x t ih =>
    obtain ⟨i1, i2⟩ := ih fun c t' later e => hc c t' (x :: later) (by rw [e]; rfl)
    obtain ⟨h1, h2, _⟩ := hc x t [] rfl
    refine ⟨fun c d hc hd => ?_, fun c hcm => ?_⟩
    · have hm : ∀ d, Usable cpus allowed d → onCpu t x.num ≤ onCpu t d.num := fun d hd => by
        have := h2 d hd; unfold Better at this; omega
      have e1 := i1 c d hc hd
      have e2 := hm c hc
      have e3 := hm d hd
      have a1 : ∀ n, onCpu (x :: t) n = onCpu t n + if x.num = n then 1 else 0 := fun n => by simp [onCpu, List.countP_cons]
      have a2 : ∀ n, x.num = n → onCpu t x.num = onCpu t n := fun n e => by rw [e]
      rw [a1, a1]
      have b1 := a2 c.num; have b2 := a2 d.num
      split <;> split <;> grind
    · rcases List.mem_cons.mp hcm with rfl | hcm
      · exact h1
      · exact i2 c hcm

theorem onCore_zero {h : List Cpu} {n : Int} : onCore h n = 0 ↔ ∀ c ∈ h, c.core ≠ n := by simp [onCore, List.countP_eq_zero]

/-- No core gets a second worker while a usable core has none. -/
theorem C85_core {cpus : List Cpu} {allowed : Nat → Bool} (hu : ∀ c ∈ cpus, ∀ d ∈ cpus, c.num = d.num → c = d) {n : Nat} {s : Pl} {h : List Cpu}
    (hw : (Pl.init cpus allowed).workers n = .ok (s, h)) :
    ∀ c t later, h = later ++ c :: t → (∃ d, Usable cpus allowed d ∧ onCore t d.core = 0) → onCore t c.core = 0 := by
  intro c t later e ⟨d, hd, h0⟩
  obtain ⟨_, hc⟩ := C85_choice hw
  obtain ⟨h1, h2, h3⟩ := hc c t later e
  have hin : ∀ x ∈ t, Usable cpus allowed x := fun x hx => (C85_even hw).2 x (by rw [e]; simp [hx])
  have hz : onCpu t d.num = 0 := by
    simp only [onCpu, List.countP_eq_zero, decide_eq_true_eq]
    intro x hx he
    have := hu x (hin x hx).1 d hd.1 he
    subst this
    exact onCore_zero.mp h0 x hx rfl
  have := h2 d hd
  unfold Better at this
  omega

theorem pigeon {l h : List Int} (hn : l.Nodup) (hs : ∀ x ∈ l, x ∈ h) : l.length ≤ h.length := by
  induction l generalizing h with
  | nil => simp
  | cons a l ih =>
    have ha := hs a (by simp)
    have hn' := List.nodup_cons.mp hn
    have := ih (h := h.erase a) hn'.2 fun x hx => (List.mem_erase_of_ne (fun e : x = a => hn'.1 (e ▸ hx))).mpr (hs x (by simp [hx]))
    rw [List.length_erase_of_mem ha] at this
    have := List.length_pos_of_mem ha
    simp only [List.length_cons]; omega

/-- As long as there are no more workers than usable cores, no two workers share a core. -/
theorem C85_own_core {cpus : List Cpu} {allowed : Nat → Bool} (hu : ∀ c ∈ cpus, ∀ d ∈ cpus, c.num = d.num → c = d) {n : Nat} {s : Pl} {h : List Cpu}
    (hw : (Pl.init cpus allowed).workers n = .ok (s, h)) {cores : List Int} (hn : cores.Nodup) (hc : ∀ k ∈ cores, ∃ d, Usable cpus allowed d ∧ d.core = k)
    (hl : n ≤ cores.length) : (h.map (·.core)).Nodup := by
  obtain ⟨hlen, _⟩ := C85_choice hw
  have hcore := C85_core hu hw
  have key : ∀ t, (∃ later, h = later ++ t) → (t.map (·.core)).Nodup := by
    intro t
    induction t with
    | nil => simp
    | cons c t ih =>
      rintro ⟨later, e⟩
      have iht := ih ⟨later ++ [c], by rw [e]; simp⟩
      rw [List.map_cons, List.nodup_cons]
      refine ⟨?_, iht⟩
      have hlt : (t.map (·.core)).length < cores.length := by
        have : h.length = later.length + (t.length + 1) := by rw [e]; simp
        simp; omega
      have : ∃ k ∈ cores, k ∉ t.map (·.core) := by
        refine Classical.byContradiction fun hh => ?_
        have := pigeon hn (h := t.map (·.core)) fun x hx => Classical.byContradiction fun hx' => hh ⟨x, hx, hx'⟩
        omega
      obtain ⟨k, hk, hkt⟩ := this
      obtain ⟨d, hd, rfl⟩ := hc k hk
      have hz : onCore t d.core = 0 := onCore_zero.mpr fun x hx he => hkt (List.mem_map.mpr ⟨x, hx, he⟩)
      have := onCore_zero.mp (hcore c t later e ⟨d, hd, hz⟩)
      intro hm
      obtain ⟨x, hx, he⟩ := List.mem_map.mp hm
      exact this x hx he
  exact key h ⟨[], rfl⟩

/-! ## Binding -/

/-- A thread is bound to a processor if the kernel agrees to the set of just this processor, and its number is below the size of the set; otherwise the set is empty. The answer is what the thread is bound to now.
Nothing is done if the thread is bound already. -/
theorem C85_bind (k : Nat → (Nat → Bool) → Bool) (max new old : Int) (h0 : 0 ≤ max) (hn : 0 ≤ new) :
    setProcess k false max new old = old ∧ setProcess k true max (-1) old = old ∧ setProcess k true max new new = new ∧
    (new ≠ old → ((new < (max + 63) / 64 * 64) → setProcess k true max new old = if k (allocSize max) (fun i => decide (i = new.toNat)) then new else old) ∧
      ((max + 63) / 64 * 64 ≤ new → setProcess k true max new old = if k (allocSize max) (fun _ => false) then new else old)) := by
  refine ⟨by simp [setProcess], by simp [setProcess], by simp [setProcess], fun hne => ?_⟩
  have hm1 : new ≠ -1 := by omega
  have hset : inSet new (allocSize max) = decide (new < (max + 63) / 64 * 64) := by
    unfold inSet allocSize
    rw [decide_eq_true hn, Bool.true_and]
    apply decide_eq_decide.mpr
    omega
  simp only [setProcess, hm1, hne, Bool.true_eq_false, false_or, if_false, hset]
  refine ⟨fun h => ?_, fun h => ?_⟩
  · rw [decide_eq_true h]; simp
  · rw [decide_eq_false (by omega)]; simp

theorem maxNum_spec (cpus : List Cpu) : 0 ≤ maxNum cpus ∧ (∀ c ∈ cpus, c.num ≤ maxNum cpus) ∧ (maxNum cpus = 0 ∨ ∃ c ∈ cpus, c.num = maxNum cpus) := by
  have key : ∀ (l : List Cpu) (m : Int), let r := l.foldl (fun m c => max m c.num) m; m ≤ r ∧ (∀ c ∈ l, c.num ≤ r) ∧ (r = m ∨ ∃ c ∈ l, c.num = r) := by
    intro l
    induction l with
    | nil => intro m; simp
    | cons a l ih =>
      intro m
      obtain ⟨h1, h2, h3⟩ := ih (max m a.num)
      simp only [List.foldl_cons]
      refine ⟨by omega, fun c hc => ?_, ?_⟩
      · rcases List.mem_cons.mp hc with rfl | hc
        · omega
        · exact h2 c hc
      · rcases h3 with h3 | ⟨c, hc, h3⟩
        · rw [h3]
          rcases Int.le_total m a.num with hh | hh
          · right; exact ⟨a, by simp, by omega⟩
          · left; omega
        · exact .inr ⟨c, by simp [hc], h3⟩
  exact key cpus 0

/-- Binding to a processor of the machine works, as far as the kernel allows it, except to the one with the highest number if that is a multiple of 64. -/
theorem C85_bind_all (k : Nat → (Nat → Bool) → Bool) (cpus : List Cpu) (c : Cpu) (hc : c ∈ cpus) (h0 : 0 ≤ c.num) (old : Int) (hne : c.num ≠ old) (hempty : ∀ z, k z (fun _ => false) = false) :
    (¬ (c.num = maxNum cpus ∧ c.num % 64 = 0) → setProcess k true (maxNum cpus) c.num old = if k (allocSize (maxNum cpus)) (fun i => decide (i = c.num.toNat)) then c.num else old) ∧
    (c.num = maxNum cpus → c.num % 64 = 0 → setProcess k true (maxNum cpus) c.num old = old) := by
  obtain ⟨m0, m1, _⟩ := maxNum_spec cpus
  have hle := m1 c hc
  obtain ⟨_, _, _, hb⟩ := C85_bind k (maxNum cpus) c.num old m0 h0
  obtain ⟨b1, b2⟩ := hb hne
  refine ⟨fun h => b1 ?_, fun h1 h2 => ?_⟩
  · by_cases e : c.num = maxNum cpus
    · have : c.num % 64 ≠ 0 := fun h' => h ⟨e, h'⟩
      omega
    · omega
  · rw [b2 (by omega), hempty]; simp

/-! ## Reading the processors -/

/-- A number in decimal digits. -/
def Num (t : List Char) (n : Int) : Prop := ∃ ds : List Nat, ds ≠ [] ∧ (∀ d ∈ ds, d < 10) ∧ t = ds.map (fun d => Char.ofNat (48 + d)) ∧ n = (ds.foldl (fun a d => 10 * a + d) 0 : Nat)

/-- What lscpu prints: comments, and lines with four numbers, the last of which is missing if the kernel knows no nodes. -/
inductive Output : List Char → List Cpu → Prop
  | nil : Output [] []
  | comment (t rest : List Char) (cs : List Cpu) (ht : '\n' ∉ t) (hr : Output rest cs) : Output ('#' :: t ++ '\n' :: rest) cs
  | cpu (a b c d rest : List Char) (i j k l : Int) (cs : List Cpu) (ha : Num a i) (hb : Num b j) (hc : Num c k) (hd : Num d l ∨ (d = [] ∧ l = 0)) (hr : Output rest cs) :
      Output (a ++ ',' :: (b ++ ',' :: (c ++ ',' :: (d ++ '\n' :: rest)))) (⟨i, j, k, l⟩ :: cs)

theorem digit_ofNat {d : Nat} (h : d < 10) : digit (Char.ofNat (48 + d)) = some d ∧ isSpace (Char.ofNat (48 + d)) = false ∧ Char.ofNat (48 + d) ≠ ',' ∧ Char.ofNat (48 + d) ≠ '\n' ∧
    Char.ofNat (48 + d) ≠ '#' ∧ Char.ofNat (48 + d) ≠ '-' ∧ Char.ofNat (48 + d) ≠ '+' := by
  have : d = 0 ∨ d = 1 ∨ d = 2 ∨ d = 3 ∨ d = 4 ∨ d = 5 ∨ d = 6 ∨ d = 7 ∨ d = 8 ∨ d = 9 := by omega
  rcases this with rfl | rfl | rfl | rfl | rfl | rfl | rfl | rfl | rfl | rfl <;> decide

theorem atoiDigits_eq (ds : List Nat) (hd : ∀ d ∈ ds, d < 10) (tl : List Char) (htl : tl = [] ∨ ∃ c t, tl = c :: t ∧ digit c = none) (acc : Nat) :
    atoiDigits acc (ds.map (fun d => Char.ofNat (48 + d)) ++ tl) = ds.foldl (fun a d => 10 * a + d) acc := by
  induction ds generalizing acc with
  | nil =>
    rcases htl with rfl | ⟨c, t, rfl, hc⟩
    · rfl
    · simp [atoiDigits, hc]
  | cons d ds ih =>
    simp only [List.map_cons, List.cons_append, atoiDigits, (digit_ofNat (hd d (by simp))).1, List.foldl_cons]
    exact ih (fun d' h' => hd d' (by simp [h'])) _

theorem atoi_num {t : List Char} {n : Int} (h : Num t n) (tl : List Char) (htl : tl = [] ∨ ∃ c u, tl = c :: u ∧ digit c = none) : atoi (t ++ tl) = n := by
  obtain ⟨ds, h0, hd, rfl, rfl⟩ := h
  have e := atoiDigits_eq ds hd tl htl 0
  cases ds with
  | nil => exact absurd rfl h0
  | cons d ds =>
    obtain ⟨h1, h2, h3, h4, h5, h6, h7⟩ := digit_ofNat (hd d (by simp))
    rw [← e]
    unfold atoi
    simp only [List.map_cons, List.cons_append, List.dropWhile_cons, h2, Bool.false_eq_true, if_false]
    split
    · rename_i hh; simp at hh; exact absurd hh.1 h6
    · rename_i hh; simp at hh; exact absurd hh.1 h7
    · rfl

theorem Num.clean {t : List Char} {n : Int} (h : Num t n) : t ≠ [] ∧ ',' ∉ t ∧ '\n' ∉ t ∧ t.head? ≠ some '#' := by
  obtain ⟨ds, h0, hd, rfl, rfl⟩ := h
  refine ⟨by simpa using h0, ?_, ?_, ?_⟩
  · intro hm; obtain ⟨d, hd', e⟩ := List.mem_map.mp hm; exact (digit_ofNat (hd d hd')).2.2.1 e
  · intro hm; obtain ⟨d, hd', e⟩ := List.mem_map.mp hm; exact (digit_ofNat (hd d hd')).2.2.2.1 e
  · cases ds with
    | nil => exact absurd rfl h0
    | cons d ds => simp; exact (digit_ofNat (hd d (by simp))).2.2.2.2.1

theorem lines_cut (l rest : List Char) (h : '\n' ∉ l) (cur : List Char) : lines cur (l ++ '\n' :: rest) = (cur ++ l ++ ['\n']) :: lines [] rest := by
  induction l generalizing cur with
  | nil => simp [lines]
  | cons c l ih =>
    simp only [List.mem_cons, not_or] at h
    simp only [List.cons_append, lines, if_neg (Ne.symm h.1)]
    rw [ih h.2]; simp

theorem tokens_cut (l rest : List Char) (h : ',' ∉ l) (cur : List Char) (hne : cur ++ l ≠ []) : tokens cur (l ++ ',' :: rest) = (cur ++ l) :: tokens [] rest := by
  induction l generalizing cur with
  | nil => simp only [List.append_nil] at hne ⊢; simp [tokens, hne]
  | cons c l ih =>
    simp only [List.mem_cons, not_or] at h
    simp only [List.cons_append, tokens, if_neg (Ne.symm h.1)]
    rw [ih h.2 _ (by simp)]; simp

theorem tokens_last (l : List Char) (h : ',' ∉ l) (cur : List Char) (hne : cur ++ l ≠ []) : tokens cur l = [cur ++ l] := by
  induction l generalizing cur with
  | nil => simp only [List.append_nil] at hne ⊢; simp [tokens, hne]
  | cons c l ih =>
    simp only [List.mem_cons, not_or] at h
    simp only [tokens, if_neg (Ne.symm h.1)]
    rw [ih h.2 _ (by simp)]; simp

/-- The processors are read exactly as lscpu prints them, in order. -/
theorem C85_parse {t : List Char} {cs : List Cpu} (h : Output t cs) : parse t = cs := by
  have key : ∀ prev, parseLines prev (lines [] t) = cs := by
    induction h with
    | nil => intro prev; rfl
    | comment t rest cs ht _ ih =>
      intro prev
      rw [lines_cut ('#' :: t) rest (by simp [ht])]
      simp only [parseLines, List.nil_append, List.cons_append, List.head?_cons, if_true]
      exact ih prev
    | cpu a b c d rest i j k l cs ha hb hc hd _ ih =>
      intro prev
      obtain ⟨a1, a2, a3, a4⟩ := ha.clean
      obtain ⟨b1, b2, b3, b4⟩ := hb.clean
      obtain ⟨c1, c2, c3, c4⟩ := hc.clean
      have hd' : ',' ∉ d ∧ '\n' ∉ d ∧ atoi (d ++ ['\n']) = l := by
        rcases hd with hd | ⟨rfl, rfl⟩
        · obtain ⟨d1, d2, d3, d4⟩ := hd.clean
          exact ⟨d2, d3, atoi_num hd _ (.inr ⟨'\n', [], rfl, by decide⟩)⟩
        · exact ⟨by simp, by simp, by decide⟩
      have hl := lines_cut (a ++ ',' :: (b ++ ',' :: (c ++ ',' :: d))) rest (by simp [a3, b3, c3, hd'.2.1]) []
      rw [show a ++ ',' :: (b ++ ',' :: (c ++ ',' :: (d ++ '\n' :: rest))) = (a ++ ',' :: (b ++ ',' :: (c ++ ',' :: d))) ++ '\n' :: rest by simp, hl]
      have hh : (([] : List Char) ++ (a ++ ',' :: (b ++ ',' :: (c ++ ',' :: d))) ++ ['\n']) = a ++ ',' :: (b ++ ',' :: (c ++ ',' :: (d ++ ['\n']))) := by simp
      rw [hh]
      have hhead : (a ++ ',' :: (b ++ ',' :: (c ++ ',' :: (d ++ ['\n'])))).head? ≠ some '#' := by
        cases a with
        | nil => exact absurd rfl a1
        | cons x a => simpa using a4
      simp only [parseLines, if_neg hhead]
      have ht : tokens [] (a ++ ',' :: (b ++ ',' :: (c ++ ',' :: (d ++ ['\n'])))) = [a, b, c, d ++ ['\n']] := by
        rw [tokens_cut a _ a2 [] (by simpa using a1), tokens_cut b _ b2 [] (by simpa using b1), tokens_cut c _ c2 [] (by simpa using c1), tokens_last (d ++ ['\n']) (by simp [hd'.1]) [] (by simp)]
        simp
      have hp : parseLine (a ++ ',' :: (b ++ ',' :: (c ++ ',' :: (d ++ ['\n'])))) prev = ⟨i, j, k, l⟩ := by
        unfold parseLine
        rw [ht]
        have e1 := atoi_num ha [] (.inl rfl)
        have e2 := atoi_num hb [] (.inl rfl)
        have e3 := atoi_num hc [] (.inl rfl)
        rw [List.append_nil] at e1 e2 e3
        simp only [e1, e2, e3, hd'.2.2]
      rw [hp, ih]
  exact key _

end Shadow.Affinity
