import Verif.FdFlags.Model

/-!
# C99: flags of descriptors belong to descriptors, flags of files to files
-/
namespace Shadow.FdFlags

open Shadow.Base

/-! ## Specification -/

/-- What a call returns. -/
def ret : R (World × Ret) → Option Ret
  | .ok r => some r.2
  | .panic => none

/-- What a program sees of a descriptor. -/
def getfd (w : World) (fd : Nat) : Option Ret := ret (step w (.fcntl fd .getfd 0 none))
def getfl (w : World) (fd : Nat) : Option Ret := ret (step w (.fcntl fd .getfl 0 none))

/-- Two descriptors of the same open file. -/
def Same (w : World) (a b : Nat) : Prop := (w.descs a).map (·.file) = (w.descs b).map (·.file)

/-- The bits of `O_APPEND`, `O_NONBLOCK`, `O_ASYNC`, `O_DIRECT` and `O_NOATIME`: what fcntl(2) lets a program change. -/
def changeable (i : Nat) : Bool := i == 10 || i == 11 || i == 13 || i == 14 || i == 18

/-- The bits that `F_SETFL` knows. -/
def known (i : Nat) : Bool := decide (i ≤ 22) && !decide (i ∈ [2, 3, 4, 5])

/-- A descriptor of a file that is not a regular one. -/
def Special (w : World) (fd : Nat) : Prop := ∃ d, w.descs fd = some d ∧ (w.files d.file).legacy = false

/-- Files have only flags that there are. -/
def Inv (w : World) : Prop := ∀ f, (w.files f).status &&& ~~~STATUS_ALL = 0

/-! ## Lemmas -/

theorem lt32 (i : Nat) (h : i < 32) (P : Nat → Prop) (hp : ∀ k : Fin 32, P k.val) : P i := hp ⟨i, h⟩

theorem status_bit (i : Nat) (h : i < 32) : STATUS_ALL.getLsbD i = changeable i :=
  lt32 i h (fun i => STATUS_ALL.getLsbD i = changeable i) (by decide +kernel)

theorem all_bit (i : Nat) (h : i < 32) : O_ALL.getLsbD i = known i :=
  lt32 i h (fun i => O_ALL.getLsbD i = known i) (by decide +kernel)

theorem mode_bit (m : Mode) (i : Nat) (h : i < 32) : changeable i = true → m.oFlags.getLsbD i = false := by
  obtain ⟨a, b⟩ := m
  have := lt32 i h (fun i => ∀ a b, changeable i = true → (Mode.oFlags ⟨a, b⟩).getLsbD i = false) (by decide +kernel)
  exact this a b

theorem mode_known (m : Mode) (i : Nat) (h : i < 32) : m.oFlags.getLsbD i = true → known i = true := by
  obtain ⟨a, b⟩ := m
  have := lt32 i h (fun i => ∀ a b, (Mode.oFlags ⟨a, b⟩).getLsbD i = true → known i = true) (by decide +kernel)
  exact this a b

theorem changeable_known (i : Nat) : changeable i = true → known i = true := by
  simp only [changeable, known, Bool.or_eq_true, beq_iff_eq]
  rintro ((((rfl | rfl) | rfl) | rfl) | rfl) <;> decide

theorem changeable_lt (i : Nat) : changeable i = true → i < 32 := by
  simp only [changeable, Bool.or_eq_true, beq_iff_eq]
  omega

theorem sub_iff (s M : Flags) : s &&& ~~~M = 0 ↔ ∀ i, i < 32 → s.getLsbD i = true → M.getLsbD i = true := by
  constructor
  · intro h i hi hs
    have := congrArg (fun x => BitVec.getLsbD x i) h
    simp [hi, hs] at this
    exact this
  · intro h
    apply BitVec.eq_of_getLsbD_eq
    intro i hi
    have := h i hi
    cases hs : s.getLsbD i <;> simp_all

/-- The removed flags are not among those that can be changed. -/
theorem removed_bit (i : Nat) (h : i < 32) : changeable i = true →
    (O_RDONLY ||| O_WRONLY ||| O_RDWR ||| O_PATH).getLsbD i = false
    ∧ (O_CLOEXEC ||| O_CREAT ||| O_DIRECTORY ||| O_EXCL ||| O_NOCTTY ||| O_NOFOLLOW ||| O_TMPFILE ||| O_TRUNC).getLsbD i = false :=
  lt32 i h (fun i => changeable i = true → (O_RDONLY ||| O_WRONLY ||| O_RDWR ||| O_PATH).getLsbD i = false
    ∧ (O_CLOEXEC ||| O_CREAT ||| O_DIRECTORY ||| O_EXCL ||| O_NOCTTY ||| O_NOFOLLOW ||| O_TMPFILE ||| O_TRUNC).getLsbD i = false) (by decide +kernel)

theorem update_bit (i : Nat) (h : i < 32) : (O_APPEND ||| O_ASYNC ||| O_DIRECT ||| O_NOATIME ||| O_NONBLOCK).getLsbD i = changeable i :=
  lt32 i h (fun i => (O_APPEND ||| O_ASYNC ||| O_DIRECT ||| O_NOATIME ||| O_NONBLOCK).getLsbD i = changeable i) (by decide +kernel)

theorem newStatus_some (old : Flags) (arg : Nat) (h : old &&& ~~~STATUS_ALL = 0) (ha : arg < 2 ^ 31) (hk : ∀ i, arg.testBit i = true → known i = true) :
    ∃ s, newStatus old arg = some s ∧ ∀ i, i < 32 → s.getLsbD i = (changeable i && arg.testBit i) := by
  have hb : ∀ i, i < 32 → (BitVec.ofNat 32 arg).getLsbD i = arg.testBit i := by intro i hi; rw [BitVec.getLsbD_ofNat]; simp [hi]
  have h0 : (BitVec.ofNat 32 arg) &&& ~~~O_ALL = 0 := by
    rw [sub_iff]; intro i hi hx; rw [hb i hi] at hx; rw [all_bit i hi]; exact hk i hx
  simp only [newStatus, ha, h0, if_true]
  generalize hs : (old &&& ~~~(O_APPEND ||| O_ASYNC ||| O_DIRECT ||| O_NOATIME ||| O_NONBLOCK)) ||| _ = s
  have hbit : ∀ i, i < 32 → s.getLsbD i = (changeable i && arg.testBit i) := by
    intro i hi
    have ho := (sub_iff old STATUS_ALL).1 h i hi
    rw [status_bit i hi] at ho
    have hu := update_bit i hi
    have hr := removed_bit i hi
    rw [← hs, BitVec.getLsbD_or, BitVec.getLsbD_and, BitVec.getLsbD_and, BitVec.getLsbD_and, BitVec.getLsbD_and, BitVec.getLsbD_not, BitVec.getLsbD_not, BitVec.getLsbD_not, hu, hb i hi]
    cases hc : changeable i
    · rw [hc] at ho; cases ho' : old.getLsbD i <;> simp_all
    · obtain ⟨r1, r2⟩ := hr hc
      rw [r1, r2]; simp [hi]
  have h1 : s &&& ~~~STATUS_ALL = 0 := by
    rw [sub_iff]; intro i hi hx; rw [hbit i hi] at hx; rw [status_bit i hi]; simp at hx; exact hx.1
  refine ⟨s &&& STATUS_ALL, by simp [h1], ?_⟩
  intro i hi
  rw [BitVec.getLsbD_and, hbit i hi, status_bit i hi]
  cases changeable i <;> simp

theorem newStatus_inv (old s : Flags) (arg : Nat) (h : newStatus old arg = some s) : s &&& ~~~STATUS_ALL = 0 := by
  unfold newStatus at h
  simp only at h
  split at h
  · split at h
    · split at h
      · cases h
        rw [sub_iff]; intro i hi hx; rw [BitVec.getLsbD_and] at hx; simp at hx; exact hx.2
      · cases h
    · cases h
  · cases h

theorem nonblock_bit (i : Nat) (h : i < 32) : O_NONBLOCK.getLsbD i = decide (i = 11) :=
  lt32 i h (fun i => O_NONBLOCK.getLsbD i = decide (i = 11)) (by decide +kernel)

theorem getfd_eq (w : World) (fd : Nat) : getfd w fd = some (match w.descs fd with | none => .ebadf | some d => .val (if d.cloexec then 1 else 0)) := by
  simp only [getfd, step, World.fcntl]
  cases w.descs fd <;> rfl

def flOf (f : File) : Ret := if f.legacy then .native else .val (f.status ||| f.mode.oFlags).toNat

theorem getfl_eq (w : World) (fd : Nat) : getfl w fd = some (match w.descs fd with
    | none => .ebadf
    | some d => flOf (w.files d.file)) := by
  simp only [getfl, step, World.fcntl]
  cases w.descs fd <;> rfl

theorem getfl_setDesc (w : World) (fd : Nat) (d : Desc) (c : Bool) (h : w.descs fd = some d) (k : Nat) : getfl (w.setDesc fd { d with cloexec := c }) k = getfl w k := by
  rw [getfl_eq, getfl_eq]
  simp only [World.setDesc]
  by_cases hk : k = fd
  · subst hk; simp [h]
  · simp [hk]

/-! ## Theorems -/

/-- `F_SETFD` changes what `F_GETFD` tells of this descriptor and of no other, not even of duplicates; no flag of a file changes. -/
theorem C99_setfd (w : World) (fd arg : Nat) (to : Option Nat) (h : w.descs fd ≠ none) (ha : arg = 0 ∨ arg = 1) :
    ∃ w', step w (.fcntl fd .setfd arg to) = .ok (w', .val 0)
      ∧ (∀ k, getfd w' k = if k = fd then some (.val arg) else getfd w k) ∧ (∀ k, getfl w' k = getfl w k) ∧ ∀ a b, Same w' a b ↔ Same w a b := by
  cases hd : w.descs fd with
  | none => exact absurd hd h
  | some d =>
    refine ⟨w.setDesc fd { d with cloexec := arg == 1 }, by simp [step, World.fcntl, hd, ha], ?_, getfl_setDesc w fd d _ hd, ?_⟩
    · intro k
      rw [getfd_eq, getfd_eq]
      by_cases hk : k = fd
      · rcases ha with rfl | rfl <;> simp [World.setDesc, hk]
      · simp [World.setDesc, hk]
    · have : ∀ a, ((w.setDesc fd { d with cloexec := arg == 1 }).descs a).map (·.file) = (w.descs a).map (·.file) := by
        intro a; by_cases hk : a = fd
        · simp [World.setDesc, hk, hd]
        · simp [World.setDesc, hk]
      intro a b; simp only [Same, this]

/-- `FIOCLEX` and `FIONCLEX` do what `F_SETFD` does, for every descriptor of every kind. -/
theorem C99_ioctl_cloexec (w : World) (fd : Nat) (v : Option Int) :
    step w (.ioctl fd .fioclex v) = step w (.fcntl fd .setfd 1 none) ∧ step w (.ioctl fd .fionclex v) = step w (.fcntl fd .setfd 0 none) := by
  cases hd : w.descs fd <;> simp [step, World.ioctl, World.fcntl, hd]

/-- How a change of the status of a file is seen. -/
theorem setStatus_seen (w : World) (fd : Nat) (d : Desc) (s : Flags) (hd : w.descs fd = some d) (hl : (w.files d.file).legacy = false) :
    (∀ k, getfd (w.setStatus d.file s) k = getfd w k)
    ∧ (∀ k, ¬ Same w fd k → getfl (w.setStatus d.file s) k = getfl w k)
    ∧ (∀ k, Same w fd k → getfl w k = some (.val ((w.files d.file).status ||| (w.files d.file).mode.oFlags).toNat) ∧ getfl (w.setStatus d.file s) k = some (.val (s ||| (w.files d.file).mode.oFlags).toNat)) := by
  refine ⟨fun k => by rw [getfd_eq, getfd_eq]; rfl, ?_, ?_⟩
  · intro k hk
    rw [getfl_eq, getfl_eq]
    simp only [World.setStatus]
    cases hk' : w.descs k with
    | none => rfl
    | some d' =>
      have : d'.file ≠ d.file := by intro hx; apply hk; simp [Same, hd, hk', hx]
      simp [this]
  · intro k hk
    rw [getfl_eq, getfl_eq]
    simp only [World.setStatus]
    cases hk' : w.descs k with
    | none => simp [Same, hd, hk'] at hk
    | some d' =>
      have : d'.file = d.file := by simp [Same, hd, hk'] at hk; exact hk.symm
      simp [this, hl, flOf]

/-- `F_SETFL` with known flags succeeds. Through every descriptor of the file, `F_GETFL` then has the given `O_APPEND`, `O_NONBLOCK`, `O_ASYNC`, `O_DIRECT` and `O_NOATIME` and all other bits as before; other files and the
flags of all descriptors are unchanged. -/
theorem C99_setfl (w : World) (hI : Inv w) (fd arg : Nat) (to : Option Nat) (h : Special w fd) (ha : arg < 2 ^ 31) (hk : ∀ i, arg.testBit i = true → known i = true) :
    ∃ w', step w (.fcntl fd .setfl arg to) = .ok (w', .val 0)
      ∧ (∀ k, getfd w' k = getfd w k) ∧ (∀ k, ¬ Same w fd k → getfl w' k = getfl w k)
      ∧ ∀ k, Same w fd k → ∃ v v', getfl w k = some (.val v) ∧ getfl w' k = some (.val v') ∧ ∀ i, v'.testBit i = if changeable i then arg.testBit i else v.testBit i := by
  obtain ⟨d, hd, hl⟩ := h
  obtain ⟨s, hs, hb⟩ := newStatus_some (w.files d.file).status arg (hI _) ha hk
  obtain ⟨a, b, c⟩ := setStatus_seen w fd d s hd hl
  refine ⟨w.setStatus d.file s, by simp [step, World.fcntl, hd, hl, hs], a, b, ?_⟩
  intro k hk'
  obtain ⟨c1, c2⟩ := c k hk'
  refine ⟨_, _, c1, c2, ?_⟩
  intro i
  rw [BitVec.testBit_toNat, BitVec.testBit_toNat]
  by_cases hi : i < 32
  · rw [BitVec.getLsbD_or, BitVec.getLsbD_or, hb i hi]
    have hm := mode_bit (w.files d.file).mode i hi
    have ho := (sub_iff _ STATUS_ALL).1 (hI d.file) i hi
    rw [status_bit i hi] at ho
    cases hc : changeable i
    · rw [hc] at ho
      cases ho' : (w.files d.file).status.getLsbD i <;> simp_all
    · simp [hm hc]
  · have h1 : changeable i = false := by
      cases hc : changeable i
      · rfl
      · exact absurd (changeable_lt i hc) hi
    rw [BitVec.getLsbD_of_ge _ _ (by omega), BitVec.getLsbD_of_ge _ _ (by omega)]
    simp [h1]

/-- Other arguments of `F_SETFL` and `F_SETFD` are refused, and nothing changes. -/
theorem C99_refused (w : World) (fd arg : Nat) (to : Option Nat) (h : Special w fd) :
    ((2 ^ 31 ≤ arg ∨ ∃ i, arg.testBit i = true ∧ known i = false) → step w (.fcntl fd .setfl arg to) = .ok (w, .einval))
    ∧ (2 ≤ arg → step w (.fcntl fd .setfd arg to) = .ok (w, .einval)) := by
  obtain ⟨d, hd, hl⟩ := h
  constructor
  · intro hx
    have hn : newStatus (w.files d.file).status arg = none := by
      unfold newStatus
      by_cases ha : arg < 2 ^ 31
      · simp only [ha, if_true]
        rcases hx with hx | ⟨i, h1, h2⟩
        · omega
        · have hi : i < 32 := by
            apply Decidable.byContradiction
            intro hi
            have : arg.testBit i = false := Nat.testBit_lt_two_pow (Nat.lt_of_lt_of_le ha (Nat.pow_le_pow_right (n := 2) (by omega) (by omega : 31 ≤ i)))
            rw [this] at h1; cases h1
          have : ¬ (BitVec.ofNat 32 arg &&& ~~~O_ALL = 0) := by
            rw [sub_iff]
            intro hy
            have := hy i hi (by rw [BitVec.getLsbD_ofNat]; simp [hi, h1])
            rw [all_bit i hi, h2] at this; cases this
          rw [if_neg this]
      · rw [if_neg ha]
    simp [step, World.fcntl, hd, hl, hn]
  · intro hx
    have : ¬ (arg = 0 ∨ arg = 1) := by omega
    simp [step, World.fcntl, hd, this]

/-- On a number without a descriptor `fcntl` is `EBADF` and nothing changes; so is `ioctl` with a known request. -/
theorem C99_badf (w : World) (fd : Nat) (h : w.descs fd = none) :
    (∀ cmd arg to, step w (.fcntl fd cmd arg to) = .ok (w, .ebadf)) ∧ (∀ cmd v, cmd ≠ .unknown → step w (.ioctl fd cmd v) = .ok (w, .ebadf)) ∧ ∀ v, step w (.ioctl fd .unknown v) = .ok (w, .einval) := by
  refine ⟨fun cmd arg to => by simp [step, World.fcntl, h], fun cmd v hc => by simp [step, World.ioctl, h, hc], fun v => by simp [step, World.ioctl]⟩

/-- `FIONBIO` changes `O_NONBLOCK` as seen through every descriptor of the file, and nothing else. -/
theorem C99_fionbio (w : World) (fd : Nat) (v : Int) (h : Special w fd) :
    ∃ w', step w (.ioctl fd .fionbio (some v)) = .ok (w', .val 0)
      ∧ (∀ k, getfd w' k = getfd w k) ∧ (∀ k, ¬ Same w fd k → getfl w' k = getfl w k)
      ∧ ∀ k, Same w fd k → ∃ x x', getfl w k = some (.val x) ∧ getfl w' k = some (.val x') ∧ ∀ i, x'.testBit i = if i = 11 then decide (v ≠ 0) else x.testBit i := by
  obtain ⟨d, hd, hl⟩ := h
  obtain ⟨a, b, c⟩ := setStatus_seen w fd d (if v = 0 then (w.files d.file).status &&& ~~~O_NONBLOCK else (w.files d.file).status ||| O_NONBLOCK) hd hl
  refine ⟨_, by simp [step, World.ioctl, hd, hl], a, b, ?_⟩
  intro k hk'
  obtain ⟨c1, c2⟩ := c k hk'
  refine ⟨_, _, c1, c2, ?_⟩
  intro i
  rw [BitVec.testBit_toNat, BitVec.testBit_toNat]
  by_cases hi : i < 32
  · have hn := nonblock_bit i hi
    have hm := mode_bit (w.files d.file).mode i hi
    rw [BitVec.getLsbD_or, BitVec.getLsbD_or]
    by_cases h11 : i = 11
    · have hm' := hm (by subst h11; decide)
      rw [hm']
      by_cases hv : v = 0
      · rw [if_pos hv, BitVec.getLsbD_and, BitVec.getLsbD_not, hn]; simp [h11, hv]
      · rw [if_neg hv, BitVec.getLsbD_or, hn]; simp [h11, hv]
    · by_cases hv : v = 0
      · rw [if_pos hv, BitVec.getLsbD_and, BitVec.getLsbD_not, hn]; simp only [h11, hi, decide_false, decide_true, if_false, Bool.not_false, Bool.and_true]
      · rw [if_neg hv, BitVec.getLsbD_or, hn]; simp only [h11, decide_false, if_false, Bool.or_false]
  · rw [BitVec.getLsbD_of_ge _ _ (by omega), BitVec.getLsbD_of_ge _ _ (by omega)]
    have : i ≠ 11 := by omega
    simp [this]

/-- What `F_GETFL` gives can always be given back to `F_SETFL`, and nothing changes. -/
theorem C99_give_back (w : World) (hI : Inv w) (fd v : Nat) (to : Option Nat) (h : getfl w fd = some (.val v)) :
    ∃ w', step w (.fcntl fd .setfl v to) = .ok (w', .val 0) ∧ (∀ k, getfd w' k = getfd w k) ∧ ∀ k, getfl w' k = getfl w k := by
  have hsp : Special w fd ∧ ∃ d, w.descs fd = some d ∧ v = ((w.files d.file).status ||| (w.files d.file).mode.oFlags).toNat := by
    rw [getfl_eq] at h
    cases hd : w.descs fd with
    | none => simp [hd] at h
    | some d =>
      cases hl : (w.files d.file).legacy
      · simp only [hd, flOf, hl] at h
        simp at h
        exact ⟨⟨d, hd, hl⟩, d, rfl, by simp [← h]⟩
      · simp [hd, hl, flOf] at h
  obtain ⟨hs, d, hd, hv⟩ := hsp
  have hbits : ∀ i, i < 32 → v.testBit i = true → known i = true := by
    intro i hi hx
    rw [hv, BitVec.testBit_toNat, BitVec.getLsbD_or] at hx
    simp only [Bool.or_eq_true] at hx
    rcases hx with hx | hx
    · have := (sub_iff _ STATUS_ALL).1 (hI d.file) i hi hx
      rw [status_bit i hi] at this
      exact changeable_known i this
    · exact mode_known _ i hi hx
  have h32 : v < 2 ^ 32 := by rw [hv]; exact BitVec.isLt _
  have hv31 : v < 2 ^ 31 := by
    have h31 : v.testBit 31 = false := by
      cases hx : v.testBit 31
      · rfl
      · have := hbits 31 (by omega) hx; simp [known] at this
    rw [Nat.testBit_eq_decide_div_mod_eq] at h31
    simp at h31
    omega
  have hk : ∀ i, v.testBit i = true → known i = true := by
    intro i hx
    by_cases hi : i < 32
    · exact hbits i hi hx
    · have : v.testBit i = false := Nat.testBit_lt_two_pow (Nat.lt_of_lt_of_le h32 (Nat.pow_le_pow_right (n := 2) (by omega) (by omega : 32 ≤ i)))
      rw [this] at hx; cases hx
  obtain ⟨w', h1, h2, h3, h4⟩ := C99_setfl w hI fd v to hs hv31 hk
  refine ⟨w', h1, h2, ?_⟩
  intro k
  by_cases hS : Same w fd k
  · obtain ⟨x, x', e1, e2, e3⟩ := h4 k hS
    obtain ⟨y, y', f1, f2, f3⟩ := h4 fd rfl
    -- all descriptors of the file show the same
    have hxv : x = v := by
      have hk2 : getfl w k = getfl w fd := by
        rw [getfl_eq, getfl_eq]
        cases hk' : w.descs k with
        | none => simp [Same, hd, hk'] at hS
        | some d' =>
          have : d'.file = d.file := by simp [Same, hd, hk'] at hS; exact hS.symm
          simp [hd, this]
      rw [hk2, h] at e1
      simp at e1
      exact e1.symm
    rw [e1, e2]
    have : x' = x := by
      apply Nat.eq_of_testBit_eq
      intro i
      rw [e3 i, hxv]
      split <;> rfl
    rw [this]
  · exact h3 k hS

/-- A duplicate is of the same file and has its own flag. -/
theorem C99_dup (w : World) (fd n arg : Nat) (c : Bool) (h : w.descs fd ≠ none) (hn : w.descs n = none) :
    ∃ w', step w (.fcntl fd (.dupfd c) arg (some n)) = .ok (w', .val n) ∧ Same w' fd n ∧ getfd w' n = some (.val (if c then 1 else 0)) ∧ getfl w' n = getfl w fd
      ∧ ∀ k, k ≠ n → getfd w' k = getfd w k ∧ getfl w' k = getfl w k := by
  cases hd : w.descs fd with
  | none => exact absurd hd h
  | some d =>
    have hne : fd ≠ n := by intro hx; rw [hx, hn] at hd; cases hd
    refine ⟨w.setDesc n ⟨d.file, c⟩, by simp [step, World.fcntl, hd], by simp [Same, World.setDesc, hne, hd], by rw [getfd_eq]; simp [World.setDesc], by rw [getfl_eq, getfl_eq]; simp [World.setDesc, hd], ?_⟩
    intro k hk
    rw [getfd_eq, getfd_eq, getfl_eq, getfl_eq]
    simp [World.setDesc, hk]

/-- The calls that are about a descriptor's own flag, or that make this descriptor. -/
def touchesFd (fd : Nat) : Op → Bool
  | .fcntl k .setfd _ _ => k == fd
  | .fcntl _ (.dupfd _) _ (some n) => n == fd
  | .ioctl k .fioclex _ => k == fd
  | .ioctl k .fionclex _ => k == fd
  | _ => false

/-- The calls that set flags of files. -/
def touchesFl : Op → Bool
  | .fcntl _ .setfl _ _ => true
  | .ioctl _ .fionbio _ => true
  | _ => false

/-- One call: what it leaves alone, and that files keep to flags that there are. -/
theorem step_frame (w w' : World) (o : Op) (r : Ret) (h : step w o = .ok (w', r)) :
    (Inv w → Inv w') ∧ (∀ fd, touchesFd fd o = false → getfd w' fd = getfd w fd ∧ (touchesFl o = false → getfl w' fd = getfl w fd)) := by
  cases o with
  | fcntl fd cmd arg to =>
    simp only [step, World.fcntl] at h
    split at h
    · cases h; exact ⟨id, fun _ _ => ⟨rfl, fun _ => rfl⟩⟩
    · rename_i d hd
      cases cmd
      case setfl =>
        simp only at h
        split at h
        · cases h; exact ⟨id, fun _ _ => ⟨rfl, fun _ => rfl⟩⟩
        · split at h
          · cases h; exact ⟨id, fun _ _ => ⟨rfl, fun _ => rfl⟩⟩
          · rename_i s hs
            cases h
            refine ⟨?_, fun k _ => ⟨by rw [getfd_eq, getfd_eq]; rfl, by simp [touchesFl]⟩⟩
            intro hI f
            simp only [World.setStatus]
            split
            · exact newStatus_inv _ _ _ hs
            · exact hI f
      case setfd =>
        simp only at h
        split at h
        · cases h
          refine ⟨id, fun k hk => ⟨?_, fun _ => getfl_setDesc w fd d _ hd k⟩⟩
          have : k ≠ fd := by intro hx; subst hx; simp [touchesFd] at hk
          rw [getfd_eq, getfd_eq]; simp [World.setDesc, this]
        · cases h; exact ⟨id, fun _ _ => ⟨rfl, fun _ => rfl⟩⟩
      case dupfd c =>
        cases to with
        | none => cases h; exact ⟨id, fun _ _ => ⟨rfl, fun _ => rfl⟩⟩
        | some n =>
          cases h
          refine ⟨id, fun k hk => ?_⟩
          have : k ≠ n := by intro hx; subst hx; simp [touchesFd] at hk
          rw [getfd_eq, getfd_eq, getfl_eq, getfl_eq]; simp [World.setDesc, this]
      case getpipesz =>
        simp only at h
        split at h
        · cases h
        · split at h <;> (cases h; exact ⟨id, fun _ _ => ⟨rfl, fun _ => rfl⟩⟩)
      all_goals (cases h; exact ⟨id, fun _ _ => ⟨rfl, fun _ => rfl⟩⟩)
  | ioctl fd cmd val =>
    simp only [step, World.ioctl] at h
    split at h
    · cases h; exact ⟨id, fun _ _ => ⟨rfl, fun _ => rfl⟩⟩
    · split at h
      · cases h; exact ⟨id, fun _ _ => ⟨rfl, fun _ => rfl⟩⟩
      · rename_i d hd
        split at h
        · rename_i hc
          cases h
          refine ⟨id, fun k hk => ⟨?_, fun _ => getfl_setDesc w fd d _ hd k⟩⟩
          have : k ≠ fd := by intro hx; subst hx; simp [touchesFd, hc] at hk
          rw [getfd_eq, getfd_eq]; simp [World.setDesc, this]
        · split at h
          · rename_i hc
            cases h
            refine ⟨id, fun k hk => ⟨?_, fun _ => getfl_setDesc w fd d _ hd k⟩⟩
            have : k ≠ fd := by intro hx; subst hx; simp [touchesFd, hc] at hk
            rw [getfd_eq, getfd_eq]; simp [World.setDesc, this]
          · split at h
            · cases h; exact ⟨id, fun _ _ => ⟨rfl, fun _ => rfl⟩⟩
            · split at h
              · rename_i hc
                split at h
                · cases h; exact ⟨id, fun _ _ => ⟨rfl, fun _ => rfl⟩⟩
                · rename_i v
                  cases h
                  refine ⟨?_, fun k _ => ⟨by rw [getfd_eq, getfd_eq]; rfl, by simp [touchesFl, hc]⟩⟩
                  intro hI f
                  simp only [World.setStatus]
                  split
                  · have h0 := (sub_iff _ _).1 (hI d.file)
                    simp only
                    rw [sub_iff]
                    intro i hi hx
                    split at hx
                    · rw [BitVec.getLsbD_and] at hx; simp at hx; exact h0 i hi hx.1
                    · rw [BitVec.getLsbD_or, nonblock_bit i hi] at hx
                      simp at hx
                      rcases hx with hx | rfl
                      · exact h0 i hi hx
                      · decide
                  · exact hI f
              · cases h; exact ⟨id, fun _ _ => ⟨rfl, fun _ => rfl⟩⟩

/-- However many calls there are: what `F_GETFD` tells of a descriptor stays unless a call sets the flag of this descriptor; what `F_GETFL` tells stays if no call sets flags of files; and `Inv`, which the theorems above ask
for, stays. -/
theorem C99_stays (ops : List Op) : ∀ (w w' : World), run w ops = .ok w' →
    (Inv w → Inv w') ∧ ∀ fd, (∀ o ∈ ops, touchesFd fd o = false) → getfd w' fd = getfd w fd ∧ ((∀ o ∈ ops, touchesFl o = false) → getfl w' fd = getfl w fd) := by
  induction ops with
  | nil => intro w w' h; simp only [run] at h; cases h; exact ⟨id, fun _ _ => ⟨rfl, fun _ => rfl⟩⟩
  | cons o l ih =>
    intro w w' h
    simp only [run, R.bind_eq_ok] at h
    obtain ⟨⟨w1, r⟩, h1, h2⟩ := h
    obtain ⟨a, b⟩ := step_frame w w1 o r h1
    obtain ⟨c, e⟩ := ih w1 w' h2
    refine ⟨fun x => c (a x), fun fd hf => ?_⟩
    obtain ⟨b1, b2⟩ := b fd (hf o (by simp))
    obtain ⟨e1, e2⟩ := e fd (fun o' ho' => hf o' (by simp [ho']))
    exact ⟨e1.trans b1, fun hl => (e2 fun o' ho' => hl o' (by simp [ho'])).trans (b2 (hl o (by simp)))⟩

/-! ### Findings -/

/-- The only call that panics is `F_GETPIPE_SZ` on a regular file: the C handler is called while the table of descriptors is borrowed. -/
theorem C99_panic (w : World) (o : Op) : step w o = .panic ↔ ∃ fd arg to d, o = .fcntl fd .getpipesz arg to ∧ w.descs fd = some d ∧ (w.files d.file).legacy = true := by
  constructor
  · intro h
    cases o with
    | fcntl fd cmd arg to =>
      simp only [step, World.fcntl] at h
      split at h
      · cases h
      · rename_i d hd
        cases cmd
        case getpipesz =>
          simp only at h
          split at h
          · rename_i hl; exact ⟨fd, arg, to, d, rfl, hd, hl⟩
          · split at h <;> cases h
        case setfl => simp only at h; split at h; · cases h
                      split at h <;> cases h
        case setfd => simp only at h; split at h <;> cases h
        case dupfd => cases to <;> cases h
        all_goals cases h
    | ioctl fd cmd val =>
      simp only [step, World.ioctl] at h
      split at h
      · cases h
      · split at h
        · cases h
        · split at h
          · cases h
          · split at h
            · cases h
            · split at h
              · cases h
              · split at h
                · split at h <;> cases h
                · cases h
  · rintro ⟨fd, arg, to, d, rfl, hd, hl⟩
    simp [step, World.fcntl, hd, hl]

/-- On a regular file `F_OFD_SETLK` is refused, although `F_OFD_SETLKW`, `F_OFD_GETLK` and `F_SETLK` are passed on. -/
theorem C99_ofd_setlk (w : World) (fd : Nat) (d : Desc) (h : w.descs fd = some d) (hl : (w.files d.file).legacy = true) (arg : Nat) :
    ret (step w (.fcntl fd .ofdSetlk arg none)) = some .einval ∧ ret (step w (.fcntl fd .ofdSetlkw arg none)) = some .native
    ∧ ret (step w (.fcntl fd .ofdGetlk arg none)) = some .native ∧ ret (step w (.fcntl fd .setlk arg none)) = some .native := by
  simp [step, World.fcntl, h, hl, ret]

/-- `FIONBIO` on a regular file is refused, although `F_SETFL` is passed on. -/
theorem C99_fionbio_regular (w : World) (fd : Nat) (d : Desc) (h : w.descs fd = some d) (hl : (w.files d.file).legacy = true) (v : Int) (arg : Nat) :
    ret (step w (.ioctl fd .fionbio (some v))) = some .einval ∧ ret (step w (.fcntl fd .setfl arg none)) = some .native := by
  simp [step, World.ioctl, World.fcntl, h, hl, ret]

/-! ### Examples -/

/-- A pipe with two descriptors, and a regular file. -/
def ex : World := ⟨fun k => if k = 3 then some ⟨0, false⟩ else if k = 4 then some ⟨0, true⟩ else if k = 5 then some ⟨1, false⟩ else none,
  fun k => if k = 0 then ⟨O_DIRECT, ⟨false, true⟩, false, some 65536⟩ else ⟨0, ⟨true, true⟩, k == 1, none⟩⟩

/-- The hypotheses are met: `O_NONBLOCK` is set through one descriptor and seen through the other, the flag of one descriptor is not seen through the other. -/
theorem C99_example : Special ex 3 ∧ Same ex 3 4 ∧ ¬ Same ex 3 5 ∧ getfl ex 3 = some (.val 16385) ∧ Inv ex
    ∧ (∃ w', run ex [.fcntl 3 .setfl 18433 none, .ioctl 4 .fionclex none] = .ok w' ∧ getfl w' 4 = some (.val 18433) ∧ getfd w' 4 = some (.val 0))
    ∧ step ex (.fcntl 5 .getpipesz 0 none) = .panic := by
  refine ⟨⟨⟨0, false⟩, rfl, rfl⟩, rfl, by simp [Same, ex], rfl, ?_, ⟨_, rfl, by decide +kernel, by decide +kernel⟩, rfl⟩
  intro f
  by_cases h : f = 0
  · subst h; decide
  · simp [ex, h]

end Shadow.FdFlags
