import Verif.MmapFile.Model

/-!
# C100: `mmap` maps the file behind the descriptor and leaves nothing open
-/
namespace Shadow.MmapFile

/-! ## Specification -/

/-- The numbers that are answered are free, as those of a kernel. -/
def Fresh (e : Env) (p : Plugin) : Prop := ∀ n, e.open_ = some n → ∀ x ∈ p.fds, x.1 ≠ n

/-- The arguments are in order: known flags, a length, shared or private. -/
def ArgsOk (e : Env) (len prot flags : Nat) : Prop := prot &&& e.protAll = prot ∧ flags &&& e.mapAll = flags ∧ len ≠ 0 ∧ (flags.testBit 0 = true ∨ flags.testBit 1 = true)

/-- Without a file. -/
def Anonymous (flags : Nat) : Prop := flags.testBit 5 = true

/-- A file that can be opened in the program. -/
def CanOpen (e : Env) (f : File) : Prop := f.kind ≠ .other ∧ e.pathExists = true ∧ e.writePath = true ∧ e.writeNul = true ∧ e.open_ ≠ none

/-! ## Lemmas -/

theorem and3 (n : Nat) : n &&& 3 = 0 ↔ ¬ (n.testBit 0 = true ∨ n.testBit 1 = true) := by
  have h3 : (3 : Nat) = 2 ^ 2 - 1 := rfl
  rw [h3, Nat.and_two_pow_sub_one_eq_mod]
  have h0 : n.testBit 0 = decide (n % 2 = 1) := by simp
  have h1 : n.testBit 1 = decide (n / 2 % 2 = 1) := by rw [Nat.testBit_eq_decide_div_mod_eq]
  rw [h0, h1]
  simp only [decide_eq_true_eq]
  omega

theorem and32 (n : Nat) : n &&& 32 = 0 ↔ n.testBit 5 = false := by
  constructor
  · intro h
    have := congrArg (fun x => Nat.testBit x 5) h
    simp only [Nat.testBit_and, Nat.zero_testBit] at this
    have h5 : Nat.testBit 32 5 = true := by decide
    rw [h5] at this; simpa using this
  · intro h
    apply Nat.eq_of_testBit_eq
    intro i
    have h32 : (32 : Nat) = 2 ^ 5 := rfl
    rw [Nat.testBit_and, h32, Nat.testBit_two_pow, Nat.zero_testBit]
    by_cases hi : 5 = i
    · subst hi; simp [h]
    · simp [hi]

theorem filter_fresh (l : List (Nat × Opened)) (n : Nat) (h : ∀ x ∈ l, x.1 ≠ n) : l.filter (·.1 != n) = l := by
  rw [List.filter_eq_self]
  intro x hx
  simpa using h x hx

theorem free_alloc (p : Plugin) (a : Nat) : (p.alloc a).free a = p := by simp [Plugin.alloc, Plugin.free]

theorem openFile_none (e : Env) (p : Plugin) (f : File) (h : ¬ CanOpen e f) : openFile e p f = (p, none) := by
  unfold openFile
  simp only
  split
  · rfl
  · rename_i hk
    split
    · rfl
    · rename_i hp
      split
      · rw [free_alloc]
      · rename_i hw
        split
        · rw [free_alloc]
        · rename_i hn
          split
          · rw [free_alloc]
          · rename_i n ho
            exfalso
            apply h
            refine ⟨?_, by simpa using hp, by simpa using hw, by simpa using hn, by simp [ho]⟩
            intro hx; apply hk; simp [hx]

theorem openFile_some (e : Env) (p : Plugin) (f : File) (h : CanOpen e f) :
    ∃ n, e.open_ = some n ∧ openFile e p f = ({ p with fds := (n, ⟨f.osFd, openFlags f, f.modeAtOpen⟩) :: p.fds }, some n) := by
  obtain ⟨h1, h2, h3, h4, h5⟩ := h
  cases ho : e.open_ with
  | none => exact absurd ho h5
  | some n =>
    refine ⟨n, rfl, ?_⟩
    have : ¬ (f.kind ≠ .regular ∧ f.kind ≠ .localtime) := by
      cases hk : f.kind <;> simp_all
    simp [openFile, this, h2, h3, h4, ho, Plugin.alloc, Plugin.open_, Plugin.free]

theorem mapWith_none (e : Env) (p : Plugin) (addr len prot flags : Nat) (off : Int) :
    mapWith e p addr len prot flags none off = match e.map addr with
      | .error x => (p, .map x)
      | .ok a => ({ p with maps := ⟨a, len, prot, flags, none, off⟩ :: p.maps }, .addr a) := by
  simp only [mapWith, doMap]
  cases e.map addr <;> rfl

theorem mapWith_some (e : Env) (p : Plugin) (hF : Fresh e p) (addr len prot flags : Nat) (f : File) (off : Int) (h : CanOpen e f) :
    mapWith e p addr len prot flags (some f) off = match e.map addr with
      | .error x => (p, .map x)
      | .ok a => ({ p with maps := ⟨a, len, prot, flags, some ⟨f.osFd, openFlags f, f.modeAtOpen⟩, off⟩ :: p.maps }, .addr a) := by
  obtain ⟨n, hn, ho⟩ := openFile_some e p f h
  have hf := filter_fresh p.fds n (hF n hn)
  simp only [mapWith, ho, doMap]
  cases e.map addr with
  | error x => simp [Plugin.close, hf]
  | ok a => simp [Plugin.close, hf]

/-! ## Theorems -/

/-- Every call is one of these: an error and nothing has changed, or exactly one map is added with the arguments of the call. In all cases what the program has open natively and what is allocated in it is as before. -/
theorem C100_clean (e : Env) (table : Nat → Option Desc) (p : Plugin) (hF : Fresh e p) (addr len prot flags fd : Nat) (off : Int) :
    (mmap e table p addr len prot flags fd off).1.fds = p.fds ∧ (mmap e table p addr len prot flags fd off).1.bufs = p.bufs
    ∧ (((mmap e table p addr len prot flags fd off).1.maps = p.maps ∧ ∀ a, (mmap e table p addr len prot flags fd off).2 ≠ .addr a)
      ∨ ∃ a o, e.map addr = .ok a ∧ (mmap e table p addr len prot flags fd off).1.maps = ⟨a, len, prot, flags, o, off⟩ :: p.maps ∧ (mmap e table p addr len prot flags fd off).2 = .addr a) := by
  have key : ∀ fo, (mapWith e p addr len prot flags fo off).1.fds = p.fds ∧ (mapWith e p addr len prot flags fo off).1.bufs = p.bufs
    ∧ (((mapWith e p addr len prot flags fo off).1.maps = p.maps ∧ ∀ a, (mapWith e p addr len prot flags fo off).2 ≠ .addr a)
      ∨ ∃ a o, e.map addr = .ok a ∧ (mapWith e p addr len prot flags fo off).1.maps = ⟨a, len, prot, flags, o, off⟩ :: p.maps ∧ (mapWith e p addr len prot flags fo off).2 = .addr a) := by
    intro fo
    cases fo with
    | none =>
      rw [mapWith_none]
      cases e.map addr with
      | error x => simp
      | ok a => simp
    | some f =>
      by_cases hc : CanOpen e f
      · rw [mapWith_some e p hF _ _ _ _ f off hc]
        cases e.map addr with
        | error x => simp
        | ok a => simp
      · simp [mapWith, openFile_none e p f hc]
  unfold mmap
  split
  · simp
  · split
    · simp
    · split
      · simp
      · split
        · simp
        · split
          · exact key none
          · split
            · simp
            · simp
            · split
              · simp
              · split
                · simp
                · exact key _

/-- With arguments that are in order, a descriptor above 2 of an open regular file that can be opened: the map is of the file of the simulator behind this descriptor, whatever its name means by now, and the answer is the kernel's. -/
theorem C100_file (e : Env) (table : Nat → Option Desc) (p : Plugin) (hF : Fresh e p) (addr len prot flags fd : Nat) (off : Int) (f : File)
    (ha : ArgsOk e len prot flags) (hn : ¬ Anonymous flags) (hfd : 2 < fd) (ht : table fd = some (.legacy f)) (hc : f.closed = false) (hi : f.isFile = true) :
    (CanOpen e f → ∃ o, o.osFd = f.osFd ∧ o.flags = openFlags f ∧ o.mode = f.modeAtOpen
      ∧ mmap e table p addr len prot flags fd off = match e.map addr with
        | .error x => (p, .map x)
        | .ok a => ({ p with maps := ⟨a, len, prot, flags, some o, off⟩ :: p.maps }, .addr a))
    ∧ (¬ CanOpen e f → mmap e table p addr len prot flags fd off = (p, .eacces)) := by
  obtain ⟨h1, h2, h3, h4⟩ := ha
  have h5 : ¬ (len = 0 ∨ flags &&& 3 = 0) := fun h => h.elim h3 fun h => (and3 flags).1 h h4
  have h6 : flags &&& 32 = 0 := by rw [and32]; simpa [Anonymous] using hn
  have h7 : ¬ fd ≤ 2 := by omega
  have hm : mmap e table p addr len prot flags fd off = mapWith e p addr len prot flags (some f) off := by
    unfold mmap
    rw [if_neg (by simp [h1]), if_neg (by simp [h2]), if_neg h5, if_neg (by simp [h7]), if_neg (by simp [h6])]
    simp [ht, hc, hi]
  constructor
  · intro ho
    exact ⟨⟨f.osFd, openFlags f, f.modeAtOpen⟩, rfl, rfl, rfl, by rw [hm, mapWith_some e p hF _ _ _ _ f off ho]⟩
  · intro ho
    rw [hm]; simp [mapWith, openFile_none e p f ho]

/-- Without a file, the descriptor does not matter and nothing is opened. -/
theorem C100_anonymous (e : Env) (table : Nat → Option Desc) (p : Plugin) (addr len prot flags fd : Nat) (off : Int) (ha : ArgsOk e len prot flags) (hn : Anonymous flags) :
    mmap e table p addr len prot flags fd off = match e.map addr with
      | .error x => (p, .map x)
      | .ok a => ({ p with maps := ⟨a, len, prot, flags, none, off⟩ :: p.maps }, .addr a) := by
  obtain ⟨h1, h2, h3, h4⟩ := ha
  have h5 : ¬ (len = 0 ∨ flags &&& 3 = 0) := fun h => h.elim h3 fun h => (and3 flags).1 h h4
  have h6 : flags &&& 32 ≠ 0 := by intro h; rw [and32] at h; simp [Anonymous, h] at hn
  rw [← mapWith_none]
  unfold mmap
  rw [if_neg (by simp [h1]), if_neg (by simp [h2]), if_neg h5, if_neg (by simp [h6]), if_pos h6]

/-- The errors: arguments first, then the descriptor, then its file. Nothing changes. -/
theorem C100_errors (e : Env) (table : Nat → Option Desc) (p : Plugin) (addr len prot flags fd : Nat) (off : Int) :
    (¬ ArgsOk e len prot flags → mmap e table p addr len prot flags fd off = (p, .einval))
    ∧ (ArgsOk e len prot flags → ¬ Anonymous flags →
      ((fd ≤ 2 ∨ table fd = none) → mmap e table p addr len prot flags fd off = (p, .ebadf))
      ∧ (2 < fd → table fd = some .new → mmap e table p addr len prot flags fd off = (p, .einval))
      ∧ (∀ f, 2 < fd → table fd = some (.legacy f) → f.closed = true → mmap e table p addr len prot flags fd off = (p, .ebadf))
      ∧ (∀ f, 2 < fd → table fd = some (.legacy f) → f.closed = false → f.isFile = false → mmap e table p addr len prot flags fd off = (p, .eacces))) := by
  constructor
  · intro hx
    unfold mmap
    split
    · rfl
    · rename_i h1
      split
      · rfl
      · rename_i h2
        split
        · rfl
        · rename_i h3
          exfalso; apply hx
          rw [and3] at h3
          refine ⟨by simpa using h1, by simpa using h2, fun h => h3 (.inl h), ?_⟩
          apply Decidable.byContradiction
          intro h; exact h3 (.inr h)
  · rintro ⟨h1, h2, h3, h4⟩ hn
    have h5 : ¬ (len = 0 ∨ flags &&& 3 = 0) := fun h => h.elim h3 fun h => (and3 flags).1 h h4
    have h6 : flags &&& 32 = 0 := by rw [and32]; simpa [Anonymous] using hn
    have hm : mmap e table p addr len prot flags fd off = if fd ≤ 2 then (p, .ebadf) else match table fd with
        | none => (p, .ebadf)
        | some .new => (p, .einval)
        | some (.legacy f) => if f.closed then (p, .ebadf) else if !f.isFile then (p, .eacces) else mapWith e p addr len prot flags (some f) off := by
      unfold mmap
      rw [if_neg (by simp [h1]), if_neg (by simp [h2]), if_neg h5]
      simp only [h6, and_true, ne_eq, not_true_eq_false, if_false]
      rfl
    rw [hm]
    refine ⟨?_, ?_, ?_, ?_⟩
    · intro h
      by_cases h7 : fd ≤ 2
      · simp [h7]
      · rcases h with h | h
        · exact absurd h h7
        · simp [h7, h]
    · intro h7 ht; simp [Nat.not_le.2 h7, ht]
    · intro f h7 ht hc; simp [Nat.not_le.2 h7, ht, hc]
    · intro f h7 ht hc hi; simp [Nat.not_le.2 h7, ht, hc, hi]

/-- The bits of `O_CREAT`, `O_EXCL`, `O_TRUNC`, `O_DIRECTORY`, `O_NOFOLLOW` and `O_TMPFILE`. -/
def dangerous (i : Nat) : Bool := i == 6 || i == 7 || i == 9 || i == 16 || i == 17 || i == 22

/-- The program opens the file with the access mode and the flags that it has in the simulator, but never creates or truncates it or refuses to follow the link in `/proc`; `O_NOCTTY` is kept from the first time, `O_CLOEXEC`
is that of the program. -/
theorem C100_flags (f : File) (hs : f.shadowFlags &&& ~~~O_CLOEXEC = 0) (i : Nat) (hi : i < 32) :
    (openFlags f).getLsbD i = if dangerous i then false else if i = 19 then f.shadowFlags.getLsbD 19
      else if i = 8 then (f.flagsAtOpen.getLsbD 8 || f.nativeFlags.getLsbD 8) else f.nativeFlags.getLsbD i := by
  have hb : ∀ (k : Fin 32), (O_CLOEXEC.getLsbD k.val = decide (k.val = 19))
      ∧ (O_CREAT ||| O_EXCL ||| O_TMPFILE ||| O_TRUNC).getLsbD k.val = (dangerous k.val && !decide (k.val = 17)) ∧ O_NOFOLLOW.getLsbD k.val = decide (k.val = 17)
      ∧ ((O_CLOEXEC ||| O_CREAT ||| O_DIRECTORY ||| O_EXCL ||| O_NOCTTY ||| O_NOFOLLOW ||| O_TMPFILE ||| O_TRUNC) &&& ~~~O_CLOEXEC).getLsbD k.val = (dangerous k.val || decide (k.val = 8)) := by decide +kernel
  obtain ⟨b1, b2, b3, b4⟩ := hb ⟨i, hi⟩
  simp only at b1 b2 b3 b4
  have hsi : i ≠ 19 → f.shadowFlags.getLsbD i = false := by
    intro h
    have := congrArg (fun x => BitVec.getLsbD x i) hs
    simp only [BitVec.getLsbD_and, BitVec.getLsbD_not, b1] at this
    simpa [hi, h] using this
  have : (openFlags f).getLsbD i = ((f.flagsAtOpen.getLsbD i && (dangerous i || decide (i = 8)) || f.nativeFlags.getLsbD i && !decide (i = 19) || f.shadowFlags.getLsbD i) && !(dangerous i && !decide (i = 17)) && !decide (i = 17)) := by
    unfold openFlags SHADOW_FLAG_MASK
    simp only
    rw [BitVec.getLsbD_and, BitVec.getLsbD_and, BitVec.getLsbD_or, BitVec.getLsbD_or, BitVec.getLsbD_and, b4, BitVec.getLsbD_and, BitVec.getLsbD_not, b1, BitVec.getLsbD_not, b2, BitVec.getLsbD_not, b3]
    simp only [hi, decide_true, Bool.true_and]
  rw [this]
  by_cases h19 : i = 19
  · subst h19; simp [dangerous]
  · rw [hsi h19]
    by_cases h17 : i = 17
    · subst h17; simp [dangerous]
    · by_cases h8 : i = 8
      · subst h8; simp [dangerous]
      · cases hd : dangerous i <;> simp [h19, h17, h8]

/-! ### Finding and example -/

def exFile : File := ⟨false, true, .regular, 77, 0x80042#32, 0x8002#32, 0x80000#32, 0o644⟩
def exEnv : Env := ⟨7, 0x3f, true, 4096, true, true, some 5, fun _ => .ok 65536⟩
def exPlugin : Plugin := ⟨[(0, ⟨1, 0, 0⟩)], [], []⟩

/-- A regular file that is standard input cannot be mapped, though the same file with another number can. -/
theorem C100_stdin : (mmap exEnv (fun n => if n = 0 ∨ n = 3 then some (.legacy exFile) else none) exPlugin 0 4096 1 2 0 0).2 = .ebadf
    ∧ (mmap exEnv (fun n => if n = 0 ∨ n = 3 then some (.legacy exFile) else none) exPlugin 0 4096 1 2 3 0).2 = .addr 65536 := by decide +kernel

/-- The hypotheses are met. -/
theorem C100_example : Fresh exEnv exPlugin ∧ ArgsOk exEnv 4096 1 2 ∧ ¬ Anonymous 2 ∧ CanOpen exEnv exFile ∧ exFile.shadowFlags &&& ~~~O_CLOEXEC = 0
    ∧ (mmap exEnv (fun n => if n = 3 then some (.legacy exFile) else none) exPlugin 0 4096 1 2 3 0) = (⟨[(0, ⟨1, 0, 0⟩)], [], [⟨65536, 4096, 1, 2, some ⟨77, 0x88002#32, 0o644⟩, 0⟩]⟩, .addr 65536) := by
  refine ⟨?_, by unfold ArgsOk; decide, by unfold Anonymous; decide, by unfold CanOpen; decide, by decide, by decide +kernel⟩
  · intro n hn x hx
    simp [exEnv] at hn; simp [exPlugin] at hx; subst hn; subst hx; decide

end Shadow.MmapFile
