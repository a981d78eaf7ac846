import Verif.InsnEmu.Model
/-!
# C94: the time stamp counter runs with simulated time, and programs are not offered random instructions
-/
namespace Shadow.InsnEmu

open Shadow.Base

/-! ## Specification -/

/-- The bytes are in memory at an address. -/
def Holds (mem : Mem) (ip : BitVec 64) : List Nat → Prop
  | [] => True
  | b :: l => mem ip = some b ∧ Holds mem (ip + 1) l

/-- The counter as programs read it. -/
def value (r : Regs) : Nat := r.rdx.toNat * 2 ^ 32 + r.rax.toNat

/-- The clock tells a time, in nanoseconds. -/
def Tells (w : World) (t : Nat) : Prop := t < 2 ^ 64 ∧ w.clock = some (BitVec.ofNat 64 (t / 1000000000), BitVec.ofNat 64 (t % 1000000000))

/-- The bytes of the instructions, as the architecture defines them. -/
def opRdtsc : List Nat := [0x0f, 0x31]

def opRdtscp : List Nat := [0x0f, 0x01, 0xf9]

def opCpuid : List Nat := [0x0f, 0xa2]

/-- An instruction, of which none of the three is a longer form. -/
def Complete (bs : List Nat) : Prop := ∀ i ∈ [opRdtsc, opRdtscp, opCpuid], bs <+: i → bs = i

/-! ## Recognising -/

/-- **C94.** Looking for an instruction reads no byte behind the instruction that is there, and finds it exactly if it is there. -/
theorem C94_match (mem : Mem) (insn : List Nat) : ∀ (ip : BitVec 64) (bs : List Nat), Holds mem ip bs → (bs <+: insn → bs = insn) →
    ∃ b, ipMatches mem ip insn = .ok b ∧ (b = true ↔ insn <+: bs) := by
  induction insn with
  | nil => intro ip bs _ _; exact ⟨true, rfl, by simp⟩
  | cons x l ih =>
    intro ip bs h hc
    cases bs with
    | nil => simpa using hc List.nil_prefix
    | cons y m =>
      obtain ⟨h1, h2⟩ := h
      simp only [ipMatches, h1, R.unwrap_some, R.bind_ok]
      by_cases hxy : y = x
      · subst hxy
        obtain ⟨b, e, hb⟩ := ih (ip + 1) m h2 (by
          intro hp
          have := hc (by simpa [List.cons_prefix_cons] using hp)
          simpa using this)
        exact ⟨b, by rw [if_pos rfl]; exact e, by simp [List.cons_prefix_cons, hb]⟩
      · exact ⟨false, by simp [hxy], by simp [List.cons_prefix_cons, Ne.symm hxy]⟩

theorem matches_holds (mem : Mem) (insn : List Nat) (ip : BitVec 64) (h : Holds mem ip insn) : ipMatches mem ip insn = .ok true := by
  induction insn generalizing ip with
  | nil => rfl
  | cons x l ih => simp only [ipMatches, h.1, R.unwrap_some, R.bind_ok, if_true]; exact ih (ip + 1) h.2

/-! ## The counter -/

theorem setCycles_value (hz nanos : BitVec 64) (r : Regs) :
    value (setCycles hz nanos r) = hz.toNat * nanos.toNat / 1000000000 % 2 ^ 64 ∧ (setCycles hz nanos r).rax.toNat < 2 ^ 32 ∧ (setCycles hz nanos r).rdx.toNat < 2 ^ 32 := by
  have ha : (setCycles hz nanos r).rax.toNat = (cycles hz nanos).toNat % 2 ^ 32 := by
    simp only [setCycles, BitVec.toNat_and]
    exact Nat.and_two_pow_sub_one_eq_mod (cycles hz nanos).toNat 32
  have hd : (setCycles hz nanos r).rdx.toNat = (cycles hz nanos).toNat / 2 ^ 32 % 2 ^ 32 := by
    simp only [setCycles, BitVec.toNat_and, BitVec.toNat_ushiftRight, Nat.shiftRight_eq_div_pow]
    exact Nat.and_two_pow_sub_one_eq_mod _ 32
  have hc : (cycles hz nanos).toNat = hz.toNat * nanos.toNat / 1000000000 % 2 ^ 64 := by simp [cycles]
  have hlt : (cycles hz nanos).toNat < 2 ^ 64 := (cycles hz nanos).isLt
  rw [← hc]
  unfold value
  rw [ha, hd]
  refine ⟨?_, by omega, by omega⟩
  generalize (cycles hz nanos).toNat = n at hlt
  omega

theorem join_time (t k : Nat) (h : t < 2 ^ 64) : (BitVec.ofNat 64 (t % k) + BitVec.ofNat 64 (t / k) * BitVec.ofNat 64 k).toNat = t := by
  rw [← BitVec.ofNat_mul, ← BitVec.ofNat_add, Nat.mod_add_div', BitVec.toNat_ofNat, Nat.mod_eq_of_lt h]

theorem nanos_tells {w : World} {t : Nat} (h : Tells w t) : ∃ n, nanosNow w .application = .ok n ∧ n.toNat = t := by
  obtain ⟨ht, hc⟩ := h
  exact ⟨_, by rw [nanosNow, hc, R.unwrap_some, R.bind_ok], join_time t 1000000000 ht⟩

/-- **C94.** `rdtsc` gives the simulated time in cycles of the counter (modulo 2^64), in the lower halves of `rdx` and `rax`, and changes nothing else; the program goes on behind the instruction. -/
theorem C94_rdtsc (w : World) (r : Regs) (t : Nat) (hi : Holds w.mem r.rip opRdtsc) (ht : Tells w t) :
    ∃ r', handler w .application true r = .ok (.resume r') ∧ value r' = w.hz.toNat * t / 1000000000 % 2 ^ 64 ∧ r'.rax.toNat < 2 ^ 32 ∧ r'.rdx.toNat < 2 ^ 32 ∧
      r'.rip = r.rip + 2 ∧ r'.rbx = r.rbx ∧ r'.rcx = r.rcx ∧ r'.rest = r.rest := by
  obtain ⟨n, hn, rfl⟩ := nanos_tells ht
  refine ⟨emuRdtsc w.hz n r, ?_, ?_⟩
  · simp [handler, emulate, matches_holds w.mem RDTSC r.rip hi, hn]
  · obtain ⟨a, b, c⟩ := setCycles_value w.hz n r
    exact ⟨a, b, c, rfl, rfl, rfl, rfl⟩

theorem not_match (mem : Mem) (ip : BitVec 64) (x a b : Nat) (l m : List Nat) (h : Holds mem ip (x :: a :: l)) (hab : a ≠ b) : ipMatches mem ip (x :: b :: m) = .ok false := by
  simp only [ipMatches, h.1, h.2.1, R.unwrap_some, R.bind_ok, if_true, if_neg hab]

/-- **C94.** `rdtscp` gives the same, and always the same processor. -/
theorem C94_rdtscp (w : World) (r : Regs) (t : Nat) (hi : Holds w.mem r.rip opRdtscp) (ht : Tells w t) :
    ∃ r', handler w .application true r = .ok (.resume r') ∧ value r' = w.hz.toNat * t / 1000000000 % 2 ^ 64 ∧ r'.rax.toNat < 2 ^ 32 ∧ r'.rdx.toNat < 2 ^ 32 ∧
      r'.rip = r.rip + 3 ∧ r'.rbx = r.rbx ∧ r'.rcx = 0x806eb479#64 ∧ r'.rest = r.rest := by
  obtain ⟨n, hn, rfl⟩ := nanos_tells ht
  refine ⟨emuRdtscp w.hz n r, ?_, ?_⟩
  · have h1 : ipMatches w.mem r.rip RDTSC = .ok false := not_match _ _ _ _ _ _ _ hi (by decide)
    simp [handler, emulate, h1, matches_holds w.mem RDTSCP r.rip hi, hn]
  · obtain ⟨a, b, c⟩ := setCycles_value w.hz n r
    exact ⟨a, b, c, rfl, rfl, rfl, rfl⟩

/-- One of the two instructions that read the counter. -/
def Reads (mem : Mem) (ip : BitVec 64) : Prop := Holds mem ip opRdtsc ∨ Holds mem ip opRdtscp

/-- **C94.** Between two reads, by whatever instructions and wherever, the counter goes on by the simulated time between them at its rate, to less than one cycle, and never back, as long as it
has not run over. -/
theorem C94_rate (w w' : World) (r r' : Regs) (t t' : Nat) (hr : Reads w.mem r.rip) (hr' : Reads w'.mem r'.rip) (ht : Tells w t) (ht' : Tells w' t') (hz : w.hz = w'.hz) (hle : t ≤ t')
    (hb : w.hz.toNat * t' / 1000000000 < 2 ^ 64) :
    ∃ q q', handler w .application true r = .ok (.resume q) ∧ handler w' .application true r' = .ok (.resume q') ∧ value q ≤ value q' ∧
      1000000000 * (value q' - value q) < w.hz.toNat * (t' - t) + 1000000000 ∧ w.hz.toNat * (t' - t) < 1000000000 * (value q' - value q) + 1000000000 := by
  have one : ∀ (w : World) (r : Regs) (t : Nat), Reads w.mem r.rip → Tells w t → ∃ q, handler w .application true r = .ok (.resume q) ∧ value q = w.hz.toNat * t / 1000000000 % 2 ^ 64 := by
    intro w r t h ht
    rcases h with h | h
    · obtain ⟨q, a, b, _⟩ := C94_rdtsc w r t h ht; exact ⟨q, a, b⟩
    · obtain ⟨q, a, b, _⟩ := C94_rdtscp w r t h ht; exact ⟨q, a, b⟩
  obtain ⟨q, a, b⟩ := one w r t hr ht
  obtain ⟨q', a', b'⟩ := one w' r' t' hr' ht'
  refine ⟨q, q', a, a', ?_⟩
  rw [← hz] at b'
  have hm : w.hz.toNat * t ≤ w.hz.toNat * t' := Nat.mul_le_mul_left _ hle
  have hs : w.hz.toNat * (t' - t) = w.hz.toNat * t' - w.hz.toNat * t := Nat.mul_sub ..
  rw [b, b', hs]
  generalize w.hz.toNat * t = x at hm
  generalize w.hz.toNat * t' = y at hm hb
  rw [Nat.mod_eq_of_lt hb, Nat.mod_eq_of_lt (by omega)]
  omega

/-! ## cpuid -/

theorem hide_bits (leaf sub : BitVec 32) (res : Res) :
    (hide leaf sub res).eax = res.eax ∧ (hide leaf sub res).edx = res.edx ∧
    (∀ j, (hide leaf sub res).ecx.getLsbD j = (res.ecx.getLsbD j && !decide (leaf = 1#32 ∧ j = 30))) ∧
    (∀ j, (hide leaf sub res).ebx.getLsbD j = (res.ebx.getLsbD j && !decide (leaf = 7#32 ∧ sub = 0#32 ∧ j = 18))) := by
  have bit : ∀ (x : BitVec 32) (k j : Nat), k < 32 → (x &&& ~~~(1#32 <<< k)).getLsbD j = (x.getLsbD j && !decide (j = k)) := by
    intro x k j hk
    rw [BitVec.getLsbD_and, BitVec.getLsbD_not, BitVec.getLsbD_shiftLeft]
    by_cases hj : j < 32
    · by_cases e : j = k
      · subst e; simp [hj]
      · have : (1#32).getLsbD (j - k) = false ∨ j < k := by
          by_cases hl : j < k
          · exact .inr hl
          · left
            have : j - k ≠ 0 := by omega
            simp [BitVec.getLsbD_one, this]
        rcases this with h | h <;> simp [hj, e, h]
    · simp [hj, BitVec.getLsbD_of_ge x j (by omega)]
  unfold hide
  by_cases h1 : leaf = 1#32
  · rw [if_pos h1]
    refine ⟨rfl, rfl, ?_, ?_⟩
    · intro j
      simp only [bit _ 30 j (by decide)]
      simp [h1]
    · intro j
      simp [h1]
  · rw [if_neg h1]
    by_cases h7 : leaf = 7#32 ∧ sub = 0#32
    · rw [if_pos h7]
      refine ⟨rfl, rfl, ?_, ?_⟩
      · intro j
        simp [h1]
      · intro j
        simp only [bit _ 18 j (by decide)]
        simp [h7.1, h7.2]
    · rw [if_neg h7]
      refine ⟨rfl, rfl, ?_, ?_⟩
      · intro j
        simp [h1]
      · intro j
        have : ¬ (leaf = 7#32 ∧ sub = 0#32 ∧ j = 18) := fun h => h7 ⟨h.1, h.2.1⟩
        simp [this]

/-- **C94.** `cpuid` gives what the processor answers, bit by bit, except that it never offers `rdrand` (leaf 1, bit 30 of `ecx`) or `rdseed` (leaf 7, sub-leaf 0, bit 18 of `ebx`). The upper halves of the
registers are zero, and the leaf is taken from the lower ones only; the program goes on behind the instruction. -/
theorem C94_cpuid (w : World) (ctx : Ctx) (r : Regs) (hi : Holds w.mem r.rip opCpuid) :
    ∃ r', handler w ctx true r = .ok (.resume r') ∧ r'.rip = r.rip + 2 ∧ r'.rest = r.rest ∧
      (let leaf := r.rax.setWidth 32
       let sub := r.rcx.setWidth 32
       let n := w.native leaf sub
       ∀ j, r'.rax.getLsbD j = n.eax.getLsbD j ∧ r'.rdx.getLsbD j = n.edx.getLsbD j ∧
        r'.rcx.getLsbD j = (n.ecx.getLsbD j && !decide (leaf = 1#32 ∧ j = 30)) ∧ r'.rbx.getLsbD j = (n.ebx.getLsbD j && !decide (leaf = 7#32 ∧ sub = 0#32 ∧ j = 18))) := by
  have h1 : ipMatches w.mem r.rip RDTSC = .ok false := not_match _ _ _ _ _ _ _ hi (by decide)
  have h2 : ipMatches w.mem r.rip RDTSCP = .ok false := not_match _ _ _ _ _ _ _ hi (by decide)
  refine ⟨{ emuCpuid w.native r with rip := (emuCpuid w.native r).rip + 2 }, by simp [handler, emulate, h1, h2, matches_holds w.mem CPUID r.rip hi], rfl, rfl, ?_⟩
  intro leaf sub n j
  obtain ⟨a, d, c, b⟩ := hide_bits leaf sub n
  have wide : ∀ x : BitVec 32, (x.setWidth 64).getLsbD j = x.getLsbD j := by
    intro x
    rw [BitVec.getLsbD_setWidth]
    by_cases hj : j < 64
    · simp [hj]
    · simp [hj, BitVec.getLsbD_of_ge x j (by omega)]
  refine ⟨?_, ?_, ?_, ?_⟩
  · show ((hide leaf sub n).eax.setWidth 64).getLsbD j = _
    rw [wide, a]
  · show ((hide leaf sub n).edx.setWidth 64).getLsbD j = _
    rw [wide, d]
  · show ((hide leaf sub n).ecx.setWidth 64).getLsbD j = _
    rw [wide, c]
  · show ((hide leaf sub n).ebx.setWidth 64).getLsbD j = _
    rw [wide, b]

/-! ## Everything else -/

/-- **C94.** Every other fault is left to the general handler, with no access to memory behind the instruction; and if it is not of the kernel, to no memory at all. -/
theorem C94_other (w : World) (ctx : Ctx) (kernel : Bool) (r : Regs)
    (h : kernel = false ∨ ∃ bs, Holds w.mem r.rip bs ∧ Complete bs ∧ ∀ i ∈ [opRdtsc, opRdtscp, opCpuid], ¬ i <+: bs) : handler w ctx kernel r = .ok .error := by
  rcases h with rfl | ⟨bs, hb, hc, hn⟩
  · rfl
  · have no : ∀ i ∈ [RDTSC, RDTSCP, CPUID], ipMatches w.mem r.rip i = .ok false := by
      intro i hi
      obtain ⟨b, e, q⟩ := C94_match w.mem i r.rip bs hb (hc i hi)
      cases b with
      | false => exact e
      | true => exact absurd (q.1 rfl) (hn i hi)
    unfold handler emulate
    rw [no RDTSC (by simp), no RDTSCP (by simp), no CPUID (by simp)]
    cases kernel <;> rfl

/-- The simulator's own code must not read the counter. -/
theorem C94_own (w : World) (r : Regs) (h : Reads w.mem r.rip) : handler w .shadow true r = .panic := by
  rcases h with h | h
  · simp [handler, emulate, matches_holds w.mem RDTSC r.rip h, nanosNow]
  · have h1 : ipMatches w.mem r.rip RDTSC = .ok false := not_match _ _ _ _ _ _ _ h (by decide)
    simp [handler, emulate, h1, matches_holds w.mem RDTSCP r.rip h, nanosNow]

/-! ## Cases and findings -/

/-- Bytes at address 100. -/
def exMem (bs : List Nat) : Mem := fun a => bs[a.toNat - 100]?

/-- A processor whose highest basic leaf is 7, and which answers as for that one beyond it (as the comment in shim/src/lib.rs:515-518 has it). -/
def exNative (leaf _sub : BitVec 32) : Res :=
  if leaf = 1#32 then ⟨1#32, 2#32, 0xffffffff#32, 4#32⟩ else if leaf.toNat ≥ 7 then ⟨0#32, 0xffffffff#32, 0#32, 0#32⟩ else ⟨9#32, 9#32, 9#32, 9#32⟩

def exW (bs : List Nat) (sec nsec : Nat) : World := ⟨exMem bs, 3000000000#64, some (BitVec.ofNat 64 sec, BitVec.ofNat 64 nsec), exNative⟩

def exR (rax rcx : BitVec 64) : Regs := ⟨rax, 0, rcx, 0, 100#64, 5⟩

theorem ex_rdtscp : (match handler (exW opRdtscp 946684800 7) .application true (exR 0 0) with | .ok (.resume r) => value r | _ => 0) = 3 * 946684800 * 1000000000 + 21 := by decide +kernel

example : Tells (exW opRdtsc 946684800 7) 946684800000000007 := ⟨by decide, by decide⟩
example : Holds (exW opRdtscp 0 0).mem (exR 0 0).rip opRdtscp := ⟨by decide, by decide, by decide, trivial⟩

theorem ex_cpuid : handler (exW opCpuid 0 0) .application true (exR 0xffffffff00000001#64 0) = .ok (.resume ⟨1#64, 2#64, 0xbfffffff#64, 4#64, 102#64, 5⟩) := by decide +kernel

/-- One byte, `ret`, and nothing readable behind it. -/
example : Holds (exMem [0xc3]) 100#64 [0xc3] ∧ Complete [0xc3] ∧ handler (exW [0xc3] 0 0) .application true (exR 0 0) = .ok .error := by
  refine ⟨⟨by decide, trivial⟩, ?_, by decide +kernel⟩
  unfold Complete
  decide +kernel

/-- **C94, finding.** A leaf beyond the highest: a processor that answers as for its highest leaf, and has 7 as that one, offers `rdseed`. -/
theorem C94_high_leaf : ∃ r', handler (exW opCpuid 0 0) .application true (exR 8#64 0) = .ok (.resume r') ∧ r'.rbx.getLsbD 18 = true :=
  ⟨⟨0#64, 0xffffffff#64, 0#64, 0#64, 102#64, 5⟩, by decide +kernel, by decide +kernel⟩

/-- **C94, finding.** An instruction with a prefix (here REX.W, which means nothing to it) is not recognised. -/
theorem C94_prefix : handler (exW (0x48 :: opRdtsc) 946684800 7) .application true (exR 0 0) = .ok .error := by decide +kernel

end Shadow.InsnEmu
