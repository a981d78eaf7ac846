import Verif.Rlimit.Props
/-!
# C88: examples, and limits that are not kept
-/
namespace Shadow.Rlimit

open Shadow.Base
open Shadow.IoVec (Mem load store)
open Shadow.SockAddr (Byte le)

/-- A kernel without privileges. -/
def kernel (old new : Lim) : Option Lim := if new.cur ≤ new.max ∧ new.max ≤ old.max then some new else none
theorem ex_kernel : Kernel kernel := fun old new h1 h2 => by simp [kernel, h1, h2]

def base : Nat → Lim := fun _ => ⟨8, 100⟩
theorem ex_base : ∀ r, Good (base r) := fun _ => by simp [Good, base]

/-- Two limits at 64 and 80, and room up to 128. -/
def mem : Mem Byte := fun a => if 64 ≤ a ∧ a < 128 then (if a = 64 then some 50 else if a = 72 then some 60 else if a = 80 then some 3 else if a = 88 then some 5 else some 0) else none

def view (s : R St) (p r : Nat) : Option (Lim × Option Lim) := match s with
  | .ok s => (s.procs p).map (fun q => (q.emu r, q.native.map (fun n => n r)))
  | .panic => none

/-- The soft limit is raised, then both are lowered; the native process keeps what the simulator needs. -/
theorem ex_set : view (run kernel (St.init base) [.spawn 1 mem, .set 1 3 64]) 1 3 = some (⟨50, 60⟩, some ⟨50, 60⟩)
    ∧ view (run kernel (St.init base) [.spawn 1 mem, .set 1 3 80]) 1 3 = some (⟨3, 5⟩, some ⟨8, 8⟩)
    ∧ view (run kernel (St.init base) [.spawn 1 mem, .set 1 3 80, .set 1 3 64]) 1 3 = some (⟨3, 5⟩, some ⟨8, 8⟩)
    ∧ view (run kernel (St.init base) [.spawn 1 mem, .fork 1 2, .prlimit 2 1 3 80 96, .exit 1, .prlimit 2 1 4 64 0]) 1 4 = some (⟨50, 60⟩, none) := by decide +kernel

theorem ex_limAt : LimAt mem 64 ⟨50, 60⟩ := readLim_iff.1 (by decide +kernel)

/-- What is read back. -/
theorem ex_get : (match run kernel (St.init base) [.spawn 1 mem, .set 1 3 64, .get 1 3 96] with
    | .ok s => (memOf s 1).bind (fun m => readLim m 96)
    | .panic => none) = some ⟨50, 60⟩ := by decide +kernel

/-- **A new program gets less than it is told.** A program raises its soft limit (as `ulimit -s` in a shell does) and replaces itself by
    another: the new native process has the limits of the simulator, while the new program reads the raised limit. -/
theorem C88_exec : view (run kernel (St.init base) [.spawn 1 mem, .set 1 3 64, .exec 1 mem]) 1 3 = some (⟨50, 60⟩, some ⟨8, 100⟩) := by decide +kernel

/-- **A limit that is lowered has no effect** on the native process, which keeps its soft limit; no other code looks at limits. -/
theorem C88_pretend {kset : Lim → Lim → Option Lim} (hk : Kernel kset) {b : Nat → Lim} {p : Pr} (hp : PrOk b p) {nat : Nat → Lim} (hn : p.native = some nat) (r : Nat) {new : Lim}
    (h1 : new.cur ≤ new.max) (h2 : new.max ≤ (p.emu r).max) (h3 : new.cur ≤ (nat r).cur) :
    ∃ q nat', p.setLim kset r new = .ok (q, none) ∧ q.emu r = new ∧ q.native = some nat' ∧ (nat' r).cur = (nat r).cur := by
  obtain ⟨q, e1, _, e3, _, e5, _⟩ := setLim_ok hk hp r h1 h2
  refine ⟨q, _, e1, by rw [e3]; simp [upd], e5 nat hn, ?_⟩
  simp only [upd, if_true, nativeLim]
  split <;> omega

end Shadow.Rlimit
