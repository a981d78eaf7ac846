import Verif.SockAddr.Props
/-!
# Examples and findings of C78
-/
namespace Shadow.SockAddr

open Shadow.Base
open Shadow.IoVec (Mem)

/-- 64 bytes from 1000 on, with a length of `room` at 1040. -/
def mem (room : Nat) : Mem Byte := fun x =>
  if 1040 ≤ x ∧ x < 1044 then (le room 4)[x - 1040]? else if 1000 ≤ x ∧ x < 1064 then some 0xAA else none

theorem mem_u32 (room : Nat) (h : room < 4294967296) : U32 (mem room) 1040 room := by
  refine ⟨h, fun i hi => ?_⟩
  unfold mem
  rw [if_pos (by omega), show 1040 + i - 1040 = i by omega, le_get _ _ _ hi]

/-- 11.0.0.5:80. -/
def web : V4 := ⟨11 * 16777216 + 5, 80⟩

def webBytes : List Byte := [2, 0, 0, 80, 11, 0, 0, 5, 0, 0, 0, 0, 0, 0, 0, 0]

example : (Addr.bytes <$> fromInet web) = .ok webBytes := by decide +kernel

def webAddr : Addr := ⟨webBytes ++ List.replicate 112 0, 16⟩

theorem web_is : Is webAddr webBytes := by unfold Is; decide +kernel

def shown (m : Mem Byte) : List (Option Byte) := (List.range 20).map (fun i => m (1000 + i)) ++ (List.range 5).map (fun i => m (1040 + i))

/-- With room for six bytes, six are written, and the length is still 16. -/
example : ((fun r => (shown r.1, r.2)) <$> writeAddrLen (mem 6) (some webAddr) 1000 1040) =
    .ok ([2, 0, 0, 80, 11, 0].map some ++ List.replicate 14 (some 0xAA) ++ [16, 0, 0, 0, 0xAA].map some, .ok ()) := by decide +kernel

/-- The hypotheses of the round trip are met. -/
example : ∃ m', writeAddrLen (mem 40) (some webAddr) 1000 1040 = .ok (m', .ok ()) ∧ U32 m' 1040 16 ∧ readAddr m' 1000 16 = .ok (.ok (some webAddr)) :=
  C78_roundtrip web_is (by decide) (mem_u32 40 (by decide)) (by decide) (by unfold Mapped; decide +kernel) (by decide)

/-- Names of unix sockets. -/
example : (Addr.fromBytes [1, 0, 0, 65, 0]).map (fun a => (bindName (some a), lookupName a)) = some (.ok (.abstract [65, 0]), .ok (.abstract [65, 0])) := by decide +kernel
example : (Addr.fromBytes [1, 0, 65, 66, 0, 67]).map (fun a => (bindName (some a), a.asUnix.map Un.asPath)) = some (.ok (.err 95), some (.ok (some [65, 66]))) := by decide +kernel

/-- Finding: the call fails, because the address cannot be written, but the length is changed. -/
theorem C78_len_on_fault : ∃ m1, writeAddrLen (mem 16) (some webAddr) 2000 1040 = .ok (m1, .err 14) ∧ U32 (mem 16) 1040 16 ∧
    ∃ m2, writeAddrLen (mem 7) (some webAddr) 2000 1040 = .ok (m2, .err 14) ∧ U32 (mem 7) 1040 7 ∧ U32 m2 1040 16 := by
  have nm : ∀ r n, 0 < n → ¬ Mapped (mem r) 2000 n := fun r n hn h => h 0 hn rfl
  obtain ⟨m1, _, _, _, h1⟩ := (C78_write web_is (mem 16) 2000 1040).2 16 (mem_u32 16 (by decide))
  obtain ⟨m2, _, h2, _, h3⟩ := (C78_write web_is (mem 7) 2000 1040).2 7 (mem_u32 7 (by decide))
  exact ⟨m1, h1 (nm _ _ (by decide)), mem_u32 16 (by decide), m2, h3 (nm _ _ (by decide)), mem_u32 7 (by decide), h2⟩

/-- Finding: a negative length (here -1) is room for everything; the whole address is written where Linux refuses. -/
theorem C78_negative_room {a : Addr} {bs : List Byte} (h : Is a bs) {m : Mem Byte} {ptr lp : Nat} (hr : U32 m lp 4294967295) (hm : Mapped m ptr bs.length) :
    ∃ m1 m', Patched m m1 lp (le bs.length 4) ∧ writeAddrLen m (some a) ptr lp = .ok (m', .ok ()) ∧ Patched m1 m' ptr bs := by
  have hl := h.length.1
  obtain ⟨m1, h1, _, h2, _⟩ := (C78_write h m ptr lp).2 _ hr
  rw [Nat.min_eq_left (by omega), List.take_of_length_le (by omega)] at h2
  obtain ⟨m', h3, h4⟩ := h2 hm
  exact ⟨m1, m', h1, h3, h4⟩

/-- Finding: names of files without the nul at the end are no paths, though Linux takes them. -/
theorem C78_path_unterminated {a : Addr} {s : List Byte} {u : Un} (h : Is a (1#8 :: 0#8 :: s)) (hs : 0 ∉ s) (hu : a.asUnix = some u) (p : List Byte) :
    u.asPath ≠ .ok (some p) := by
  rw [Ne, C78_path.1 a _ u p h hu]
  rintro ⟨_, _, rest, e⟩
  simp only [List.cons.injEq, true_and] at e
  exact hs (by rw [e]; simp)

end Shadow.SockAddr
