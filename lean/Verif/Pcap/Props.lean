import Verif.Pcap.Write

/-!
# Capture files hold the packets of the interface

The specification is a reader of capture files (the libpcap format, link type
"raw IP"), independent of the writer.
-/

namespace Shadow.Pcap

open Shadow.Base

/-! ## Specification: reading capture files -/

/-- A 32 bit number in the byte order of the file. -/
def le4 (a b c d : UInt8) : Nat :=
  a.toNat + 256 * (b.toNat + 256 * (c.toNat + 256 * d.toNat))

/-- A record of a capture file: the time, the length of the packet, and the
bytes that were kept of it. -/
structure Rec where
  sec : Nat
  usec : Nat
  origLen : Nat
  data : List UInt8
  deriving DecidableEq, Repr

/-- The records of a capture file. The fuel bounds their number. -/
def readRecs : Nat → List UInt8 → Option (List Rec)
  | _, [] => some []
  | fuel + 1, s1 :: s2 :: s3 :: s4 :: u1 :: u2 :: u3 :: u4 :: c1 :: c2 :: c3 :: c4 ::
      o1 :: o2 :: o3 :: o4 :: rest =>
    let cap := le4 c1 c2 c3 c4
    if cap ≤ rest.length then
      (readRecs fuel (rest.drop cap)).map
        (⟨le4 s1 s2 s3 s4, le4 u1 u2 u3 u4, le4 o1 o2 o3 o4, rest.take cap⟩ :: ·)
    else none
  | _, _ => none

/-- A capture file with microsecond times, version 2.4 and link type 101: the
capture length of the header, and the records. -/
def readPcap : List UInt8 → Option (Nat × List Rec)
  | 0xD4 :: 0xC3 :: 0xB2 :: 0xA1 :: 2 :: 0 :: 4 :: 0 :: 0 :: 0 :: 0 :: 0 :: 0 :: 0 :: 0 :: 0 ::
      c1 :: c2 :: c3 :: c4 :: 101 :: 0 :: 0 :: 0 :: rest =>
    (readRecs rest.length rest).map (le4 c1 c2 c3 c4, ·)
  | _ => none

/-- `r` is a record of the packet `p` seen at `now` (nanoseconds), with the
first `n` bytes of the packet: the time (seconds, at most 2^32 - 1, and
microseconds), the length of the packet, and the start of bytes in which a
reader finds the fields of `p`. -/
def Shows (n : Nat) (e : Nat × Packet) (r : Rec) : Prop :=
  r.sec = min (e.1 / 1000000000) 4294967295 ∧ r.usec = e.1 / 1000 % 1000000 ∧
  r.origLen = sizeOf e.2 ∧
  ∃ whole, readIp whole = some (viewOf e.2) ∧ whole.length = sizeOf e.2 ∧
    r.data = whole.take n

/-- The two lists have the same length and related elements at each place. -/
inductive All2 {α β : Type} (q : α → β → Prop) : List α → List β → Prop where
  | nil : All2 q [] []
  | cons {a b as bs} : q a b → All2 q as bs → All2 q (a :: as) (b :: bs)

/-- A packet for which captures are defined: at most 65535 bytes. -/
def Fits (e : Nat × Packet) : Prop := sizeOf e.2 ≤ 65535

instance (e : Nat × Packet) : Decidable (Fits e) := by unfold Fits; exact inferInstance

/-! ## Numbers -/

theorem le4_ne32 (x : UInt32) :
    le4 (UInt8.ofNat x.toNat) (UInt8.ofNat (x.toNat / 256))
      (UInt8.ofNat (x.toNat / 65536)) (UInt8.ofNat (x.toNat / 16777216)) = x.toNat := by
  have := x.toNat_lt
  simp only [le4, UInt8.toNat_ofNat']
  omega

theorem ne32_length (x : UInt32) : (ne32 x).length = 4 := rfl

theorem u32_ok {n : Nat} (h : n < 4294967296) : u32Unwrap n = .ok (UInt32.ofNat n) := if_pos h

theorem toNat_ofNat32 {n : Nat} (h : n < 4294967296) : (UInt32.ofNat n).toNat = n := by
  rw [UInt32.toNat_ofNat']; exact Nat.mod_eq_of_lt h

/-! ## One record -/

/-- The bytes of a record. -/
def recBytes (sec usec n len : UInt32) (d : List UInt8) : List UInt8 :=
  ne32 sec ++ ne32 usec ++ ne32 n ++ ne32 len ++ d

/-- Reading a record that is followed by more. -/
theorem readRecs_cons (fuel : Nat) (sec usec n len : UInt32) (d rest : List UInt8)
    (hn : n.toNat = d.length) :
    readRecs (fuel + 1) (recBytes sec usec n len d ++ rest) =
      (readRecs fuel rest).map (⟨sec.toNat, usec.toNat, len.toNat, d⟩ :: ·) := by
  simp only [recBytes, ne32, List.cons_append, List.nil_append, readRecs, le4_ne32]
  rw [hn, if_pos (by simp), List.take_left' rfl, List.drop_left' rfl]

/-- A file whose position is its end. -/
def AtEnd (f : File) : Prop := f.pos = f.bytes.length

theorem Wrote.atEnd {f f' : File} {d : List UInt8} (h : Wrote f f' d) (he : AtEnd f) :
    f'.bytes = f.bytes ++ d ∧ AtEnd f' := by
  unfold AtEnd at he
  obtain ⟨h1, h2⟩ := h (by omega)
  have : overwrite f.bytes f.pos d = f.bytes ++ d := by
    have := overwrite_append f.bytes [] d
    rw [List.append_nil] at this
    rw [he, this]; simp
  rw [this] at h1
  exact ⟨h1, by rw [AtEnd, h2, h1, he, List.length_append]⟩

theorem Kind.tail {a : Ans} {env : List Ans} (h : Kind (a :: env)) : Kind env :=
  fun b hb => h b (by simp [hb])

/-- A position query leaves the file alone. -/
theorem streamPosition_cases (f : File) :
    (∃ env, f.streamPosition = (.ok f.pos, { f with env := env }) ∧ (Kind f.env → Kind env)) ∨
    (∃ e env, f.streamPosition = (.error e, { f with env := env }) ∧ ¬ Kind f.env) := by
  obtain ⟨bytes, pos, env⟩ := f
  cases env with
  | nil => exact .inl ⟨[], rfl, id⟩
  | cons a env =>
    cases a with
    | err e =>
      refine .inr ⟨e, env, rfl, fun h => ?_⟩
      obtain ⟨k, hk⟩ := h (.err e) (by simp)
      cases hk
    | acc k => exact .inl ⟨env, rfl, Kind.tail⟩

theorem seek_cases (f : File) (p : Nat) :
    (∃ env, f.seek p = (.ok (), { f with pos := p, env := env }) ∧ (Kind f.env → Kind env)) ∨
    (∃ e env, f.seek p = (.error e, { f with env := env }) ∧ ¬ Kind f.env) := by
  obtain ⟨bytes, pos, env⟩ := f
  cases env with
  | nil => exact .inl ⟨[], rfl, id⟩
  | cons a env =>
    cases a with
    | err e =>
      refine .inr ⟨e, env, rfl, fun h => ?_⟩
      obtain ⟨k, hk⟩ := h (.err e) (by simp)
      cases hk
    | acc k => exact .inl ⟨env, rfl, Kind.tail⟩

/-- `write_all` calls on a file at its end: a prefix is appended; all of it when
the calls succeed; they succeed when the file system never refuses. -/
theorem fileChunks {f : File} (he : AtEnd f) (cs : List (List UInt8)) :
    ∃ n f', (writeChunks File.write f cs).2 = f' ∧ f'.bytes = f.bytes ++ cs.flatten.take n ∧
      AtEnd f' ∧
      (((writeChunks File.write f cs).1 = .ok () ∧ cs.flatten.take n = cs.flatten) ∨
        (∃ e, (writeChunks File.write f cs).1 = .error e) ∧ ¬ Kind f.env) ∧
      (Kind f.env → Kind f'.env) := by
  obtain ⟨n, hn, hq, hr⟩ := fileWriter.chunks f cs
  obtain ⟨h1, h2⟩ := hq.atEnd he
  refine ⟨n, _, rfl, h1, h2, ?_, ?_⟩
  · rcases hr with ⟨hr, hl⟩ | ⟨e, hr⟩
    · exact .inl ⟨hr, by rw [hl, List.take_length]⟩
    · refine .inr ⟨⟨e, hr⟩, fun hk => ?_⟩
      obtain ⟨r, s', h3, -, h4⟩ := fileWorks.chunks f cs hk
      rw [h3] at hr
      rcases h4 with rfl | ⟨-, h4⟩
      · cases hr
      · exact h4
  · intro hk
    obtain ⟨r, s', h3, h4, -⟩ := fileWorks.chunks f cs hk
    rw [h3]; exact h4

/-- Going back to fill in the length `w` of the record that starts at the end of
`a`: nothing before the length changes; on success it is filled in and the file
is at its end again. -/
theorem patchLen_spec {f : File} {a b : List UInt8} {posAfter : Nat} (w : UInt32)
    (hb : f.bytes = a ++ (ne32 0 ++ b)) (hp : posAfter = f.bytes.length) :
    ∃ r f', patchLen f a.length posAfter w = (r, f') ∧
      (∃ t, f'.bytes = a ++ t) ∧
      ((r = .ok () ∧ f'.bytes = a ++ (ne32 w ++ b) ∧ AtEnd f') ∨
        ((∃ e, r = .error e) ∧ ¬ Kind f.env)) ∧
      (Kind f.env → Kind f'.env) := by
  unfold patchLen
  rcases seek_cases f a.length with ⟨env, h1, hk1⟩ | ⟨e, env, h1, hk1⟩
  · rw [h1]
    dsimp only
    have hw := fileWriter.loop (ne32 w).length { f with pos := a.length, env := env } (ne32 w)
      (Nat.le_refl _)
    have hg := fun hk => fileWorks.loop (ne32 w).length { f with pos := a.length, env := env }
      (ne32 w) hk
    unfold writeAll
    generalize writeLoop File.write (ne32 w).length { f with pos := a.length, env := env } (ne32 w)
      = q at hw hg
    obtain ⟨r, f2⟩ := q
    obtain ⟨n, hn, hq, hr⟩ := hw
    obtain ⟨h2, h3⟩ := hq (by simp [hb])
    dsimp only at h2 h3
    rw [hb, overwrite_append] at h2
    rcases hr with ⟨hr, hl⟩ | ⟨e, hr⟩
    · dsimp only at hr
      subst hr
      dsimp only
      rw [hl, List.take_length] at h2
      have h2' : f2.bytes = a ++ (ne32 w ++ b) := by
        rw [h2, List.append_assoc, ne32_length, List.drop_left' (ne32_length 0)]
      have hk2 : Kind f.env → Kind f2.env := by
        intro hk
        obtain ⟨r', s', h4, h5, -⟩ := hg (hk1 hk)
        cases h4
        exact h5
      rcases seek_cases f2 posAfter with ⟨env', h6, hk6⟩ | ⟨e, env', h6, hk6⟩
      · rw [h6]
        dsimp only
        refine ⟨_, _, rfl, ⟨_, h2'⟩, .inl ⟨rfl, h2', ?_⟩, fun hk => hk6 (hk2 hk)⟩
        simp only [AtEnd, h2', hp, hb, List.length_append, ne32_length]
      · rw [h6]
        dsimp only
        exact ⟨_, _, rfl, ⟨_, h2'⟩, .inr ⟨⟨e, rfl⟩, fun hk => hk6 (hk2 hk)⟩,
          fun hk => (hk6 (hk2 hk)).elim⟩
    · dsimp only at hr
      subst hr
      dsimp only
      have hnk : ¬ Kind f.env := by
        intro hk
        obtain ⟨r', s', h4, -, h5⟩ := hg (hk1 hk)
        cases h4
        rcases h5 with h5 | ⟨-, h5⟩
        · cases h5
        · exact h5
      exact ⟨_, _, rfl, ⟨_, by rw [h2, List.append_assoc]⟩, .inr ⟨⟨e, rfl⟩, hnk⟩,
        fun hk => (hnk hk).elim⟩
  · rw [h1]
    dsimp only
    exact ⟨_, _, rfl, ⟨_, hb⟩, .inr ⟨⟨e, rfl⟩, hk1⟩, fun hk => (hk1 hk).elim⟩

/-- The data of a record and its length. -/
theorem writeData_spec {f : File} {a b : List UInt8} (cap : UInt32) (cs : List (List UInt8))
    (hb : f.bytes = a ++ (ne32 0 ++ b)) (he : AtEnd f) :
    ∃ r f', writeData f cap a.length f.pos cs = .ok (r, f') ∧
      (∃ t, f'.bytes = a ++ t) ∧
      ((∃ n, r = .ok () ∧ n ≤ cs.flatten.length ∧ n ≤ cap.toNat ∧
          (Kind f.env → n = min cs.flatten.length cap.toNat) ∧
          f'.bytes = a ++ (ne32 (UInt32.ofNat n) ++ (b ++ cs.flatten.take n)) ∧ AtEnd f') ∨
        ((∃ e, r = .error e) ∧ ¬ Kind f.env)) ∧
      (Kind f.env → Kind f'.env) := by
  unfold writeData
  have hw := giveWriter.chunks ⟨f, cap.toNat⟩ cs
  have hg := fun hk => giveWorks.chunks ⟨f, cap.toNat⟩ cs hk
  generalize writeChunks Give.write ⟨f, cap.toNat⟩ cs = q at hw hg
  obtain ⟨r, g⟩ := q
  obtain ⟨n, hn, ⟨hq, hlim⟩, hr⟩ := hw
  dsimp only at hq hlim hr hg ⊢
  obtain ⟨h2, h3⟩ := hq.atEnd he
  rw [List.length_take, Nat.min_eq_left hn] at hlim
  have h2' : g.inner.bytes = a ++ (ne32 0 ++ (b ++ cs.flatten.take n)) := by
    rw [h2, hb]; simp
  have hmin : Kind f.env → Kind g.inner.env ∧ (r = .ok () ∨ r = .error .writeZero) ∧
      n = min cs.flatten.length cap.toNat := by
    intro hk
    obtain ⟨r', s', h4, h5, h6⟩ := hg hk
    cases h4
    rcases h6 with h6 | ⟨h6, h7⟩
    · subst h6
      rcases hr with ⟨-, hl⟩ | ⟨e, hr⟩
      · exact ⟨h5, .inl rfl, by omega⟩
      · cases hr
    · exact ⟨h5, .inr h6, by omega⟩
  by_cases hc : r = .ok () ∨ r = .error .writeZero
  · rw [if_pos hc]
    have hpos : g.inner.pos = f.pos + n := by
      have h4 : g.inner.pos = g.inner.bytes.length := h3
      have h5 : f.pos = f.bytes.length := he
      rw [h4, h2, List.length_append, List.length_take, Nat.min_eq_left hn, h5]
    rcases streamPosition_cases g.inner with ⟨env, h6, hk6⟩ | ⟨e, env, h6, hk6⟩
    · rw [h6]
      dsimp only
      have hcap : n ≤ cap.toNat := by omega
      have hn32 : n < 4294967296 := by have := cap.toNat_lt; omega
      rw [show decide (f.pos ≤ g.inner.pos) = true by simp [hpos], R.assert_true, R.bind_ok,
        show g.inner.pos - f.pos = n by omega, if_neg (by omega), u32_ok hn32, R.bind_ok]
      obtain ⟨r', f', h7, h8, h9, h10⟩ := patchLen_spec (f := { g.inner with env := env })
        (a := a) (b := b ++ cs.flatten.take n) (posAfter := g.inner.pos) (UInt32.ofNat n) h2' h3
      rw [h7]
      refine ⟨r', f', rfl, h8, ?_, fun hk => h10 (hk6 (hmin hk).1)⟩
      rcases h9 with ⟨h11, h12, h13⟩ | ⟨h11, h12⟩
      · exact .inl ⟨n, h11, hn, hcap, fun hk => (hmin hk).2.2, h12, h13⟩
      · exact .inr ⟨h11, fun hk => h12 (hk6 (hmin hk).1)⟩
    · rw [h6]
      dsimp only
      exact ⟨_, _, rfl, ⟨_, h2'⟩, .inr ⟨⟨e, rfl⟩, fun hk => hk6 (hmin hk).1⟩,
        fun hk => (hk6 (hmin hk).1).elim⟩
  · rw [if_neg hc]
    have hnk : ¬ Kind f.env := fun hk => hc (hmin hk).2.1
    refine ⟨_, _, rfl, ⟨_, h2'⟩, .inr ⟨?_, hnk⟩, fun hk => (hnk hk).elim⟩
    rcases hr with ⟨hr, -⟩ | hr
    · exact (hc (.inl hr)).elim
    · exact hr

/-- One packet: whatever the file system answers, the bytes already in the file
stay. On success one record was appended, with a prefix of the packet that is
complete up to the capture length if the file system never refuses. -/
theorem writePacketFmt_spec {f : File} (he : AtEnd f) (cap sec usec len : UInt32) {p : Packet}
    {cs : List (List UInt8)} (hp : p.chunks = .ok cs) :
    ∃ r f', writePacketFmt f cap sec usec len p = .ok (r, f') ∧
      (∃ t, f'.bytes = f.bytes ++ t) ∧
      ((∃ n, r = .ok () ∧ n ≤ cs.flatten.length ∧ n ≤ cap.toNat ∧
          (Kind f.env → n = min cs.flatten.length cap.toNat) ∧
          f'.bytes = f.bytes ++ recBytes sec usec (UInt32.ofNat n) len (cs.flatten.take n) ∧
          AtEnd f') ∨
        ((∃ e, r = .error e) ∧ ¬ Kind f.env)) ∧
      (Kind f.env → Kind f'.env) := by
  unfold writePacketFmt
  rw [hp, R.bind_ok]
  obtain ⟨n1, f1, h1, h2, h3, h4, h5⟩ := fileChunks he [ne32 sec, ne32 usec]
  generalize writeChunks File.write f [ne32 sec, ne32 usec] = q1 at h1 h4
  obtain ⟨r1, g1⟩ := q1
  dsimp only at h1 h4
  subst h1
  rcases h4 with ⟨rfl, h6⟩ | ⟨⟨e, rfl⟩, hnk⟩
  · dsimp only
    rw [h6] at h2
    rcases streamPosition_cases g1 with ⟨env1, h7, hk7⟩ | ⟨e, env1, h7, hk7⟩
    · rw [h7]
      dsimp only
      have he1 : AtEnd { g1 with env := env1 } := h3
      obtain ⟨n2, f2, h8, h9, h10, h11, h12⟩ := fileChunks he1 [ne32 0, ne32 len]
      generalize writeChunks File.write { g1 with env := env1 } [ne32 0, ne32 len] = q2 at h8 h11
      obtain ⟨r2, g2⟩ := q2
      dsimp only at h8 h9 h11
      subst h8
      rw [h2] at h9
      rcases h11 with ⟨rfl, h13⟩ | ⟨⟨e, rfl⟩, hnk⟩
      · dsimp only
        rw [h13] at h9
        rcases streamPosition_cases g2 with ⟨env2, h14, hk14⟩ | ⟨e, env2, h14, hk14⟩
        · rw [h14]
          dsimp only
          have hpos : g1.pos = (f.bytes ++ (ne32 sec ++ ne32 usec)).length := by
            have : g1.pos = g1.bytes.length := h3
            rw [this, h2]
            simp
          have hb : ({ g2 with env := env2 } : File).bytes =
              (f.bytes ++ (ne32 sec ++ ne32 usec)) ++ (ne32 0 ++ ne32 len) := by
            show g2.bytes = _
            rw [h9]
            simp
          obtain ⟨r, f', h15, ⟨t, h16⟩, h17, h18⟩ := writeData_spec cap cs hb h10
          rw [hpos]
          refine ⟨r, f', h15, ⟨_, by rw [h16, List.append_assoc]⟩, ?_,
            fun hk => h18 (hk14 (h12 (hk7 (h5 hk))))⟩
          rcases h17 with ⟨n, h19, h20, h21, h22, h23, h24⟩ | ⟨h19, h20⟩
          · refine .inl ⟨n, h19, h20, h21, fun hk => h22 (hk14 (h12 (hk7 (h5 hk)))), ?_, h24⟩
            rw [h23]
            simp [recBytes]
          · exact .inr ⟨h19, fun hk => h20 (hk14 (h12 (hk7 (h5 hk))))⟩
        · rw [h14]
          dsimp only
          exact ⟨_, _, rfl, ⟨_, by rw [h9, List.append_assoc]⟩,
            .inr ⟨⟨e, rfl⟩, fun hk => hk14 (h12 (hk7 (h5 hk)))⟩,
            fun hk => (hk14 (h12 (hk7 (h5 hk)))).elim⟩
      · dsimp only
        exact ⟨_, _, rfl, ⟨_, by rw [h9, List.append_assoc]⟩,
          .inr ⟨⟨e, rfl⟩, fun hk => hnk (hk7 (h5 hk))⟩, fun hk => (hnk (hk7 (h5 hk))).elim⟩
    · rw [h7]
      dsimp only
      exact ⟨_, _, rfl, ⟨_, h2⟩, .inr ⟨⟨e, rfl⟩, fun hk => hk7 (h5 hk)⟩,
        fun hk => (hk7 (h5 hk)).elim⟩
  · dsimp only
    exact ⟨_, _, rfl, ⟨_, h2⟩, .inr ⟨⟨e, rfl⟩, hnk⟩, fun hk => (hnk hk).elim⟩

/-! ## Capture files -/

/-- The values of the time stamp. -/
theorem stamp (now : Nat) :
    (u32OrMax (now / 1000000000)).toNat = min (now / 1000000000) 4294967295 ∧
    (UInt32.ofNat (now % 1000000000 / 1000)).toNat = now / 1000 % 1000000 := by
  constructor
  · by_cases h : now / 1000000000 < 4294967296
    · rw [u32OrMax, if_pos h, toNat_ofNat32 h]; omega
    · rw [u32OrMax, if_neg h, Nat.min_eq_right (by omega)]; rfl
  · rw [toNat_ofNat32 (by omega)]; omega

/-- **C63.** Before the year 2106 the time of a record is the time of the packet
to the microsecond. -/
theorem C63_time (n : Nat) (e : Nat × Packet) (r : Rec) (h : Shows n e r)
    (ht : e.1 < 4294967296 * 1000000000) :
    r.sec * 1000000 + r.usec = e.1 / 1000 ∧ r.usec < 1000000 := by
  obtain ⟨h1, h2, -⟩ := h
  omega

theorem readRecs_nil (fuel : Nat) : readRecs fuel [] = some [] := by
  cases fuel <;> rfl

theorem captureAll_dead {i : Iface} (h : i.live = false) (trace : List (Nat × Packet)) :
    i.captureAll trace = .ok i := by
  induction trace with
  | nil => rfl
  | cons e rest ih =>
    simp only [Iface.captureAll, Iface.capture, h, Bool.false_eq_true, if_false, R.bind_ok]
    exact ih

theorem captureAll_spec (K : Prop) (i : Iface) (hl : i.live = true) (he : AtEnd i.file)
    (hK : K → Kind i.file.env) (trace : List (Nat × Packet)) (ht : ∀ e ∈ trace, Fits e) :
    ∃ i', i.captureAll trace = .ok i' ∧
      ∃ k recs ext tail, k ≤ trace.length ∧ i'.file.bytes = i.file.bytes ++ (ext ++ tail) ∧
        (∀ fuel, recs.length ≤ fuel → readRecs fuel ext = some recs) ∧
        recs.length ≤ ext.length ∧
        All2 (fun e r => ∃ n, n ≤ i.captureLen.toNat ∧ Shows n e r ∧
          (K → Shows i.captureLen.toNat e r)) (trace.take k) recs ∧
        (i'.live = true → k = trace.length ∧ tail = []) ∧
        (K → i'.live = true) := by
  induction trace generalizing i with
  | nil =>
    exact ⟨i, rfl, 0, [], [], [], Nat.le_refl _, by simp, fun fuel _ => readRecs_nil fuel,
      Nat.le_refl _, .nil, fun _ => ⟨rfl, rfl⟩, fun _ => hl⟩
  | cons e rest ih =>
    obtain ⟨now, p⟩ := e
    have hs : sizeOf p ≤ 65535 := ht (now, p) (by simp)
    obtain ⟨cs, h1, h2, h3⟩ := C63_packet_bytes p hs
    obtain ⟨r, f', h4, ⟨t, h5⟩, h6, h7⟩ := writePacketFmt_spec he i.captureLen
      (u32OrMax (now / 1000000000)) (UInt32.ofNat (now % 1000000000 / 1000)) (u32OrMax p.len) h1
    have hc : i.capture now p = .ok { i with file := f', live := decide (r = .ok ()) } := by
      simp only [Iface.capture, hl, if_true, h4, R.bind_ok]
    rw [Iface.captureAll, hc, R.bind_ok]
    rcases h6 with ⟨n, rfl, h8, h9, h10, h11, h12⟩ | ⟨⟨e, rfl⟩, hnk⟩
    · obtain ⟨i', h13, k, recs, ext, tail, h14, h15, h16, h17, h18, h19, h20⟩ :=
        ih { i with file := f', live := decide ((Res.ok () : Res Unit) = .ok ()) } (by simp) h12
          (fun hk => h7 (hK hk)) (fun e he => ht e (by simp [he]))
      have hn32 : n < 4294967296 := by have := i.captureLen.toNat_lt; omega
      have hlen : (u32OrMax p.len).toNat = sizeOf p := by
        rw [len_eq, u32OrMax, if_pos (by omega), toNat_ofNat32 (by omega)]
      obtain ⟨hst1, hst2⟩ := stamp now
      refine ⟨i', h13, k + 1,
        ⟨(u32OrMax (now / 1000000000)).toNat, (UInt32.ofNat (now % 1000000000 / 1000)).toNat,
          (u32OrMax p.len).toNat, cs.flatten.take n⟩ :: recs,
        recBytes (u32OrMax (now / 1000000000)) (UInt32.ofNat (now % 1000000000 / 1000))
          (UInt32.ofNat n) (u32OrMax p.len) (cs.flatten.take n) ++ ext, tail,
        Nat.succ_le_succ h14, ?_, ?_, ?_, ?_, ?_, h20⟩
      · dsimp only at h15
        rw [h15, h11, List.append_assoc, List.append_assoc]
      · intro fuel hf
        cases fuel with
        | zero => simp at hf
        | succ fuel =>
          rw [readRecs_cons fuel _ _ _ _ _ _
            (by rw [toNat_ofNat32 hn32, List.length_take, Nat.min_eq_left h8]),
            h16 fuel (by simpa using hf)]
          rfl
      · simp only [List.length_cons, List.length_append, recBytes, ne32_length]; omega
      · rw [List.take_succ_cons]
        refine .cons ⟨n, h9, ⟨hst1, hst2, hlen, cs.flatten, h3, h2, rfl⟩, fun hk =>
          ⟨hst1, hst2, hlen, cs.flatten, h3, h2, ?_⟩⟩ h18
        rw [h10 (hK hk)]
        show cs.flatten.take _ = cs.flatten.take _
        rcases Nat.le_total cs.flatten.length i.captureLen.toNat with h | h
        · rw [Nat.min_eq_left h, List.take_length, List.take_of_length_le h]
        · rw [Nat.min_eq_right h]
      · intro hl'
        obtain ⟨h21, h22⟩ := h19 hl'
        exact ⟨by simp [h21], h22⟩
    · refine ⟨_, captureAll_dead (by simp) rest, 0, [], [], t, Nat.zero_le _, ?_,
        fun fuel _ => readRecs_nil fuel, Nat.le_refl _, .nil, ?_, fun hk => (hnk (hK hk)).elim⟩
      · dsimp only
        rw [h5, List.nil_append]
      · intro h; simp at h

/-- The header of a capture file, as bytes. -/
theorem readPcap_header (cap : UInt32) (rest : List UInt8) :
    readPcap ((headerChunks cap).flatten ++ rest) =
      (readRecs rest.length rest).map (cap.toNat, ·) := by
  have h1 : ne32 0xA1B2C3D4 = [0xD4, 0xC3, 0xB2, 0xA1] := by decide
  have h2 : ne16 2 = [2, 0] := by decide
  have h3 : ne16 4 = [4, 0] := by decide
  have h4 : ne32 0 = [0, 0, 0, 0] := by decide
  have h5 : ne32 101 = [101, 0, 0, 0] := by decide
  have h6 := le4_ne32 cap
  simp only [headerChunks, h1, h2, h3, h4, h5, List.flatten_cons, List.flatten_nil,
    List.append_nil, List.cons_append, List.nil_append]
  simp only [ne32, List.cons_append, List.nil_append, readPcap, h6]

theorem All2.imp {α β : Type} {q q' : α → β → Prop} (h : ∀ a b, q a b → q' a b) {as : List α}
    {bs : List β} (ha : All2 q as bs) : All2 q' as bs := by
  induction ha with
  | nil => exact .nil
  | cons h1 _ ih => exact .cons (h _ _ h1) ih

/-- Creating the file on a file system that never refuses. -/
theorem new_spec (cap : UInt32) (env : List Ans) :
    ((Iface.new cap env).live = true →
      (Iface.new cap env).file.bytes = (headerChunks cap).flatten ∧
      AtEnd (Iface.new cap env).file) ∧
    (Kind env → (Iface.new cap env).live = true ∧ Kind (Iface.new cap env).file.env) ∧
    (Iface.new cap env).captureLen = cap := by
  have he : AtEnd ⟨[], 0, env⟩ := rfl
  obtain ⟨n, f', h1, h2, h3, h4, h5⟩ := fileChunks he (headerChunks cap)
  unfold Iface.new Pcap.new
  generalize writeChunks File.write ⟨[], 0, env⟩ (headerChunks cap) = q at h1 h4
  obtain ⟨r, g⟩ := q
  dsimp only at h1 h4 h5
  subst h1
  rcases h4 with ⟨rfl, h6⟩ | ⟨⟨e, rfl⟩, hnk⟩
  · dsimp only
    rw [h6] at h2
    exact ⟨fun _ => ⟨by simpa using h2, h3⟩, fun hk => ⟨rfl, h5 hk⟩, rfl⟩
  · dsimp only
    exact ⟨fun h => by simp at h, fun hk => (hnk hk).elim, rfl⟩

/-- **C63.** On a file system that does not refuse writes, the capture file of an
interface reads back as exactly the packets it sent and received, in order: the
time of each to the microsecond, its length, and the first bytes of it, up to
the configured capture length, in which a reader of IPv4, TCP and UDP headers
finds the fields of the packet. Nothing panics. -/
theorem C63_capture_file (cap : UInt32) (env : List Ans) (hk : Kind env)
    (trace : List (Nat × Packet)) (ht : ∀ e ∈ trace, Fits e) :
    ∃ i recs, (Iface.new cap env).captureAll trace = .ok i ∧
      readPcap i.file.bytes = some (cap.toNat, recs) ∧
      All2 (Shows cap.toNat) trace recs := by
  obtain ⟨h1, h2, h3⟩ := new_spec cap env
  obtain ⟨hl, hk'⟩ := h2 hk
  obtain ⟨hb, he⟩ := h1 hl
  obtain ⟨i, h4, k, recs, ext, tail, -, h6, h7, h8, h9, h10, h11⟩ :=
    captureAll_spec True _ hl he (fun _ => hk') trace ht
  obtain ⟨rfl, rfl⟩ := h10 (h11 trivial)
  refine ⟨i, recs, h4, ?_, ?_⟩
  · rw [h6, hb, List.append_nil, readPcap_header, h7 _ h8]
    rfl
  · rw [List.take_length, h3] at h9
    exact h9.imp fun a b ⟨_, _, _, h⟩ => h trivial

/-- **C63.** Whatever the file system answers, nothing panics, and what was
written before an error stays readable: the file is a capture file of the first
packets, in order, followed by the remains of the record that failed. As long as
no call failed there are no such remains and no packet is missing. -/
theorem C63_capture_errors (cap : UInt32) (env : List Ans)
    (hl : (Iface.new cap env).live = true)
    (trace : List (Nat × Packet)) (ht : ∀ e ∈ trace, Fits e) :
    ∃ i k recs good tail, (Iface.new cap env).captureAll trace = .ok i ∧
      i.file.bytes = good ++ tail ∧ readPcap good = some (cap.toNat, recs) ∧
      k ≤ trace.length ∧
      All2 (fun e r => ∃ n, n ≤ cap.toNat ∧ Shows n e r) (trace.take k) recs ∧
      (i.live = true → k = trace.length ∧ tail = []) := by
  obtain ⟨h1, -, h3⟩ := new_spec cap env
  obtain ⟨hb, he⟩ := h1 hl
  obtain ⟨i, h4, k, recs, ext, tail, h5, h6, h7, h8, h9, h10, -⟩ :=
    captureAll_spec False _ hl he (fun h => h.elim) trace ht
  refine ⟨i, k, recs, (headerChunks cap).flatten ++ ext, tail, h4, ?_, ?_, h5, ?_, h10⟩
  · rw [h6, hb, List.append_assoc]
  · rw [readPcap_header, h7 _ h8]
    rfl
  · rw [h3] at h9
    exact h9.imp fun a b ⟨n, h, h', _⟩ => ⟨n, h, h'⟩

/-- **C63.** A packet of more than 65535 bytes makes the capture panic. -/
theorem C63_capture_panics (i : Iface) (hl : i.live = true) (now : Nat) (p : Packet)
    (h : 65535 < sizeOf p) : i.capture now p = .panic := by
  simp only [Iface.capture, hl, if_true, writePacketFmt, C63_packet_too_long p h, R.bind_panic]

/-- **C63.** `write_packet` and `write_packet_fmt` write the same record: from a
buffer that holds the bytes of the packet, `write_packet` appends the record
that a file system that never refuses gets from `write_packet_fmt`. -/
theorem C63_two_writers (f : File) (he : AtEnd f) (hk : Kind f.env) (cap sec usec : UInt32)
    (p : Packet) (cs : List (List UInt8)) (hp : p.chunks = .ok cs) (hs : sizeOf p ≤ 65535) :
    ∃ f1 f2, writePacketFmt f cap sec usec (u32OrMax p.len) p = .ok (.ok (), f1) ∧
      writePacket f cap sec usec cs.flatten = .ok (.ok (), f2) ∧ f1.bytes = f2.bytes := by
  obtain ⟨cs', hp', hlen, -⟩ := C63_packet_bytes p hs
  rw [hp] at hp'
  cases hp'
  obtain ⟨r, f', h4, -, h6, -⟩ := writePacketFmt_spec he cap sec usec (u32OrMax p.len) hp
  rcases h6 with ⟨n, rfl, h8, h9, h10, h11, h12⟩ | ⟨-, hnk⟩
  · have h32 : cs.flatten.length < 4294967296 := by omega
    have hl : u32OrMax p.len = UInt32.ofNat cs.flatten.length := by
      rw [len_eq, u32OrMax, if_pos (by omega), hlen]
    have hmin : min (UInt32.ofNat cs.flatten.length) cap = UInt32.ofNat n := by
      apply UInt32.toNat_inj.1
      have hcap := cap.toNat_lt
      rw [toNat_ofNat32 (by omega), h10 hk]
      show (if _ then _ else _ : UInt32).toNat = _
      split
      · rename_i h; rw [UInt32.le_iff_toNat_le, toNat_ofNat32 h32] at h
        rw [toNat_ofNat32 h32]; omega
      · rename_i h; rw [UInt32.le_iff_toNat_le, toNat_ofNat32 h32] at h
        omega
    have hn32 : n < 4294967296 := by have := cap.toNat_lt; omega
    obtain ⟨m, f2, h13, h14, -, h15, -⟩ := fileChunks he
      [ne32 sec, ne32 usec, ne32 (UInt32.ofNat n), ne32 (UInt32.ofNat cs.flatten.length),
        cs.flatten.take n]
    rcases h15 with ⟨h15, h16⟩ | ⟨-, hnk⟩
    · refine ⟨f', f2, h4, ?_, ?_⟩
      · simp only [writePacket, u32_ok h32, R.bind_ok, hmin, toNat_ofNat32 hn32]
        rw [← h13, ← h15]
      · rw [h11, h14, h16, hl]
        simp [recBytes]
    · exact (hnk hk).elim
  · exact (hnk hk).elim

/-! ## Examples -/

/-- A packet of each kind, and a file system that writes three bytes, then one,
then everything. -/
def exTrace : List (Nat × Packet) :=
  [(946684800000001234, ⟨0x0b000001, 0x0b000002, .tcp ⟨10000, 80, 0x02, 7, 0, 65535, some 5⟩ []⟩),
   (946684801500002999, ⟨0x0b000002, 0x0b000001, .udp 53 5000 [1, 2, 3]⟩)]

example : ∀ e ∈ exTrace, Fits e := by decide

example : Kind [.acc 3, .acc 1] := by
  intro a ha
  simp at ha
  rcases ha with rfl | rfl
  · exact ⟨2, rfl⟩
  · exact ⟨0, rfl⟩

/-- For the examples: whether the capture is still on, the size of the file, and
the lengths in its records when the first `n` bytes are read. -/
def exRead (cap : UInt32) (env : List Ans) (n : Nat) :
    R (Bool × Nat × Option (List (List Nat))) := do
  let i ← (Iface.new cap env).captureAll exTrace
  .ok (i.live, i.file.bytes.length, (readPcap (i.file.bytes.take n)).map fun (q : Nat × List Rec) =>
    q.2.map fun r => [r.sec, r.usec, r.origLen, r.data.length])

example : exRead 40 [.acc 3, .acc 1] 1000 =
    .ok (true, 127, some [[946684800, 1, 44, 40], [946684801, 500002, 31, 31]]) := by
  decide +kernel

/-- A disk that fills up inside the second record: the first stays. -/
example : (Iface.new 40 (List.replicate 35 (Ans.acc 100) ++ [Ans.err .other])).live = true ∧
    exRead 40 (List.replicate 35 (Ans.acc 100) ++ [Ans.err .other]) 80 =
      .ok (false, 88, some [[946684800, 1, 44, 40]]) := by
  decide +kernel

/-- **Finding.** On the loopback interface the same device sends and receives
(`interface.rs` lines 252 and 265), so each packet is recorded twice. -/
theorem C63_loopback_twice (cap : UInt32) (now : Nat) (p : Packet) (h : Fits (now, p)) :
    ∃ i a b, (Iface.new cap []).captureAll [(now, p), (now, p)] = .ok i ∧
      readPcap i.file.bytes = some (cap.toNat, [a, b]) ∧
      Shows cap.toNat (now, p) a ∧ Shows cap.toNat (now, p) b := by
  obtain ⟨i, recs, h1, h2, h3⟩ := C63_capture_file cap [] (fun _ h => by cases h)
    [(now, p), (now, p)] (by intro e he; simp at he; rw [he]; exact h)
  cases h3 with
  | cons ha h3 =>
    cases h3 with
    | cons hb h3 => cases h3 with | nil => exact ⟨i, _, _, h1, h2, ha, hb⟩

end Shadow.Pcap
