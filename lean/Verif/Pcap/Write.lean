import Verif.Pcap.Bytes

/-!
# Writing through the file and through `Give`

What `write_all` leaves in the file, whatever the file system answers.
-/

namespace Shadow.Pcap

open Shadow.Base

/-! ## Overwriting -/

theorem overwrite_append (a b d : List UInt8) :
    overwrite (a ++ b) a.length d = a ++ d ++ b.drop d.length := by
  simp [overwrite, List.drop_append]

theorem overwrite_at {f : List UInt8} {p : Nat} (h : p ≤ f.length) (d : List UInt8) :
    ∃ a b, f = a ++ b ∧ a.length = p ∧ overwrite f p d = a ++ d ++ b.drop d.length := by
  refine ⟨f.take p, f.drop p, (List.take_append_drop p f).symm, by simp; omega, ?_⟩
  simp [overwrite]

theorem overwrite_nil (f : List UInt8) (p : Nat) : overwrite f p [] = f := by
  simp [overwrite]

theorem overwrite_two {f : List UInt8} {p : Nat} (h : p ≤ f.length) (d d' : List UInt8) :
    overwrite (overwrite f p d) (p + d.length) d' = overwrite f p (d ++ d') := by
  obtain ⟨a, b, rfl, rfl, -⟩ := overwrite_at h d
  rw [overwrite_append, overwrite_append,
    show a.length + d.length = (a ++ d).length by simp, overwrite_append]
  simp

theorem length_overwrite {f : List UInt8} {p : Nat} (h : p ≤ f.length) (d : List UInt8) :
    p + d.length ≤ (overwrite f p d).length := by
  simp [overwrite]; omega

/-- The file `f'` is `f` after the bytes `d` were written at its position. -/
def Wrote (f f' : File) (d : List UInt8) : Prop :=
  f.pos ≤ f.bytes.length →
    f'.bytes = overwrite f.bytes f.pos d ∧ f'.pos = f.pos + d.length

theorem Wrote.refl (f : File) : Wrote f f [] := fun _ => ⟨(overwrite_nil _ _).symm, rfl⟩

theorem Wrote.trans {f f' f'' : File} {d d' : List UInt8} (h : Wrote f f' d) (h' : Wrote f' f'' d') :
    Wrote f f'' (d ++ d') := by
  intro hp
  obtain ⟨h1, h2⟩ := h hp
  obtain ⟨h3, h4⟩ := h' (by rw [h1, h2]; exact length_overwrite hp d)
  refine ⟨?_, ?_⟩
  · rw [h3, h1, h2, overwrite_two hp]
  · rw [h4, h2, List.length_append]; omega

/-- A file system that never refuses: every answer accepts at least one byte. -/
def Kind (env : List Ans) : Prop := ∀ a ∈ env, ∃ k, a = .acc (k + 1)

/-! ## `write_all` for any writer -/

/-- What a writer does to its state: each call writes a prefix of its argument. -/
structure Writer {σ : Type} (w : σ → List UInt8 → IoR σ Nat)
    (Q : σ → σ → List UInt8 → Prop) : Prop where
  refl : ∀ s, Q s s []
  trans : ∀ {s s' s'' d d'}, Q s s' d → Q s' s'' d' → Q s s'' (d ++ d')
  step : ∀ s buf, ∃ n, n ≤ buf.length ∧ Q s (w s buf).2 (buf.take n) ∧
    ((w s buf).1 = .ok n ∨ ∃ e, (w s buf).1 = .error e ∧ n = 0)

theorem Writer.loop {σ : Type} {w : σ → List UInt8 → IoR σ Nat} {Q : σ → σ → List UInt8 → Prop}
    (hw : Writer w Q) (fuel : Nat) (s : σ) (buf : List UInt8) (hf : buf.length ≤ fuel) :
    ∃ n, n ≤ buf.length ∧ Q s (writeLoop w fuel s buf).2 (buf.take n) ∧
      (((writeLoop w fuel s buf).1 = .ok () ∧ n = buf.length) ∨
        ∃ e, (writeLoop w fuel s buf).1 = .error e) := by
  induction fuel generalizing s buf with
  | zero =>
    cases buf with
    | nil => exact ⟨0, Nat.le_refl _, hw.refl s, .inl ⟨rfl, rfl⟩⟩
    | cons => simp at hf
  | succ fuel ih =>
    cases buf with
    | nil => exact ⟨0, Nat.le_refl _, hw.refl s, .inl ⟨rfl, rfl⟩⟩
    | cons b bs =>
      obtain ⟨n, hn, hq, hr⟩ := hw.step s (b :: bs)
      simp only [writeLoop, List.isEmpty_cons]
      cases hws : w s (b :: bs) with
      | mk r s' =>
        rw [hws] at hq hr
        rcases hr with hr | ⟨e, hr, h0⟩
        · simp only at hr hq
          subst hr
          by_cases h0 : n = 0
          · refine ⟨n, hn, ?_, .inr ⟨.writeZero, ?_⟩⟩ <;> simp [h0] <;> simpa [h0] using hq
          · obtain ⟨m, hm, hq', hr'⟩ := ih s' ((b :: bs).drop n)
              (by simp only [List.length_drop]; omega)
            rw [List.length_drop] at hm hr'
            refine ⟨n + m, by omega, ?_, ?_⟩
            · simp only [h0, if_false, Bool.false_eq_true]
              have := hw.trans hq hq'
              rwa [← List.take_add] at this
            · simp only [h0, if_false, Bool.false_eq_true]
              rcases hr' with ⟨h1, h2⟩ | h1
              · exact .inl ⟨h1, by omega⟩
              · exact .inr h1
        · simp only at hr hq
          subst hr
          exact ⟨n, hn, by simpa using hq, .inr ⟨e, by simp⟩⟩

theorem Writer.chunks {σ : Type} {w : σ → List UInt8 → IoR σ Nat} {Q : σ → σ → List UInt8 → Prop}
    (hw : Writer w Q) (s : σ) (cs : List (List UInt8)) :
    ∃ n, n ≤ cs.flatten.length ∧ Q s (writeChunks w s cs).2 (cs.flatten.take n) ∧
      (((writeChunks w s cs).1 = .ok () ∧ n = cs.flatten.length) ∨
        ∃ e, (writeChunks w s cs).1 = .error e) := by
  induction cs generalizing s with
  | nil => exact ⟨0, Nat.le_refl _, hw.refl s, .inl ⟨rfl, rfl⟩⟩
  | cons c cs ih =>
    obtain ⟨n, hn, hq, hr⟩ := hw.loop c.length s c (Nat.le_refl _)
    simp only [writeChunks, writeAll, List.flatten_cons, List.length_append]
    cases hws : writeLoop w c.length s c with
    | mk r s' =>
      rw [hws] at hq hr
      rcases hr with ⟨hr, hl⟩ | ⟨e, hr⟩
      · simp only at hr hq
        subst hr hl
        obtain ⟨m, hm, hq', hr'⟩ := ih s'
        refine ⟨c.length + m, by omega, ?_, ?_⟩
        · have := hw.trans hq hq'
          rw [List.take_length] at this
          rw [List.take_append, List.take_of_length_le (by omega),
            show c.length + m - c.length = m by omega]
          exact this
        · rcases hr' with ⟨h1, h2⟩ | h1
          · exact .inl ⟨h1, by omega⟩
          · exact .inr h1
      · simp only at hr hq
        subst hr
        refine ⟨n, by omega, ?_, .inr ⟨e, rfl⟩⟩
        rw [List.take_append_of_le_length hn]
        exact hq

/-- A writer that works: from a good state it writes something unless stuck. -/
structure Works {σ : Type} (w : σ → List UInt8 → IoR σ Nat) (good stuck : σ → Prop) : Prop where
  step : ∀ s buf, good s → buf ≠ [] →
    ∃ n s', w s buf = (.ok n, s') ∧ good s' ∧ (n = 0 → stuck s')

theorem Works.loop {σ : Type} {w : σ → List UInt8 → IoR σ Nat} {good stuck : σ → Prop}
    (hw : Works w good stuck) (fuel : Nat) (s : σ) (buf : List UInt8) (hg : good s) :
    ∃ r s', writeLoop w fuel s buf = (r, s') ∧ good s' ∧
      (r = .ok () ∨ (r = .error .writeZero ∧ stuck s')) := by
  induction fuel generalizing s buf with
  | zero => exact ⟨_, _, rfl, hg, .inl rfl⟩
  | succ fuel ih =>
    cases buf with
    | nil => exact ⟨_, _, rfl, hg, .inl rfl⟩
    | cons b bs =>
      obtain ⟨n, s', he, hg', hs⟩ := hw.step s (b :: bs) hg (by simp)
      simp only [writeLoop, List.isEmpty_cons, he]
      by_cases h0 : n = 0
      · exact ⟨_, s', by simp [h0], hg', .inr ⟨rfl, hs h0⟩⟩
      · simp only [h0, if_false, Bool.false_eq_true]
        exact ih s' _ hg'

theorem Works.chunks {σ : Type} {w : σ → List UInt8 → IoR σ Nat} {good stuck : σ → Prop}
    (hw : Works w good stuck) (s : σ) (cs : List (List UInt8)) (hg : good s) :
    ∃ r s', writeChunks w s cs = (r, s') ∧ good s' ∧
      (r = .ok () ∨ (r = .error .writeZero ∧ stuck s')) := by
  induction cs generalizing s with
  | nil => exact ⟨_, _, rfl, hg, .inl rfl⟩
  | cons c cs ih =>
    obtain ⟨r, s', he, hg', hr⟩ := hw.loop c.length s c hg
    simp only [writeChunks, writeAll, he]
    rcases hr with rfl | ⟨rfl, hs⟩
    · exact ih s' hg'
    · exact ⟨_, s', rfl, hg', .inr ⟨rfl, hs⟩⟩

/-! ## The file -/

theorem fileWriter : Writer File.write Wrote where
  refl := Wrote.refl
  trans := Wrote.trans
  step := by
    intro f buf
    obtain ⟨bytes, pos, env⟩ := f
    cases env with
    | nil =>
      refine ⟨buf.length, Nat.le_refl _, ?_, .inl rfl⟩
      intro _
      simp [File.write]
    | cons a env =>
      cases a with
      | err e =>
        refine ⟨0, Nat.zero_le _, ?_, .inr ⟨e, rfl, rfl⟩⟩
        intro _
        simp [File.write, overwrite_nil]
      | acc k =>
        refine ⟨(buf.take k).length, by simp; omega, ?_, .inl rfl⟩
        intro _
        have : buf.take (min k buf.length) = buf.take k := by
          rw [← List.take_take, List.take_length]
        simp [File.write, this]

theorem fileWorks : Works File.write (fun f => Kind f.env) (fun _ => False) where
  step := by
    intro f buf hg hb
    obtain ⟨bytes, pos, env⟩ := f
    have hb' : 0 < buf.length := List.length_pos_iff.2 hb
    cases env with
    | nil => exact ⟨_, _, rfl, hg, fun h => by omega⟩
    | cons a env =>
      obtain ⟨k, rfl⟩ := hg a (by simp)
      refine ⟨_, _, rfl, fun a ha => hg a (by simp [ha]), fun h => ?_⟩
      simp only [List.length_take] at h; omega

/-! ## `Give` -/

/-- What writing through `Give` does: the bytes go to the file and use up the limit. -/
def Gave (g g' : Give) (d : List UInt8) : Prop :=
  Wrote g.inner g'.inner d ∧ g'.limit + d.length = g.limit

theorem giveWriter : Writer Give.write Gave where
  refl := fun g => ⟨Wrote.refl _, rfl⟩
  trans := by
    intro s s' s'' d d' h h'
    exact ⟨h.1.trans h'.1, by have := h.2; have := h'.2; rw [List.length_append]; omega⟩
  step := by
    intro g buf
    obtain ⟨f, limit⟩ := g
    by_cases h0 : limit = 0
    · subst h0
      exact ⟨0, Nat.zero_le _, ⟨Wrote.refl _, rfl⟩, .inl rfl⟩
    · obtain ⟨n, hn, hq, hr⟩ := fileWriter.step f (buf.take (min buf.length limit))
      have hn' : n ≤ min buf.length limit := by simpa using hn
      refine ⟨n, by omega, ?_⟩
      have ht : (buf.take (min buf.length limit)).take n = buf.take n := by
        rw [List.take_take, Nat.min_eq_left hn']
      rw [ht] at hq
      simp only [Give.write, h0, if_false]
      cases hws : f.write (buf.take (min buf.length limit)) with
      | mk r f' =>
        rw [hws] at hq hr
        rcases hr with hr | ⟨e, hr, hz⟩
        · simp only at hr hq
          subst hr
          refine ⟨⟨hq, ?_⟩, .inl rfl⟩
          simp only [List.length_take]; omega
        · simp only at hr hq
          subst hr hz
          exact ⟨⟨hq, rfl⟩, .inr ⟨e, rfl, rfl⟩⟩

theorem giveWorks : Works Give.write (fun g => Kind g.inner.env) (fun g => g.limit = 0) where
  step := by
    intro g buf hg hb
    obtain ⟨f, limit⟩ := g
    by_cases h0 : limit = 0
    · subst h0
      exact ⟨0, _, rfl, hg, fun _ => rfl⟩
    · have hb' : 0 < buf.length := List.length_pos_iff.2 hb
      have hne : buf.take (min buf.length limit) ≠ [] := by
        intro h
        have := congrArg List.length h
        simp only [List.length_take, List.length_nil] at this; omega
      obtain ⟨n, f', he, hg', hs⟩ := fileWorks.step f _ hg hne
      refine ⟨n, ⟨f', limit - n⟩, ?_, hg', fun h => (hs h).elim⟩
      simp only [Give.write, h0, if_false, he]

end Shadow.Pcap
