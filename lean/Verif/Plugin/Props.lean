import Verif.Plugin.Model
/-!
# C92: exactly the files that can run are started, for the right reasons
-/
namespace Shadow.Plugin

/-! ## What can be started -/

/-- The file says by which program it is to be run: `#!`, spaces, and a path up to a space, the end of the line or the end. -/
def Script (content : List Nat) (i : Path) : Prop :=
  ∃ n rest, content = 35 :: 33 :: (List.replicate n 32 ++ i ++ rest) ∧ (∀ b ∈ i, b ≠ 32 ∧ b ≠ 10)
    ∧ (rest = [] ∨ ∃ b r, rest = b :: r ∧ (b = 10 ∨ (b = 32 ∧ i ≠ [])))

def Elf (content : List Nat) : Prop := ∃ r, content = [127, 69, 76, 70] ++ r

/-- A dynamically linked program, or a script whose interpreter can be started. -/
inductive Starts (fs : Fs) : Path → Prop where
  | elf {p : Path} {f : File} : fs p = .inr f → f.regular = true → f.exec = true → Elf f.content → f.dynamic = true → Starts fs p
  | script {p i : Path} {f : File} : fs p = .inr f → f.regular = true → f.exec = true → Script (f.content.take 4096) i → Starts fs i → Starts fs p

/-- Why a file cannot be started, as execve(2) has it. -/
inductive Refused (fs : Fs) : Path → Errno → Prop where
  | absent {p : Path} : fs p = .inl .notFound → Refused fs p .ENOENT
  | denied {p : Path} : fs p = .inl .denied → Refused fs p .EACCES
  | other {p : Path} : fs p = .inl .other → Refused fs p .ENOEXEC
  | mode {p : Path} {f : File} : fs p = .inr f → ¬ (f.regular = true ∧ f.exec = true) → Refused fs p .EACCES
  | static {p : Path} {f : File} : fs p = .inr f → f.regular = true → f.exec = true → Elf f.content → f.dynamic = false → Refused fs p .ENOEXEC
  | neither {p : Path} {f : File} : fs p = .inr f → f.regular = true → f.exec = true → ¬ Elf f.content → (∀ i, ¬ Script (f.content.take 4096) i) → Refused fs p .ENOEXEC
  | script {p i : Path} {f : File} {x : Errno} : fs p = .inr f → f.regular = true → f.exec = true → Script (f.content.take 4096) i → Refused fs i x → Refused fs p x

/-! ## Reading the first line -/

theorem dropWhile_spaces (n : Nat) (l : List Nat) (h : ∀ r, l ≠ 32 :: r) : (List.replicate n 32 ++ l).dropWhile (· = 32) = l := by
  induction n with
  | zero =>
    cases l with
    | nil => rfl
    | cons b l =>
      have : b ≠ 32 := fun e => h l (by rw [e])
      simp [this]
  | succ n ih => simpa [List.replicate_succ] using ih

theorem spaces_dropWhile (l : List Nat) : ∃ n, l = List.replicate n 32 ++ l.dropWhile (· = 32) := by
  induction l with
  | nil => exact ⟨0, rfl⟩
  | cons b l ih =>
    by_cases hb : b = 32
    · obtain ⟨n, hn⟩ := ih
      refine ⟨n + 1, ?_⟩
      subst hb
      simp only [List.dropWhile_cons, decide_true, if_true, List.replicate_succ, List.cons_append]
      rw [← hn]
    · exact ⟨0, by simp [hb]⟩

theorem takeWhile_word (i rest : List Nat) (hi : ∀ b ∈ i, b ≠ 32 ∧ b ≠ 10) (hr : rest = [] ∨ ∃ b r, rest = b :: r ∧ (b = 10 ∨ b = 32)) :
    (i ++ rest).takeWhile (fun b => !(b = 32 || b = 10)) = i := by
  induction i with
  | nil =>
    rcases hr with rfl | ⟨b, r, rfl, rfl | rfl⟩ <;> simp
  | cons b i ih =>
    have := hi b List.mem_cons_self
    simp [this.1, this.2]
    simpa using ih fun x hx => hi x (List.mem_cons_of_mem _ hx)

theorem head_dropWhile (l : List Nat) (r : List Nat) : l.dropWhile (· = 32) ≠ 32 :: r := by
  induction l with
  | nil => simp
  | cons b l ih =>
    by_cases hb : b = 32
    · simpa [hb] using ih
    · simp [hb]

theorem word_split (l : List Nat) : ∃ i rest, l = i ++ rest ∧ l.takeWhile (fun b => !(b = 32 || b = 10)) = i ∧ (∀ b ∈ i, b ≠ 32 ∧ b ≠ 10)
    ∧ (rest = [] ∨ ∃ b r, rest = b :: r ∧ (b = 10 ∨ b = 32)) := by
  induction l with
  | nil => exact ⟨[], [], rfl, rfl, by simp, .inl rfl⟩
  | cons b l ih =>
    by_cases hb : b = 32 ∨ b = 10
    · refine ⟨[], b :: l, rfl, ?_, by simp, .inr ⟨b, l, rfl, hb.symm⟩⟩
      rcases hb with rfl | rfl <;> simp
    · obtain ⟨i, rest, rfl, h1, h2, h3⟩ := ih
      have hb' : b ≠ 32 ∧ b ≠ 10 := ⟨fun e => hb (.inl e), fun e => hb (.inr e)⟩
      refine ⟨b :: i, rest, rfl, ?_, ?_, h3⟩
      · simp only [List.takeWhile_cons]
        simp only [hb'.1, hb'.2, decide_false, Bool.or_self, Bool.not_false, if_true]
        rw [h1]
      · intro x hx
        rcases List.mem_cons.1 hx with rfl | hx
        · exact hb'
        · exact h2 x hx

/-- The interpreter is read as written. -/
theorem C92_interpreter (content : List Nat) (i : Path) : interpreter content = some i ↔ Script content i := by
  constructor
  · intro h
    match content, h with
    | 35 :: 33 :: rest, h =>
      simp only [interpreter, Option.some.injEq] at h
      obtain ⟨n, hn⟩ := spaces_dropWhile rest
      obtain ⟨w, tail, hw, ht, hc, he⟩ := word_split (rest.dropWhile (· = 32))
      have hwi : w = i := ht.symm.trans h
      subst hwi
      refine ⟨n, tail, ?_, hc, ?_⟩
      · rw [List.append_assoc, ← hw, ← hn]
      · rcases he with he | ⟨b, r, rfl, hb⟩
        · exact .inl he
        · refine .inr ⟨b, r, rfl, hb.imp id fun hb => ⟨hb, ?_⟩⟩
          rintro rfl
          subst hb
          exact head_dropWhile rest r hw
  · rintro ⟨n, rest, rfl, hi, hr⟩
    have hh : ∀ r, i ++ rest ≠ 32 :: r := by
      intro r e
      cases i with
      | nil =>
        rcases hr with rfl | ⟨b, r', rfl, rfl | ⟨_, h⟩⟩
        · simp at e
        · simp at e
        · exact h rfl
      | cons b i =>
        simp only [List.cons_append, List.cons.injEq] at e
        exact (hi b List.mem_cons_self).1 e.1
    simp only [interpreter, List.append_assoc, dropWhile_spaces n (i ++ rest) hh]
    rw [takeWhile_word i rest hi (hr.imp id fun ⟨b, r, e, h⟩ => ⟨b, r, e, h.imp id And.left⟩)]

theorem elf_iff (content : List Nat) : elfMagic.isPrefixOf (content.take PATH_MAX) = true ↔ Elf content := by
  rw [List.isPrefixOf_iff_prefix]
  constructor
  · rintro ⟨t, h⟩
    refine ⟨t ++ content.drop PATH_MAX, ?_⟩
    rw [← List.append_assoc, show [127, 69, 76, 70] ++ t = content.take PATH_MAX from h, List.take_append_drop]
  · rintro ⟨r, rfl⟩
    exact ⟨r.take 4092, by simp [elfMagic, PATH_MAX]⟩

theorem not_both {content : List Nat} {i : Path} (h : Script (content.take 4096) i) : ¬ Elf content := by
  rintro ⟨r, rfl⟩
  obtain ⟨n, rest, e, _⟩ := h
  simp at e

/-! ## The result of a look at one file -/

/-- What a look says, by the file system alone. -/
theorem look_spec (fs : Fs) (p : Path) :
    (look fs p = .inl none ∧ ∃ f, fs p = .inr f ∧ f.regular = true ∧ f.exec = true ∧ Elf f.content ∧ f.dynamic = true)
    ∨ (∃ i, look fs p = .inr i ∧ ∃ f, fs p = .inr f ∧ f.regular = true ∧ f.exec = true ∧ Script (f.content.take 4096) i)
    ∨ (∃ e, look fs p = .inl (some e) ∧ Refused fs p (errno e) ∧ ¬ Starts fs p) := by
  have uniq : ∀ {f}, fs p = .inr f → Starts fs p → f.regular = true ∧ f.exec = true ∧ ((Elf f.content ∧ f.dynamic = true) ∨ ∃ i, Script (f.content.take 4096) i) := by
    intro f hf h
    cases h with
    | elf h1 h2 h3 h4 h5 => rw [hf] at h1; obtain rfl := Sum.inr.inj h1; exact ⟨h2, h3, .inl ⟨h4, h5⟩⟩
    | script h1 h2 h3 h4 h5 => rw [hf] at h1; obtain rfl := Sum.inr.inj h1; exact ⟨h2, h3, .inr ⟨_, h4⟩⟩
  have bad : ∀ e, fs p = .inl e → ¬ Starts fs p := by
    intro e he h
    cases h with
    | elf h1 => rw [he] at h1; cases h1
    | script h1 => rw [he] at h1; cases h1
  cases hf : fs p with
  | inl e =>
    refine .inr (.inr ⟨ofIo e, by simp [look, hf], ?_, bad e hf⟩)
    cases e
    · exact .absent hf
    · exact .denied hf
    · exact .other hf
  | inr f =>
    by_cases hr : f.regular = true
    · by_cases hx : f.exec = true
      · by_cases he : Elf f.content
        · have he' := (elf_iff f.content).2 he
          by_cases hd : f.dynamic = true
          · exact .inl ⟨by simp [look, hf, hr, hx, he', hd], f, rfl, hr, hx, he, hd⟩
          · refine .inr (.inr ⟨.notDynamic, by simp [look, hf, hr, hx, he', hd], .static hf hr hx he (by simpa using hd), fun hs => ?_⟩)
            rcases (uniq hf hs).2.2 with h | ⟨i, hi⟩
            · exact hd h.2
            · exact not_both hi he
        · have he' : ¬ elfMagic.isPrefixOf (f.content.take PATH_MAX) = true := fun h => he ((elf_iff f.content).1 h)
          cases hi : interpreter (f.content.take PATH_MAX) with
          | some i => exact .inr (.inl ⟨i, by simp [look, hf, hr, hx, he', hi], f, rfl, hr, hx, (C92_interpreter _ i).1 hi⟩)
          | none =>
            have hn : ∀ i, ¬ Script (f.content.take 4096) i := fun i h => by
              have := (C92_interpreter _ i).2 h
              rw [show (4096 : Nat) = PATH_MAX from rfl, hi] at this; cases this
            refine .inr (.inr ⟨.unknownType, by simp [look, hf, hr, hx, he', hi], .neither hf hr hx he hn, fun hs => ?_⟩)
            rcases (uniq hf hs).2.2 with h | ⟨i, h⟩
            · exact he h.1
            · exact hn i h
      · exact .inr (.inr ⟨.notExecutable, by simp [look, hf, hr, hx], .mode hf (by simp [hx]), fun hs => hx (uniq hf hs).2.1⟩)
    · exact .inr (.inr ⟨.notFile, by simp [look, hf, hr], .mode hf (by simp [hr]), fun hs => hr (uniq hf hs).1⟩)

theorem Starts.interp {fs : Fs} {p i : Path} {f : File} (h : Starts fs p) (hf : fs p = .inr f) (hi : Script (f.content.take 4096) i) : Starts fs i := by
  cases h with
  | elf h1 h2 h3 h4 h5 => rw [hf] at h1; obtain rfl := Sum.inr.inj h1; exact absurd h4 (not_both hi)
  | script h1 h2 h3 h4 h5 =>
    rw [hf] at h1
    obtain rfl := Sum.inr.inj h1
    have := (C92_interpreter _ _).2 h4
    rw [(C92_interpreter _ _).2 hi] at this
    obtain rfl := Option.some.inj this
    exact h5

/-- What is remembered can be started. -/
def Sound (fs : Fs) (cache : List Path) : Prop := ∀ p ∈ cache, Starts fs p

theorem verify_sound {fs : Fs} : ∀ (n : Nat) {cache cache' : List Path} {p : Path} {r : Option Err}, Sound fs cache → verify fs n cache p = some (r, cache') →
    Sound fs cache' ∧ (r = none ↔ Starts fs p) ∧ (∀ e, r = some e → Refused fs p (errno e) ∧ cache' = cache ∧ verify fs n [] p = some (some e, [])) := by
  intro n
  induction n with
  | zero => intro _ _ _ _ _ h; simp [verify] at h
  | succ n ih =>
    intro cache cache' p r hs h
    simp only [verify] at h
    split at h
    · rename_i hp
      obtain ⟨rfl, rfl⟩ := Prod.mk.inj (Option.some.inj h)
      exact ⟨hs, by simp [hs p hp], by simp⟩
    · rcases look_spec fs p with ⟨hl, f, h1, h2, h3, h4, h5⟩ | ⟨i, hl, f, h1, h2, h3, h4⟩ | ⟨e, hl, hr, hns⟩
      · simp only [hl] at h
        obtain ⟨rfl, rfl⟩ := Prod.mk.inj (Option.some.inj h)
        have hst : Starts fs p := .elf h1 h2 h3 h4 h5
        refine ⟨?_, by simp [hst], by simp⟩
        intro q hq
        rcases List.mem_cons.1 hq with rfl | hq
        · exact hst
        · exact hs q hq
      · simp only [hl] at h
        cases hv : verify fs n cache i with
        | none => simp [hv] at h
        | some v =>
          obtain ⟨r', c'⟩ := v
          obtain ⟨k1, k2, k3⟩ := ih hs hv
          cases r' with
          | none =>
            simp only [hv] at h
            obtain ⟨rfl, rfl⟩ := Prod.mk.inj (Option.some.inj h)
            have hst : Starts fs p := .script h1 h2 h3 h4 (k2.1 rfl)
            refine ⟨?_, by simp [hst], by simp⟩
            intro q hq
            rcases List.mem_cons.1 hq with rfl | hq
            · exact hst
            · exact k1 q hq
          | some e =>
            simp only [hv] at h
            obtain ⟨rfl, rfl⟩ := Prod.mk.inj (Option.some.inj h)
            obtain ⟨m1, m2, m3⟩ := k3 e rfl
            refine ⟨k1, ?_, ?_⟩
            · have : ¬ Starts fs p := fun hst => by have := k2.2 (hst.interp h1 h4); cases this
              simp [this]
            · intro e' he
              obtain rfl := Option.some.inj he
              exact ⟨.script h1 h2 h3 h4 m1, m2, by simp [verify, hl, m3]⟩
      · simp only [hl] at h
        obtain ⟨rfl, rfl⟩ := Prod.mk.inj (Option.some.inj h)
        refine ⟨hs, by simp [hns], ?_⟩
        intro e' he
        obtain rfl := Option.some.inj he
        exact ⟨hr, rfl, by simp [verify, hl]⟩

theorem Checks.sound {fs : Fs} {cache : List Path} (h : Checks fs cache) : Sound fs cache := by
  induction h with
  | none => intro p hp; simp at hp
  | check _ hv ih => exact (verify_sound _ ih hv).1

/-- **A file is accepted exactly if it can be started**, whatever was checked before. -/
theorem C92_accept {fs : Fs} {cache cache' : List Path} (hc : Checks fs cache) {n : Nat} {p : Path} {r : Option Err} (h : verify fs n cache p = some (r, cache')) :
    r = none ↔ Starts fs p := (verify_sound n hc.sound h).2.1

/-- **It is refused for the reason that execve(2) has**, that of the innermost interpreter. -/
theorem C92_errno {fs : Fs} {cache cache' : List Path} (hc : Checks fs cache) {n : Nat} {p : Path} {e : Err} (h : verify fs n cache p = some (some e, cache')) :
    Refused fs p (errno e) := ((verify_sound n hc.sound h).2.2 e rfl).1

/-- **What was checked before makes no difference** to an answer, and a refusal is not remembered. -/
theorem C92_same {fs : Fs} {cache cache' : List Path} (hc : Checks fs cache) {n : Nat} {p : Path} {e : Err} (h : verify fs n cache p = some (some e, cache')) :
    cache' = cache ∧ verify fs n [] p = some (some e, []) := ((verify_sound n hc.sound h).2.2 e rfl).2

/-- What can be started, and what is refused, is answered. -/
theorem C92_answer {fs : Fs} {cache : List Path} {p : Path} (h : Starts fs p ∨ ∃ x, Refused fs p x) : ∃ k, ∀ n, (verify fs (k + n) cache p).isSome := by
  have step : ∀ {p i : Path} {f : File}, fs p = .inr f → f.regular = true → f.exec = true → Script (f.content.take 4096) i →
      (∃ k, ∀ n, (verify fs (k + n) cache i).isSome) → ∃ k, ∀ n, (verify fs (k + n) cache p).isSome := by
    intro p i f h1 h2 h3 h4 ⟨k, hk⟩
    refine ⟨k + 1, fun n => ?_⟩
    rw [Nat.add_right_comm]
    have hl : look fs p = .inr i := by
      rcases look_spec fs p with ⟨_, g, g1, _, _, g4, _⟩ | ⟨j, hl, g, g1, _, _, g4⟩ | ⟨e, hl, _⟩
      · rw [h1] at g1; obtain rfl := Sum.inr.inj g1; exact absurd g4 (not_both h4)
      · rw [h1] at g1; obtain rfl := Sum.inr.inj g1
        have := (C92_interpreter _ _).2 g4
        rw [(C92_interpreter _ _).2 h4] at this
        obtain rfl := Option.some.inj this
        exact hl
      · have he' : ¬ elfMagic.isPrefixOf (f.content.take PATH_MAX) = true := fun h => not_both h4 ((elf_iff f.content).1 h)
        simp [look, h1, h2, h3, he', show interpreter (f.content.take PATH_MAX) = some i from (C92_interpreter _ _).2 h4]
    have := hk n
    simp only [verify, hl]
    split
    · rfl
    · cases hv : verify fs (k + n) cache i with
      | none => rw [hv] at this; cases this
      | some v => obtain ⟨_ | _, _⟩ := v <;> rfl
  have flat : ∀ {p : Path} {o : Option Err}, look fs p = .inl o → ∃ k, ∀ n, (verify fs (k + n) cache p).isSome := by
    intro p o hl
    refine ⟨1, fun n => ?_⟩
    rw [Nat.add_comm 1 n]
    simp only [verify, hl]
    split
    · rfl
    · cases o <;> rfl
  have any : ∀ p, (∃ o, look fs p = .inl o) ∨ ∃ i f, fs p = .inr f ∧ f.regular = true ∧ f.exec = true ∧ Script (f.content.take 4096) i := by
    intro p
    rcases look_spec fs p with ⟨hl, _⟩ | ⟨i, hl, f, h1, h2, h3, h4⟩ | ⟨e, hl, _⟩
    · exact .inl ⟨_, hl⟩
    · exact .inr ⟨i, f, h1, h2, h3, h4⟩
    · exact .inl ⟨_, hl⟩
  rcases h with h | ⟨x, h⟩
  · induction h with
    | elf h1 h2 h3 h4 h5 =>
      rcases any _ with ⟨o, hl⟩ | ⟨i, f, g1, _, _, g4⟩
      · exact flat hl
      · rw [h1] at g1; obtain rfl := Sum.inr.inj g1; exact absurd h4 (not_both g4)
    | script h1 h2 h3 h4 _ ih => exact step h1 h2 h3 h4 ih
  · induction h with
    | script h1 h2 h3 h4 _ ih => exact step h1 h2 h3 h4 ih
    | absent h1 => exact flat (by simp [look, h1]; rfl)
    | denied h1 => exact flat (by simp [look, h1]; rfl)
    | other h1 => exact flat (by simp [look, h1]; rfl)
    | mode h1 h2 =>
      rename_i p f
      refine flat (o := if f.regular = false then some .notFile else some .notExecutable) ?_
      by_cases hr : f.regular = true
      · have hx : f.exec = false := by simpa [hr] using h2
        simp [look, h1, hr, hx]
      · simp [look, h1, hr]
    | static h1 h2 h3 h4 h5 =>
      rcases any _ with ⟨o, hl⟩ | ⟨i, f, g1, _, _, g4⟩
      · exact flat hl
      · rw [h1] at g1; obtain rfl := Sum.inr.inj g1; exact absurd h4 (not_both g4)
    | neither h1 h2 h3 h4 h5 =>
      rcases any _ with ⟨o, hl⟩ | ⟨i, f, g1, _, _, g4⟩
      · exact flat hl
      · rw [h1] at g1; obtain rfl := Sum.inr.inj g1; exact absurd g4 (h5 i)

/-- **Finding: scripts that name each other in a circle, or a script that names itself, never get an answer**: however deep the calls may go, they go deeper, so the simulator
    runs out of stack. (Linux answers ELOOP.) -/
theorem C92_loop {fs : Fs} {cache : List Path} (path : Nat → Path) (hc : ∀ k, path k ∉ cache)
    (hs : ∀ k, ∃ f, fs (path k) = .inr f ∧ f.regular = true ∧ f.exec = true ∧ Script (f.content.take 4096) (path (k + 1))) : ∀ n k, verify fs n cache (path k) = none := by
  intro n
  induction n with
  | zero => intro k; rfl
  | succ n ih =>
    intro k
    obtain ⟨f, h1, h2, h3, h4⟩ := hs k
    have he' : ¬ elfMagic.isPrefixOf (f.content.take PATH_MAX) = true := fun h => not_both h4 ((elf_iff f.content).1 h)
    have hl : look fs (path k) = .inr (path (k + 1)) := by
      simp [look, h1, h2, h3, he', show interpreter (f.content.take PATH_MAX) = some (path (k + 1)) from (C92_interpreter _ _).2 h4]
    simp [verify, hc k, hl, ih (k + 1)]

/-- **Finding: a tab does not end the path of the interpreter, nor is it skipped before it** (for Linux it does both): a path is looked for that has the tab in it. -/
theorem C92_tab (n : Nat) (i rest : List Nat) (hi : ∀ b ∈ i, b ≠ 32 ∧ b ≠ 10) :
    ∃ more, interpreter (35 :: 33 :: (List.replicate n 32 ++ i ++ 9 :: rest)) = some (i ++ 9 :: more) := by
  obtain ⟨w, tail, hw, _, hc, he⟩ := word_split rest
  refine ⟨w, (C92_interpreter _ _).2 ⟨n, tail, by simp [hw], ?_, ?_⟩⟩
  · intro b hb
    rcases List.mem_append.1 hb with h | h
    · exact hi b h
    · rcases List.mem_cons.1 h with rfl | h
      · exact ⟨by decide, by decide⟩
      · exact hc b h
  · exact he.imp id fun ⟨b, r, e, h⟩ => ⟨b, r, e, h.imp id fun h => ⟨h, by simp⟩⟩

/-! ## Examples -/

/-- `/s` is a script with the interpreter `/e`, a dynamically linked program; `/l` is a script that names itself. -/
def exFs : Fs := fun p =>
  if p = [47, 101] then .inr ⟨true, true, [127, 69, 76, 70, 2], true⟩
  else if p = [47, 115] then .inr ⟨true, true, [35, 33, 32, 47, 101, 32, 45, 120, 10, 65], false⟩
  else if p = [47, 108] then .inr ⟨true, true, [35, 33, 47, 108, 10], false⟩
  else if p = [47, 100] then .inr ⟨true, true, [35, 33, 47, 122, 10], false⟩
  else .inl .notFound

theorem ex_script : verify exFs 5 [] [47, 115] = some (none, [[47, 115], [47, 101]]) := by decide +kernel

theorem ex_missing : verify exFs 5 [[47, 101]] [47, 100] = some (some (.interpreter .notFound), [[47, 101]]) := by decide +kernel

theorem ex_checks : Checks exFs [[47, 115], [47, 101]] := .check .none ex_script

theorem ex_loop (n : Nat) : verify exFs n [] [47, 108] = none :=
  C92_loop (fun _ => [47, 108]) (by simp) (fun _ => ⟨_, rfl, rfl, rfl, 0, [10], rfl, by simp, .inr ⟨10, [], rfl, .inl rfl⟩⟩) n 0

end Shadow.Plugin
