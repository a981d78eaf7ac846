import Verif.Files.Inv
/-!
# The calls that change one table
-/
namespace Shadow.Files
open Shadow.Base

/-- The descriptors of a table, as a relation. -/
def fds (l : List (Nat × Desc)) : Fds := fun n d => (n, d) ∈ l

def KeysOk (l : List (Nat × Desc)) : Prop := (l.map (·.1)).Nodup ∧ ∀ e ∈ l, e.1 ≤ fdMax

/-- The effect of a call by thread `t` on its table. -/
structure Out (w : World) (t : Nat) (th : Thread) (tb : Table) (a : Act) (w' : World) (r : Ret) (l : List (Nat × Desc))
    (act : Option Nat) (m : Fds) : Prop where
  bal : Bal w' []
  tables : w'.tables = w.tables.set th.table (some { tb with descs := l })
  threads : w'.threads = w.threads.set t (some { th with active := act })
  files : w'.files.length = w.files.length + a.opens
  keys : KeysOk l
  does : Does w.files.length (fds tb.descs) a r m
  mem : ∀ n d, (n, d) ∈ l ↔ m n d
  pending : Pending (fds tb.descs) a r th.active act

variable {w : World} {t : Nat} {th : Thread} {tb : Table}

/-- What is known when a live thread makes a call. -/
structure Ctx (w : World) (t : Nat) (th : Thread) (tb : Table) : Prop where
  bal : Bal w []
  str : Str w
  thread : w.threads[t]? = some (some th)
  table : w.tables[th.table]? = some (some tb)

theorem Ctx.keys (c : Ctx w t th tb) : KeysOk tb.descs := c.str.keys c.table

theorem Ctx.setThread (c : Ctx w t th tb) : w.threads = w.threads.set t (some { th with active := th.active }) :=
  (set_same c.thread).symm

theorem Ctx.setTable (c : Ctx w t th tb) : w.tables = w.tables.set th.table (some { tb with descs := tb.descs }) :=
  (set_same c.table).symm

/-- A call that changes nothing. -/
theorem Ctx.same (c : Ctx w t th tb) {a : Act} {r : Ret} (ho : a.opens = 0) (hd : Does w.files.length (fds tb.descs) a r (fds tb.descs))
    (hu : ∀ t, a ≠ .unblock t) (hb : ∀ t o, a = .block t o → r = .ebadf) :
    Out w t th tb a w r tb.descs th.active (fds tb.descs) where
  bal := c.bal
  tables := c.setTable
  threads := c.setThread
  files := by simp [ho]
  keys := c.keys
  does := hd
  mem := fun _ _ => Iff.rfl
  pending := .other hu hb

theorem handle_iff {o : Int} {n : Nat} : handle o = some n ↔ o = Int.ofNat n ∧ n ≤ fdMax := by
  unfold handle
  split
  · simp only [Option.some.injEq, Int.ofNat_eq_natCast]
    omega
  · simp only [Int.ofNat_eq_natCast, reduceCtorEq, false_iff]
    omega

theorem Ctx.find (c : Ctx w t th tb) {o : Int} {d : Desc} (h : (handle o).bind (look tb.descs) = some d) :
    ∃ n, o = Int.ofNat n ∧ (n, d) ∈ tb.descs := by
  obtain ⟨n, hn, hl⟩ := Option.bind_eq_some_iff.1 h
  exact ⟨n, (handle_iff.1 hn).1, (look_iff c.keys.1).1 hl⟩

theorem Ctx.find_none (c : Ctx w t th tb) {o : Int} (h : (handle o).bind (look tb.descs) = none) :
    ∀ n, o = Int.ofNat n → (fds tb.descs).Free n := by
  intro n hn d hd
  have hh : handle o = some n := handle_iff.2 ⟨hn, c.keys.2 _ hd⟩
  rw [hh, Option.bind_some] at h
  exact look_none.1 h d hd

theorem fits_some {l : List (Nat × Desc)} {mn n : Nat} (h : fits l mn (some n) = true) : mn ≤ n ∧ n ≤ fdMax ∧ (fds l).Free n := by
  simp only [fits, Bool.and_eq_true, decide_eq_true_eq, Option.isNone_iff_eq_none] at h
  exact ⟨h.1.1, h.1.2, fun d hd => look_none.1 h.2 d hd⟩

theorem fits_none {l : List (Nat × Desc)} {mn : Nat} (h : fits l mn none = true) : ∀ n, mn ≤ n → n ≤ fdMax → ¬ (fds l).Free n := by
  intro n h1 h2 hf
  simp only [fits, List.all_eq_true, List.mem_range'_1] at h
  have := h n ⟨h1, by omega⟩
  rw [look_none.2 fun d hd => hf d hd] at this
  simp at this

theorem KeysOk.snoc {l : List (Nat × Desc)} (h : KeysOk l) {n : Nat} (hn : n ≤ fdMax) (hf : (fds l).Free n) (d : Desc) : KeysOk (l ++ [(n, d)]) := by
  refine ⟨nodup_snoc h.1 (fun d => hf d) d, ?_⟩
  intro e he
  rcases List.mem_append.1 he with he | he
  · exact h.2 e he
  · simp at he
    subst he
    exact hn

theorem KeysOk.filter {l : List (Nat × Desc)} (h : KeysOk l) (q : Nat × Desc → Bool) : KeysOk (l.filter q) :=
  ⟨nodup_filter h.1 q, fun e he => h.2 e (List.mem_filter.1 he).1⟩

theorem KeysOk.setFlag {l : List (Nat × Desc)} (h : KeysOk l) (q : Nat → Bool) (c : Bool) : KeysOk (setFlag l q c) := by
  refine ⟨by rw [keys_setFlag]; exact h.1, ?_⟩
  rintro ⟨n, d⟩ he
  rcases mem_setFlag.1 he with ⟨_, h'⟩ | ⟨_, x, h', _⟩
  · exact h.2 _ h'
  · exact h.2 (n, x) h'

theorem mem_snoc {l : List (Nat × Desc)} {n : Nat} (hf : (fds l).Free n) {x : Desc} (k : Nat) (d : Desc) :
    (k, d) ∈ l ++ [(n, x)] ↔ (fds l).put n x k d := by
  simp only [List.mem_append, List.mem_cons, List.not_mem_nil, or_false, Prod.mk.injEq, Fds.put]
  by_cases hk : k = n
  · subst hk
    simp only [true_and, if_true]
    constructor
    · rintro (h | h)
      · exact absurd h (hf d)
      · exact h
    · exact .inr
  · simp [hk, fds]

theorem tref_snoc (f : Nat) (l : List (Nat × Desc)) (rc n : Nat) (d : Desc) :
    tref f (some ⟨rc, l ++ [(n, d)]⟩) = tref f (some ⟨rc, l⟩) + [d.file].count f := by
  simp [tref, filesOf, List.count_append]

theorem out_create (c : Ctx w t th tb) {cx : Bool} {to : Option Nat} (hf : fits tb.descs 0 to = true) :
    ∃ w' r l x m, w.create th.table tb cx to = .ok (w', r) ∧ Out w t th tb (.create t cx to) w' r l x m := by
  cases to with
  | some n =>
    obtain ⟨_, hn, hfr⟩ := fits_some hf
    have b := c.bal.newFile
    refine ⟨_, _, tb.descs ++ [(n, ⟨w.files.length, cx⟩)], th.active, (fds tb.descs).put n ⟨w.files.length, cx⟩, rfl, ?_⟩
    constructor
    · exact b.setTable (k := th.table) (o := some tb) c.table fun f => by
        rw [tref_snoc]
        rfl
    · rfl
    · exact c.setThread
    · simp [World.setTable, Act.opens]
    · exact c.keys.snoc hn hfr _
    · exact .create hn hfr
    · exact mem_snoc hfr
    · exact .other (by simp) (by simp)
  | none =>
    obtain ⟨w', e, b, h1, h2, h3⟩ := Bal.release c.bal.newFile
    refine ⟨w', .enfile, tb.descs, th.active, fds tb.descs, by simp [World.create, e], ?_⟩
    constructor
    · exact b
    · rw [h1]
      exact c.setTable
    · rw [h2]
      exact c.setThread
    · rw [h3]
      simp [World.newFile, Act.opens]
    · exact c.keys
    · exact .createFull fun n hn => fits_none hf n (Nat.zero_le n) hn
    · exact fun _ _ => Iff.rfl
    · exact .other (by simp) (by simp)

theorem drop_snoc {l : List (Nat × Desc)} {n : Nat} (hf : (fds l).Free n) (d : Desc) : drop (l ++ [(n, d)]) n = l := by
  have : drop l n = l := by
    apply List.filter_eq_self.2
    rintro ⟨m, x⟩ he
    simp only [bne_iff_ne, ne_eq]
    rintro rfl
    exact hf x he
  simp only [drop] at this ⊢
  rw [List.filter_append, this]
  simp

theorem drop_pair {l : List (Nat × Desc)} {n k : Nat} (hf : (fds l).Free n) (hk : n ≠ k) (d e : Desc) :
    drop (l ++ [(n, d)] ++ [(k, e)]) n = l ++ [(k, e)] := by
  have := drop_snoc hf d
  simp only [drop] at this ⊢
  rw [List.filter_append, this]
  simp [Ne.symm hk]

theorem out_pair (c : Ctx w t th tb) {cx : Bool} {n k : Nat} (hn : fits tb.descs 0 (some n) = true) (hk : fits tb.descs 0 (some k) = true)
    (hnk : n ≠ k) (fault : Bool) :
    ∃ w' r l x m, w.pair th.table tb cx n k fault = .ok (w', r) ∧ Out w t th tb (.pair t cx n k fault) w' r l x m := by
  obtain ⟨_, hn1, hn2⟩ := fits_some hn
  obtain ⟨_, hk1, hk2⟩ := fits_some hk
  have b := c.bal.newFile.newFile
  have hlen : w.newFile.1.newFile.2 = w.files.length + 1 := by simp [World.newFile]
  have k1 := c.keys.snoc hn1 hn2 ⟨w.files.length, cx⟩
  have hk3 : (fds (tb.descs ++ [(n, ⟨w.files.length, cx⟩)])).Free k := by
    intro d hd
    rcases List.mem_append.1 hd with hd | hd
    · exact hk2 d hd
    · simp at hd
      exact hnk hd.1.symm
  have k2 := k1.snoc hk1 hk3 ⟨w.newFile.1.newFile.2, cx⟩
  cases fault with
  | false =>
    refine ⟨_, _, tb.descs ++ [(n, ⟨w.files.length, cx⟩)] ++ [(k, ⟨w.newFile.1.newFile.2, cx⟩)], th.active,
      ((fds tb.descs).put n ⟨w.files.length, cx⟩).put k ⟨w.files.length + 1, cx⟩, rfl, ?_⟩
    constructor
    · exact b.setTable (k := th.table) (o := some tb) c.table fun f => by
        rw [tref_snoc, tref_snoc]
        have e : tref f (some ⟨tb.rc, tb.descs⟩) = tref f (some tb) := rfl
        simp only [List.count_cons, List.count_nil, World.newFile, e]
        omega
    · rfl
    · exact c.setThread
    · simp [World.setTable, Act.opens]
    · exact k2
    · exact .pair hn1 hk1 hn2 hk2 hnk
    · intro j d
      rw [mem_snoc hk3, hlen]
      simp only [Fds.put]
      split
      · exact Iff.rfl
      · exact mem_snoc hn2 j d
    · exact .other (by simp) (by simp)
  | true =>
    have l1 : look (tb.descs ++ [(n, ⟨w.files.length, cx⟩)] ++ [(k, ⟨w.newFile.1.newFile.2, cx⟩)]) n = some ⟨w.files.length, cx⟩ :=
      (look_iff k2.1).2 (by simp)
    have d1 := drop_pair hn2 hnk ⟨w.files.length, cx⟩ ⟨w.newFile.1.newFile.2, cx⟩
    have l2 : look (tb.descs ++ [(k, ⟨w.newFile.1.newFile.2, cx⟩)]) k = some ⟨w.newFile.1.newFile.2, cx⟩ :=
      (look_iff (c.keys.snoc hk1 hk2 _).1).2 (by simp)
    have d2 := drop_snoc hk2 ⟨w.newFile.1.newFile.2, cx⟩
    have b' : Bal w.newFile.1.newFile.1 (w.files.length :: [w.newFile.1.newFile.2]) := b.perm fun f => by
      simp only [List.count_cons, List.count_nil, World.newFile]
      omega
    obtain ⟨w₁, e₁, b₁, t₁, h₁, s₁⟩ := b'.release
    obtain ⟨w₂, e₂, b₂, t₂, h₂, s₂⟩ := b₁.release
    refine ⟨w₂.setTable th.table (some { tb with descs := tb.descs }), .efault, tb.descs, th.active, fds tb.descs, ?_, ?_⟩
    · unfold World.pair
      simp only [if_true]
      have e0 : w.newFile.2 = w.files.length := rfl
      simp only [e0, l1, R.unwrap_some, R.bind_ok, e₁, d1, l2, e₂, d2]
    · have hw : w₂.tables[th.table]? = some (some tb) := by
        rw [t₂, t₁]
        exact c.table
      constructor
      · exact b₂.setTable (o := some tb) hw fun f => rfl
      · simp only [World.setTable]
        rw [t₂, t₁]
        rfl
      · simp only [World.setTable]
        rw [h₂, h₁]
        exact c.setThread
      · simp only [World.setTable]
        rw [s₂, s₁]
        simp [World.newFile, Act.opens]
      · exact c.keys
      · exact .pairFault
      · exact fun _ _ => Iff.rfl
      · exact .other (by simp) (by simp)

/-- A duplicate at a free number. -/
theorem out_dupTo (c : Ctx w t th tb) {a : Act} {d : Desc} {fd mn : Nat} (hd : (fd, d) ∈ tb.descs) {cx : Bool} {full : Ret} {to : Option Nat}
    (hf : fits tb.descs mn to = true) (ho : a.opens = 0) (hu : ∀ t, a ≠ .unblock t) (hb : ∀ t o, a ≠ .block t o)
    (h1 : ∀ n, to = some n → mn ≤ n → n ≤ fdMax → (fds tb.descs).Free n → Does w.files.length (fds tb.descs) a (.fd n) ((fds tb.descs).put n ⟨d.file, cx⟩))
    (h2 : to = none → (∀ n, mn ≤ n → n ≤ fdMax → ¬ (fds tb.descs).Free n) → Does w.files.length (fds tb.descs) a full (fds tb.descs)) :
    ∃ w' r l x m, w.dupTo th.table tb d cx full to = .ok (w', r) ∧ Out w t th tb a w' r l x m := by
  have b := c.bal.retain (f := d.file) (Nat.lt_of_lt_of_le (refs_table c.table hd) (Nat.le_add_right _ _))
  obtain ⟨s1, s2, s3⟩ := retain_same w d.file
  cases to with
  | some n =>
    obtain ⟨hn0, hn, hfr⟩ := fits_some hf
    refine ⟨_, _, tb.descs ++ [(n, ⟨d.file, cx⟩)], th.active, (fds tb.descs).put n ⟨d.file, cx⟩, rfl, ?_⟩
    constructor
    · exact b.setTable (k := th.table) (o := some tb) (by rw [s1]; exact c.table) fun f => by
        rw [tref_snoc]
        simp
    · simp only [World.setTable, s1]
    · simp only [World.setTable, s2]
      exact c.setThread
    · simp only [World.setTable, s3, ho]
      rfl
    · exact c.keys.snoc hn hfr _
    · exact h1 n rfl hn0 hn hfr
    · exact mem_snoc hfr
    · exact .other hu fun t o h => absurd h (hb t o)
  | none =>
    obtain ⟨w', e, b', r1, r2, r3⟩ := b.release
    refine ⟨w', full, tb.descs, th.active, fds tb.descs, by simp [World.dupTo, e], ?_⟩
    constructor
    · exact b'
    · rw [r1, s1]
      exact c.setTable
    · rw [r2, s2]
      exact c.setThread
    · rw [r3, s3, ho]
      rfl
    · exact c.keys
    · exact h2 rfl (fits_none hf)
    · exact fun _ _ => Iff.rfl
    · exact .other hu fun t o h => absurd h (hb t o)

theorem mem_over {l : List (Nat × Desc)} {n : Nat} {x : Desc} (k : Nat) (d : Desc) :
    (k, d) ∈ drop l n ++ [(n, x)] ↔ (fds l).put n x k d := by
  simp only [List.mem_append, mem_drop, List.mem_cons, List.not_mem_nil, or_false, Prod.mk.injEq, Fds.put]
  by_cases hk : k = n
  · simp [hk]
  · simp [hk, fds]

/-- A duplicate over whatever is at the number. -/
theorem out_dupOver (c : Ctx w t th tb) {a : Act} {d : Desc} {fd n : Nat} (hd : (fd, d) ∈ tb.descs) {cx : Bool}
    (hn : n ≤ fdMax) (ho : a.opens = 0) (hu : ∀ t, a ≠ .unblock t) (hb : ∀ t o, a ≠ .block t o)
    (h1 : Does w.files.length (fds tb.descs) a (.fd n) ((fds tb.descs).put n ⟨d.file, cx⟩)) :
    ∃ w' r l x m, w.dupOver th.table tb d cx n = .ok (w', r) ∧ Out w t th tb a w' r l x m := by
  have b := c.bal.retain (f := d.file) (Nat.lt_of_lt_of_le (refs_table c.table hd) (Nat.le_add_right _ _))
  obtain ⟨s1, s2, s3⟩ := retain_same w d.file
  have hfree : (fds (drop tb.descs n)).Free n := fun x hx => (mem_drop.1 hx).2 rfl
  have hkeys : KeysOk (drop tb.descs n ++ [(n, ⟨d.file, cx⟩)]) := (c.keys.filter _).snoc hn hfree _
  cases hl : look tb.descs n with
  | none =>
    have hdr : drop tb.descs n = tb.descs := by
      apply List.filter_eq_self.2
      rintro ⟨m, x⟩ he
      simp only [bne_iff_ne, ne_eq]
      rintro rfl
      exact look_none.1 hl x he
    refine ⟨_, _, drop tb.descs n ++ [(n, ⟨d.file, cx⟩)], th.active, (fds tb.descs).put n ⟨d.file, cx⟩,
      by simp only [World.dupOver, hl]; rfl, ?_⟩
    constructor
    · exact b.setTable (k := th.table) (o := some tb) (by rw [s1]; exact c.table) fun f => by
        rw [tref_snoc, hdr]
        simp
    · simp only [World.setTable, s1]
    · simp only [World.setTable, s2]
      exact c.setThread
    · simp only [World.setTable, s3, ho]
      rfl
    · exact hkeys
    · exact h1
    · exact mem_over
    · exact .other hu fun t o h => absurd h (hb t o)
  | some x =>
    have hx := (look_iff c.keys.1).1 hl
    have b₁ : Bal ((w.retain d.file).setTable th.table (some { tb with descs := drop tb.descs n ++ [(n, ⟨d.file, cx⟩)] })) [x.file] :=
      b.setTable (k := th.table) (o := some tb) (by rw [s1]; exact c.table) fun f => by
        rw [tref_snoc]
        have := count_drop c.keys.1 hx f
        simp only [tref] at this ⊢
        omega
    obtain ⟨w', e, b', r1, r2, r3⟩ := b₁.release
    refine ⟨w', .fd n, drop tb.descs n ++ [(n, ⟨d.file, cx⟩)], th.active, (fds tb.descs).put n ⟨d.file, cx⟩,
      by simp only [World.dupOver, hl, e, R.bind_ok], ?_⟩
    constructor
    · exact b'
    · rw [r1]
      simp only [World.setTable, s1]
    · rw [r2]
      simp only [World.setTable, s2]
      exact c.setThread
    · rw [r3]
      simp only [World.setTable, s3, ho]
      rfl
    · exact hkeys
    · exact h1
    · exact mem_over
    · exact .other hu fun t o h => absurd h (hb t o)

theorem out_dup2 (c : Ctx w t th tb) (o n : Int) :
    ∃ w' r l x m, w.dup2 th.table tb o n = .ok (w', r) ∧ Out w t th tb (.dup2 t o n) w' r l x m := by
  unfold World.dup2
  cases ho : handle o with
  | none => exact ⟨w, .ebadf, _, _, _, rfl, c.same rfl (.dup2Bad (.inl (c.find_none (by simp [ho])))) (by simp) (by simp)⟩
  | some i =>
    cases hn : handle n with
    | none =>
      refine ⟨w, .ebadf, _, _, _, rfl, c.same rfl (.dup2Bad (.inr fun k hk e => ?_)) (by simp) (by simp)⟩
      rw [handle_iff.2 ⟨e, hk⟩] at hn
      cases hn
    | some j =>
      simp only
      have h1 := handle_iff.1 ho
      have h2 := handle_iff.1 hn
      cases hl : look tb.descs i with
      | none => exact ⟨w, .ebadf, _, _, _, rfl, c.same rfl (.dup2Bad (.inl (c.find_none (by simp [ho, hl])))) (by simp) (by simp)⟩
      | some d =>
        have hd := (look_iff c.keys.1).1 hl
        simp only
        by_cases e : i = j
        · subst e
          have : o = n := by rw [h1.1, h2.1]
          subst this
          exact ⟨w, .fd i, _, _, _, by simp, c.same rfl (.dup2Same hd h1.1) (by simp) (by simp)⟩
        · simp only [e, if_false]
          exact out_dupOver c hd h2.2 rfl (by simp) (by simp) (.dup2 hd h1.1 h2.1 h2.2 e)

theorem out_dup3 (c : Ctx w t th tb) (o n : Int) (fl : Option Bool) :
    ∃ w' r l x m, w.dup3 th.table tb o n fl = .ok (w', r) ∧ Out w t th tb (.dup3 t o n fl) w' r l x m := by
  unfold World.dup3
  cases hl : (handle o).bind (look tb.descs) with
  | none => exact ⟨w, .ebadf, _, _, _, rfl, c.same rfl (.dup3Bad (.inl (c.find_none hl))) (by simp) (by simp)⟩
  | some d =>
    obtain ⟨i, hi, hd⟩ := c.find hl
    simp only
    by_cases e : o = n
    · exact ⟨w, .einval, _, _, _, by simp [e], c.same rfl (.dup3Inval hd hi (.inl e)) (by simp) (by simp)⟩
    · simp only [e, if_false]
      cases hn : handle n with
      | none =>
        refine ⟨w, .ebadf, _, _, _, rfl, c.same rfl (.dup3Bad (.inr ⟨e, fun k hk e => ?_⟩)) (by simp) (by simp)⟩
        rw [handle_iff.2 ⟨e, hk⟩] at hn
        cases hn
      | some j =>
        have h2 := handle_iff.1 hn
        cases fl with
        | none => exact ⟨w, .einval, _, _, _, rfl, c.same rfl (.dup3Inval hd hi (.inr ⟨rfl, j, h2.2, h2.1⟩)) (by simp) (by simp)⟩
        | some cx =>
          have : i ≠ j := by
            rintro rfl
            exact e (by rw [hi, h2.1])
          exact out_dupOver c hd h2.2 rfl (by simp) (by simp) (.dup3 hd hi h2.1 h2.2 this)

theorem out_close (c : Ctx w t th tb) (o : Int) :
    ∃ w' r l x m, w.close th.table tb o = .ok (w', r) ∧ Out w t th tb (.close t o) w' r l x m := by
  unfold World.close
  cases hl : (handle o).bind fun n => (look tb.descs n).map (n, ·) with
  | none =>
    refine ⟨w, .ebadf, _, _, _, rfl, c.same rfl (.closeBad (c.find_none ?_)) (by simp) (by simp)⟩
    cases ho : handle o with
    | none => rfl
    | some n => simpa [ho] using hl
  | some e =>
    obtain ⟨n, d⟩ := e
    obtain ⟨i, hi, hl⟩ := Option.bind_eq_some_iff.1 hl
    obtain ⟨x, hl2, he⟩ := Option.map_eq_some_iff.1 hl
    simp only [Prod.mk.injEq] at he
    obtain ⟨rfl, rfl⟩ := he
    have hx := (look_iff c.keys.1).1 hl2
    have b₁ : Bal (w.setTable th.table (some { tb with descs := drop tb.descs i })) [x.file] :=
      c.bal.setTable (k := th.table) (o := some tb) c.table fun f => by
        have := count_drop c.keys.1 hx f
        simp only [tref, List.count_nil] at this ⊢
        omega
    obtain ⟨w', e, b', r1, r2, r3⟩ := b₁.release
    refine ⟨w', .done, drop tb.descs i, th.active, (fds tb.descs).without (· = i), by simp only [e, R.bind_ok], ?_⟩
    constructor
    · exact b'
    · rw [r1]
      rfl
    · rw [r2]
      exact c.setThread
    · rw [r3]
      rfl
    · exact c.keys.filter _
    · exact .close hx (handle_iff.1 hi).1
    · exact fun _ _ => mem_drop
    · exact .other (by simp) (by simp)

theorem out_range (c : Ctx w t th tb) (i j : Nat) (fl : Option Bool) :
    ∃ w' r l x m, w.closeRange th.table tb i j fl = .ok (w', r) ∧ Out w t th tb (.closeRange t i j fl) w' r l x m := by
  unfold World.closeRange
  by_cases h1 : i > j
  · exact ⟨w, .einval, _, _, _, by simp [h1], c.same rfl (.rangeInval (.inl h1)) (by simp) (by simp)⟩
  simp only [h1, if_false]
  by_cases h2 : i > fdMax
  · exact ⟨w, .done, _, _, _, by simp [h2], c.same rfl (.rangeAbove (by omega) h2) (by simp) (by simp)⟩
  simp only [h2, if_false]
  match fl with
  | none => exact ⟨w, .einval, _, _, _, rfl, c.same rfl (.rangeInval (.inr ⟨by omega, rfl⟩)) (by simp) (by simp)⟩
  | some true =>
    refine ⟨_, .done, setFlag tb.descs (fun n => i ≤ n && n ≤ min j fdMax) true, th.active,
      (fds tb.descs).flagged (fun n => i ≤ n ∧ n ≤ j) true, rfl, ?_⟩
    constructor
    · exact c.bal.setTable (k := th.table) (o := some tb) c.table fun f => by
        simp only [tref, filesOf_setFlag]
    · rfl
    · exact c.setThread
    · rfl
    · exact c.keys.setFlag _ _
    · exact .rangeFlag (by omega) (by omega)
    · intro n d
      rw [mem_setFlag]
      simp only [Fds.flagged, fds, Bool.and_eq_false_iff, Bool.and_eq_true, decide_eq_true_eq, decide_eq_false_iff_not]
      constructor
      · rintro (⟨hq, hm⟩ | ⟨hq, x, hm, rfl⟩)
        · have := c.keys.2 _ hm
          simp only at this
          exact .inl ⟨by omega, hm⟩
        · exact .inr ⟨by omega, x, hm, rfl⟩
      · rintro (⟨hq, hm⟩ | ⟨hq, x, hm, rfl⟩)
        · exact .inl ⟨by omega, hm⟩
        · have := c.keys.2 _ hm
          simp only at this
          exact .inr ⟨by omega, x, hm, rfl⟩
    · exact .other (by simp) (by simp)
  | some false =>
    have b₁ : Bal (w.setTable th.table (some { tb with descs := tb.descs.filter fun e => !(i ≤ e.1 && e.1 ≤ min j fdMax) }))
        (filesOf (tb.descs.filter fun e => i ≤ e.1 && e.1 ≤ min j fdMax) ++ []) :=
      c.bal.setTable (k := th.table) (o := some tb) c.table fun f => by
        have := count_filter tb.descs (fun e => i ≤ e.1 && e.1 ≤ min j fdMax) f
        simp only [tref, List.count_nil, List.append_nil] at this ⊢
        omega
    obtain ⟨w', e, b', r1, r2, r3⟩ := b₁.releaseAll
    refine ⟨w', .done, tb.descs.filter fun e => !(i ≤ e.1 && e.1 ≤ min j fdMax), th.active,
      (fds tb.descs).without fun n => i ≤ n ∧ n ≤ j, by simp only [e, R.bind_ok], ?_⟩
    constructor
    · exact b'
    · rw [r1]
      rfl
    · rw [r2]
      exact c.setThread
    · rw [r3]
      rfl
    · exact c.keys.filter _
    · exact .range (by omega) (by omega)
    · intro n d
      simp only [List.mem_filter, Fds.without, fds, Bool.not_eq_true', Bool.and_eq_false_iff, decide_eq_false_iff_not]
      constructor
      · rintro ⟨hm, hq⟩
        have := c.keys.2 _ hm
        simp only at this
        exact ⟨hm, by omega⟩
      · rintro ⟨hm, hq⟩
        exact ⟨hm, by omega⟩
    · exact .other (by simp) (by simp)

theorem href_self (f : Nat) (th : Thread) : href f (some th) = th.active.toList.count f := by
  cases h : th.active with
  | none => simp [href, h]
  | some g => simp [href, h, List.count_cons]

/-- The end of a call that waited. -/
theorem leave_call {p : List Nat} {w : World} (b : Bal w p) (ht : w.threads[t]? = some (some th)) :
    ∃ w', w.leaveCall t th = .ok w' ∧ Bal w' p ∧ w'.tables = w.tables ∧
      w'.threads = w.threads.set t (some { th with active := none }) ∧ w'.files.length = w.files.length := by
  unfold World.leaveCall
  cases ha : th.active with
  | none =>
    refine ⟨w, rfl, b, rfl, ?_, rfl⟩
    have : ({ th with active := none } : Thread) = th := by rw [← ha]
    rw [this, set_same ht]
  | some f =>
    have b₁ : Bal (w.setThread t (some { th with active := none })) (f :: p) := b.setThread ht fun g => by
      rw [href_self, href_self, ha]
      simp only [Option.toList, List.count_cons, List.count_nil]
      omega
    obtain ⟨w', e, b', r1, r2, r3⟩ := b₁.release
    exact ⟨w', e, b', r1, r2, r3⟩

/-- Every call of a live thread that does not change the threads succeeds and does what its specification says. -/
theorem act_out (c : Ctx w t th tb) {a : Act} (hm : a.moves = false) (ha : a.thread = t) {o : R (World × Ret)} (h : w.act t th tb a = some o) :
    ∃ w' r l x m, o = .ok (w', r) ∧ Out w t th tb a w' r l x m := by
  cases a with
  | create t' cx to =>
    cases ha
    simp only [World.act] at h
    split at h
    · rename_i hf
      cases h
      exact out_create c hf
    · cases h
  | pair t' cx n k fault =>
    cases ha
    simp only [World.act] at h
    split at h
    · rename_i hf
      simp only [Bool.and_eq_true, bne_iff_ne] at hf
      cases h
      exact out_pair c hf.1.1 hf.1.2 hf.2 fault
    · cases h
  | dup t' fd to =>
    cases ha
    simp only [World.act] at h
    cases hl : (handle fd).bind (look tb.descs) with
    | none =>
      rw [hl] at h
      cases h
      exact ⟨w, .ebadf, _, _, _, rfl, c.same rfl (.dupBad (c.find_none hl)) (by simp) (by simp)⟩
    | some d =>
      obtain ⟨i, hi, hd⟩ := c.find hl
      rw [hl] at h
      simp only at h
      split at h
      · rename_i hf
        cases h
        refine out_dupTo c hd hf rfl (by simp) (by simp) ?_ ?_
        · rintro n rfl _ h1 h2
          exact .dup hd h1 h2 hi
        · rintro rfl h1
          exact .dupFull hd hi fun n hn => h1 n (Nat.zero_le n) hn
      · cases h
  | dup2 t' i j =>
    cases ha
    cases h
    exact out_dup2 c i j
  | dup3 t' i j fl =>
    cases ha
    cases h
    exact out_dup3 c i j fl
  | dupfd t' fd mn cx to =>
    cases ha
    simp only [World.act] at h
    cases hl : (handle fd).bind (look tb.descs) with
    | none =>
      rw [hl] at h
      cases h
      exact ⟨w, .ebadf, _, _, _, rfl, c.same rfl (.dupfdBad (c.find_none hl)) (by simp) (by simp)⟩
    | some d =>
      obtain ⟨i, hi, hd⟩ := c.find hl
      rw [hl] at h
      simp only at h
      split at h
      · rename_i hf
        cases h
        exact ⟨w, .einval, _, _, _, rfl, c.same rfl (.dupfdInval hd hi fun n h1 h2 => by omega) (by simp) (by simp)⟩
      split at h
      · rename_i hf
        cases h
        refine out_dupTo c hd hf rfl (by simp) (by simp) ?_ ?_
        · rintro n rfl h0 h1 h2
          exact .dupfd hd hi h0 h1 h2
        · rintro rfl h1
          exact .dupfdInval hd hi h1
      · cases h
  | getfd t' fd =>
    cases ha
    simp only [World.act] at h
    cases hl : (handle fd).bind (look tb.descs) with
    | none =>
      rw [hl] at h
      cases h
      exact ⟨w, .ebadf, _, _, _, rfl, c.same rfl (.getfdBad (c.find_none hl)) (by simp) (by simp)⟩
    | some d =>
      obtain ⟨i, hi, hd⟩ := c.find hl
      rw [hl] at h
      cases h
      exact ⟨w, _, _, _, _, rfl, c.same rfl (.getfd hd hi) (by simp) (by simp)⟩
  | setfd t' fd fl =>
    cases ha
    simp only [World.act] at h
    cases hl : (handle fd).bind fun n => (look tb.descs n).map fun _ => n with
    | none =>
      rw [hl] at h
      cases h
      refine ⟨w, .ebadf, _, _, _, rfl, c.same rfl (.setfdBad (c.find_none ?_)) (by simp) (by simp)⟩
      cases ho : handle fd with
      | none => rfl
      | some n => simpa [ho] using hl
    | some n =>
      rw [hl] at h
      obtain ⟨i, hi, hl⟩ := Option.bind_eq_some_iff.1 hl
      obtain ⟨x, hl2, rfl⟩ := Option.map_eq_some_iff.1 hl
      have hx := (look_iff c.keys.1).1 hl2
      have hi := (handle_iff.1 hi).1
      cases fl with
      | none =>
        cases h
        exact ⟨w, _, _, _, _, rfl, c.same rfl (.setfdInval hx hi) (by simp) (by simp)⟩
      | some cx =>
        cases h
        refine ⟨_, .done, setFlag tb.descs (· == i) cx, th.active, (fds tb.descs).flagged (· = i) cx, rfl, ?_⟩
        constructor
        · exact c.bal.setTable (k := th.table) (o := some tb) c.table fun f => by
            simp only [tref, filesOf_setFlag]
        · rfl
        · exact c.setThread
        · rfl
        · exact c.keys.setFlag _ _
        · exact .setfd hx hi
        · intro n d
          rw [mem_setFlag]
          simp [Fds.flagged, fds]
        · exact .other (by simp) (by simp)
  | close t' fd =>
    cases ha
    cases h
    exact out_close c fd
  | closeRange t' i j fl =>
    cases ha
    cases h
    exact out_range c i j fl
  | block t' fd =>
    cases ha
    simp only [World.act] at h
    cases hx : th.active with
    | some g =>
      rw [hx] at h
      cases h
    | none =>
      rw [hx] at h
      cases hl : (handle fd).bind (look tb.descs) with
      | none =>
        rw [hl] at h
        cases h
        exact ⟨w, .ebadf, _, _, _, rfl, c.same rfl (.blockBad (c.find_none hl)) (by simp) (by simp)⟩
      | some d =>
        obtain ⟨i, hi, hd⟩ := c.find hl
        rw [hl] at h
        cases h
        have b := c.bal.retain (f := d.file) (Nat.lt_of_lt_of_le (refs_table c.table hd) (Nat.le_add_right _ _))
        obtain ⟨s1, s2, s3⟩ := retain_same w d.file
        refine ⟨_, .done, tb.descs, some d.file, fds tb.descs, rfl, ?_⟩
        constructor
        · refine b.setThread (o := some th) (by rw [s2]; exact c.thread) fun f => ?_
          rw [href_self, href_self, hx]
          simp [Option.toList]
        · simp only [World.setThread, s1]
          exact c.setTable
        · simp only [World.setThread, s2]
        · simp only [World.setThread, s3]
          rfl
        · exact c.keys
        · exact .block hd hi
        · exact fun _ _ => Iff.rfl
        · rw [hx]
          exact .block hd hi
  | unblock t' =>
    cases ha
    simp only [World.act] at h
    cases hx : th.active with
    | none =>
      rw [hx] at h
      cases h
    | some g =>
      rw [hx] at h
      cases h
      obtain ⟨w', e, b, r1, r2, r3⟩ := leave_call c.bal c.thread
      refine ⟨w', .done, tb.descs, none, fds tb.descs, by simp [World.leaveCall] at e ⊢; simp [e, R.bind], ?_⟩
      constructor
      · exact b
      · rw [r1]
        exact c.setTable
      · exact r2
      · rw [r3]
        rfl
      · exact c.keys
      · exact .unblock
      · exact fun _ _ => Iff.rfl
      · rw [hx]
        exact .unblock
  | clone t' s => cases hm
  | exec t' => cases hm
  | exit t' => cases hm

end Shadow.Files
