import Verif.Uio.Model
/-!
# C96: a call to read or write goes to the file that its descriptor named when it was made
-/
namespace Shadow.Uio

variable {E : Type}

/-! ## Which file -/

theorem lookup_filter_self {A : Type} (t : Nat) (w : List (Nat × A)) : List.lookup t (w.filter (·.1 ≠ t)) = none := by
  induction w with
  | nil => rfl
  | cons a l ih =>
    obtain ⟨k, x⟩ := a
    by_cases e : k = t
    · simp [e]; simpa using ih
    · have : (t == k) = false := by simp; omega
      simp [e, List.lookup_cons, this]; simpa using ih

theorem lookup_filter_ne {A : Type} (t u : Nat) (h : t ≠ u) (w : List (Nat × A)) : List.lookup t (w.filter (·.1 ≠ u)) = List.lookup t w := by
  induction w with
  | nil => rfl
  | cons a l ih =>
    obtain ⟨k, x⟩ := a
    by_cases e : k = u
    · have : (t == k) = false := by simp; omega
      simp [e, List.lookup_cons]
      rw [← e, this]
      simpa [e] using ih
    · simp only [List.filter_cons, e, ne_eq, not_false_eq_true, decide_true, if_true, List.lookup_cons]
      cases (t == k)
      · simpa using ih
      · rfl

theorem lookup_setWait_self (w : List (Nat × Call × Nat)) (t : Nat) (c : Call) (a : Option Nat) : List.lookup t (setWait w t c a) = a.map (fun f => (c, f)) := by
  unfold setWait
  cases a with
  | none => exact lookup_filter_self t w
  | some f => simp

theorem lookup_setWait_ne (w : List (Nat × Call × Nat)) (t u : Nat) (c : Call) (a : Option Nat) (h : t ≠ u) : List.lookup t (setWait w u c a) = List.lookup t w := by
  unfold setWait
  have hb : (t == u) = false := by simpa using h
  cases a with
  | none => exact lookup_filter_ne t u h w
  | some f => simp only [List.lookup_cons, hb]; exact lookup_filter_ne t u h w

/-- If the thread waits, it waits with this call for this file. -/
def Only (s : State E) (t : Nat) (c : Call) (f : Nat) : Prop := ∀ p, List.lookup t s.waits = some p → p = (c, f)

theorem handle_active (W : World E) (e : E) (tb : Table) (f : Nat) (c : Call) :
    (handle W e tb (some f) c).1 = (attempt W e c.write f c.form).1 ∧ (handle W e tb (some f) c).2.1 = (attempt W e c.write f c.form).2 ∧
    ∀ g, (handle W e tb (some f) c).2.2 = some g → g = f ∧ (attempt W e c.write f c.form).2 = .block := by
  refine ⟨rfl, rfl, ?_⟩
  intro g h
  simp only [handle] at h
  split at h
  · rename_i hb; simp at h; exact ⟨h.symm, hb⟩
  · cases h

theorem only_step (W : World E) (s : State E) (t : Nat) (c : Call) (f : Nat) (ev : Ev E) (hn : ∀ c', ev ≠ .call t c') (h : Only s t c f) : Only (step W s ev).1 t c f := by
  intro p hp
  simp only [step] at hp
  cases ev with
  | call u c' =>
    have hu : t ≠ u := by intro e; exact hn c' (by rw [e])
    simp only [act, lookup_setWait_ne _ _ _ _ _ hu] at hp
    exact h p hp
  | resume u =>
    simp only [act] at hp
    cases hl : List.lookup u s.waits with
    | none => rw [hl] at hp; exact h p hp
    | some q =>
      obtain ⟨c', f'⟩ := q
      rw [hl] at hp
      simp only at hp
      by_cases hu : t = u
      · subst hu
        rw [lookup_setWait_self] at hp
        obtain ⟨g, hg, rfl⟩ := Option.map_eq_some_iff.1 hp
        have := (handle_active W s.env s.table f' c').2.2 g hg
        rw [this.1]
        exact h _ hl
      · rw [lookup_setWait_ne _ _ _ _ _ hu] at hp
        exact h p hp
  | interrupt u =>
    simp only [act] at hp
    cases hl : List.lookup u s.waits with
    | none => rw [hl] at hp; exact h p hp
    | some q =>
      rw [hl] at hp
      simp only at hp
      by_cases hu : t = u
      · subst hu
        rw [lookup_filter_self] at hp
        cases hp
      · rw [lookup_filter_ne _ _ hu] at hp
        exact h p hp
  | close fd => exact h p hp
  | install fd g => exact h p hp
  | env e => exact h p hp

theorem only_run (W : World E) (t : Nat) (c : Call) (f : Nat) (evs : List (Ev E)) : ∀ s : State E, (∀ c', .call t c' ∉ evs) → Only s t c f → Only (run W s evs) t c f := by
  induction evs with
  | nil => intro s _ h; exact h
  | cons ev l ih =>
    intro s hn h
    refine ih _ (fun c' hm => hn c' (List.mem_cons_of_mem _ hm)) (only_step W s t c f ev ?_ h)
    intro c' e
    exact hn c' (by simp [e])

/-- **C96.** A call is made on the file that its descriptor names. Whatever happens while it waits (the descriptor is closed, or refers to another file), each time the thread is resumed it goes on with that file, its
answer is what that file gives then, and nothing else is touched; or else the call has already ended. -/
theorem C96_same_file (W : World E) (s : State E) (t : Nat) (c : Call) (f : Nat) (hf : lookup s.table c.fd = some f) (hk : W.kind f ≠ .legacy) (evs : List (Ev E)) (hn : ∀ c', .call t c' ∉ evs) :
    let r := step W s (.call t c)
    r.2 = some (attempt W s.env c.write f c.form).2 ∧ r.1.env = (attempt W s.env c.write f c.form).1 ∧
    (let s2 := run W r.1 evs
     let q := step W s2 (.resume t)
     (List.lookup t s2.waits = none ∧ q.2 = none ∧ q.1.env = s2.env) ∨
     (List.lookup t s2.waits = some (c, f) ∧ q.2 = some (attempt W s2.env c.write f c.form).2 ∧ q.1.env = (attempt W s2.env c.write f c.form).1)) := by
  intro r
  have h0 : handle W s.env s.table none c = ((attempt W s.env c.write f c.form).1, (attempt W s.env c.write f c.form).2, if (attempt W s.env c.write f c.form).2 = .block then some f else none) := by
    simp [handle, hf, hk]
  refine ⟨by simp [r, step, act, h0], by simp [r, step, act, h0], ?_⟩
  intro s2 q
  have honly : Only s2 t c f := by
    refine only_run W t c f evs r.1 hn ?_
    intro p hp
    simp only [r, step, act, h0, lookup_setWait_self] at hp
    obtain ⟨g, hg, rfl⟩ := Option.map_eq_some_iff.1 hp
    split at hg
    · cases hg; rfl
    · cases hg
  cases hl : List.lookup t s2.waits with
  | none => left; simp [q, step, act, hl]
  | some p =>
    right
    have := honly p hl
    subst this
    simp only [q, step, act, hl]
    exact ⟨trivial, rfl, rfl⟩

/-- **C96.** A thread waits after a call exactly if the answer says so. -/
theorem C96_waits (W : World E) (s : State E) (t : Nat) (c : Call) (f : Nat) (hf : lookup s.table c.fd = some f) (hk : W.kind f ≠ .legacy) :
    List.lookup t (step W s (.call t c)).1.waits = if (attempt W s.env c.write f c.form).2 = .block then some (c, f) else none := by
  simp only [step, act, lookup_setWait_self, handle, hf, hk, if_false]
  split <;> rfl

/-- **C96.** A descriptor that does not exist is refused, and nothing happens. -/
theorem C96_badf (W : World E) (s : State E) (t : Nat) (c : Call) (hf : lookup s.table c.fd = none) :
    (step W s (.call t c)).2 = some (.err .EBADF) ∧ (step W s (.call t c)).1.env = s.env := by
  simp [step, act, handle, hf]

/-! ## When files are closed -/

/-- Only files that are not closed get descriptors, and only threads that do not wait make calls. -/
def Allowed (s : State E) : Ev E → Prop
  | .call t _ => List.lookup t s.waits = none
  | .install _ f => f ∉ s.closed
  | _ => True

def AllAllowed (W : World E) (s : State E) : List (Ev E) → Prop
  | [] => True
  | ev :: l => Allowed s ev ∧ AllAllowed W (step W s ev).1 l

/-- A call that waits or a descriptor refers to the file. -/
def Used (s : State E) (f : Nat) : Prop := (∃ fd, (fd, f) ∈ s.table) ∨ ∃ t c, (t, c, f) ∈ s.waits

theorem mem_refs (s : State E) (f : Nat) : f ∈ refs s ↔ Used s f := by
  simp only [refs, Used, List.mem_append, List.mem_map, Prod.exists]
  constructor
  · rintro (⟨a, b, h, rfl⟩ | ⟨a, b, c, h, rfl⟩)
    · exact .inl ⟨a, h⟩
    · exact .inr ⟨a, b, h⟩
  · rintro (⟨a, h⟩ | ⟨a, b, h⟩)
    · exact .inl ⟨a, f, h, rfl⟩
    · exact .inr ⟨a, b, f, h, rfl⟩

theorem mem_setWait {w : List (Nat × Call × Nat)} {t u : Nat} {c d : Call} {a : Option Nat} {f : Nat} (h : (u, d, f) ∈ setWait w t c a) : (u, d, f) ∈ w ∨ a = some f := by
  unfold setWait at h
  cases a with
  | none => simp at h; exact .inl h.1
  | some g =>
    simp at h
    rcases h with ⟨_, _, rfl⟩ | h
    · exact .inr rfl
    · exact .inl h.1

theorem lookup_mem {A : Type} {k : Nat} {x : A} {l : List (Nat × A)} (h : List.lookup k l = some x) : (k, x) ∈ l := by
  induction l with
  | nil => cases h
  | cons a l ih =>
    obtain ⟨k', y⟩ := a
    rw [List.lookup_cons] at h
    cases hb : (k == k') with
    | true => rw [hb] at h; simp at h hb; subst h hb; simp
    | false => rw [hb] at h; exact List.mem_cons_of_mem _ (ih h)

theorem nodup_eraseDups (n : Nat) : ∀ l : List Nat, l.length ≤ n → l.eraseDups.Nodup := by
  induction n with
  | zero => intro l h; have : l = [] := List.eq_nil_of_length_eq_zero (by omega); subst this; simp
  | succ n ih =>
    intro l h
    cases l with
    | nil => simp
    | cons a l =>
      rw [List.eraseDups_cons, List.nodup_cons]
      refine ⟨by simp [List.mem_eraseDups], ih _ ?_⟩
      have := List.length_filter_le (fun b => !b == a) l
      simp at h
      omega

/-- New references come from old ones, or from a new descriptor. -/
theorem used_act (W : World E) (s : State E) (ev : Ev E) (f : Nat) (h : Used (act W s ev).1 f) : Used s f ∨ ∃ fd, ev = .install fd f := by
  cases ev with
  | call t c =>
    rcases h with ⟨fd, h⟩ | ⟨u, d, h⟩
    · exact .inl (.inl ⟨fd, h⟩)
    · left
      rcases mem_setWait h with h | h
      · exact .inr ⟨u, d, h⟩
      · left
        unfold handle at h
        simp only at h
        unfold lookup at h
        split at h
        · simp at h
        · rename_i g hg
          split at hg
          · cases hg
          · split at h
            · simp at h
            · simp only at h
              split at h
              · cases h; exact ⟨_, lookup_mem hg⟩
              · cases h
  | resume t =>
    simp only [act] at h
    cases hl : List.lookup t s.waits with
    | none => rw [hl] at h; exact .inl h
    | some q =>
      obtain ⟨c, g⟩ := q
      rw [hl] at h
      left
      rcases h with ⟨fd, h⟩ | ⟨u, d, h⟩
      · exact .inl ⟨fd, h⟩
      · rcases mem_setWait h with h | h
        · exact .inr ⟨u, d, h⟩
        · have := (handle_active W s.env s.table g c).2.2 f h
          rw [this.1]
          exact .inr ⟨t, c, lookup_mem hl⟩
  | interrupt t =>
    simp only [act] at h
    cases hl : List.lookup t s.waits with
    | none => rw [hl] at h; exact .inl h
    | some q =>
      rw [hl] at h
      left
      rcases h with ⟨fd, h⟩ | ⟨u, d, h⟩
      · exact .inl ⟨fd, h⟩
      · simp at h; exact .inr ⟨u, d, h.1⟩
  | close fd =>
    left
    rcases h with ⟨fd', h⟩ | h
    · simp [act] at h; exact .inl ⟨fd', h.1⟩
    · exact .inr h
  | install fd g =>
    rcases h with ⟨fd', h⟩ | h
    · simp [act] at h
      rcases h with ⟨_, rfl⟩ | h
      · exact .inr ⟨fd, rfl⟩
      · exact .inl (.inl ⟨fd', h.1⟩)
    · exact .inl (.inr h)
  | env e => exact .inl h

theorem closed_step (W : World E) (s : State E) (ev : Ev E) (f : Nat) : f ∈ (step W s ev).1.closed ↔ f ∈ s.closed ∨ (Used s f ∧ ¬ Used (step W s ev).1 f) := by
  have e : Used (step W s ev).1 f ↔ Used (act W s ev).1 f := by rfl
  rw [e, ← mem_refs, ← mem_refs]
  simp only [step, List.mem_append, List.mem_filter, List.mem_eraseDups, Bool.not_eq_true', List.contains_iff_mem, ← Bool.not_eq_true]
  exact Or.comm

/-- **C96.** In every execution: no file is closed while a descriptor or a waiting call refers to it; every file that ever had a descriptor is closed when none does; and none is closed twice. -/
theorem C96_closed (W : World E) (e : E) (evs : List (Ev E)) (ha : AllAllowed W ⟨e, [], [], []⟩ evs) :
    let s := run W ⟨e, [], [], []⟩ evs
    (∀ f, Used s f → f ∉ s.closed) ∧ (∀ fd f, .install fd f ∈ evs → Used s f ∨ f ∈ s.closed) ∧ s.closed.Nodup := by
  have gen : ∀ (evs : List (Ev E)) (s : State E), (∀ f, Used s f → f ∉ s.closed) → s.closed.Nodup → AllAllowed W s evs →
      (∀ f, Used (run W s evs) f → f ∉ (run W s evs).closed) ∧ (run W s evs).closed.Nodup ∧
      (∀ f, Used s f ∨ f ∈ s.closed → Used (run W s evs) f ∨ f ∈ (run W s evs).closed) ∧ (∀ fd f, .install fd f ∈ evs → Used (run W s evs) f ∨ f ∈ (run W s evs).closed) := by
    intro evs
    induction evs with
    | nil => intro s h1 h2 _; exact ⟨h1, h2, fun f h => h, fun _ _ h => by cases h⟩
    | cons ev l ih =>
      intro s h1 h2 ha
      obtain ⟨ha1, ha2⟩ := ha
      have g1 : ∀ f, Used (step W s ev).1 f → f ∉ (step W s ev).1.closed := by
        intro f hu hc
        rw [closed_step] at hc
        rcases hc with hc | hc
        · rcases used_act W s ev f hu with h | ⟨fd, rfl⟩
          · exact h1 f h hc
          · exact ha1 hc
        · exact hc.2 hu
      have g2 : (step W s ev).1.closed.Nodup := by
        simp only [step]
        rw [List.nodup_append]
        refine ⟨(nodup_eraseDups _ (refs s) (Nat.le_refl _)).filter _, h2, ?_⟩
        intro a ha b hb e
        subst e
        simp only [List.mem_filter, List.mem_eraseDups] at ha
        exact h1 a ((mem_refs s a).1 ha.1) hb
      have g3 : ∀ f, Used s f ∨ f ∈ s.closed → Used (step W s ev).1 f ∨ f ∈ (step W s ev).1.closed := by
        intro f h
        rw [closed_step]
        by_cases hu : Used (step W s ev).1 f
        · exact .inl hu
        · rcases h with h | h
          · exact .inr (.inr ⟨h, hu⟩)
          · exact .inr (.inl h)
      obtain ⟨a, b, c, d⟩ := ih _ g1 g2 ha2
      refine ⟨a, b, fun f h => c f (g3 f h), ?_⟩
      intro fd f hm
      rcases List.mem_cons.1 hm with rfl | hm
      · exact c f (.inl (.inl ⟨fd, by simp [step, act]⟩))
      · exact d fd f hm
  obtain ⟨a, b, _, d⟩ := gen evs ⟨e, [], [], []⟩ (fun f _ => by simp) (by simp) ha
  exact ⟨a, d, b⟩

/-! ## The forms agree -/

/-- **C96.** `preadv2` and `pwritev2` at offset -1 are `readv` and `writev`. -/
theorem C96_current (W : World E) (e : E) (wr : Bool) (f ptr : Nat) (cnt : Int) (fl : Nat) : attempt W e wr f (.vecAt2 ptr cnt (-1) fl) = attempt W e wr f (.vec ptr cnt) := by
  simp [attempt]

/-- **C96.** `readv` and `writev` with one buffer are `read` and `write`, with an offset `pread64` and `pwrite64`. -/
theorem C96_single (W : World E) (e : E) (wr : Bool) (f ptr p l : Nat) (h : W.iovs e ptr 1 = .ok [(p, l)]) (off : Int) (ho : 0 ≤ off) (fl : Nat) :
    attempt W e wr f (.vec ptr 1) = attempt W e wr f (.one p l) ∧ attempt W e wr f (.vecAt ptr 1 off) = attempt W e wr f (.oneAt p l off) ∧
    attempt W e wr f (.vecAt2 ptr 1 off fl) = attempt W e wr f (.oneAt p l off) := by
  have h1 : getVec W e ptr 1 = .ok [(p, l)] := by simpa [getVec] using h
  have h2 : ¬ off < 0 := by omega
  have h3 : ¬ off = -1 := by omega
  simp [attempt, withVec, h1, h2, h3]

/-- What a file that is not a regular one answers to an offset. -/
def noSeek (k : Kind) (wr : Bool) : Errno :=
  match k, wr with
  | .epoll, _ => .EINVAL
  | .timerfd, true => .EINVAL
  | _, _ => .ESPIPE

/-- **C96.** No such file takes an offset; nothing is read or written. Negative offsets, except -1 for the second versions, and bad counts are refused. -/
theorem C96_offset (W : World E) (e : E) (wr : Bool) (f ptr : Nat) (cnt off : Int) (fl : Nat) :
    (0 ≤ off → 0 ≤ cnt → cnt ≤ 1024 → ∀ v, W.iovs e ptr cnt.toNat = .ok v →
      attempt W e wr f (.vecAt ptr cnt off) = (e, .err (noSeek (W.kind f) wr)) ∧ attempt W e wr f (.vecAt2 ptr cnt off fl) = (e, .err (noSeek (W.kind f) wr))) ∧
    (∀ len, attempt W e wr f (.oneAt ptr len off) = (e, .err (noSeek (W.kind f) wr))) ∧
    (off < 0 → attempt W e wr f (.vecAt ptr cnt off) = (e, .err .EINVAL)) ∧
    (off < -1 → attempt W e wr f (.vecAt2 ptr cnt off fl) = (e, .err .EINVAL)) ∧
    (cnt < 0 ∨ 1024 < cnt → attempt W e wr f (.vec ptr cnt) = (e, .err .EINVAL) ∧ attempt W e wr f (.vecAt ptr cnt off) = (e, .err .EINVAL) ∧
      attempt W e wr f (.vecAt2 ptr cnt off fl) = (e, .err .EINVAL)) := by
  have key : ∀ v o, helper W e wr f v (some o) = (e, .err (noSeek (W.kind f) wr)) := by
    intro v o
    unfold helper fileIo noSeek
    cases hk : W.kind f <;> cases wr <;> simp
  refine ⟨?_, fun len => key _ _, ?_, ?_, ?_⟩
  · intro h1 h2 h3 v hv
    have a : ¬ off < 0 := by omega
    have b : ¬ off = -1 := by omega
    have c : ¬ cnt < 0 := by omega
    have d : ¬ cnt > 1024 := by omega
    simp [attempt, withVec, getVec, a, b, c, d, hv, key]
  · intro h; simp [attempt, h]
  · intro h
    have a : off < 0 := by omega
    have b : ¬ off = -1 := by omega
    simp [attempt, a, b]
  · intro h
    have hv : getVec W e ptr cnt = .error .EINVAL := by
      unfold getVec
      rcases h with h | h
      · simp [h]
      · have : ¬ cnt < 0 := by omega
        simp [this, h]
    simp [attempt, withVec, hv]

/-- **C96.** A read or write of a pipe or event counter, or a read of a timer, waits exactly if the file answers that it would block and is in blocking mode; otherwise the answer is the file's own. -/
theorem C96_blocks (W : World E) (e : E) (wr : Bool) (f p l : Nat) (hs : W.kind f = .pipe ∨ W.kind f = .eventfd ∨ W.kind f = .timerfd ∧ wr = false) (hw : (W.file e wr f [(p, l)]).2 ≠ .block) :
    ((attempt W e wr f (.one p l)).2 = .block ↔ (W.file e wr f [(p, l)]).2 = .err .EWOULDBLOCK ∧ W.nonblock e f = false) ∧
    (attempt W e wr f (.one p l)).1 = (W.file e wr f [(p, l)]).1 ∧
    ((attempt W e wr f (.one p l)).2 ≠ .block → attempt W e wr f (.one p l) = W.file e wr f [(p, l)]) := by
  have key : attempt W e wr f (.one p l) = if (W.file e wr f [(p, l)]).2 = .err .EWOULDBLOCK ∧ W.nonblock e f = false then ((W.file e wr f [(p, l)]).1, .block) else W.file e wr f [(p, l)] := by
    rcases hs with hs | hs | hs <;> simp [attempt, helper, fileIo, hs]
  rw [key]
  split
  · rename_i h; simp [h]
  · rename_i h; simp [h, hw]

/-- **C96.** Reading nothing from a socket succeeds without looking at it. -/
theorem C96_empty (W : World E) (e : E) (f p : Nat) (hs : W.kind f = .socket) : attempt W e false f (.one p 0) = (e, .ok 0) := by
  simp [attempt, helper, hs, total]

/-! ## Cases and findings -/

/-- Files 1 and 2 are pipes and file 3 a socket; the environment counts the bytes in the pipes. -/
def exW : World (Nat × Nat) where
  kind f := if f = 3 then .socket else .pipe
  nonblock _ _ := false
  iovs _ ptr cnt := .ok (List.replicate cnt (ptr, 4))
  file e wr f v :=
    let n := total v
    if wr then (if f = 1 then (e.1 + n, e.2) else (e.1, e.2 + n), .ok n)
    else if f = 1 then (if e.1 = 0 then (e, .err .EWOULDBLOCK) else ((e.1 - n, e.2), .ok (min n e.1)))
    else (if e.2 = 0 then (e, .err .EWOULDBLOCK) else ((e.1, e.2 - n), .ok (min n e.2)))
  sock e _ _ _ := (e, .block)
  legacy e _ _ := (e, .ok 0)

def rd (fd : Int) : Call := ⟨false, fd, .one 0 4⟩

/-- A thread reads from descriptor 5, which is closed and given to another pipe with data; the thread gets what arrives in the first one, which is closed after that. -/
def exEvs : List (Ev (Nat × Nat)) := [.install 5 1, .call 9 (rd 5), .close 5, .install 5 2, .env (0, 7), .resume 9]

theorem ex_wait : (run exW ⟨(0, 0), [], [], []⟩ exEvs).waits = [(9, rd 5, 1)] ∧ (run exW ⟨(0, 0), [], [], []⟩ exEvs).closed = [] := by decide +kernel

theorem ex_done : (step exW (run exW ⟨(0, 0), [], [], []⟩ (exEvs ++ [.env (3, 7)])) (.resume 9)).2 = some (.ok 3) ∧
    (step exW (run exW ⟨(0, 0), [], [], []⟩ (exEvs ++ [.env (3, 7)])) (.resume 9)).1.closed = [1] := by decide +kernel

example : AllAllowed exW ⟨(0, 0), [], [], []⟩ exEvs := by
  refine ⟨?_, ?_, ?_, ?_, ?_, ?_, ?_⟩ <;> simp only [Allowed, AllAllowed] <;> decide +kernel

/-- **C96, finding.** The flags of `preadv2` and `pwritev2` are ignored: a read that must not wait (`RWF_NOWAIT`, 8) waits, and unknown flags are taken. -/
theorem C96_flags (W : World E) (e : E) (wr : Bool) (f ptr : Nat) (cnt off : Int) (fl fl' : Nat) : attempt W e wr f (.vecAt2 ptr cnt off fl) = attempt W e wr f (.vecAt2 ptr cnt off fl') := by
  simp [attempt]

theorem C96_nowait : (attempt exW (0, 0) false 1 (.vecAt2 0 1 (-1) 8)).2 = .block := by decide +kernel

/-- **C96, finding.** A negative offset is `EINVAL` for `preadv`, but `ESPIPE` for `pread64`. -/
theorem C96_negative : (attempt exW (0, 0) false 1 (.vecAt 0 1 (-5))).2 = .err .EINVAL ∧ (attempt exW (0, 0) false 1 (.oneAt 0 4 (-5))).2 = .err .ESPIPE := by decide +kernel

end Shadow.Uio
