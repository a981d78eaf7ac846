import Verif.Pool.BoundedProps

/-!
# The thread pool of the thread-per-host scheduler: its functions return
-/
namespace Shadow.Pool.Bounded

open Shadow.Base Shadow.Latch

/-- What is left of `start_next_thread`, with `P` processors. -/
def Sub.left (P : Nat) : Sub → Nat
  | .seek k => P - k + 5
  | .push .. => 4
  | .assign .. => 3
  | .flag _ => 2
  | .unpark _ => 1

/-- What a thread still has to do; `owed` tells that it has yet to run the last task, or to end. -/
def TPc.left (P : Nat) (owed : Bool) : TPc → Nat
  | .notifying => if owed then P + 16 else 1
  | .park => if owed then P + 15 else 0
  | .check => if owed then P + 14 else 0
  | .got => P + 13
  | .load => P + 12
  | .look _ => P + 11
  | .running _ => P + 10
  | .starting _ _ sub => sub.left P + 4
  | .poisoning => 3
  | .counting => 2
  | .exiting => 2
  | .gone => 0

/-- What the main thread still has to do in the pool, with `n` threads and `P` processors. -/
def MPc.left (n P : Nat) : MPc → Nat
  | .setting => (P + 1) * (P + 6)
  | .starting k sub => (P - k) * (P + 6) + sub.left P
  | .ending => 6
  | .waiting => 5
  | .passed => 4
  | .clearing => 3
  | .resetting => 2
  | .checking => 1
  | .unparking _ k half => 2 * (n - k) + (if half then 0 else 1) + n + 3
  | .joining _ k => n - k + 1
  | _ => 0

def St.owed (s : St) (i : Nat) : Bool := s.main.joined || decide ((s.ran i).length < s.issued.length)

def St.threadLeft (s : St) (i : Nat) : Nat := (s.pc i).left s.np (s.owed i)

def St.left (s : St) : Nat := s.main.left s.n s.np + ((List.range s.n).map s.threadLeft).sum

/-- The steps that the pool makes by itself if the tasks return: no wait ends without having been notified, and no parked thread wakes up
without a token. -/
inductive Path : St → St → Prop
  | refl (s : St) : Path s s
  | main {s s' s'' : St} : step s .main = some (.ok s') → Path s' s'' → Path s s''
  | wake {s s' s'' : St} {w : CountDown.Waiter} : s.fin.ws[0]? = some w → w.pc = .blocked true → step s .wake = some (.ok s') → Path s' s'' → Path s s''
  | thread {s s' s'' : St} (i : Nat) : step s (.thread i) = some (.ok s') → Path s' s'' → Path s s''
  | finish {s s' s'' : St} (i : Nat) : step s (.finish i) = some (.ok s') → Path s' s'' → Path s s''

/-- The main thread is not in a function of the pool. -/
def MPc.returned : MPc → Prop
  | .idle _ | .scope | .ran | .over | .making => True
  | _ => False

theorem sum_le_of {f g : Nat → Nat} : ∀ (l : List Nat), (∀ j ∈ l, f j ≤ g j) → (l.map f).sum ≤ (l.map g).sum
  | [], _ => Nat.le_refl _
  | a :: l, h => by
      have := sum_le_of l fun j hj => h j (List.mem_cons_of_mem _ hj)
      have := h a (by simp)
      simp only [List.map_cons, List.sum_cons]
      omega

theorem sum_lt_of {f g : Nat → Nat} {i : Nat} : ∀ (l : List Nat), i ∈ l → (∀ j ∈ l, f j ≤ g j) → f i < g i → (l.map f).sum < (l.map g).sum
  | a :: l, hi, h, hlt => by
      have h1 := sum_le_of l fun j hj => h j (List.mem_cons_of_mem _ hj)
      have h2 := h a (by simp)
      simp only [List.map_cons, List.sum_cons]
      rcases List.mem_cons.1 hi with rfl | hi
      · omega
      · have := sum_lt_of l hi (fun j hj => h j (List.mem_cons_of_mem _ hj)) hlt
        omega

variable {s s' : St} {w : CountDown.Waiter} {c : Nat → CountDown.Counter} {pl : Nat → Place} {bat : Nat → Option Agent} {pend : Nat → Agent}

theorem left_thread {i : Nat} (hin : i < s.n) (e1 : s'.main = s.main) (e2 : s'.n = s.n) (e3 : s'.cpus = s.cpus) (e4 : s'.issued = s.issued)
    (e5 : ∀ j, j ≠ i → s'.pc j = s.pc j) (e6 : ∀ j, j ≠ i → s'.ran j = s.ran j) (h : s'.threadLeft i < s.threadLeft i) : s'.left < s.left := by
  have hP : s'.np = s.np := by unfold St.np; rw [e3]
  unfold St.left
  rw [e1, e2, hP]
  have := sum_lt_of (f := s'.threadLeft) (g := s.threadLeft) (List.range s.n) (List.mem_range.2 hin) (by
    intro j _
    by_cases e : j = i
    · subst e; omega
    · have : s'.threadLeft j = s.threadLeft j := by
        unfold St.threadLeft St.owed
        rw [e1, e4, hP, e5 j e, e6 j e]
      omega) h
  omega

theorem left_main (e2 : s'.n = s.n) (e3 : s'.cpus = s.cpus) (e4 : s'.issued = s.issued) (e5 : s'.pc = s.pc) (e6 : s'.ran = s.ran)
    (e1 : s'.main.joined = s.main.joined) (h : s'.main.left s.n s.np < s.main.left s.n s.np) : s'.left < s.left := by
  have hP : s'.np = s.np := by unfold St.np; rw [e3]
  have ht : s'.threadLeft = s.threadLeft := by
    funext j
    unfold St.threadLeft St.owed
    rw [e1, e4, hP, e5, e6]
  unfold St.left
  rw [e2, hP, ht]
  omega

/-- A step of `start_next_thread`. -/
theorem sub_left {p : Nat} {x : Sub} {s1 : St} {r : Option Sub} (h : s.sub p x = .ok (s1, r)) :
    (s1.main = s.main ∧ s1.n = s.n ∧ s1.cpus = s.cpus ∧ s1.issued = s.issued ∧ s1.pc = s.pc ∧ s1.ran = s.ran) ∧
    (∀ y, r = some y → y.left s.np < x.left s.np) := by
  cases x with
  | seek k =>
    simp only [St.sub] at h
    split at h
    · cases h
      refine ⟨⟨rfl, rfl, rfl, rfl, rfl, rfl⟩, ?_⟩
      intro y hy
      split at hy
      · cases hy
        simp only [Sub.left]
        omega
      · cases hy
    · cases h
      refine ⟨⟨rfl, rfl, rfl, rfl, rfl, rfl⟩, ?_⟩
      intro y hy
      cases hy
      simp only [Sub.left]
      omega
  | push w q =>
    simp only [St.sub] at h
    obtain ⟨_, _, h⟩ := (R.bind_eq_ok ..).1 h
    cases h
    exact ⟨⟨rfl, rfl, rfl, rfl, rfl, rfl⟩, fun y hy => by cases hy; simp [Sub.left]⟩
  | assign w q =>
    simp only [St.sub] at h
    obtain ⟨_, _, h⟩ := (R.bind_eq_ok ..).1 h
    obtain ⟨_, _, h⟩ := (R.bind_eq_ok ..).1 h
    split at h
    · obtain ⟨s2, h2, h⟩ := (R.bind_eq_ok ..).1 h
      cases h
      simp only [St.assignTo] at h2
      split at h2
      · obtain ⟨_, _, h2⟩ := (R.bind_eq_ok ..).1 h2
        cases h2
        exact ⟨⟨rfl, rfl, rfl, rfl, rfl, rfl⟩, fun y hy => by cases hy; simp [Sub.left]⟩
      · cases h2
        exact ⟨⟨rfl, rfl, rfl, rfl, rfl, rfl⟩, fun y hy => by cases hy; simp [Sub.left]⟩
    · cases h
      exact ⟨⟨rfl, rfl, rfl, rfl, rfl, rfl⟩, fun y hy => by cases hy; simp [Sub.left]⟩
  | flag w =>
    cases h
    exact ⟨⟨rfl, rfl, rfl, rfl, rfl, rfl⟩, fun y hy => by cases hy; simp [Sub.left]⟩
  | unpark w =>
    cases h
    exact ⟨⟨rfl, rfl, rfl, rfl, rfl, rfl⟩, fun y hy => by cases hy⟩

theorem sub_pos (P : Nat) (x : Sub) : 0 < x.left P := by cases x <;> simp [Sub.left]

/-- A step that is possible succeeds. -/
theorem step_ok (hr : Run s) {a : Act} (ha : allowed s a) {r : R St} (h : step s a = some r) : ∃ s', r = .ok s' := by
  cases r with
  | ok s' => exact ⟨s', rfl⟩
  | panic => exact absurd h (C62_no_panic hr ha)

/-- The main thread can go on in `start_next_thread`. -/
theorem main_starting (hr : Run s) {k : Nat} {sub : Sub} (hm : s.main = .starting k sub) : ∃ s', step s .main = some (.ok s') ∧ s'.left < s.left := by
  obtain ⟨w, c, pl, bat, pend, hi⟩ := run_inv hr
  have hk : k < s.np := (hi.q (by rw [hm]; simp)).pr none k sub (by show s.main.starter = _; rw [hm]; rfl)
  have h : ∃ r, step s .main = some r := by simp only [step, mainStep, hm]; exact ⟨_, rfl⟩
  obtain ⟨r, h⟩ := h
  obtain ⟨s', rfl⟩ := step_ok hr (a := .main) trivial h
  refine ⟨s', h, ?_⟩
  simp only [step, mainStep, hm] at h
  have h := Option.some.inj h
  obtain ⟨⟨s1, x⟩, h1, h⟩ := (R.bind_eq_ok ..).1 h
  obtain ⟨⟨e1, e2, e3, e4, e5, e6⟩, e7⟩ := sub_left h1
  have hP : s1.np = s.np := by unfold St.np; rw [e3]
  cases h
  refine left_main e2 e3 e4 e5 e6 ?_ ?_
  · dsimp only
    rw [hm]
    cases x with
    | some y => rfl
    | none =>
      dsimp only
      split <;> rfl
  · dsimp only
    rw [hm, hP]
    have hp := sub_pos s.np sub
    cases x with
    | some y =>
      have := e7 y rfl
      simp only [MPc.left]
      omega
    | none =>
      dsimp only
      split
      · simp only [MPc.left, Sub.left]
        have : s.np - k = s.np - (k + 1) + 1 := by omega
        rw [this, Nat.add_mul]
        omega
      · simp only [MPc.left]
        omega

theorem main_unparking (hr : Run s) {b half : Bool} {k : Nat} (hm : s.main = .unparking b k half) : ∃ s', step s .main = some (.ok s') ∧ s'.left < s.left := by
  obtain ⟨w, c, pl, bat, pend, hi⟩ := run_inv hr
  have hk := hi.unp b k half hm
  cases half with
  | false =>
    refine ⟨{ s with flag := upd s.flag k true, main := .unparking b k true }, by simp only [step, mainStep, hm], ?_⟩
    refine left_main rfl rfl rfl rfl rfl (by rw [hm]; rfl) ?_
    rw [hm]
    simp [MPc.left]
  | true =>
    refine ⟨{ s with token := upd s.token k true, main := if k + 1 < s.n then .unparking b (k + 1) false else .joining b 0 }, by simp only [step, mainStep, hm], ?_⟩
    refine left_main rfl rfl rfl rfl rfl ?_ ?_
    · dsimp only
      rw [hm]
      split <;> rfl
    · dsimp only
      rw [hm]
      split <;> simp [MPc.left] <;> omega

theorem thread_starting (hr : Run s) {i p : Nat} {why : Why} {sub : Sub} (hin : i < s.n) (hm : s.main ≠ .making) (hp : s.pc i = .starting why p sub) :
    ∃ s', step s (.thread i) = some (.ok s') ∧ s'.left < s.left := by
  have he : step s (.thread i) = threadStep s i := if_pos ⟨hin, hm⟩
  have h : ∃ r, step s (.thread i) = some r := by rw [he]; simp only [threadStep, hp]; exact ⟨_, rfl⟩
  obtain ⟨r, h⟩ := h
  obtain ⟨s', rfl⟩ := step_ok hr (a := .thread i) trivial h
  refine ⟨s', h, ?_⟩
  rw [he] at h
  simp only [threadStep, hp] at h
  have h := Option.some.inj h
  obtain ⟨⟨s1, x⟩, h1, h⟩ := (R.bind_eq_ok ..).1 h
  obtain ⟨⟨e1, e2, e3, e4, e5, e6⟩, e7⟩ := sub_left h1
  have hP : s1.np = s.np := by unfold St.np; rw [e3]
  cases h
  refine left_thread hin e1 e2 e3 e4 (fun j hj => ?_) (fun j _ => ?_) ?_
  · show upd s1.pc i _ j = _
    rw [upd_ne _ _ _ _ hj, e5]
  · show s1.ran j = _
    rw [e6]
  · have hp0 := sub_pos s.np sub
    unfold St.threadLeft
    show (upd s1.pc i _ i).left s1.np _ < _
    rw [upd_same, hP, hp]
    cases x with
    | some y =>
      have := e7 y rfl
      simp only [TPc.left]
      omega
    | none =>
      cases why <;> simp only [Why.next, TPc.left] <;> omega

/-- A thread that has something to do can go on, or another one can. -/
theorem thread_go (hr : Run s) (hm : s.main ≠ .making) {i : Nat} (hin : i < s.n) (h1 : s.pc i ≠ .gone)
    (h2 : s.flag i = true ∨ (s.pc i ≠ .check ∧ s.pc i ≠ .park)) :
    (∃ s', step s .main = some (.ok s') ∧ s'.left < s.left) ∨
    (∃ (i : Nat) (s' : St), step s (.thread i) = some (.ok s') ∧ s'.left < s.left) ∨
    ∃ (i : Nat) (s' : St), step s (.finish i) = some (.ok s') ∧ s'.left < s.left := by
  obtain ⟨w, c, pl, bat, pend, hi⟩ := run_inv hr
  have hno := hi.notOver hin h1
  have ht := hi.thr i hin
  have owed : (s.pc i = .check ∨ s.pc i = .park) → s.flag i = true → s.owed i = true := by
    intro hp hf
    unfold St.owed
    rcases ht.fl hf with ⟨g1, g2, g3⟩ | g1
    · have hl := hi.mn.iss
      rw [g1] at hl
      have ha : (s.pc i).after (s.crashed i) = false := by rcases hp with hp | hp <;> rw [hp] <;> rfl
      rw [ht.rn h1, ha]
      simp at hl ⊢
      omega
    · rw [g1]; rfl
  have en : ∀ {r : Option (R St)}, threadStep s i = r → step s (.thread i) = r := by
    intro r h
    rw [← h]
    exact if_pos ⟨hin, hm⟩
  have lt : ∀ (s' : St) (x : TPc), s'.main = s.main → s'.n = s.n → s'.cpus = s.cpus → s'.issued = s.issued → s'.pc = upd s.pc i x →
      (∀ j, j ≠ i → s'.ran j = s.ran j) → x.left s.np (s'.owed i) < s.threadLeft i → s'.left < s.left := by
    intro s' x e1 e2 e3 e4 e5 e6 h
    refine left_thread hin e1 e2 e3 e4 (fun j hj => by rw [e5, upd_ne _ _ _ _ hj]) e6 ?_
    unfold St.threadLeft
    rw [e5, upd_same]
    have : s'.np = s.np := by unfold St.np; rw [e3]
    rw [this]
    exact h
  have viaTh : ∀ {s' : St}, threadStep s i = some (.ok s') → s'.left < s.left → 
    (∃ s', step s .main = some (.ok s') ∧ s'.left < s.left) ∨
    (∃ (i : Nat) (s' : St), step s (.thread i) = some (.ok s') ∧ s'.left < s.left) ∨
    ∃ (i : Nat) (s' : St), step s (.finish i) = some (.ok s') ∧ s'.left < s.left := fun h hl => .inr (.inl ⟨i, _, en h, hl⟩)
  cases hpc : s.pc i with
  | gone => exact absurd hpc h1
  | check =>
    have hf : s.flag i = true := h2.elim id fun h2 => absurd hpc h2.1
    have ho := owed (.inl hpc) hf
    refine viaTh (s' := { s.put i .got with flag := upd s.flag i false }) (by simp only [threadStep, hpc, hf, if_true]) ?_
    refine lt _ .got rfl rfl rfl rfl rfl (fun _ _ => rfl) ?_
    unfold St.threadLeft
    rw [hpc, ho]
    simp [TPc.left]
  | park =>
    have hf : s.flag i = true := h2.elim id fun h2 => absurd hpc h2.2
    have ho := owed (.inr hpc) hf
    cases htk : s.token i with
    | true =>
      refine viaTh (s' := { s.put i .check with token := upd s.token i false }) (by simp only [threadStep, hpc, htk, if_true]) ?_
      refine lt _ .check rfl rfl rfl rfl rfl (fun _ _ => rfl) ?_
      unfold St.threadLeft
      have : ({ s.put i .check with token := upd s.token i false } : St).owed i = s.owed i := rfl
      rw [hpc, this, ho]
      simp [TPc.left]
    | false =>
      have hu := hi.pn i hin hpc hf htk
      cases ha : pend i with
      | none =>
        rw [ha] at hu
        left
        cases hm' : s.main with
        | unparking b k half => exact main_unparking hr hm'
        | starting k sub => exact main_starting hr hm'
        | _ => simp [St.unparks, hm', St.starter, MPc.starter, unparksIn] at hu
      | some j =>
        rw [ha] at hu
        have hu : unparksIn (s.pc j).starter = some i := hu
        right
        left
        cases hj : s.pc j with
        | starting why p sub =>
          have hjn : j < s.n := by
            rcases Nat.lt_or_ge j s.n with h | h
            · exact h
            · rw [hi.outr j h] at hj; cases hj
          exact ⟨j, thread_starting hr hjn hm hj⟩
        | _ => rw [hj] at hu; simp [TPc.starter, unparksIn] at hu
  | got =>
    obtain ⟨r, h⟩ : ∃ r, threadStep s i = some r := by simp only [threadStep, hpc]; exact ⟨_, rfl⟩
    obtain ⟨s', rfl⟩ := step_ok hr (a := .thread i) trivial (en h)
    refine viaTh h ?_
    simp only [threadStep, hpc] at h
    split at h <;> cases h
    refine lt _ .load rfl rfl rfl rfl rfl (fun _ _ => rfl) ?_
    unfold St.threadLeft
    rw [hpc]
    simp [TPc.left]
  | load =>
    obtain ⟨r, h⟩ : ∃ r, threadStep s i = some r := by simp only [threadStep, hpc]; exact ⟨_, rfl⟩
    obtain ⟨s', rfl⟩ := step_ok hr (a := .thread i) trivial (en h)
    refine viaTh h ?_
    simp only [threadStep, hpc] at h
    split at h <;> cases h
    refine lt _ (.look (s.lpi i)) rfl rfl rfl rfl rfl (fun _ _ => rfl) ?_
    unfold St.threadLeft
    rw [hpc]
    simp [TPc.left]
  | look p =>
    obtain ⟨r, h⟩ : ∃ r, threadStep s i = some r := by simp only [threadStep, hpc]; exact ⟨_, rfl⟩
    obtain ⟨s', rfl⟩ := step_ok hr (a := .thread i) trivial (en h)
    refine viaTh h ?_
    simp only [threadStep, hpc] at h
    split at h
    · cases h
    · split at h
      · next k _ =>
        cases h
        refine lt _ (.running p) rfl rfl rfl rfl rfl (fun j hj => upd_ne _ _ _ _ hj) ?_
        unfold St.threadLeft
        rw [hpc]
        simp [TPc.left]
      · cases h
        refine lt _ (.starting .quit p (.seek 0)) rfl rfl rfl rfl rfl (fun _ _ => rfl) ?_
        unfold St.threadLeft
        rw [hpc]
        simp [TPc.left, Sub.left]
  | running p =>
    refine .inr (.inr ⟨i, s.put i (.starting .ret p (.seek 0)), by simp only [step, hpc], ?_⟩)
    refine lt _ (.starting .ret p (.seek 0)) rfl rfl rfl rfl rfl (fun _ _ => rfl) ?_
    unfold St.threadLeft
    rw [hpc]
    simp [TPc.left, Sub.left]
  | starting why p sub => exact .inr (.inl ⟨i, thread_starting hr hin hm hpc⟩)
  | counting =>
    obtain ⟨fin', c', f1, f2, f3⟩ := hi.counting hin hm hpc
    refine viaTh (s' := { s.put i (if fin'.cs[i + 1]?.any CountDown.Counter.pending then .notifying else .check) with fin := fin' })
      (by simp only [threadStep, hpc, St.onFin, f1, Option.map_some, R.bind_ok, R.pure_eq]) ?_
    refine lt _ _ rfl rfl rfl rfl rfl (fun _ _ => rfl) ?_
    rw [show ({ s.put i (if fin'.cs[i + 1]?.any CountDown.Counter.pending then .notifying else .check) with fin := fin' } : St).owed i = s.owed i from rfl]
    have ho : s.owed i = false := by
      rw [hpc] at ht
      obtain ⟨g1, g2⟩ := ht.aft rfl
      have hl := hi.mn.iss
      rw [g1] at hl
      unfold St.owed
      rw [round_joined g1, ht.rn (by simp)]
      simp at hl
      simp [TPc.after]
      omega
    unfold St.threadLeft
    rw [hpc, ho]
    split <;> simp [TPc.left]
  | notifying =>
    obtain ⟨fin', c', w', f1, f2⟩ := hi.notifying hin hm hpc
    refine viaTh (s' := { s.put i .check with fin := fin' }) (by simp only [threadStep, hpc, St.onFin, f1, Option.map_some, R.bind_ok, R.pure_eq]) ?_
    refine lt _ .check rfl rfl rfl rfl rfl (fun _ _ => rfl) ?_
    rw [show ({ s.put i .check with fin := fin' } : St).owed i = s.owed i from rfl]
    unfold St.threadLeft
    rw [hpc]
    cases s.owed i <;> simp [TPc.left]
  | poisoning =>
    refine viaTh (s' := { s.put i .exiting with poisoned := true }) (by simp only [threadStep, hpc]) ?_
    refine lt _ .exiting rfl rfl rfl rfl rfl (fun _ _ => rfl) ?_
    unfold St.threadLeft
    rw [hpc]
    simp [TPc.left]
  | exiting =>
    obtain ⟨fin', c', w', f1, f2⟩ := hi.exiting hin hm hpc
    refine viaTh (s' := { s.put i .gone with fin := fin' }) (by simp only [threadStep, hpc, St.onFin, f1, Option.map_some, R.bind_ok, R.pure_eq]) ?_
    refine lt _ .gone rfl rfl rfl rfl rfl (fun _ _ => rfl) ?_
    unfold St.threadLeft
    rw [hpc]
    simp [TPc.left]

/-- While the main thread waits for the threads, one of them can go on or the main thread has been notified. -/
theorem waiting_go (hi : Inv s w c pl bat pend) (hm : s.main = .waiting)
    (hq : ∀ i, i < s.n → s.pc i = .gone ∨ (s.flag i = false ∧ (s.pc i = .check ∨ s.pc i = .park))) : w.pc = .blocked true ∧ s.fin.counters = 0 := by
  have hno : s.main ≠ .over := by rw [hm]; simp
  have hmk : s.main ≠ .making := by rw [hm]; simp
  have hf := hi.fin hno
  have hround : s.main.round s.task = true := by rw [hm]; rfl
  have hrn := hi.rnd hround
  have hQ := hi.q hmk
  have noact : ∀ p a, ¬ (p < s.np ∧ s.has a p) := by
    rintro p a ⟨hp, ha⟩
    cases a with
    | none =>
      have : s.main.has p := ha
      rw [hm] at this
      exact this
    | some j =>
      obtain ⟨g1, g2, g3⟩ := ha
      rcases hq j g1 with h | ⟨h, h' | h'⟩
      · rw [h] at g3; cases g3
      · rw [h', h] at g3; cases g3
      · rw [h', h] at g3; cases g3
  have nost : ∀ a, heldIn (s.starter a) = none := by
    intro a
    cases a with
    | none => show heldIn s.main.starter = none; rw [hm]; rfl
    | some j =>
      show heldIn (s.pc j).starter = none
      rcases Nat.lt_or_ge j s.n with hj | hj
      · rcases hq j hj with h | ⟨_, h | h⟩ <;> rw [h] <;> rfl
      · rw [hi.outr j hj]; rfl
  have hpass : ∀ i, i < s.n → (c i).live = true → (c i).passed = w.passed + 1 := by
    intro i hin hl
    have h1 := (hf.range (hi.cs i hin) hl)
    by_cases e : (c i).passed = w.passed
    · exfalso
      have hne : pl i ≠ .out := by
        refine (hrn.fresh i hin).2 ⟨hl, e, ?_⟩
        have hng := (hi.thr i hin).live.1 hl
        rcases hq i hin with h | ⟨h, h' | h'⟩
        · exact absurd h hng
        · exact ⟨h, by simp only [h']; rfl⟩
        · exact ⟨h, by simp only [h']; rfl⟩
      cases hpl : pl i with
      | out => exact hne hpl
      | held a =>
        have := (hQ.hld i a).1 ⟨hin, hpl⟩
        rw [nost a] at this
        cases this
      | ready =>
        have hmem := (hQ.rdy i (s.lpi i)).2 ⟨hin, hpl, rfl⟩
        have hlp := hQ.lp i hin
        cases hb : bat (s.lpi i) with
        | none =>
          rw [hrn.empty _ hlp hb (s.lpi i)] at hmem
          cases hmem
        | some a => exact noact _ a ⟨hlp, (hrn.bt a _ hlp).2 hb⟩
    · omega
  have hcs : ∀ (j : Nat) (d : CountDown.Counter), s.fin.cs[j]? = some d → d.pending = false ∧ (d.live = true → d.passed = w.passed + 1) := by
    intro j d hd
    match j with
    | 0 =>
      obtain ⟨d0, e1, e2, e3, e4⟩ := hi.c0
      rw [hd] at e1
      cases e1
      refine ⟨e3, fun h => ?_⟩
      rw [h, hm] at e2
      simp at e2
    | j + 1 =>
      have hlt : j < s.n := by
        have := (List.getElem?_eq_some_iff.1 hd).1
        have := hi.len
        omega
      have e := hi.cs j hlt
      rw [hd] at e
      cases e
      refine ⟨?_, hpass j hlt⟩
      cases hpd : (c j).pending with
      | false => rfl
      | true =>
        have h := (hi.thr j hlt).pend.1 hpd
        rcases hq j hlt with h' | ⟨_, h' | h'⟩ <;> rw [h'] at h <;> cases h
  have hz : s.fin.counters = 0 := hf.zero.2 fun j d hd => (hcs j d hd).2
  refine ⟨?_, hz⟩
  have hb : w.pc ≠ .out := (hi.mn.wpc hno).2 hm
  cases hp : w.pc with
  | out => exact absurd hp hb
  | blocked b =>
    cases b with
    | true => rfl
    | false =>
      obtain ⟨j, d, hd, hpd⟩ := hf.wk hz hp
      rw [(hcs j d hd).1] at hpd
      cases hpd

/-- While the main thread is in a function of the pool, something that is left to do can be done. -/
theorem advance (hr : Run s) (hi : Inv s w c pl bat pend) (hn : ¬ s.main.returned) :
    (∃ s', step s .main = some (.ok s') ∧ s'.left < s.left) ∨
    (∃ s', w.pc = .blocked true ∧ step s .wake = some (.ok s') ∧ s'.left < s.left) ∨
    (∃ (i : Nat) (s' : St), step s (.thread i) = some (.ok s') ∧ s'.left < s.left) ∨
    ∃ (i : Nat) (s' : St), step s (.finish i) = some (.ok s') ∧ s'.left < s.left := by
  have viaThread : ∀ {i : Nat}, i < s.n → s.main ≠ .making → s.pc i ≠ .gone → (s.flag i = true ∨ (s.pc i ≠ .check ∧ s.pc i ≠ .park)) →
      (∃ s', step s .main = some (.ok s') ∧ s'.left < s.left) ∨
      (∃ s', w.pc = .blocked true ∧ step s .wake = some (.ok s') ∧ s'.left < s.left) ∨
      (∃ (i : Nat) (s' : St), step s (.thread i) = some (.ok s') ∧ s'.left < s.left) ∨
      ∃ (i : Nat) (s' : St), step s (.finish i) = some (.ok s') ∧ s'.left < s.left := by
    intro i hin hm h1 h2
    rcases thread_go hr hm hin h1 h2 with h | h | h
    · exact .inl h
    · exact .inr (.inr (.inl h))
    · exact .inr (.inr (.inr h))
  cases hm : s.main with
  | making | idle _ | scope | ran | over => rw [hm] at hn; exact absurd trivial hn
  | starting k sub => exact .inl (main_starting hr hm)
  | unparking b k half => exact .inl (main_unparking hr hm)
  | setting =>
    left
    refine ⟨{ s with main := if 0 < s.np then .starting 0 (.seek 0) else .ran }, by simp only [step, mainStep, hm], ?_⟩
    refine left_main rfl rfl rfl rfl rfl ?_ ?_
    · dsimp only
      rw [hm]
      split <;> rfl
    · dsimp only
      rw [hm]
      split
      · simp only [MPc.left, Sub.left, Nat.sub_zero]
        rw [Nat.add_mul]
        omega
      · simp only [MPc.left]
        rw [Nat.add_mul]
        omega
  | resetting =>
    left
    refine ⟨{ s with main := .checking }, by simp only [step, mainStep, hm], ?_⟩
    refine left_main rfl rfl rfl rfl rfl (by rw [hm]; rfl) ?_
    rw [hm]
    simp [MPc.left]
  | checking =>
    left
    refine ⟨{ s with main := .idle (some (if s.poisoned then .crashed else .done)) }, by simp only [step, mainStep, hm], ?_⟩
    refine left_main rfl rfl rfl rfl rfl (by rw [hm]; rfl) ?_
    rw [hm]
    simp [MPc.left]
  | passed =>
    left
    obtain ⟨r, h⟩ : ∃ r, step s .main = some r := by simp only [step, mainStep, hm]; exact ⟨_, rfl⟩
    obtain ⟨s', rfl⟩ := step_ok hr (a := .main) trivial h
    refine ⟨s', h, ?_⟩
    simp only [step, mainStep, hm] at h
    split at h <;> cases h
    refine left_main rfl rfl rfl rfl rfl (by rw [hm]; rfl) ?_
    rw [hm]
    simp [MPc.left]
  | clearing =>
    left
    obtain ⟨r, h⟩ : ∃ r, step s .main = some r := by
      simp only [step, mainStep, hm]
      exact ⟨_, rfl⟩
    obtain ⟨s', rfl⟩ := step_ok hr (a := .main) trivial h
    refine ⟨s', h, ?_⟩
    simp only [step, mainStep, hm] at h
    split at h
    · cases h
    · have h := Option.some.inj h
      obtain ⟨s1, h1, h⟩ := (R.bind_eq_ok ..).1 h
      cases h
      obtain ⟨_, _, h1⟩ := (R.bind_eq_ok ..).1 h1
      cases h1
      refine left_main rfl rfl rfl rfl rfl (by rw [hm]; rfl) ?_
      rw [hm]
      simp [MPc.left]
  | ending =>
    left
    have hno : s.main ≠ .over := by rw [hm]; simp
    have hout : w.pc = .out := by
      have h5 := hi.mn.wpc hno
      rw [hm] at h5
      simpa using h5
    by_cases ht : s.task.isSome = true
    · obtain ⟨fin', w', f1, f2, f3, f4⟩ := (hi.fin hno).look (a := .wait 0) (.inl ⟨rfl, hout⟩)
      refine ⟨s.looked fin', by simp only [step, mainStep, hm, ht, if_true, St.onFin, f1, Option.map_some, R.bind_ok, R.pure_eq], ?_⟩
      refine left_main rfl rfl rfl rfl rfl ?_ ?_
      · unfold St.looked
        dsimp only
        rw [hm]
        split <;> rfl
      · unfold St.looked
        dsimp only
        rw [hm]
        split <;> simp [MPc.left]
    · refine ⟨{ s with main := .idle (some .done) }, by simp only [step, mainStep, hm]; rw [if_neg ht], ?_⟩
      refine left_main rfl rfl rfl rfl rfl (by rw [hm]; rfl) ?_
      rw [hm]
      simp [MPc.left]
  | joining b k =>
    have hmk : s.main ≠ .making := by rw [hm]; simp
    have hno : s.main ≠ .over := by rw [hm]; simp
    by_cases hk : k < s.n
    · by_cases hg : s.pc k = .gone
      · left
        obtain ⟨r, h⟩ : ∃ r, step s .main = some r := by simp only [step, mainStep, hm, hk, hg, if_true]; exact ⟨_, rfl⟩
        obtain ⟨s', rfl⟩ := step_ok hr (a := .main) trivial h
        refine ⟨s', h, ?_⟩
        simp only [step, mainStep, hm, hk, hg, if_true] at h
        split at h <;> cases h
        refine left_main rfl rfl rfl rfl rfl (by rw [hm]; rfl) ?_
        rw [hm]
        simp only [MPc.left]
        omega
      · refine viaThread hk hmk hg ?_
        rcases (hi.jn (by rw [hm]; rfl)).sig k hk (by rw [hm]; trivial) with h | h
        · exact .inl h
        · right
          constructor <;> intro e <;> rw [e] at h <;> cases h
    · left
      have hout : w.pc = .out := by
        have h5 := hi.mn.wpc hno
        rw [hm] at h5
        simpa using h5
      obtain ⟨fin', f1, f2, f3⟩ := (hi.fin hno).dropWaiter hout
      refine ⟨{ s with fin := fin', main := .over }, by simp only [step, mainStep, hm, hk, if_false, St.onFin, f1, Option.map_some, R.bind_ok, R.pure_eq], ?_⟩
      refine left_main rfl rfl rfl rfl rfl (by rw [hm]; rfl) ?_
      rw [hm]
      simp [MPc.left]
  | waiting =>
    have hmk : s.main ≠ .making := by rw [hm]; simp
    have hno : s.main ≠ .over := by rw [hm]; simp
    by_cases hex : ∃ i, i < s.n ∧ s.pc i ≠ .gone ∧ (s.flag i = true ∨ (s.pc i ≠ .check ∧ s.pc i ≠ .park))
    · obtain ⟨i, hin, h1, h2⟩ := hex
      exact viaThread hin hmk h1 h2
    · right
      left
      obtain ⟨hb, hz⟩ := waiting_go hi hm (by
        intro i hin
        by_cases hg : s.pc i = .gone
        · exact .inl hg
        · right
          by_cases hf : s.flag i = true
          · exact absurd ⟨i, hin, hg, .inl hf⟩ hex
          · refine ⟨by simpa using hf, ?_⟩
            by_cases h1 : s.pc i = .check
            · exact .inl h1
            · by_cases h2 : s.pc i = .park
              · exact .inr h2
              · exact absurd ⟨i, hin, hg, .inr ⟨h1, h2⟩⟩ hex)
      obtain ⟨fin', w', f1, f2, f3, f4⟩ := (hi.fin hno).look (a := .wake 0) (.inr ⟨rfl, by rw [hb]; simp⟩)
      refine ⟨s.looked fin', hb, by simp only [step, hm, if_true, St.onFin, f1, Option.map_some, R.bind_ok, R.pure_eq], ?_⟩
      have hout : w'.pc = .out := by
        rcases f4 with f4 | f4
        · exact f4.1
        · exact absurd hz f4.2.2
      have hmm : (s.looked fin').main = .passed := by
        unfold St.looked
        dsimp only
        rw [f2.w0]
        simp [hout]
      refine left_main rfl rfl rfl rfl rfl (by rw [hm, hmm]; rfl) ?_
      rw [hm, hmm]
      simp [MPc.left]

/-- **C62.** Every function of the pool returns if the tasks return: from every state in which the main thread is in `run`, at the end of
    `scope` or in `join`, the pool reaches by its own steps, without any wait ending for no reason, a state in which it is not. -/
theorem C62_returns (hr : Run s) : ∃ s', Path s s' ∧ s'.main.returned := by
  have key : ∀ (n : Nat) (s : St), s.left ≤ n → Run s → ∃ s', Path s s' ∧ s'.main.returned := by
    intro n
    induction n with
    | zero =>
        intro s hl hr
        by_cases hn : s.main.returned
        · exact ⟨s, .refl s, hn⟩
        · obtain ⟨w, c, pl, bat, pend, hi⟩ := run_inv hr
          rcases advance hr hi hn with ⟨s', _, h⟩ | ⟨s', _, _, h⟩ | ⟨i, s', _, h⟩ | ⟨i, s', _, h⟩ <;> omega
    | succ n ih =>
        intro s hl hr
        by_cases hn : s.main.returned
        · exact ⟨s, .refl s, hn⟩
        · obtain ⟨w, c, pl, bat, pend, hi⟩ := run_inv hr
          rcases advance hr hi hn with ⟨s', h, hlt⟩ | ⟨s', hb, h, hlt⟩ | ⟨i, s', h, hlt⟩ | ⟨i, s', h, hlt⟩
          · obtain ⟨s'', h1, h2⟩ := ih s' (by omega) (hr.step (a := .main) trivial h)
            exact ⟨s'', .main h h1, h2⟩
          · obtain ⟨s'', h1, h2⟩ := ih s' (by omega) (hr.step (a := .wake) trivial h)
            exact ⟨s'', .wake (hi.fin (fun hx => by rw [hx] at hn; exact hn trivial)).w0 hb h h1, h2⟩
          · obtain ⟨s'', h1, h2⟩ := ih s' (by omega) (hr.step (a := .thread i) trivial h)
            exact ⟨s'', .thread i h h1, h2⟩
          · obtain ⟨s'', h1, h2⟩ := ih s' (by omega) (hr.step (a := .finish i) trivial h)
            exact ⟨s'', .finish i h h1, h2⟩
  exact key s.left s (Nat.le_refl _) hr

end Shadow.Pool.Bounded
