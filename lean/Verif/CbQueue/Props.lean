import Verif.CbQueue.Model
/-!
# C90: every deferred callback runs once, and those of the thread run last
-/
namespace Shadow.CbQueue

open Shadow.Base

/-- All effects of some code and of the callbacks that it adds. -/
def Prog.all : Prog → List Nat
  | .done => []
  | .emit n k => n :: k.all
  | .own cb k => cb.all ++ k.all
  | .global cb k => cb.all ++ k.all
  | .withQ f k => f.all ++ k.all

/-- The effects that do not come from a callback in the queue of the thread. -/
def Prog.now : Prog → List Nat
  | .done => []
  | .emit n k => n :: k.now
  | .own cb k => cb.now ++ k.now
  | .global _ k => k.now
  | .withQ f k => f.now ++ k.now

/-- The effects that come from such a callback. -/
def Prog.later : Prog → List Nat
  | .done => []
  | .emit _ k => k.later
  | .own cb k => cb.later ++ k.later
  | .global cb k => cb.all ++ k.later
  | .withQ f k => f.later ++ k.later

theorem count_all (p : Prog) (x : Nat) : p.all.count x = p.now.count x + p.later.count x := by
  induction p with
  | done => rfl
  | emit n k ih => simp only [Prog.all, Prog.now, Prog.later, List.count_cons]; omega
  | own cb k h1 h2 => simp only [Prog.all, Prog.now, Prog.later, List.count_append]; omega
  | global cb k h1 h2 => simp only [Prog.all, Prog.now, Prog.later, List.count_append]; omega
  | withQ cb k h1 h2 => simp only [Prog.all, Prog.now, Prog.later, List.count_append]; omega

/-! ## It ends -/

def Prog.size : Prog → Nat
  | .done => 0
  | .emit _ k => k.size + 1
  | .own cb k => cb.size + k.size + 2
  | .global cb k => cb.size + k.size + 5
  | .withQ f k => f.size + k.size + 3

def qsize (w : Nat) (q : List Prog) : Nat := (q.map (fun p => p.size + w)).sum

def Frame.size : Frame → Nat
  | .frame p q => p.size + qsize 1 q + 1
  | .top => 1

def gsize : Option (List Prog) → Nat
  | none => 0
  | some g => qsize 3 g

def St.size (s : St) : Nat := (s.stack.map Frame.size).sum + gsize s.glob

theorem qsize_append (w : Nat) (a b : List Prog) : qsize w (a ++ b) = qsize w a + qsize w b := by simp [qsize]

theorem qsize_three {g : List Prog} (h : g ≠ []) : qsize 1 g + 2 ≤ qsize 3 g := by
  have key : ∀ g, qsize 3 g = qsize 1 g + 2 * g.length := by
    intro g
    induction g with
    | nil => rfl
    | cons p g ih => simp only [qsize, List.map_cons, List.sum_cons, List.length_cons] at ih ⊢; omega
  have := List.length_pos_iff.2 h
  rw [key]; omega

/-! ## What holds on the way -/

def qnow (x : Nat) (q : List Prog) : Nat := (q.map (fun p => p.now.count x)).sum
def qlater (x : Nat) (q : List Prog) : Nat := (q.map (fun p => p.later.count x)).sum
def qall (x : Nat) (q : List Prog) : Nat := (q.map (fun p => p.all.count x)).sum

theorem qall_eq (x : Nat) (q : List Prog) : qall x q = qnow x q + qlater x q := by
  induction q with
  | nil => rfl
  | cons p q ih =>
    have := count_all p x
    simp only [qall, qnow, qlater, List.map_cons, List.sum_cons] at ih ⊢; omega

def Frame.now (x : Nat) : Frame → Nat
  | .frame p q => p.now.count x + qnow x q
  | .top => 0

def Frame.later (x : Nat) : Frame → Nat
  | .frame p q => p.later.count x + qlater x q
  | .top => 0

def snow (x : Nat) (l : List Frame) : Nat := (l.map (Frame.now x)).sum
def slater (x : Nat) (l : List Frame) : Nat := (l.map (Frame.later x)).sum

/-- Inside of the outermost call: the frames above it are code, and it is above the frame that was there. -/
structure Inv (f : Prog) (s : St) (up : List Frame) (g : List Prog) : Prop where
  stack : s.stack = up ++ [.top, .frame .done []]
  code : .top ∉ up
  glob : s.glob = some g
  count : (∀ x, s.trace.count x + snow x up = f.now.count x ∧ slater x up + qall x g = f.later.count x)
    ∨ (∃ t1 t2, s.trace = t1 ++ t2 ∧ ∀ x, t1.count x = f.now.count x ∧ t2.count x + snow x up + slater x up + qall x g = f.later.count x)

/-- **The end**: no code is left and no queue, and everything was done once, what came through the queue of the thread after the rest. -/
def Good (f : Prog) (s : St) : Prop :=
  s.stack = [] ∧ s.glob = none ∧ ∃ t1 t2, s.trace = t1 ++ t2 ∧ ∀ x, t1.count x = f.now.count x ∧ t2.count x = f.later.count x

/-- What a state with nothing left to do but return looks like. -/
def Back (f : Prog) (s : St) : Prop :=
  s.stack = [.frame .done []] ∧ s.glob = none ∧ ∃ t1 t2, s.trace = t1 ++ t2 ∧ ∀ x, t1.count x = f.now.count x ∧ t2.count x = f.later.count x

theorem Inv.step {f : Prog} {s : St} {up : List Frame} {g : List Prog} (h : Inv f s up g) :
    ∃ s', Shadow.CbQueue.step s = .ok (some s') ∧ s'.size < s.size ∧ (Back f s' ∨ ∃ up' g', Inv f s' up' g') := by
  obtain ⟨st, gl, tr⟩ := s
  obtain ⟨hst, hcode, hgl, hc⟩ := h
  simp only at hst hgl hc
  subst hst hgl
  cases up with
  | nil =>
    simp only [Shadow.CbQueue.step, List.nil_append, R.unwrap_some, R.bind_ok]
    split
    · rename_i hg
      subst hg
      refine ⟨_, rfl, by simp [St.size, gsize, Frame.size]; simp [qsize, Prog.size]; try omega, .inl ⟨rfl, rfl, ?_⟩⟩
      rcases hc with hc | ⟨t1, t2, ht, hc⟩
      · exact ⟨tr, [], by simp, fun x => by have := hc x; simp [snow, slater, qall] at this ⊢; omega⟩
      · exact ⟨t1, t2, ht, fun x => by have := hc x; simp [snow, slater, qall] at this ⊢; omega⟩
    · rename_i hg
      refine ⟨_, rfl, ?_, .inr ⟨[.frame .done g], [], rfl, by simp, rfl, .inr ?_⟩⟩
      · have := qsize_three hg
        simp [St.size, gsize, Frame.size, Prog.size, qsize] at this ⊢; omega
      · rcases hc with hc | ⟨t1, t2, ht, hc⟩
        · refine ⟨tr, [], by simp, fun x => ?_⟩
          have := hc x
          have := qall_eq x g
          simp [snow, slater, Frame.now, Frame.later, Prog.now, Prog.later, qall] at *; omega
        · refine ⟨t1, t2, ht, fun x => ?_⟩
          have := hc x
          have := qall_eq x g
          simp [snow, slater, Frame.now, Frame.later, Prog.now, Prog.later, qall] at *; omega
  | cons fr up =>
    simp only [List.mem_cons, not_or] at hcode
    cases fr with
    | top => exact absurd rfl hcode.1
    | frame p q =>
      cases p with
      | done =>
        cases q with
        | nil =>
          refine ⟨_, rfl, by simp [St.size, Frame.size], .inr ⟨up, g, rfl, hcode.2, rfl, ?_⟩⟩
          simpa [snow, slater, Frame.now, Frame.later, Prog.now, Prog.later, qnow, qlater] using hc
        | cons cb q =>
          refine ⟨_, rfl, by simp [St.size, Frame.size, qsize, Prog.size]; try omega, .inr ⟨.frame cb q :: up, g, rfl, by simp [hcode.2], rfl, ?_⟩⟩
          simpa [snow, slater, Frame.now, Frame.later, Prog.now, Prog.later, qnow, qlater] using hc
      | emit n k =>
        refine ⟨_, rfl, by simp [St.size, Frame.size, Prog.size]; try omega, .inr ⟨.frame k q :: up, g, rfl, by simp [hcode.2], rfl, ?_⟩⟩
        rcases hc with hc | ⟨t1, t2, ht, hc⟩
        · refine .inl fun x => ?_
          have := hc x
          simp [snow, slater, Frame.now, Frame.later, Prog.now, Prog.later, List.count_cons] at this ⊢; omega
        · refine .inr ⟨t1, t2 ++ [n], by simp [ht], fun x => ?_⟩
          have := hc x
          simp [snow, slater, Frame.now, Frame.later, Prog.now, Prog.later, List.count_cons] at this ⊢; omega
      | own cb k =>
        refine ⟨_, rfl, by simp [St.size, Frame.size, Prog.size, qsize]; omega, .inr ⟨.frame k (q ++ [cb]) :: up, g, rfl, by simp [hcode.2], rfl, ?_⟩⟩
        rcases hc with hc | ⟨t1, t2, ht, hc⟩
        · refine .inl fun x => ?_
          have := hc x
          simp [snow, slater, Frame.now, Frame.later, Prog.now, Prog.later, qnow, qlater] at this ⊢; omega
        · refine .inr ⟨t1, t2, ht, fun x => ?_⟩
          have := hc x
          simp [snow, slater, Frame.now, Frame.later, Prog.now, Prog.later, qnow, qlater] at this ⊢; omega
      | global cb k =>
        refine ⟨⟨.frame k q :: (up ++ [.top, .frame .done []]), some (g ++ [cb]), tr⟩, rfl, by simp [St.size, Frame.size, Prog.size, gsize, qsize_append]; simp [qsize]; omega, .inr ⟨.frame k q :: up, g ++ [cb], rfl, by simp [hcode.2], rfl, ?_⟩⟩
        rcases hc with hc | ⟨t1, t2, ht, hc⟩
        · refine .inl fun x => ?_
          have := hc x
          simp [snow, slater, Frame.now, Frame.later, Prog.now, Prog.later, qall] at this ⊢; omega
        · refine .inr ⟨t1, t2, ht, fun x => ?_⟩
          have := hc x
          simp [snow, slater, Frame.now, Frame.later, Prog.now, Prog.later, qall] at this ⊢; omega
      | withQ a k =>
        refine ⟨⟨.frame a [] :: .frame k q :: (up ++ [.top, .frame .done []]), some g, tr⟩, rfl, by simp [St.size, Frame.size, Prog.size, gsize]; simp [qsize]; omega, .inr ⟨.frame a [] :: .frame k q :: up, g, rfl, by simp [hcode.2], rfl, ?_⟩⟩
        rcases hc with hc | ⟨t1, t2, ht, hc⟩
        · refine .inl fun x => ?_
          have := hc x
          simp [snow, slater, Frame.now, Frame.later, Prog.now, Prog.later, qnow, qlater] at this ⊢; omega
        · refine .inr ⟨t1, t2, ht, fun x => ?_⟩
          have := hc x
          simp [snow, slater, Frame.now, Frame.later, Prog.now, Prog.later, qnow, qlater] at this ⊢; omega

theorem Inv.ends {f : Prog} : ∀ (n : Nat) {s : St} {up : List Frame} {g : List Prog}, Inv f s up g → s.size ≤ n → ∃ m s', run m s = .ok (some s') ∧ Good f s' := by
  intro n
  induction n with
  | zero =>
    intro s up g h hn
    obtain ⟨s1, _, hlt, _⟩ := h.step
    omega
  | succ n ih =>
    intro s up g h hn
    obtain ⟨s1, e, hlt, hb | ⟨up', g', hi⟩⟩ := h.step
    · obtain ⟨st, gl, tr⟩ := s1
      obtain ⟨rfl, rfl, hb⟩ := hb
      exact ⟨3, ⟨[], none, tr⟩, by rw [run, e]; rfl, rfl, rfl, hb⟩
    · obtain ⟨m, s', hr, hg⟩ := ih hi (by omega)
      exact ⟨m + 1, s', by simp [run, e, hr], hg⟩

theorem run_more : ∀ (m : Nat) {s s' : St}, run m s = .ok (some s') → ∀ k, run (m + k) s = .ok (some s') := by
  intro m
  induction m with
  | zero => intro s s' h; simp [run] at h
  | succ m ih =>
    intro s s' h k
    rw [Nat.add_right_comm]
    simp only [run] at h ⊢
    cases hs : Shadow.CbQueue.step s with
    | panic => simp [hs] at h
    | ok o =>
      cases o with
      | none => simpa [hs] using h
      | some s1 => simp only [hs, R.bind_ok] at h ⊢; exact ih h k

/-- **Every callback runs exactly once**, those in the queue of the thread after everything that is not in it, whatever callbacks are added by callbacks and to which
    queue; then no queue is left, and nothing panics. From some number of steps on. -/
theorem C90_all (f : Prog) : ∃ m s, (∀ k, run (m + k) (start f) = .ok (some s)) ∧ Good f s := by
  have h : Inv f ⟨[.frame f [], .top, .frame .done []], some [], []⟩ [.frame f []] [] :=
    ⟨rfl, by simp, rfl, .inl fun x => by simp [snow, slater, Frame.now, Frame.later, qnow, qlater, qall]⟩
  obtain ⟨m, s, hr, hg⟩ := h.ends _ (Nat.le_refl _)
  refine ⟨m + 1, s, fun k => run_more (m + 1) ?_ k, hg⟩
  simpa [run, start, Shadow.CbQueue.step, St.enter] using hr

/-- So the effects are those of the code and of all callbacks, each as often as it is there. -/
theorem C90_once {f : Prog} {s : St} (h : Good f s) (x : Nat) : s.trace.count x = f.all.count x := by
  obtain ⟨_, _, t1, t2, ht, hc⟩ := h
  have := hc x
  have := count_all f x
  rw [ht, List.count_append]; omega

/-! ## The order -/

/-- Code that has these effects. -/
def emits : List Nat → Prog
  | [] => .done
  | n :: l => .emit n (emits l)

/-- Code that adds callbacks to the queue that it has been given, or to that of the thread, each with effects of its own. -/
def adds : List (Bool × List Nat) → Prog
  | [] => .done
  | (true, l) :: r => .own (emits l) (adds r)
  | (false, l) :: r => .global (emits l) (adds r)

inductive Steps : St → St → Prop where
  | refl (s : St) : Steps s s
  | cons {s s1 s2 : St} : step s = .ok (some s1) → Steps s1 s2 → Steps s s2

theorem Steps.trans {a b c : St} (h : Steps a b) (h' : Steps b c) : Steps a c := by
  induction h with
  | refl => exact h'
  | cons e _ ih => exact .cons e (ih h')

theorem Steps.run {a b : St} (h : Steps a b) (hb : b.stack = []) : ∃ m, Shadow.CbQueue.run m a = .ok (some b) := by
  induction h with
  | refl s => exact ⟨1, by simp [Shadow.CbQueue.run, step, hb]⟩
  | cons e _ ih => obtain ⟨m, hm⟩ := ih hb; exact ⟨m + 1, by simp [Shadow.CbQueue.run, e, hm]⟩

theorem steps_emits (l : List Nat) : ∀ (q : List Prog) (below : List Frame) (g : Option (List Prog)) (t : List Nat),
    Steps ⟨.frame (emits l) q :: below, g, t⟩ ⟨.frame .done q :: below, g, t ++ l⟩ := by
  induction l with
  | nil => intro q below g t; simpa [emits] using Steps.refl _
  | cons n l ih => intro q below g t; exact .cons rfl (by simpa using ih q below g (t ++ [n]))

theorem steps_queue (ls : List (List Nat)) : ∀ (below : List Frame) (g : Option (List Prog)) (t : List Nat),
    Steps ⟨.frame .done (ls.map emits) :: below, g, t⟩ ⟨below, g, t ++ ls.flatten⟩ := by
  induction ls with
  | nil => intro below g t; exact .cons rfl (by simpa using Steps.refl _)
  | cons l ls ih =>
    intro below g t
    refine .cons rfl ((steps_emits l (ls.map emits) below g t).trans ?_)
    simpa using ih below g (t ++ l)

theorem steps_adds (r : List (Bool × List Nat)) : ∀ (q g : List Prog) (below : List Frame) (t : List Nat),
    Steps ⟨.frame (adds r) q :: below, some g, t⟩
      ⟨.frame .done (q ++ (r.filter (·.1)).map (fun x => emits x.2)) :: below, some (g ++ (r.filter (!·.1)).map (fun x => emits x.2)), t⟩ := by
  induction r with
  | nil => intro q g below t; simpa [adds] using Steps.refl _
  | cons a r ih =>
    intro q g below t
    obtain ⟨_ | _, l⟩ := a
    · exact .cons (s1 := ⟨.frame (adds r) q :: below, some (g ++ [emits l]), t⟩) rfl (by simpa using ih q (g ++ [emits l]) below t)
    · exact .cons rfl (by simpa using ih (q ++ [emits l]) g below t)

/-- **Callbacks run in the order in which they were added**: first those of the queue that the code was given, then those of the thread. -/
theorem C90_order (r : List (Bool × List Nat)) :
    ∃ m s, (∀ k, run (m + k) (start (adds r)) = .ok (some s)) ∧ s.trace = ((r.filter (·.1)).map (·.2)).flatten ++ ((r.filter (!·.1)).map (·.2)).flatten := by
  have hmap : ∀ l : List (Bool × List Nat), l.map (fun x => emits x.2) = (l.map (·.2)).map emits := fun l => by simp
  have h : Steps (start (adds r)) ⟨[], none, ((r.filter (·.1)).map (·.2)).flatten ++ ((r.filter (!·.1)).map (·.2)).flatten⟩ := by
    refine .cons rfl ((steps_adds r [] [] _ []).trans ?_)
    rw [List.nil_append, List.nil_append, hmap, hmap]
    refine (steps_queue _ _ _ _).trans ?_
    generalize (List.map (·.2) (r.filter (!·.1))) = b
    by_cases hb : b = []
    · subst hb
      exact .cons rfl (.cons rfl (by simpa using Steps.refl _))
    · refine .cons (s1 := ⟨.frame .done (b.map emits) :: [.top, .frame .done []], some [], _⟩) ?_ ((steps_queue _ _ _ _).trans (.cons rfl (.cons rfl (by simpa using Steps.refl _))))
      simp [step, hb]
  obtain ⟨m, hm⟩ := h.run rfl
  exact ⟨m, _, run_more m hm, rfl⟩

/-! ## Examples -/

/-- Code with a callback of its own (2), a callback of the thread (3) that adds one to the queue it is taken from (4) and one to the queue of the thread (5), and a nested queue (6, 7). -/
theorem ex_nested : (match run 60 (start (.global (.own (.emit 4 .done) (.global (.emit 5 .done) (.emit 3 .done))) (.own (.emit 2 .done) (.withQ (.own (.emit 7 .done) (.emit 6 .done)) (.emit 1 .done))))) with
    | .ok (some s) => s.trace
    | _ => []) = [6, 7, 1, 2, 3, 4, 5] := by decide +kernel

end Shadow.CbQueue
