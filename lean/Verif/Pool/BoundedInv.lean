import Verif.Pool.BoundedQueue

/-!
# The thread pool of the thread-per-host scheduler: invariant
-/
namespace Shadow.Pool.Bounded

open Shadow.Base Shadow.Latch

/-- What an agent is doing in `start_next_thread`. -/
def MPc.starter : MPc → Option (Nat × Sub)
  | .starting k sub => some (k, sub)
  | _ => none

def TPc.starter : TPc → Option (Nat × Sub)
  | .starting _ p sub => some (p, sub)
  | _ => none

def St.starter (s : St) : Agent → Option (Nat × Sub)
  | none => s.main.starter
  | some i => (s.pc i).starter

/-- The last task was given to `run`, and the wait for it has not ended. -/
def MPc.round (task : Option Nat) : MPc → Bool
  | .setting | .starting .. | .ran | .waiting => true
  | .ending => task.isSome
  | _ => false

/-- The pool is being dropped. -/
def MPc.joined : MPc → Bool
  | .unparking .. | .joining .. | .over => true
  | _ => false

/-- The wait has ended, the logical processors are not yet reset. -/
def MPc.post : MPc → Bool
  | .passed | .clearing => true
  | _ => false

/-- The last task did not panic. -/
def MPc.clean (task : Option Nat) : MPc → Bool
  | .scope | .idle (some .done) => true
  | .ending => task.isNone
  | _ => false

def TPc.rest : TPc → Bool
  | .check | .park | .notifying => true
  | _ => false

/-- The thread is in a round, or quits. -/
def TPc.busy : TPc → Bool
  | .check | .park | .notifying | .gone => false
  | _ => true

/-- It has been given the last task. -/
def TPc.after (crashed : Bool) : TPc → Bool
  | .running _ | .starting .ret _ _ | .starting .crash _ _ | .counting | .poisoning => true
  | .exiting => crashed
  | _ => false

def TPc.proc : TPc → Option Nat
  | .look p | .running p | .starting _ p _ => some p
  | _ => none

def Sub.isUnpark : Sub → Bool
  | .unpark _ => true
  | _ => false

/-- It has the right to use its logical processor. -/
def TPc.active (flag : Bool) : TPc → Bool
  | .check | .park | .notifying => flag
  | .got | .load | .look _ | .running _ => true
  | .starting _ _ sub => !sub.isUnpark
  | _ => false

/-- It has not yet taken another thread from the queue, in `join`. -/
def TPc.toPop : TPc → Bool
  | .check | .park | .notifying | .got | .load | .look _ => true
  | .starting _ _ (.seek _) => true
  | _ => false

def MPc.has (p : Nat) : MPc → Prop
  | .setting => True
  | .starting k sub => k < p ∨ (k = p ∧ sub.isUnpark = false)
  | _ => False

/-- The agent has the right to use processor `p`. -/
def St.has (s : St) : Agent → Nat → Prop
  | none, p => s.main.has p
  | some i, p => i < s.n ∧ s.lpi i = p ∧ (s.pc i).active (s.flag i) = true

def unparksIn : Option (Nat × Sub) → Option Nat
  | some (_, .unpark w) => some w
  | _ => none

/-- The thread that an agent is about to give a token. -/
def St.unparks (s : St) (a : Agent) : Option Nat :=
  match a, s.main with
  | none, .unparking _ k true => some k
  | _, _ => unparksIn (s.starter a)

/-- In `join`, the main thread has set the flag of thread `i`. -/
def MPc.unparked (i : Nat) : MPc → Prop
  | .unparking _ k half => i < k ∨ (i = k ∧ half = true)
  | .joining .. | .over => True
  | _ => False

structure TInv (round joined poisoned : Bool) (issued : List Nat) (W : Nat) (pc : TPc) (flag : Bool) (lpi : Nat) (ran : List Nat) (crashed : Bool) (c : CountDown.Counter) : Prop where
  live : c.live = true ↔ pc ≠ .gone
  pend : c.pending = true ↔ pc = .notifying
  rn : pc ≠ .gone → ran = issued.take (c.passed + if pc.after crashed then 1 else 0)
  rng : pc = .gone → ran = issued
  act : pc.busy = true → (round = true ∧ c.passed = W) ∨ joined = true
  aft : pc.after crashed = true → round = true ∧ c.passed = W
  quit : ∀ p sub, pc = .starting .quit p sub → joined = true
  fl : flag = true → (round = true ∧ c.passed = W ∧ pc.rest = true) ∨ joined = true
  le : pc ≠ .gone → c.passed ≤ issued.length
  proc : ∀ p, pc.proc = some p → p = lpi
  cr1 : crashed = true → (∃ p sub, pc = .starting .crash p sub) ∨ pc = .poisoning ∨ pc = .exiting ∨ pc = .gone
  cr2 : crashed = true → pc = .exiting ∨ pc = .gone → poisoned = true
  cr3 : ∀ p sub, pc = .starting .crash p sub ∨ pc = .poisoning → crashed = true
  ex : pc = .exiting ∨ pc = .gone → crashed = true ∨ joined = true

structure Rnd (n P W : Nat) (ready : Nat → List Nat) (rest : Nat → Bool) (flag : Nat → Bool) (c : Nat → CountDown.Counter)
    (st : Agent → Option (Nat × Sub)) (has : Agent → Nat → Prop) (pl : Nat → Place) (bat : Nat → Option Agent) : Prop where
  fresh : ∀ i, i < n → (pl i ≠ .out ↔ (c i).live = true ∧ (c i).passed = W ∧ flag i = false ∧ rest i = true)
  bt : ∀ a p, p < P → (has a p ↔ bat p = some a)
  empty : ∀ p, p < P → bat p = none → ∀ q, ready q = []
  seek : ∀ a p k, st a = some (p, .seek k) → ∀ j, j < k → ready ((p + j) % P) = []

def popCount (n p : Nat) (lpi : Nat → Nat) (pc : Nat → TPc) : Nat := (List.range n).countP fun i => decide (lpi i = p) && (pc i).toPop

structure Jn (n P : Nat) (ready : Nat → List Nat) (pc : Nat → TPc) (flag : Nat → Bool) (lpi : Nat → Nat) (st : Agent → Option (Nat × Sub)) (main : MPc) : Prop where
  cnt : ∀ p, p < P → popCount n p lpi pc ≤ (ready p).length
  k0 : ∀ a p k, st a = some (p, .seek k) → k = 0
  own1 : ∀ a p w q, st a = some (p, .push w q) → q = p
  own2 : ∀ a p w q, st a = some (p, .assign w q) → q = p
  sig : ∀ i, i < n → main.unparked i → flag i = true ∨ (pc i).rest = false

/-- What does not depend on single steps of the threads. -/
structure Mn (main : MPc) (task : Option Nat) (issued : List Nat) (poisoned : Bool) (w : CountDown.Waiter) : Prop where
  iss : issued.length = w.passed + if main.round task then 1 else 0
  tk : if main.round task = true ∨ main = .passed then task ≠ none ∧ task = issued.getLast? else task = none
  wpc : main ≠ .over → (w.pc ≠ .out ↔ main = .waiting)
  making : main = .making → issued = []
  clean : main.clean task = true → poisoned = false
  bad : main = .idle (some .crashed) ∨ main = .idle (some .refused) → poisoned = true
  pois : main = .making → poisoned = false

structure Inv (s : St) (w : CountDown.Waiter) (c : Nat → CountDown.Counter) (pl : Nat → Place) (bat : Nat → Option Agent) (pend : Nat → Agent) : Prop where
  fin : s.main ≠ .over → Fin s.fin w
  len : s.fin.cs.length = s.n + 1
  c0 : ∃ d, s.fin.cs[0]? = some d ∧ d.live = decide (s.main = .making) ∧ d.pending = false ∧ d.passed = 0
  cs : ∀ i, i < s.n → s.fin.cs[i + 1]? = some (c i)
  thr : ∀ i, i < s.n → TInv (s.main.round s.task) s.main.joined s.poisoned s.issued w.passed (s.pc i) (s.flag i) (s.lpi i) (s.ran i) (s.crashed i) (c i)
  outr : ∀ i, s.n ≤ i → s.pc i = .check
  fresh : s.main = .making → ∀ i, s.pc i = .check ∧ s.flag i = false ∧ s.ran i = [] ∧ s.crashed i = false ∧ s.aff i = none ∧ s.ready i = [] ∧ s.done i = []
  q : s.main ≠ .making → Q s.n s.np s.ready s.done s.lpi s.starter pl
  rnd : s.main.round s.task = true → Rnd s.n s.np w.passed s.ready (fun i => (s.pc i).rest) s.flag c s.starter s.has pl bat
  jn : s.main.joined = true → Jn s.n s.np s.ready s.pc s.flag s.lpi s.starter s.main
  pn : ∀ i, i < s.n → s.pc i = .park → s.flag i = true → s.token i = false → s.unparks (pend i) = some i
  mn : Mn s.main s.task s.issued s.poisoned w
  post : s.main.post = true → ∀ i, i < s.n → pl i = .out
  idle : s.main.post = false → s.main.round s.task = false → s.main.joined = false → ∀ i, i < s.n → pl i = .ready
  blame : s.poisoned = true → ∃ i, i < s.n ∧ s.crashed i = true
  over : s.main = .over → ∀ i, i < s.n → s.pc i = .gone
  check : ∀ b, (∃ k half, s.main = .unparking b k half) ∨ (∃ k, s.main = .joining b k) → b = true → ∀ i, i < s.n → s.crashed i = false
  joins : ∀ b k, s.main = .joining b k → ∀ j, j < k → j < s.n → s.pc j = .gone
  unp : ∀ b k half, s.main = .unparking b k half → k < s.n
  aff : ∀ i, i < s.n → s.aff i = none ∨ s.cpu (s.lpi i) = none ∨ s.aff i = s.cpu (s.lpi i)

variable {s : St} {w : CountDown.Waiter} {c : Nat → CountDown.Counter} {pl : Nat → Place} {bat : Nat → Option Agent} {pend : Nat → Agent}

theorem inv_init : Inv .init ⟨0, 0, true, .out⟩ (fun _ => ⟨0, 0, true, false⟩) (fun _ => .ready) (fun _ => none) (fun _ => none) := by
  have hn : St.init.n = 0 := rfl
  constructor
  case fin => exact fun _ => fin_init
  case len => rfl
  case c0 => exact ⟨_, rfl, rfl, rfl, rfl⟩
  case mn =>
    constructor <;> first | rfl | (intros; rfl) | skip
    · intro _; decide
    · intro h; rcases h with h | h <;> cases h
  case fresh => intro _ i; exact ⟨rfl, rfl, rfl, rfl, rfl, rfl, rfl⟩
  all_goals first
    | (intro i hi; rw [hn] at hi; omega)
    | (intro h; cases h; done)
    | (intro h; exact absurd rfl h)
    | (intros; rfl)
    | skip
  · intro b k hm; cases hm
  · intro b k half hm; cases hm

theorem countP_mono' {α : Type} {p q : α → Bool} {l : List α} (h : ∀ x ∈ l, p x = true → q x = true) : l.countP p ≤ l.countP q := by
  induction l with
  | nil => simp
  | cons a l ih =>
    have := ih (fun x hx => h x (List.mem_cons_of_mem _ hx))
    have h1 := h a (by simp)
    simp only [List.countP_cons]
    cases hp : p a
    · simp; omega
    · simp [h1 hp]; omega

theorem TInv.mono {r j p p' : Bool} {l : List Nat} {W : Nat} {pc : TPc} {f : Bool} {q : Nat} {rn : List Nat} {cr : Bool} {d : CountDown.Counter}
    (h : TInv r j p l W pc f q rn cr d) (hp : p = true → p' = true) : TInv r j p' l W pc f q rn cr d :=
  { h with cr2 := fun a b => hp (h.cr2 a b) }

/-- A step of a thread that does not touch the queues. -/
theorem Inv.local (hi : Inv s w c pl bat pend) {i : Nat} (hin : i < s.n) {s' : St} {w' : CountDown.Waiter} {c' : CountDown.Counter} {x : TPc} {f t : Bool} {rn : List Nat}
    {cr ps : Bool} {fin' : CountDown.St}
    (e : s' = { s with pc := upd s.pc i x, flag := upd s.flag i f, token := upd s.token i t, ran := upd s.ran i rn, crashed := upd s.crashed i cr, poisoned := ps, fin := fin' })
    (hm : s.main ≠ .making) (hfin : s.main ≠ .over → Fin fin' w') (hw1 : w'.passed = w.passed) (hw2 : w'.pc ≠ .out ↔ w.pc ≠ .out) (hcs : fin'.cs = s.fin.cs.set (i + 1) c')
    (hps : s.poisoned = true → ps = true) (hps2 : ps = true → s.poisoned = true ∨ (cr = true ∧ s.main.round s.task = true))
    (hthr : TInv (s.main.round s.task) s.main.joined ps s.issued w.passed x f (s.lpi i) rn cr c')
    (hcr : s.crashed i = true → cr = true) (hck : cr = true → s.crashed i = true ∨ s.main.round s.task = true)
    (hhold : heldIn (s.pc i).starter = none) (hun : unparksIn (s.pc i).starter = none) (hgone : s.pc i ≠ .gone)
    (hx : heldIn x.starter = none) (hxp : ∀ p sub, x.starter = some (p, sub) → p < s.np) (hxk : ∀ p k, x.starter = some (p, .seek k) → k = 0)
    (hfr : s.main.round s.task = true →
      ((c'.live = true ∧ c'.passed = w.passed ∧ f = false ∧ x.rest = true) ↔ ((c i).live = true ∧ (c i).passed = w.passed ∧ s.flag i = false ∧ (s.pc i).rest = true)))
    (hac : s.main.round s.task = true → x.active f = (s.pc i).active (s.flag i))
    (hpop : s.main.joined = true → x.toPop = true → (s.pc i).toPop = true)
    (hsig : s.main.joined = true → (s.flag i = true ∨ (s.pc i).rest = false) → (f = true ∨ x.rest = false))
    (hpn : x = .park → f = true → False) : Inv s' w' (upd c i c') pl bat pend := by
  have hst : s'.starter = upd s.starter (some i) x.starter := by
    subst e
    funext a
    cases a with
    | none => rw [upd_ne _ _ _ _ (by simp)]; rfl
    | some j =>
      by_cases ej : j = i
      · subst ej; simp [St.starter, upd_same]
      · rw [upd_ne _ _ _ _ (by simpa using ej)]; simp [St.starter, upd_ne _ _ _ _ ej]
  have hself : s.starter (some i) = (s.pc i).starter := rfl
  have hpc : ∀ j, j ≠ i → s'.pc j = s.pc j := fun j hj => by subst e; exact upd_ne _ _ _ _ hj
  have hpi : s'.pc i = x := by subst e; exact upd_same _ _ _
  have hfl : ∀ j, j ≠ i → s'.flag j = s.flag j := fun j hj => by subst e; exact upd_ne _ _ _ _ hj
  have hfi : s'.flag i = f := by subst e; exact upd_same _ _ _
  have hcj : ∀ j, j ≠ i → upd c i c' j = c j := fun j hj => upd_ne _ _ _ _ hj
  have hci : upd c i c' i = c' := upd_same _ _ _
  have hcrj : ∀ j, j ≠ i → s'.crashed j = s.crashed j := fun j hj => by subst e; exact upd_ne _ _ _ _ hj
  have hcri : s'.crashed i = cr := by subst e; exact upd_same _ _ _
  have hrnj : ∀ j, j ≠ i → s'.ran j = s.ran j := fun j hj => by subst e; exact upd_ne _ _ _ _ hj
  have hrni : s'.ran i = rn := by subst e; exact upd_same _ _ _
  have htj : ∀ j, j ≠ i → s'.token j = s.token j := fun j hj => by subst e; exact upd_ne _ _ _ _ hj
  have e1 : s'.main = s.main := by subst e; rfl
  have e2 : s'.n = s.n := by subst e; rfl
  have e3 : s'.np = s.np := by subst e; rfl
  have e4 : s'.ready = s.ready := by subst e; rfl
  have e5 : s'.done = s.done := by subst e; rfl
  have e6 : s'.lpi = s.lpi := by subst e; rfl
  have e7 : s'.task = s.task := by subst e; rfl
  have e8 : s'.issued = s.issued := by subst e; rfl
  have e9 : s'.poisoned = ps := by subst e; rfl
  have e10 : s'.fin = fin' := by subst e; rfl
  have e11 : s'.aff = s.aff := by subst e; rfl
  have e12 : ∀ p, s'.cpu p = s.cpu p := fun p => by subst e; rfl
  clear e
  have hrj : s.main.round s.task = true → s.main.joined = false := by cases s.main <;> simp [MPc.round, MPc.joined]
  have hnp : 0 < s.np := by have := (hi.q hm).lp i hin; omega
  constructor
  case fin => rw [e1, e10]; exact hfin
  case len => rw [e10, e2, hcs, List.length_set]; exact hi.len
  case c0 =>
    obtain ⟨d, h1, h2⟩ := hi.c0
    refine ⟨d, ?_, by rw [e1]; exact h2⟩
    rw [e10, hcs, List.getElem?_set_ne (by omega)]; exact h1
  case cs =>
    intro j hj
    rw [e2] at hj
    rw [e10, hcs]
    by_cases ej : j = i
    · subst ej; rw [hci]; exact getElem?_set_self' (hi.cs j hj)
    · rw [hcj j ej, List.getElem?_set_ne (by omega)]; exact hi.cs j hj
  case thr =>
    intro j hj
    rw [e2] at hj
    rw [e1, e7, e9, e8, hw1, e6]
    by_cases ej : j = i
    · subst ej; rw [hpi, hfi, hrni, hcri, hci]; exact hthr
    · rw [hpc j ej, hfl j ej, hrnj j ej, hcrj j ej, hcj j ej]; exact (hi.thr j hj).mono hps
  case outr =>
    intro j hj
    rw [e2] at hj
    rw [hpc j (by omega)]; exact hi.outr j hj
  case fresh => rw [e1]; exact fun h => absurd h hm
  case q =>
    intro _
    rw [e2, e3, e4, e5, e6, hst]
    exact (hi.q hm).move (some i) hhold _ hx hxp (fun p k h => by rw [hxk p k h]; exact hnp)
  case rnd =>
    rw [e1, e7]
    intro hr
    have h := hi.rnd hr
    rw [e2, e3, e4, hw1]
    refine ⟨?_, ?_, h.empty, ?_⟩
    · intro j hj
      rw [h.fresh j hj]
      by_cases ej : j = i
      · subst ej; simp only [hci, hfi, hpi]; exact (hfr hr).symm
      · simp only [hcj j ej, hfl j ej, hpc j ej]
    · intro a p hp
      rw [← h.bt a p hp]
      cases a with
      | none => simp only [St.has, e1]
      | some j =>
        simp only [St.has, e2, e6]
        by_cases ej : j = i
        · subst ej; rw [hpi, hfi, hac hr]
        · rw [hpc j ej, hfl j ej]
    · intro a p k ha j hj
      rw [hst] at ha
      by_cases ea : a = some i
      · subst ea
        rw [upd_same] at ha
        have := hxk p k ha
        omega
      · rw [upd_ne _ _ _ _ ea] at ha
        exact h.seek a p k ha j hj
  case jn =>
    rw [e1]
    intro hj
    have h := hi.jn hj
    rw [e2, e3, e4, e6]
    refine ⟨?_, ?_, ?_, ?_, ?_⟩
    · intro p hp
      refine Nat.le_trans ?_ (h.cnt p hp)
      apply countP_mono'
      intro j _ hc
      by_cases ej : j = i
      · subst ej
        rw [hpi] at hc
        simp only [Bool.and_eq_true] at hc ⊢
        exact ⟨hc.1, hpop hj hc.2⟩
      · rw [hpc j ej] at hc; exact hc
    · intro a p k ha
      rw [hst] at ha
      by_cases ea : a = some i
      · subst ea
        rw [upd_same] at ha
        exact hxk p k ha
      · rw [upd_ne _ _ _ _ ea] at ha; exact h.k0 a p k ha
    · intro a p k q ha
      rw [hst] at ha
      by_cases ea : a = some i
      · subst ea
        rw [upd_same] at ha
        rw [ha] at hx; cases hx
      · rw [upd_ne _ _ _ _ ea] at ha; exact h.own1 a p k q ha
    · intro a p k q ha
      rw [hst] at ha
      by_cases ea : a = some i
      · subst ea
        rw [upd_same] at ha
        rw [ha] at hx; cases hx
      · rw [upd_ne _ _ _ _ ea] at ha; exact h.own2 a p k q ha
    · intro j hjn hu
      have h1 := h.sig j hjn hu
      by_cases ej : j = i
      · subst ej; rw [hfi, hpi]; exact hsig hj h1
      · rw [hfl j ej, hpc j ej]; exact h1
  case pn =>
    intro j hj hp hf ht
    rw [e2] at hj
    by_cases ej : j = i
    · subst ej; rw [hpi] at hp; rw [hfi] at hf; exact absurd hf (fun h => hpn hp h)
    · rw [hpc j ej] at hp
      rw [hfl j ej] at hf
      rw [htj j ej] at ht
      have h1 := hi.pn j hj hp hf ht
      have key : ∀ a, s.unparks a = some j → s'.unparks a = some j := by
        intro a ha
        cases a with
        | none => simp only [St.unparks, e1, St.starter] at ha ⊢; exact ha
        | some l =>
          simp only [St.unparks, St.starter] at ha ⊢
          by_cases el : l = i
          · subst el; rw [hun] at ha; cases ha
          · rw [hpc l el]; exact ha
      exact key _ h1
  case mn =>
    rw [e1, e7, e8, e9]
    have h := hi.mn
    refine ⟨by rw [hw1]; exact h.iss, h.tk, fun ho => hw2.trans (h.wpc ho), h.making, ?_, fun hb => hps (h.bad hb), fun hb => absurd hb hm⟩
    intro hcl
    cases hp : ps with
    | false => rfl
    | true =>
      rcases hps2 hp with h1 | ⟨_, h1⟩
      · have := h.clean hcl; rw [h1] at this; cases this
      · exfalso
        cases hmm : s.main <;> simp only [hmm, MPc.clean, MPc.round] at hcl h1 <;> simp at hcl h1
        rw [hcl] at h1; simp at h1
  case post => rw [e1, e2]; exact hi.post
  case idle => rw [e1, e2, e7]; exact hi.idle
  case blame =>
    rw [e9, e2]
    intro hp
    rcases hps2 hp with h1 | ⟨h1, _⟩
    · obtain ⟨j, hj, h2⟩ := hi.blame h1
      refine ⟨j, hj, ?_⟩
      by_cases ej : j = i
      · subst ej; rw [hcri]; exact hcr h2
      · rw [hcrj j ej]; exact h2
    · exact ⟨i, hin, by rw [hcri]; exact h1⟩
  case over => rw [e1, e2]; intro ho; exact absurd (hi.over ho i hin) hgone
  case check =>
    intro b hb ht j hj
    rw [e1] at hb
    rw [e2] at hj
    have h1 := hi.check b hb ht j hj
    by_cases ej : j = i
    · subst ej
      rw [hcri]
      cases hc : cr with
      | false => rfl
      | true =>
        rcases hck hc with h2 | h2
        · rw [h1] at h2; cases h2
        · have := hrj h2
          rcases hb with ⟨k, hf, hb⟩ | ⟨k, hb⟩ <;> rw [hb] at this <;> cases this
    · rw [hcrj j ej]; exact h1
  case joins =>
    intro b k hb j hj hjn
    rw [e1] at hb
    rw [e2] at hjn
    have h1 := hi.joins b k hb j hj hjn
    by_cases ej : j = i
    · subst ej; exact absurd h1 hgone
    · rw [hpc j ej]; exact h1
  case unp => rw [e1, e2]; exact hi.unp
  case aff => rw [e2, e11, e6]; intro j hj; rw [e12]; exact hi.aff j hj

end Shadow.Pool.Bounded
