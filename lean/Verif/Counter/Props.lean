import Verif.Counter.Model
import Verif.Base.Sort
/-!
# C44: counters are exact totals
-/
namespace Shadow.Counter

variable {K : Type} [DecidableEq K]

/-! ## Specification -/

/-- What an operation makes of a value. -/
def apply (op : Opn) (old value : Int) : Int := match op with
  | .add => old + value
  | .sub => old - value
  | .set => value

/-- The value of key `k` after a history of operations, computed for that key alone. -/
def total (k : K) (start : Int) : List (K × Opn × Int) → Int
  | [] => start
  | (j, op, v) :: l => total k (if j = k then apply op start v else start) l

/-- No entry is zero. -/
def NoZero (c : Counter K) : Prop := ∀ k, c k ≠ some 0

/-- What iterating over a counter may yield: every entry once, in any order. -/
def Enumerates (items : List (K × Int)) (c : Counter K) : Prop :=
  items.Nodup ∧ ∀ k v, (k, v) ∈ items ↔ c k = some v

/-! ## Single operations -/

/-- **C44.**  One operation changes only its own key, returns the new value, and leaves no zero
    entry behind. -/
theorem C44_operate (c : Counter K) (k : K) (op : Opn) (v : Int) :
    (operate c k op v).1 = apply op (getValue c k) v
    ∧ getValue (operate c k op v).2 k = apply op (getValue c k) v
    ∧ (∀ j, j ≠ k → (operate c k op v).2 j = c j)
    ∧ (NoZero c → NoZero (operate c k op v).2) := by
  have main : ∀ (c0 : Counter K) (val : Int), (∀ j, j ≠ k → c0 j = c j) →
      (operateSome c0 k val op v).1 = apply op val v
      ∧ getValue (operateSome c0 k val op v).2 k = apply op val v
      ∧ (∀ j, j ≠ k → (operateSome c0 k val op v).2 j = c j)
      ∧ (NoZero c → NoZero (operateSome c0 k val op v).2) := by
    intro c0 val h0
    have e : operateSome c0 k val op v = if apply op val v = 0 then (0, put c0 k none)
        else (apply op val v, put c0 k (some (apply op val v))) := by cases op <;> rfl
    rw [e]
    by_cases hz : apply op val v = 0
    · simp only [hz, if_true]
      refine ⟨trivial, by simp [getValue, put], fun j hj => by simp [put, hj, h0 j hj], ?_⟩
      intro hn j
      by_cases hj : j = k
      · simp [put, hj]
      · simpa [put, hj, h0 j hj] using hn j
    · simp only [hz, if_false]
      refine ⟨trivial, by simp [getValue, put], fun j hj => by simp [put, hj, h0 j hj], ?_⟩
      intro hn j
      by_cases hj : j = k
      · simp [put, hj, hz]
      · simpa [put, hj, h0 j hj] using hn j
  unfold operate
  cases hk : c k with
  | some val =>
    have := main c val (fun _ _ => rfl)
    simpa [getValue, hk] using this
  | none =>
    have := main (put c k (some 0)) 0 (fun j hj => by simp [put, hj])
    simpa [getValue, hk] using this

theorem getValue_operate (c : Counter K) (k j : K) (op : Opn) (v : Int) :
    getValue (operate c k op v).2 j = if k = j then apply op (getValue c j) v else getValue c j := by
  have h := C44_operate c k op v
  by_cases e : k = j
  · subst e; simp [h.2.1]
  · have := h.2.2.1 j (fun hh => e hh.symm)
    simp [e, getValue, this]

/-- A history of operations on one counter. -/
def runOps (c : Counter K) (l : List (K × Opn × Int)) : Counter K :=
  l.foldl (fun c o => (operate c o.1 o.2.1 o.2.2).2) c

/-- **C44.**  After any history every key has exactly its own total, and is present exactly when the
    total is not zero. -/
theorem C44_history (l : List (K × Opn × Int)) (k : K) :
    getValue (runOps new l) k = total k 0 l
    ∧ (runOps new l k = none ↔ total k 0 l = 0) := by
  have gen : ∀ (l : List (K × Opn × Int)) (c : Counter K),
      getValue (runOps c l) k = total k (getValue c k) l := by
    intro l
    induction l with
    | nil => intro c; rfl
    | cons o l ih =>
      intro c
      obtain ⟨j, op, v⟩ := o
      simp only [runOps, List.foldl_cons, total] at ih ⊢
      rw [ih, getValue_operate]
  have nz : ∀ (l : List (K × Opn × Int)) (c : Counter K), NoZero c → NoZero (runOps c l) := by
    intro l
    induction l with
    | nil => intro c h; exact h
    | cons o l ih => intro c h; exact ih _ ((C44_operate c o.1 o.2.1 o.2.2).2.2.2 h)
  have h1 := gen l new
  refine ⟨h1, ?_⟩
  have h0 := nz l new (by intro k; simp [new]) k
  have h1 : getValue (runOps new l) k = total k 0 l := h1
  rw [← h1]
  unfold getValue
  cases hx : runOps new l k with
  | none => simp
  | some v =>
    simp only [reduceCtorEq, false_iff]
    intro hv
    exact h0 (by rw [hx, hv])

/-! ## Merging -/

theorem foldl_notMem (op : Opn) (items : List (K × Int)) (k : K) :
    ∀ c : Counter K, (∀ v, (k, v) ∉ items) →
    getValue (items.foldl (fun c kv => (operate c kv.1 op kv.2).2) c) k = getValue c k := by
  induction items with
  | nil => intro c _; rfl
  | cons x l ih =>
    intro c h
    simp only [List.foldl_cons]
    rw [ih _ (fun v hv => h v (List.mem_cons_of_mem _ hv)), getValue_operate]
    have : x.1 ≠ k := fun e => h x.2 (by rw [← e]; simp)
    simp [this]

theorem foldl_mem (op : Opn) (items : List (K × Int)) (k : K) (v : Int)
    (huniq : ∀ v', (k, v') ∈ items → v' = v) : items.Nodup → (k, v) ∈ items →
    ∀ c : Counter K,
    getValue (items.foldl (fun c kv => (operate c kv.1 op kv.2).2) c) k = apply op (getValue c k) v := by
  induction items with
  | nil => intro _ h; simp at h
  | cons x l ih =>
    intro hnd hm c
    simp only [List.foldl_cons]
    have hnd' := List.nodup_cons.mp hnd
    by_cases hx : x = (k, v)
    · subst hx
      rw [foldl_notMem, getValue_operate]
      · simp
      · intro v' hv'
        have := huniq v' (List.mem_cons_of_mem _ hv')
        subst this
        exact hnd'.1 hv'
    · have hm' : (k, v) ∈ l := by
        rcases List.mem_cons.mp hm with h | h
        · exact absurd h.symm hx
        · exact h
      rw [ih (fun v' hv' => huniq v' (List.mem_cons_of_mem _ hv')) hnd'.2 hm', getValue_operate]
      have : x.1 ≠ k := by
        intro e
        have := huniq x.2 (by rw [← e]; simp)
        exact hx (by rw [← e, ← this])
      simp [this]

/-- **C44.**  Adding a counter adds the values key by key, in whatever order its entries are visited. -/
theorem C44_add_counter (c d : Counter K) (items : List (K × Int)) (h : Enumerates items d) (k : K) :
    getValue (addCounter c items) k = getValue c k + getValue d k := by
  unfold addCounter
  cases hd : d k with
  | none =>
    rw [foldl_notMem _ _ _ _ (fun v hv => by simp [(h.2 k v).mp hv] at hd)]
    simp [getValue, hd]
  | some v =>
    rw [foldl_mem .add items k v (fun v' hv' => by
      have := (h.2 k v').mp hv'; rw [hd] at this; exact (Option.some.inj this).symm) h.1
      ((h.2 k v).mpr hd)]
    simp [getValue, hd, apply]

/-- **C44.**  Subtracting a counter subtracts the values key by key. -/
theorem C44_sub_counter (c d : Counter K) (items : List (K × Int)) (h : Enumerates items d) (k : K) :
    getValue (subCounter c items) k = getValue c k - getValue d k := by
  unfold subCounter
  cases hd : d k with
  | none =>
    rw [foldl_notMem _ _ _ _ (fun v hv => by simp [(h.2 k v).mp hv] at hd)]
    simp [getValue, hd]
  | some v =>
    rw [foldl_mem .sub items k v (fun v' hv' => by
      have := (h.2 k v').mp hv'; rw [hd] at this; exact (Option.some.inj this).symm) h.1
      ((h.2 k v).mpr hd)]
    simp [getValue, hd, apply]

theorem noZero_foldl (op : Opn) (items : List (K × Int)) : ∀ c : Counter K, NoZero c →
    NoZero (items.foldl (fun c kv => (operate c kv.1 op kv.2).2) c) := by
  induction items with
  | nil => intro c h; exact h
  | cons x l ih => intro c h; exact ih _ ((C44_operate c x.1 op x.2).2.2.2 h)

omit [DecidableEq K] in
/-- Without zero entries a counter is determined by its values. -/
theorem ext_of_values {c d : Counter K} (hc : NoZero c) (hd : NoZero d)
    (h : ∀ k, getValue c k = getValue d k) : c = d := by
  funext k
  have h1 := h k
  have hc := hc k
  have hd := hd k
  unfold getValue at h1
  cases hx : c k <;> cases hy : d k <;> simp_all

/-- **C44.**  The merged counter itself does not depend on the iteration order. -/
theorem C44_add_counter_order (c d : Counter K) (hc : NoZero c) (l₁ l₂ : List (K × Int))
    (h₁ : Enumerates l₁ d) (h₂ : Enumerates l₂ d) : addCounter c l₁ = addCounter c l₂ :=
  ext_of_values (noZero_foldl _ _ _ hc) (noZero_foldl _ _ _ hc)
    (fun k => by rw [C44_add_counter c d l₁ h₁, C44_add_counter c d l₂ h₂])

/-! ## Workers -/

/-- A history of the workers in which every flush visits the worker's local counter in some order. -/
inductive Runs : Stats K → List (Act K) → Stats K → Prop where
  | nil (s) : Runs s [] s
  | count {s l s'} (w : Nat) (k : K) (v : Int) :
      Runs (s.step (.count w k v)) l s' → Runs s (.count w k v :: l) s'
  | flush {s l s'} (w : Nat) (items : List (K × Int)) : Enumerates items (s.locals w) →
      Runs (s.step (.flush w items)) l s' → Runs s (.flush w items :: l) s'

/-- The sum of everything counted for key `k` in a history. -/
def counted (k : K) : List (Act K) → Int
  | [] => 0
  | .count _ j v :: l => (if j = k then v else 0) + counted k l
  | .flush .. :: l => counted k l

/-- The sum of what worker `w` counted for key `k` after its last flush, given what it had before. -/
def pending (w : Nat) (k : K) (acc : Int) : List (Act K) → Int
  | [] => acc
  | .count x j v :: l => pending w k (if x = w ∧ j = k then acc + v else acc) l
  | .flush x _ :: l => pending w k (if x = w then 0 else acc) l

/-- The values for `k` of all local counters of the workers `ws`. -/
def localSum (s : Stats K) (ws : List Nat) (k : K) : Int :=
  (ws.map (fun w => getValue (s.locals w) k)).sum

def worker : Act K → Nat
  | .count w _ _ => w
  | .flush w _ => w

theorem sum_update (f g : Nat → Int) (ws : List Nat) (w : Nat) (hw : w ∈ ws) (hn : ws.Nodup)
    (h : ∀ x, x ≠ w → g x = f x) : (ws.map g).sum = (ws.map f).sum + (g w - f w) := by
  induction ws with
  | nil => simp at hw
  | cons x l ih =>
    have hn' := List.nodup_cons.mp hn
    simp only [List.map_cons, List.sum_cons]
    rcases List.mem_cons.mp hw with rfl | hw'
    · have : l.map g = l.map f := List.map_congr_left (fun y hy => h y (fun e => hn'.1 (e ▸ hy)))
      rw [this]; omega
    · rw [ih hw' hn'.2, h x (fun e => hn'.1 (e ▸ hw'))]; omega

theorem runs_sum {s s' : Stats K} {l : List (Act K)} (hr : Runs s l s') (ws : List Nat)
    (hn : ws.Nodup) (k : K) : (∀ a ∈ l, worker a ∈ ws) →
    getValue s'.shared k + localSum s' ws k
      = getValue s.shared k + localSum s ws k + counted k l := by
  induction hr with
  | nil => intro _; simp [counted]
  | @count s l s' w j v hr ih =>
    intro hw
    rw [ih (fun a ha => hw a (List.mem_cons_of_mem _ ha))]
    have hww : w ∈ ws := hw _ (List.mem_cons_self ..)
    have hs : localSum (s.step (.count w j v)) ws k
        = localSum s ws k + (getValue ((s.step (.count w j v)).locals w) k - getValue (s.locals w) k) :=
      sum_update (fun x => getValue (s.locals x) k)
        (fun x => getValue ((s.step (.count w j v)).locals x) k) ws w hww hn
        (fun x hx => by simp [Stats.step, hx])
    rw [hs]
    simp only [Stats.step, if_true, getValue_operate, counted, apply]
    split <;> omega
  | @flush s l s' w items he hr ih =>
    intro hw
    rw [ih (fun a ha => hw a (List.mem_cons_of_mem _ ha))]
    have hww : w ∈ ws := hw _ (List.mem_cons_self ..)
    have hs : localSum (s.step (.flush w items)) ws k
        = localSum s ws k + (getValue ((s.step (.flush w items)).locals w) k - getValue (s.locals w) k) :=
      sum_update (fun x => getValue (s.locals x) k)
        (fun x => getValue ((s.step (.flush w items)).locals x) k) ws w hww hn
        (fun x hx => by simp [Stats.step, hx])
    rw [hs]
    have : getValue (s.step (.flush w items)).shared k = getValue s.shared k + getValue (s.locals w) k :=
      C44_add_counter s.shared (s.locals w) items he k
    rw [this]
    have e : getValue ((s.step (.flush w items)).locals w) k = 0 := by
      simp [Stats.step, getValue, Counter.new]
    rw [e]
    simp only [counted]
    omega

/-- **C44.**  At any time, the shared counter plus all local counters is the sum of everything counted
    so far, whatever the interleaving of the workers and of the merges. -/
theorem C44_workers (l : List (Act K)) (s : Stats K) (h : Runs Stats.new l s) (ws : List Nat)
    (hn : ws.Nodup) (hw : ∀ a ∈ l, worker a ∈ ws) (k : K) :
    getValue s.shared k + localSum s ws k = counted k l := by
  rw [runs_sum h ws hn k hw]
  have : ∀ ws : List Nat, localSum (Stats.new : Stats K) ws k = 0 := by
    intro ws
    induction ws with
    | nil => rfl
    | cons x l ih =>
      simp only [localSum, List.map_cons, List.sum_cons] at ih ⊢
      rw [ih]; simp [Stats.new, getValue, Counter.new]
  rw [this]
  simp [Stats.new, getValue, Counter.new]

theorem runs_pending {s s' : Stats K} {l : List (Act K)} (hr : Runs s l s') (w : Nat) (k : K) :
    getValue (s'.locals w) k = pending w k (getValue (s.locals w) k) l := by
  induction hr with
  | nil => rfl
  | count x j v hr ih =>
    rw [ih]
    simp only [pending, Stats.step]
    congr 1
    by_cases hx : w = x
    · subst hx; simp [getValue_operate, apply]
    · have : x ≠ w := fun e => hx e.symm
      simp [hx, this]
  | flush x items he hr ih =>
    rw [ih]
    simp only [pending, Stats.step]
    congr 1
    by_cases hx : w = x
    · subst hx; simp [getValue, Counter.new]
    · have : x ≠ w := fun e => hx e.symm
      simp [hx, this]

theorem runs_noZero {s s' : Stats K} {l : List (Act K)} (hr : Runs s l s') :
    NoZero s.shared → NoZero s'.shared := by
  induction hr with
  | nil => exact id
  | count x j v hr ih => intro h; exact ih h
  | flush x items he hr ih => intro h; exact ih (noZero_foldl _ _ _ h)

omit [DecidableEq K] in
theorem workers_exist (l : List (Act K)) : ∃ ws : List Nat, ws.Nodup ∧ ∀ a ∈ l, worker a ∈ ws := by
  have : ∃ n, ∀ a ∈ l, worker a < n := by
    induction l with
    | nil => exact ⟨0, by simp⟩
    | cons x l ih =>
      obtain ⟨n, hn⟩ := ih
      refine ⟨max n (worker x + 1), fun a ha => ?_⟩
      rcases List.mem_cons.mp ha with rfl | ha
      · omega
      · have := hn a ha; omega
  obtain ⟨n, hn⟩ := this
  exact ⟨List.range n, List.nodup_range, fun a ha => List.mem_range.mpr (hn a ha)⟩

/-- **C44.**  Once every worker has merged everything it counted, the shared counter holds for each
    key exactly the sum of all increments, and has the key exactly when the sum is not zero. -/
theorem C44_final (l : List (Act K)) (s : Stats K) (h : Runs Stats.new l s)
    (hdone : ∀ w k, pending w k 0 l = 0) (k : K) :
    getValue s.shared k = counted k l ∧ (s.shared k = none ↔ counted k l = 0) := by
  have hmain : getValue s.shared k = counted k l := by
    obtain ⟨ws, hn, hw⟩ := workers_exist l
    have := C44_workers l s h ws hn hw k
    have hz : localSum s ws k = 0 := by
      unfold localSum
      have : ws.map (fun w => getValue (s.locals w) k) = ws.map (fun _ => (0 : Int)) := by
        apply List.map_congr_left
        intro w _
        rw [runs_pending h w k]
        have : getValue ((Stats.new : Stats K).locals w) k = 0 := by
          simp [Stats.new, getValue, Counter.new]
        rw [this, hdone w k]
      rw [this]
      have : ∀ ws : List Nat, (ws.map (fun _ => (0 : Int))).sum = 0 := by
        intro ws
        induction ws with
        | nil => rfl
        | cons x l ih => simpa using ih
      exact this ws
    omega
  refine ⟨hmain, ?_⟩
  have hz := runs_noZero h (by intro k; simp [Stats.new, Counter.new]) k
  rw [← hmain]
  unfold getValue
  cases hx : s.shared k with
  | none => simp
  | some v =>
    simp only [reduceCtorEq, false_iff]
    intro hv
    exact hz (by rw [hx, hv])

/-! ## Output -/

/-- **C44.**  The order of the output does not depend on the iteration order of the map: it is by
    value, largest first, then by key. -/
theorem C44_display (le : K → K → Bool) (trans : ∀ a b c, le a b → le b c → le a c)
    (total : ∀ a b, le a b || le b a) (anti : ∀ a b, le a b → le b a → a = b)
    (c : Counter K) (l₁ l₂ : List (K × Int)) (h₁ : Enumerates l₁ c) (h₂ : Enumerates l₂ c) :
    sortedForDisplay le l₁ = sortedForDisplay le l₂
    ∧ (sortedForDisplay le l₁).Pairwise
        (fun a b => b.2 < a.2 ∨ (a.2 = b.2 ∧ le a.1 b.1 = true))
    ∧ ∀ k v, (k, v) ∈ sortedForDisplay le l₁ ↔ c k = some v := by
  have ht : ∀ a b c, displayLe le a b → displayLe le b c → displayLe le a c := by
    intro a b c
    simp only [displayLe, Bool.or_eq_true, decide_eq_true_eq, Bool.and_eq_true]
    rintro (h1 | ⟨h1, h2⟩) (h3 | ⟨h3, h4⟩)
    · exact .inl (by omega)
    · exact .inl (by omega)
    · exact .inl (by omega)
    · exact .inr ⟨by omega, trans _ _ _ h2 h4⟩
  have hto : ∀ a b, displayLe le a b || displayLe le b a := by
    intro a b
    simp only [displayLe, Bool.or_eq_true, decide_eq_true_eq, Bool.and_eq_true]
    have := total a.1 b.1
    simp only [Bool.or_eq_true] at this
    rcases Int.lt_trichotomy a.2 b.2 with h | h | h
    · exact .inr (.inl h)
    · rcases this with g | g
      · exact .inl (.inr ⟨h, g⟩)
      · exact .inr (.inr ⟨h.symm, g⟩)
    · exact .inl (.inl h)
  refine ⟨Base.mergeSort_perm_eq ht hto ?_ ?_, ?_, ?_⟩
  · intro a b _ _
    simp only [displayLe, Bool.or_eq_true, decide_eq_true_eq, Bool.and_eq_true]
    rintro (h1 | ⟨h1, h2⟩) (h3 | ⟨h3, h4⟩)
    · omega
    · omega
    · omega
    · exact Prod.ext (anti _ _ h2 h4) h1
  · exact (List.perm_ext_iff_of_nodup h₁.1 h₂.1).mpr (fun x => by
      obtain ⟨k, v⟩ := x; rw [h₁.2, h₂.2])
  · have := List.pairwise_mergeSort ht hto l₁
    refine this.imp ?_
    intro a b
    simp only [displayLe, Bool.or_eq_true, decide_eq_true_eq, Bool.and_eq_true]
    exact id
  · intro k v
    rw [← h₁.2 k v]
    exact (List.mergeSort_perm l₁ _).mem_iff

/-! ## Examples -/

/-- Two workers, keys 0 and 1; key 0 goes to 2 and back to 0 after the merges. -/
def exActs : List (Act Nat) :=
  [.count 0 0 2, .count 1 1 5, .flush 0 [(0, 2)], .count 1 0 (-2), .count 1 1 1,
   .flush 1 [(1, 6), (0, -2)]]

example : counted 0 exActs = 0 ∧ counted 1 exActs = 6 := by decide

example : ∃ s, Runs Stats.new exActs s ∧ getValue s.shared 1 = 6 ∧ s.shared 0 = none := by
  refine ⟨exActs.foldl Stats.step Stats.new, ?_, by decide, by decide⟩
  refine .count _ _ _ (.count _ _ _ (.flush _ _ ?_ (.count _ _ _ (.count _ _ _ (.flush _ _ ?_ (.nil _))))))
  · refine ⟨by decide, fun k v => ?_⟩
    simp [Stats.step, Stats.new, operate, operateSome, Counter.new, put]
    grind
  · refine ⟨by decide, fun k v => ?_⟩
    simp [Stats.step, Stats.new, operate, operateSome, Counter.new, put]
    grind

example : ∀ w k, pending w k 0 exActs = 0 := by
  intro w k
  simp only [exActs, pending]
  grind

end Shadow.Counter
