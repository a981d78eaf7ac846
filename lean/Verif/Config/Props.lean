import Verif.Config.Model
/-!
# C93: where the settings of a host come from, and which configurations are taken
-/
namespace Shadow.Config

open Shadow.Base

/-! ## Specification -/

/-- `v` is the first value that is set in a list of places. -/
def First {T : Type} (l : List (Option T)) (v : T) : Prop := ∃ pre post, l = pre ++ some v :: post ∧ ∀ x ∈ pre, x = none

/-- The value that is written in the file, if one is. -/
def InFile.given {T : Type} : InFile T → Option T
  | .val v => some v
  | _ => none

/-- A log level that is written in the file. -/
def InFile.level (x : InFile Nat) : Option (Nullable Nat) := x.given.map .value

/-- The seed of the simulation: of the command line, or of the file, or 1. -/
def IsSeed (f : FileOpts) (c : Cli) (s : Nat) : Prop := First [c.seed, f.seed.given, some 1] s

/-- The time to stop: of the command line, or of the file. -/
def IsStop (f : FileOpts) (c : Cli) (s : Nat) : Prop := First [c.stop, f.stop.given] s

/-- Whether packets are captured: of the host, the command line, the defaults in the file, or no. -/
def IsPcap (f : FileOpts) (c : Cli) (h : HostFile) (b : Bool) : Prop :=
  First [h.opts.pcapEnabled.given, c.defaults.pcapEnabled, f.defaults.pcapEnabled.given, some false] b

def IsCapture (f : FileOpts) (c : Cli) (h : HostFile) (n : Nat) : Prop :=
  First [h.opts.captureSize.given, c.defaults.captureSize, f.defaults.captureSize.given, some 65535] n

def IsLevel (f : FileOpts) (c : Cli) (h : HostFile) (l : Nat) : Prop :=
  First [h.opts.logLevel.level, c.defaults.logLevel, f.defaults.logLevel.level] (.value l)

/-- The times of a process are in order. -/
def InOrder (p : ProcOpts) (stop : Nat) : Prop :=
  match p.shutdown with
  | none => p.start < stop
  | some t => p.start < t ∧ t < stop

/-- The arguments that are written. -/
def Written (w : World) (p : ProcOpts) (args : List String) : Prop :=
  p.args = .list args ∨ ∃ s, p.args = .str s ∧ w.parse s = some args

/-- A process as it was written. -/
def IsProc (w : World) (p : ProcOpts) (i : ProcInfo) : Prop :=
  i.start = p.start ∧ i.shutdown = p.shutdown ∧ w.find (w.expand p.path) = some i.plugin ∧ ∃ args, Written w p args ∧ i.args = w.expand p.path :: args

/-- Two lists agree, one by one. -/
def Each {A B : Type} (P : A → B → Prop) (l : List A) (m : List B) : Prop :=
  l.length = m.length ∧ ∀ (k : Nat) a b, l[k]? = some a → m[k]? = some b → P a b

/-- A host as it was written. -/
def IsHost (w : World) (f : FileOpts) (c : Cli) (debug : List String) (nh : String × HostFile) (i : HostInfo) : Prop :=
  i.name = nh.1 ∧ i.node = nh.2.node ∧ (i.pause = true ↔ nh.1 ∈ debug) ∧ Each (IsProc w) nh.2.procs i.procs ∧
  (∃ s, IsSeed f c s ∧ i.seed = w.random s ^^^ w.hash nh.1) ∧
  (∃ g, w.node nh.2.node = some g ∧ (∃ d, i.down = some d ∧ First [nh.2.down, g.1] d) ∧ (∃ u, i.up = some u ∧ First [nh.2.up, g.2] u)) ∧
  (∀ l, i.logLevel = some l ↔ IsLevel f c nh.2 l) ∧
  (∀ n, i.pcap = some n ↔ IsPcap f c nh.2 true ∧ IsCapture f c nh.2 n)

/-- All values can be represented. -/
def Fits (w : World) (f : FileOpts) (c : Cli) : Prop :=
  (f.seed ≠ .null ∨ c.seed ≠ none) ∧ (∃ s, IsStop f c s ∧ s ≤ Time.simMax) ∧
  ∀ nh ∈ f.hosts,
    (∀ p ∈ nh.2.procs, p.start ≤ Time.simMax ∧ ∀ t, p.shutdown = some t → t ≤ Time.simMax) ∧
    (∀ d, nh.2.down = some d → d < 2 ^ 64) ∧ (∀ d, nh.2.up = some d → d < 2 ^ 64) ∧ (∀ n, IsCapture f c nh.2 n → n < 2 ^ 64) ∧
    (∀ g, w.node nh.2.node = some g → (∀ d, g.1 = some d → d < 2 ^ 64) ∧ ∀ d, g.2 = some d → d < 2 ^ 64)

/-- What a configuration must meet. -/
def Good (w : World) (f : FileOpts) (c : Cli) (debug : List String) : Prop :=
  f.hosts ≠ [] ∧ (∀ d ∈ debug, ∃ h, (d, h) ∈ f.hosts) ∧
  ∀ nh ∈ f.hosts,
    (∀ p ∈ nh.2.procs, (∃ s, IsStop f c s ∧ InOrder p s) ∧ (∃ a, Written w p a) ∧ ∃ x, w.find (w.expand p.path) = some x) ∧
    ∃ g, w.node nh.2.node = some g ∧ (nh.2.down ≠ none ∨ g.1 ≠ none) ∧ (nh.2.up ≠ none ∨ g.2 ≠ none)

/-! ## Merging -/

theorem merge_first {T : Type} (a b : Option T) (v : T) : merge a b = some v ↔ First [a, b] v := by
  constructor
  · intro h
    cases a with
    | some x => exact ⟨[], [b], by simp_all [merge], by simp⟩
    | none => exact ⟨[none], [], by simp_all [merge], by simp⟩
  · rintro ⟨pre, post, h, hp⟩
    match pre with
    | [] => simp at h; simp [merge, h.1]
    | [x] => simp at h; have := hp x (by simp); simp [merge, h.1, this, h.2.1]
    | [x, y] => simp at h
    | x :: y :: z :: r => simp at h

theorem first_cons {T : Type} (a : Option T) (l : List (Option T)) (v : T) : First (a :: l) v ↔ a = some v ∨ (a = none ∧ First l v) := by
  constructor
  · rintro ⟨pre, post, h, hp⟩
    cases pre with
    | nil => simp at h; exact .inl h.1
    | cons x r =>
      simp at h
      exact .inr ⟨by rw [h.1]; exact hp x (by simp), r, post, h.2, fun y hy => hp y (by simp [hy])⟩
  · rintro (h | ⟨h, pre, post, e, hp⟩)
    · exact ⟨[], l, by simp [h], by simp⟩
    · exact ⟨none :: pre, post, by simp [h, e], by simpa using hp⟩

theorem first_nil {T : Type} (v : T) : ¬ First [] v := by
  rintro ⟨pre, post, h, _⟩
  simp at h

theorem first_one {T : Type} {l : List (Option T)} {v u : T} (hv : First l v) (hu : First l u) : v = u := by
  induction l with
  | nil => exact absurd hv (first_nil v)
  | cons x r ih =>
    rw [first_cons] at hv hu
    rcases hv with h | ⟨h, hv⟩ <;> rcases hu with h' | ⟨h', hu⟩ <;> simp_all

theorem read_given {T : Type} (x : InFile T) : readField none x = x.given := by cases x <;> rfl

theorem read_level (x : InFile Nat) : readNullable none x = x.level := by cases x <;> rfl

/-! ## Lists -/

theorem all_inr {A B : Type} (f : A → R (Err ⊕ B)) (l : List A) (m : List B) :
    all f l = .ok (.inr m) ↔ Each (fun a b => f a = .ok (.inr b)) l m := by
  induction l generalizing m with
  | nil =>
    simp only [all, Each]
    cases m <;> simp
  | cons a l ih =>
    simp only [all, R.bind_eq_ok]
    constructor
    · rintro ⟨r, hr, h⟩
      cases r with
      | inl e => simp at h
      | inr b =>
        simp only [R.bind_eq_ok] at h
        obtain ⟨r, hr2, h⟩ := h
        cases r with
        | inl e => simp at h
        | inr bs =>
          simp at h
          subst h
          have := (ih bs).1 hr2
          refine ⟨by simp [this.1], ?_⟩
          intro k x y hx hy
          cases k with
          | zero => simp at hx hy; subst hx; subst hy; exact hr
          | succ k => simp at hx hy; exact this.2 k x y hx hy
    · rintro ⟨hl, h⟩
      cases m with
      | nil => simp at hl
      | cons b bs =>
        refine ⟨.inr b, h 0 a b (by simp) (by simp), ?_⟩
        have : all f l = .ok (.inr bs) := (ih bs).2 ⟨by simpa using hl, fun k x y hx hy => h (k + 1) x y (by simpa using hx) (by simpa using hy)⟩
        simp [this]

theorem all_ok {A B : Type} (f : A → R (Err ⊕ B)) (l : List A) (h : ∀ a ∈ l, ∃ r, f a = .ok r) :
    ∃ r, all f l = .ok r ∧ ((∃ m, r = .inr m) ↔ ∀ a ∈ l, ∃ b, f a = .ok (.inr b)) := by
  induction l with
  | nil => exact ⟨.inr [], rfl, by simp⟩
  | cons a l ih =>
    obtain ⟨r, hr⟩ := h a (by simp)
    obtain ⟨r2, hr2, hi⟩ := ih (fun x hx => h x (by simp [hx]))
    cases r with
    | inl e => exact ⟨.inl e, by simp [all, hr], by simp [hr]⟩
    | inr b =>
      cases r2 with
      | inl e =>
        refine ⟨.inl e, by simp [all, hr, hr2], ?_⟩
        simp at hi
        obtain ⟨x, y, hx⟩ := hi
        simp only [reduceCtorEq, exists_false, false_iff]
        intro hh
        obtain ⟨b, hb⟩ := hh x (by simp [y])
        exact hx b hb
      | inr bs =>
        refine ⟨.inr (b :: bs), by simp [all, hr, hr2], ?_⟩
        have := hi.1 ⟨bs, rfl⟩
        simp only [Sum.inr.injEq, exists_eq', true_iff]
        intro x hx
        rcases List.mem_cons.1 hx with rfl | hx
        · exact ⟨b, hr⟩
        · exact this x hx

theorem Each.mem {A B : Type} {P : A → B → Prop} {l : List A} {m : List B} (h : Each P l m) : ∀ a ∈ l, ∃ b ∈ m, P a b := by
  intro a ha
  obtain ⟨k, hk, e⟩ := List.getElem_of_mem ha
  have hm : k < m.length := by have := h.1; omega
  exact ⟨m[k], List.getElem_mem hm, h.2 k a m[k] (by simp [e, hk]) (by simp [hm])⟩

theorem Each.mem' {A B : Type} {P : A → B → Prop} {l : List A} {m : List B} (h : Each P l m) : ∀ b ∈ m, ∃ a ∈ l, P a b := by
  intro b hb
  obtain ⟨k, hk, e⟩ := List.getElem_of_mem hb
  have hm : k < l.length := by have := h.1; omega
  exact ⟨l[k], List.getElem_mem hm, h.2 k l[k] b (by simp [hm]) (by simp [e, hk])⟩

theorem Each.comp {A B C : Type} {P : A → B → Prop} {Q : B → C → Prop} {S : A → C → Prop} {l : List A} {m : List B} {n : List C}
    (h : Each P l m) (g : Each Q m n) (hs : ∀ a b c, P a b → Q b c → S a c) : Each S l n := by
  refine ⟨h.1.trans g.1, ?_⟩
  intro k a c ha hc
  have hk : k < m.length := by
    have := (List.getElem?_eq_some_iff.1 ha).1
    have := h.1
    omega
  exact hs a m[k] c (h.2 k a _ ha (by simp [hk])) (g.2 k _ c (by simp [hk]) hc)

theorem Each.mono {A B : Type} {P Q : A → B → Prop} {l : List A} {m : List B} (h : Each P l m) (hs : ∀ a b, P a b → Q a b) : Each Q l m :=
  ⟨h.1, fun k a b ha hb => hs a b (h.2 k a b ha hb)⟩

theorem Each.of_map {A B C : Type} {P : C → B → Prop} {g : A → C} {l : List A} {m : List B} (h : Each P (l.map g) m) : Each (fun a b => P (g a) b) l m :=
  ⟨by simpa using h.1, fun k a b ha hb => h.2 k (g a) b (by simp [ha]) hb⟩

/-! ## Processes -/

theorem simTime_eq (n : Nat) : simTime n = if n ≤ Time.simMax then .ok n else .panic := by
  unfold simTime Shadow.Time.Sim.tryFromDuration
  by_cases h : n ≤ Time.simMax
  · rw [if_neg (by omega), if_pos h]; rfl
  · rw [if_pos (by omega), if_neg h]; rfl

theorem simTimeO_eq (o : Option Nat) (x : Option Nat) : simTimeO o = .ok x ↔ x = o ∧ ∀ t, o = some t → t ≤ Time.simMax := by
  cases o with
  | none => simp [simTimeO, eq_comm]
  | some t =>
    simp only [simTimeO, simTime_eq]
    by_cases h : t ≤ Time.simMax
    · simp [h, eq_comm]
    · simp [h]

theorem baseO_eq (o : Option Nat) (x : Option Nat) : baseO o = .ok x ↔ x = o ∧ ∀ t, o = some t → t < 2 ^ 64 := by
  cases o with
  | none => simp [baseO, eq_comm]
  | some t =>
    simp only [baseO, base]
    by_cases h : t < 2 ^ 64
    · rw [if_pos h]; simp only [R.bind_ok, R.ok.injEq, Option.some.injEq, forall_eq']; exact ⟨fun e => ⟨e.symm, h⟩, fun e => e.1.symm⟩
    · rw [if_neg h]; simp only [R.bind_panic, reduceCtorEq, Option.some.injEq, forall_eq', false_iff]; exact fun e => h e.2

theorem timesBad_none (p : ProcOpts) (stop : Nat) : timesBad p.start p.shutdown stop = none ↔ InOrder p stop := by
  unfold timesBad InOrder
  cases p.shutdown <;> simp only <;> grind

theorem procRest_inr (w : World) (p : ProcOpts) (i : ProcInfo) : procRest w p p.start p.shutdown = .inr i ↔ IsProc w p i := by
  obtain ⟨pl, st, sh, ar⟩ := i
  unfold procRest IsProc Written
  simp only
  cases hf : w.find (w.expand p.path) with
  | none =>
    simp only [reduceCtorEq, false_and, and_false, iff_false]
    split <;> simp
  | some x =>
    cases ha : p.args with
    | list l => simp; grind
    | str t =>
      cases hp : w.parse t with
      | none => simp [hp]
      | some l => simp [hp]; grind

theorem buildProc_inr (w : World) (stop : Option Nat) (p : ProcOpts) (i : ProcInfo) : buildProc w stop p = .ok (.inr i) ↔
    ∃ s, stop = some s ∧ s ≤ Time.simMax ∧ p.start ≤ Time.simMax ∧ (∀ t, p.shutdown = some t → t ≤ Time.simMax) ∧ InOrder p s ∧ IsProc w p i := by
  unfold buildProc
  simp only [R.bind_eq_ok, simTimeO_eq]
  constructor
  · rintro ⟨a, ha, b, ⟨rfl, hb⟩, st, hst, s, hs, h⟩
    cases stop with
    | none => simp at hst
    | some s' =>
      simp at hst
      subst hst
      rw [simTime_eq] at ha hs
      split at ha
      · split at hs
        · simp at ha hs
          subst ha; subst hs
          cases ht : timesBad p.start p.shutdown s' with
          | some e => simp [ht] at h
          | none =>
            simp [ht] at h
            exact ⟨s', rfl, by assumption, by assumption, hb, (timesBad_none p s').1 ht, (procRest_inr w p i).1 h⟩
        · simp at hs
      · simp at ha
  · rintro ⟨s, rfl, hs, ha, hb, ho, hi⟩
    refine ⟨p.start, by simp [simTime_eq, ha], p.shutdown, ⟨rfl, hb⟩, s, rfl, s, by simp [simTime_eq, hs], ?_⟩
    rw [(timesBad_none p s).2 ho]
    simp [(procRest_inr w p i).2 hi]

theorem buildProc_ok (w : World) (s : Nat) (p : ProcOpts) (hs : s ≤ Time.simMax) (ha : p.start ≤ Time.simMax) (hb : ∀ t, p.shutdown = some t → t ≤ Time.simMax) :
    ∃ r, buildProc w (some s) p = .ok r := by
  unfold buildProc
  rw [show simTimeO p.shutdown = .ok p.shutdown from (simTimeO_eq _ _).2 ⟨rfl, hb⟩]
  simp only [simTime_eq, if_pos hs, if_pos ha, R.bind_ok, R.unwrap_some]
  split
  · exact ⟨_, rfl⟩
  · exact ⟨_, rfl⟩

/-! ## Hosts -/

/-- The options of one host. -/
def optsOf (f : FileOpts) (c : Cli) (h : HostFile) : HostOpts := h.opts.read.withDefaults (c.defaults.withDefaults (f.defaults.read.withDefaults builtin))

def confOf (f : FileOpts) (c : Cli) (nh : String × HostFile) : String × HostConf := (nh.1, ⟨nh.2.node, nh.2.procs, nh.2.down, nh.2.up, optsOf f c nh.2⟩)

theorem conf_hosts (f : FileOpts) (c : Cli) : (conf f c).hosts = f.hosts.map (confOf f c) := rfl

theorem optsOf_pcap (f : FileOpts) (c : Cli) (h : HostFile) (b : Bool) : (optsOf f c h).pcapEnabled = some b ↔ IsPcap f c h b := by
  unfold IsPcap optsOf
  simp only [HostOpts.withDefaults, HostOptsFile.read, builtin, read_given, merge_first, first_cons, first_nil, and_false, or_false]

theorem optsOf_capture (f : FileOpts) (c : Cli) (h : HostFile) (n : Nat) : (optsOf f c h).captureSize = some n ↔ IsCapture f c h n := by
  unfold IsCapture optsOf
  simp only [HostOpts.withDefaults, HostOptsFile.read, builtin, read_given, merge_first, first_cons, first_nil, and_false, or_false]

theorem optsOf_level (f : FileOpts) (c : Cli) (h : HostFile) (l : Nat) : flatten (optsOf f c h).logLevel = some l ↔ IsLevel f c h l := by
  unfold IsLevel optsOf
  simp only [HostOpts.withDefaults, HostOptsFile.read, builtin, read_level, first_cons, first_nil, and_false, or_false]
  rcases h.opts.logLevel.level with _ | _ | _ <;> rcases c.defaults.logLevel with _ | _ | _ <;> rcases f.defaults.logLevel.level with _ | _ | _ <;> simp [merge, flatten]

theorem pcap_some (f : FileOpts) (c : Cli) (h : HostFile) : ∃ b, (optsOf f c h).pcapEnabled = some b := by
  simp only [optsOf, HostOpts.withDefaults, HostOptsFile.read, builtin, read_given]
  cases h.opts.pcapEnabled.given <;> cases c.defaults.pcapEnabled <;> cases f.defaults.pcapEnabled.given <;> simp [merge]

theorem capture_some (f : FileOpts) (c : Cli) (h : HostFile) : ∃ b, (optsOf f c h).captureSize = some b := by
  simp only [optsOf, HostOpts.withDefaults, HostOptsFile.read, builtin, read_given]
  cases h.opts.captureSize.given <;> cases c.defaults.captureSize <;> cases f.defaults.captureSize.given <;> simp [merge]

theorem stop_iff (f : FileOpts) (c : Cli) (s : Nat) : (conf f c).stop = some s ↔ IsStop f c s := by
  unfold IsStop conf
  simp only [read_given, merge_first]

theorem seed_isSeed {f : FileOpts} {c : Cli} {s : Nat} (h : (conf f c).seed = some s) : IsSeed f c s := by
  unfold IsSeed
  unfold conf at h
  simp only [first_cons, first_nil, and_false, or_false]
  cases hc : c.seed <;> cases hf : f.seed <;> simp_all [merge, readField, InFile.given]

/-- What `build_host` makes of a host. -/
def infoOf (w : World) (rand : Nat) (debug : List String) (f : FileOpts) (c : Cli) (nh : String × HostFile) (procs : List ProcInfo) (i : HostInfo) : Prop :=
  i.name = nh.1 ∧ i.node = nh.2.node ∧ i.pause = debug.contains nh.1 ∧ i.procs = procs ∧ i.seed = rand ^^^ w.hash nh.1 ∧ i.down = nh.2.down ∧ i.up = nh.2.up ∧
  i.logLevel = flatten (optsOf f c nh.2).logLevel ∧ (∀ n, i.pcap = some n ↔ IsPcap f c nh.2 true ∧ IsCapture f c nh.2 n)

theorem hostRest_info {w : World} {rand : Nat} {debug : List String} {f : FileOpts} {c : Cli} {nh : String × HostFile} {procs : List ProcInfo} {i : HostInfo}
    (h : hostRest w rand debug nh.1 (confOf f c nh).2 procs = .ok i) : infoOf w rand debug f c nh procs i := by
  unfold hostRest at h
  simp only [R.bind_eq_ok, baseO_eq] at h
  obtain ⟨d, ⟨rfl, _⟩, u, ⟨rfl, _⟩, e, he, z, hz, z', hz', h⟩ := h
  have hz2 : z' = z := by
    unfold base at hz'
    split at hz' <;> simp at hz'
    exact hz'.symm
  subst hz2
  simp at h
  subst h
  refine ⟨rfl, rfl, by simp, rfl, rfl, rfl, rfl, rfl, ?_⟩
  intro n
  rw [← optsOf_pcap, ← optsOf_capture]
  have e1 : (optsOf f c nh.2).pcapEnabled = some e := by
    have := he
    simp only [confOf] at this
    cases hh : (optsOf f c nh.2).pcapEnabled <;> simp_all
  have e2 : (optsOf f c nh.2).captureSize = some z' := by
    have := hz
    simp only [confOf] at this
    cases hh : (optsOf f c nh.2).captureSize <;> simp_all
  rw [e1, e2]
  cases e <;> simp

theorem hostRest_ok (w : World) (rand : Nat) (debug : List String) (f : FileOpts) (c : Cli) (nh : String × HostFile) (procs : List ProcInfo)
    (hd : ∀ d, nh.2.down = some d → d < 2 ^ 64) (hu : ∀ d, nh.2.up = some d → d < 2 ^ 64) (hc : ∀ n, IsCapture f c nh.2 n → n < 2 ^ 64) :
    ∃ i, hostRest w rand debug nh.1 (confOf f c nh).2 procs = .ok i := by
  obtain ⟨b, hb⟩ := pcap_some f c nh.2
  obtain ⟨n, hn⟩ := capture_some f c nh.2
  have := hc n ((optsOf_capture f c nh.2 n).1 hn)
  unfold hostRest
  simp only [confOf]
  rw [(baseO_eq nh.2.down nh.2.down).2 ⟨rfl, hd⟩, (baseO_eq nh.2.up nh.2.up).2 ⟨rfl, hu⟩, hb, hn]
  simp only [R.bind_ok, R.unwrap_some, base, if_pos this]
  exact ⟨_, rfl⟩

theorem buildHost_inr {w : World} {rand : Nat} {debug : List String} {f : FileOpts} {c : Cli} {nh : String × HostFile} {stop : Option Nat} {i : HostInfo}
    (h : buildHost w rand debug stop (confOf f c nh) = .ok (.inr i)) :
    ∃ procs, all (buildProc w stop) nh.2.procs = .ok (.inr procs) ∧ infoOf w rand debug f c nh procs i := by
  unfold buildHost at h
  rw [R.bind_eq_ok] at h
  obtain ⟨r, hr, h⟩ := h
  cases r with
  | inl e => simp at h
  | inr procs =>
    simp only [R.bind_eq_ok] at h
    obtain ⟨j, hj, h⟩ := h
    simp at h
    subst h
    exact ⟨procs, hr, hostRest_info hj⟩

theorem bandwidth_inr {w : World} {h i : HostInfo} (hb : bandwidth w h = .ok (.inr i)) :
    ∃ g, w.node h.node = some g ∧ i = { h with down := merge h.down g.1, up := merge h.up g.2 } ∧ merge h.down g.1 ≠ none ∧ merge h.up g.2 ≠ none := by
  unfold bandwidth at hb
  simp only [R.bind_eq_ok, baseO_eq] at hb
  obtain ⟨g, hg, a, ⟨rfl, _⟩, b, ⟨rfl, _⟩, hb⟩ := hb
  refine ⟨g, by cases hh : w.node h.node <;> simp_all, ?_⟩
  split at hb
  · simp at hb
  · rename_i hn
    simp at hb
    simp at hn
    exact ⟨hb.symm, hn⟩

/-! ## The whole -/

/-- **C93.** When a configuration is taken, there is one host for each that was written, in that order and with its name and node; its processes are those that were written, with the path
the user gave as the first argument; its options are the first that are set of its own, those of the command line, the defaults of the file and the built-in ones; its bandwidth is its own or
else that of its node; and it waits for a debugger if that was asked for. -/
theorem C93_hosts (w : World) (f : FileOpts) (c : Cli) (debug : List String) (hosts : List HostInfo) (h : sim w (conf f c) debug = .ok (.inr hosts)) :
    Each (IsHost w f c debug) f.hosts hosts := by
  unfold sim at h
  rw [R.bind_eq_ok] at h
  obtain ⟨s, hs, h⟩ := h
  have hseed : (conf f c).seed = some s := by cases hh : (conf f c).seed <;> simp_all
  rw [R.bind_eq_ok] at h
  obtain ⟨r, hr, h⟩ := h
  cases r with
  | inl e => simp at h
  | inr mid =>
    simp only at h
    split at h
    · simp at h
    split at h
    · simp at h
    rw [R.bind_eq_ok] at h
    obtain ⟨r2, hr2, h⟩ := h
    cases r2 with
    | inl e => simp at h
    | inr fin =>
      simp only at h
      split at h
      · simp at h
      simp at h
      subst h
      rw [conf_hosts, all_inr] at hr
      rw [all_inr] at hr2
      refine hr.of_map.comp hr2 ?_
      intro nh m i hm hi
      obtain ⟨procs, hp, h1, h2, h3, h4, h5, h6, h7, h8, h9⟩ := buildHost_inr hm
      obtain ⟨g, hg, rfl, hd, hu⟩ := bandwidth_inr hi
      refine ⟨h1, h2, by simp [h3], ?_, ⟨s, seed_isSeed hseed, h5⟩, ⟨g, h2 ▸ hg, ?_, ?_⟩, ?_, h9⟩
      · simp only [h4]
        rw [all_inr] at hp
        refine hp.mono ?_
        intro a b hab
        obtain ⟨_, _, _, _, _, _, q⟩ := (buildProc_inr w _ a b).1 hab
        exact q
      · obtain ⟨d, hd⟩ := Option.ne_none_iff_exists'.1 hd
        exact ⟨d, hd, by rw [← h6]; exact (merge_first _ _ _).1 hd⟩
      · obtain ⟨d, hd⟩ := Option.ne_none_iff_exists'.1 hu
        exact ⟨d, hd, by rw [← h7]; exact (merge_first _ _ _).1 hd⟩
      · intro l
        simp only [h8]
        exact optsOf_level f c nh.2 l

/-- **C93.** The seed of a host depends on the seed of the simulation and its name only: in two configurations with the same seed, hosts with the same name have the same seed, whatever else differs. -/
theorem C93_seed (w : World) (f f' : FileOpts) (c c' : Cli) (debug debug' : List String) (hosts hosts' : List HostInfo)
    (h : sim w (conf f c) debug = .ok (.inr hosts)) (h' : sim w (conf f' c') debug' = .ok (.inr hosts'))
    (hs : ∀ s, IsSeed f c s ↔ IsSeed f' c' s) : ∀ i ∈ hosts, ∀ i' ∈ hosts', i.name = i'.name → i.seed = i'.seed := by
  intro i hi i' hi' hn
  obtain ⟨nh, _, a⟩ := (C93_hosts w f c debug hosts h).mem' i hi
  obtain ⟨nh', _, a'⟩ := (C93_hosts w f' c' debug' hosts' h').mem' i' hi'
  obtain ⟨s, p, q⟩ := a.2.2.2.2.1
  obtain ⟨s', p', q'⟩ := a'.2.2.2.2.1
  have : s = s' := first_one p ((hs s').2 p')
  rw [q, q', this, ← a.1, ← a'.1, hn]

theorem seed_some {f : FileOpts} {c : Cli} (h : f.seed ≠ .null ∨ c.seed ≠ none) : ∃ s, (conf f c).seed = some s := by
  unfold conf
  cases hc : c.seed <;> cases hf : f.seed <;> simp_all [merge, readField]

theorem bandwidth_ok (w : World) (h : HostInfo) (g : Option Nat × Option Nat) (hg : w.node h.node = some g) (hd : ∀ d, g.1 = some d → d < 2 ^ 64) (hu : ∀ d, g.2 = some d → d < 2 ^ 64) :
    ∃ r, bandwidth w h = .ok r ∧ ((∃ i, r = .inr i) ↔ (h.down ≠ none ∨ g.1 ≠ none) ∧ (h.up ≠ none ∨ g.2 ≠ none)) := by
  unfold bandwidth
  rw [hg]
  simp only [R.unwrap_some, R.bind_ok]
  rw [(baseO_eq g.1 g.1).2 ⟨rfl, hd⟩, (baseO_eq g.2 g.2).2 ⟨rfl, hu⟩]
  simp only [R.bind_ok]
  split
  · rename_i hn
    refine ⟨_, rfl, ?_⟩
    cases hd1 : h.down <;> cases hu1 : h.up <;> cases hg1 : g.1 <;> cases hg2 : g.2 <;> simp_all [merge]
  · rename_i hn
    refine ⟨_, rfl, ?_⟩
    cases hd1 : h.down <;> cases hu1 : h.up <;> cases hg1 : g.1 <;> cases hg2 : g.2 <;> simp_all [merge]

theorem buildHost_ok (w : World) (rand : Nat) (debug : List String) (f : FileOpts) (c : Cli) (s : Nat) (nh : String × HostFile) (hs : s ≤ Time.simMax)
    (hp : ∀ p ∈ nh.2.procs, p.start ≤ Time.simMax ∧ ∀ t, p.shutdown = some t → t ≤ Time.simMax)
    (hd : ∀ d, nh.2.down = some d → d < 2 ^ 64) (hu : ∀ d, nh.2.up = some d → d < 2 ^ 64) (hc : ∀ n, IsCapture f c nh.2 n → n < 2 ^ 64) :
    (∃ r, buildHost w rand debug (some s) (confOf f c nh) = .ok r) ∧
    ((∃ i, buildHost w rand debug (some s) (confOf f c nh) = .ok (.inr i)) ↔
      ∀ p ∈ nh.2.procs, InOrder p s ∧ (∃ a, Written w p a) ∧ ∃ x, w.find (w.expand p.path) = some x) := by
  obtain ⟨r, hr, hi⟩ := all_ok (buildProc w (some s)) nh.2.procs (fun p h => buildProc_ok w s p hs (hp p h).1 (hp p h).2)
  have key : (∀ a ∈ nh.2.procs, ∃ b, buildProc w (some s) a = .ok (.inr b)) ↔
      ∀ p ∈ nh.2.procs, InOrder p s ∧ (∃ a, Written w p a) ∧ ∃ x, w.find (w.expand p.path) = some x := by
    constructor
    · intro h p hpm
      obtain ⟨b, hb⟩ := h p hpm
      obtain ⟨s', e, _, _, _, ho, q1, q2, q3, args, q4, q5⟩ := (buildProc_inr w _ p b).1 hb
      cases e
      exact ⟨ho, ⟨args, q4⟩, ⟨_, q3⟩⟩
    · intro h p hpm
      obtain ⟨ho, ⟨a, ha⟩, ⟨x, hx⟩⟩ := h p hpm
      exact ⟨⟨x, p.start, p.shutdown, w.expand p.path :: a⟩, (buildProc_inr w _ p _).2 ⟨s, rfl, hs, (hp p hpm).1, (hp p hpm).2, ho, rfl, rfl, hx, a, ha, rfl⟩⟩
  have hr' : all (buildProc w (some s)) (confOf f c nh).2.procs = .ok r := hr
  cases r with
  | inl e =>
    have : buildHost w rand debug (some s) (confOf f c nh) = .ok (.inl e) := by unfold buildHost; rw [hr']; rfl
    refine ⟨⟨_, this⟩, ?_⟩
    rw [this, ← key, ← hi]
    simp
  | inr procs =>
    obtain ⟨i, hh⟩ := hostRest_ok w rand debug f c nh procs hd hu hc
    have : buildHost w rand debug (some s) (confOf f c nh) = .ok (.inr i) := by
      unfold buildHost
      rw [hr']
      simp only [R.bind_ok]
      have e : hostRest w rand debug (confOf f c nh).1 (confOf f c nh).2 procs = .ok i := hh
      rw [e]
      rfl
    refine ⟨⟨_, this⟩, ?_⟩
    rw [this, ← key, ← hi]
    simp

/-- **C93.** When all values can be represented, the configuration is read without a panic, and it is taken exactly if there are hosts, every host to debug exists, every process starts
before it is shut down and before the end, its arguments can be parsed and its program is found, every node exists, and every host has a bandwidth. -/
theorem C93_accept (w : World) (f : FileOpts) (c : Cli) (debug : List String) (hf : Fits w f c) :
    ∃ r, sim w (conf f c) debug = .ok r ∧ ((∃ hosts, r = .inr hosts) ↔ Good w f c debug) := by
  obtain ⟨hseed, ⟨s, hstop, hs⟩, hh⟩ := hf
  obtain ⟨sd, hsd⟩ := seed_some hseed
  have hst := (stop_iff f c s).2 hstop
  have uniq : ∀ s', IsStop f c s' → s' = s := fun s' h => first_one h hstop
  have bh := fun nh hm => buildHost_ok w (w.random sd) debug f c s nh hs (hh nh hm).1 (hh nh hm).2.1 (hh nh hm).2.2.1 (hh nh hm).2.2.2.1
  obtain ⟨r, hr, hi⟩ := all_ok (buildHost w (w.random sd) debug (some s)) (f.hosts.map (confOf f c)) (by
    intro a ha
    obtain ⟨nh, hm, rfl⟩ := List.mem_map.1 ha
    exact (bh nh hm).1)
  unfold sim
  rw [hsd, hst, conf_hosts]
  simp only [R.unwrap_some, R.bind_ok]
  rw [hr]
  simp only [R.bind_ok]
  have good1 : Good w f c debug → ∀ a ∈ f.hosts.map (confOf f c), ∃ b, buildHost w (w.random sd) debug (some s) a = .ok (.inr b) := by
    intro g a ha
    obtain ⟨nh, hm, rfl⟩ := List.mem_map.1 ha
    refine (bh nh hm).2.2 ?_
    intro p hp
    obtain ⟨⟨s', h1, h2⟩, h3⟩ := (g.2.2 nh hm).1 p hp
    rw [uniq s' h1] at h2
    exact ⟨h2, h3⟩
  cases r with
  | inl e =>
    refine ⟨.inl e, rfl, ?_⟩
    simp only [reduceCtorEq, exists_false, false_iff]
    intro g
    have := hi.2 (good1 g)
    simp at this
  | inr mid =>
    have each := ((all_inr _ _ _).1 hr).of_map
    simp only
    have procsGood : ∀ nh ∈ f.hosts, ∀ p ∈ nh.2.procs, (∃ s, IsStop f c s ∧ InOrder p s) ∧ (∃ a, Written w p a) ∧ ∃ x, w.find (w.expand p.path) = some x := by
      intro nh hm p hp
      obtain ⟨b, _, hb⟩ := each.mem nh hm
      obtain ⟨h1, h2⟩ := (bh nh hm).2.1 ⟨b, hb⟩ p hp
      exact ⟨⟨s, hstop, h1⟩, h2⟩
    by_cases h0 : mid = []
    · rw [if_pos h0]
      refine ⟨_, rfl, ?_⟩
      simp only [reduceCtorEq, exists_false, false_iff]
      intro g
      have := each.1
      rw [h0] at this
      exact g.1 (List.length_eq_zero_iff.1 this)
    rw [if_neg h0]
    by_cases h1 : (mid.any fun h => (w.node h.node).isNone) = true
    · rw [if_pos h1]
      refine ⟨_, rfl, ?_⟩
      simp only [reduceCtorEq, exists_false, false_iff]
      intro g
      obtain ⟨m, hm, hn⟩ := List.any_eq_true.1 h1
      obtain ⟨nh, hnh, hb⟩ := each.mem' m hm
      obtain ⟨_, _, _, e, _⟩ := buildHost_inr hb
      obtain ⟨gg, hg, _⟩ := (g.2.2 nh hnh).2
      rw [e, hg] at hn
      simp at hn
    rw [if_neg h1]
    have node : ∀ m ∈ mid, ∃ nh ∈ f.hosts, ∃ g, m.name = nh.1 ∧ m.down = nh.2.down ∧ m.up = nh.2.up ∧ m.node = nh.2.node ∧ w.node nh.2.node = some g := by
      intro m hm
      obtain ⟨nh, hnh, hb⟩ := each.mem' m hm
      obtain ⟨_, _, e0, e, _, _, _, e1, e2, _⟩ := buildHost_inr hb
      cases hg : w.node nh.2.node with
      | none => exact absurd (List.any_eq_true.2 ⟨m, hm, by rw [e, hg]; rfl⟩) h1
      | some g => exact ⟨nh, hnh, g, e0, e1, e2, e, hg⟩
    have bw : ∀ m ∈ mid, ∃ r, bandwidth w m = .ok r := by
      intro m hm
      obtain ⟨nh, hnh, g, _, _, _, e, hg⟩ := node m hm
      obtain ⟨r, q, _⟩ := bandwidth_ok w m g (e ▸ hg) ((hh nh hnh).2.2.2.2 g hg).1 ((hh nh hnh).2.2.2.2 g hg).2
      exact ⟨r, q⟩
    obtain ⟨r2, hr2, hi2⟩ := all_ok (bandwidth w) mid bw
    rw [hr2]
    simp only [R.bind_ok]
    have bwGood : (∀ m ∈ mid, ∃ b, bandwidth w m = .ok (.inr b)) ↔
        ∀ nh ∈ f.hosts, ∃ g, w.node nh.2.node = some g ∧ (nh.2.down ≠ none ∨ g.1 ≠ none) ∧ (nh.2.up ≠ none ∨ g.2 ≠ none) := by
      constructor
      · intro hb nh hnh
        obtain ⟨m, hm, hb'⟩ := each.mem nh hnh
        obtain ⟨_, _, _, e, _, _, _, e1, e2, _⟩ := buildHost_inr hb'
        obtain ⟨b, hbb⟩ := hb m hm
        obtain ⟨g, hg, _, hd, hu⟩ := bandwidth_inr hbb
        refine ⟨g, e ▸ hg, ?_, ?_⟩
        · rw [e1] at hd
          cases hx : nh.2.down <;> simp_all [merge]
        · rw [e2] at hu
          cases hx : nh.2.up <;> simp_all [merge]
      · intro hb m hm
        obtain ⟨nh, hnh, g, _, e1, e2, e, hg⟩ := node m hm
        obtain ⟨r, q, q2⟩ := bandwidth_ok w m g (e ▸ hg) ((hh nh hnh).2.2.2.2 g hg).1 ((hh nh hnh).2.2.2.2 g hg).2
        obtain ⟨g', hg', b1, b2⟩ := hb nh hnh
        rw [hg] at hg'
        cases hg'
        obtain ⟨i, rfl⟩ := q2.2 ⟨by rw [e1]; exact b1, by rw [e2]; exact b2⟩
        exact ⟨i, q⟩
    cases r2 with
    | inl e =>
      refine ⟨.inl e, rfl, ?_⟩
      simp only [reduceCtorEq, exists_false, false_iff]
      intro g
      have := hi2.2 (bwGood.2 fun nh hnh => (g.2.2 nh hnh).2)
      simp at this
    | inr fin =>
      simp only
      have bg := bwGood.1 (hi2.1 ⟨fin, rfl⟩)
      have each2 := (all_inr _ _ _).1 hr2
      have name : ∀ d, (∃ h ∈ fin, h.name = d) ↔ ∃ h, (d, h) ∈ f.hosts := by
        intro d
        constructor
        · rintro ⟨i, hi, rfl⟩
          obtain ⟨m, hm, hb⟩ := each2.mem' i hi
          obtain ⟨_, _, rfl, _⟩ := bandwidth_inr hb
          obtain ⟨nh, hnh, _, e, _⟩ := node m hm
          exact ⟨nh.2, by simp only [e]; exact hnh⟩
        · rintro ⟨h, hm⟩
          obtain ⟨m, hmm, hb⟩ := each.mem _ hm
          obtain ⟨_, _, e, _⟩ := buildHost_inr hb
          obtain ⟨i, hi, hb2⟩ := each2.mem m hmm
          obtain ⟨_, _, rfl, _⟩ := bandwidth_inr hb2
          exact ⟨_, hi, e⟩
      by_cases h2 : (debug.any fun d => !fin.any fun h => decide (h.name = d)) = true
      · rw [if_pos h2]
        refine ⟨_, rfl, ?_⟩
        simp only [reduceCtorEq, exists_false, false_iff]
        intro g
        obtain ⟨d, hd, hn⟩ := List.any_eq_true.1 h2
        obtain ⟨i, hi, e⟩ := (name d).2 (g.2.1 d hd)
        simp at hn
        exact hn i hi e
      · rw [if_neg h2]
        refine ⟨_, rfl, ?_⟩
        simp only [Sum.inr.injEq, exists_eq', true_iff]
        refine ⟨?_, ?_, fun nh hnh => ⟨procsGood nh hnh, bg nh hnh⟩⟩
        · intro e
          have := each.1
          rw [e] at this
          exact h0 (List.length_eq_zero_iff.1 this.symm)
        · intro d hd
          rw [← name]
          simp at h2
          exact h2 d hd

/-! ## Names -/

/-- hostname(7), for names in lower case: elements of one to 63 letters, digits and hyphens, with dots between them, not starting with a hyphen, at most 253 characters in all. -/
def join : List (List Char) → List Char
  | [] => []
  | [e] => e
  | e :: l => e ++ '.' :: join l

def Letter (c : Char) : Prop := ('a' ≤ c ∧ c ≤ 'z') ∨ ('0' ≤ c ∧ c ≤ '9') ∨ c = '-'

def Valid (v : List Char) : Prop :=
  ∃ es : List (List Char), es ≠ [] ∧ v = join es ∧ (∀ e ∈ es, 1 ≤ e.length ∧ e.length ≤ 63 ∧ ∀ c ∈ e, Letter c) ∧ v.head? ≠ some '-' ∧ v.length ≤ 253

theorem allowed_iff (c : Char) : allowed c = true ↔ Letter c ∨ c = '.' := by
  unfold allowed Letter
  simp [or_assoc]

theorem join_mem (es : List (List Char)) : ∀ c ∈ join es, c = '.' ∨ ∃ e ∈ es, c ∈ e := by
  induction es with
  | nil => simp [join]
  | cons e l ih =>
    cases l with
    | nil => intro c hc; exact .inr ⟨e, by simp, hc⟩
    | cons e2 l2 =>
      intro c hc
      simp only [join, List.mem_append, List.mem_cons] at hc
      rcases hc with hc | hc | hc
      · exact .inr ⟨e, by simp, hc⟩
      · exact .inl hc
      · rcases ih c (by simpa only [join] using hc) with h | ⟨x, hx, hc⟩
        · exact .inl h
        · exact .inr ⟨x, by simp at hx ⊢; exact .inr hx, hc⟩

theorem join_ne (es : List (List Char)) (h : es ≠ []) (hl : ∀ e ∈ es, 1 ≤ e.length) : join es ≠ [] := by
  match es with
  | [] => exact absurd rfl h
  | [e] =>
    have := hl e (by simp)
    intro h
    simp only [join] at h
    rw [h] at this
    simp at this
  | e :: e2 :: l => simp [join]

/-- **C93.** A name is taken exactly if it is not empty, has only lower-case letters, digits, hyphens and dots, does not start with a hyphen and has at most 253 characters. -/
theorem C93_name (v : List Char) : hostName v = true ↔ v ≠ [] ∧ (∀ c ∈ v, Letter c ∨ c = '.') ∧ v.head? ≠ some '-' ∧ v.length ≤ 253 := by
  unfold hostName
  have : (v.any (fun c => !allowed c)) = true ↔ ¬ ∀ c ∈ v, Letter c ∨ c = '.' := by
    simp [← allowed_iff]
  by_cases h : v.any (fun c => !allowed c) = true
  · rw [if_pos h]
    simp [this.1 h]
  · rw [if_neg h]
    have hh := Classical.not_not.1 (fun x => h (this.2 x))
    grind

/-- **C93.** Every valid name in lower case is taken. -/
theorem C93_name_valid (v : List Char) (h : Valid v) : hostName v = true := by
  obtain ⟨es, h0, rfl, he, h1, h2⟩ := h
  rw [C93_name]
  refine ⟨join_ne es h0 (fun e h => (he e h).1), ?_, h1, h2⟩
  intro c hc
  rcases join_mem es c hc with h | ⟨e, hm, hc⟩
  · exact .inr h
  · exact .inl ((he e hm).2.2 c hc)

/-! ## Findings -/

/-- **C93, finding.** `null` as the log level of a host is the same as none, although the documentation gives it as a value: a host cannot opt out of a default that is set. -/
theorem C93_null_level (f : FileOpts) (c : Cli) (h : HostFile) (l : Nat) (hn : h.opts.logLevel = .null) :
    IsLevel f c h l ↔ First [c.defaults.logLevel, f.defaults.logLevel.level] (.value l) := by
  simp [IsLevel, hn, InFile.level, InFile.given, first_cons]

/-- **C93, finding.** `seed: null` takes the default away, and the simulator panics. -/
theorem C93_null_seed (w : World) (f : FileOpts) (c : Cli) (debug : List String) (h : f.seed = .null) (hc : c.seed = none) : sim w (conf f c) debug = .panic := by
  simp [sim, conf, h, hc, readField, merge]

theorem all_panic {A B : Type} (f : A → R (Err ⊕ B)) (a : A) (l : List A) (h : f a = .panic) : all f (a :: l) = .panic := by
  simp [all, h]

/-- **C93, finding.** Without a time to stop, the simulator panics at the first process instead of refusing the configuration. -/
theorem C93_no_stop (w : World) (f : FileOpts) (c : Cli) (debug : List String) (nh : String × HostFile) (rest : List (String × HostFile)) (p : ProcOpts) (ps : List ProcOpts)
    (hf : f.stop.given = none) (hc : c.stop = none) (hh : f.hosts = nh :: rest) (hp : nh.2.procs = p :: ps) : sim w (conf f c) debug = .panic := by
  have hs : (conf f c).stop = none := by simp only [conf, read_given, hf, hc, merge]
  have h1 : buildProc w none p = .panic := by
    unfold buildProc
    cases simTime p.start <;> simp
    cases simTimeO p.shutdown <;> simp
  have h2 : ∀ r, all (buildHost w r debug none) ((confOf f c nh) :: rest.map (confOf f c)) = .panic := by
    intro r
    refine all_panic _ _ _ ?_
    unfold buildHost
    have : (confOf f c nh).2.procs = p :: ps := hp
    rw [this, all_panic _ _ _ h1]
    rfl
  unfold sim
  rw [hs, conf_hosts, hh, List.map_cons]
  cases (conf f c).seed with
  | none => rfl
  | some s => simp [h2]

/-- **C93, finding.** A time that cannot be represented makes the simulator panic instead of refusing the configuration. -/
theorem C93_big_time (w : World) (stop : Option Nat) (p : ProcOpts) (h : Time.simMax < p.start) : buildProc w stop p = .panic := by
  simp [buildProc, simTime_eq, show ¬ p.start ≤ Time.simMax by omega]

theorem join_dot (es : List (List Char)) (h : es ≠ []) (hd : '.' ∉ join es) : ∃ e, es = [e] := by
  match es with
  | [] => exact absurd rfl h
  | [e] => exact ⟨e, rfl⟩
  | e :: e2 :: l => simp [join] at hd

/-- **C93, finding.** Names that are not valid are taken: an element of 64 characters, and an empty one. -/
theorem C93_name_invalid : (hostName (List.replicate 64 'a') = true ∧ ¬ Valid (List.replicate 64 'a')) ∧ (hostName ['.'] = true ∧ ¬ Valid ['.']) := by
  refine ⟨⟨by decide +kernel, ?_⟩, by decide +kernel, ?_⟩
  · rintro ⟨es, h0, h, he, _⟩
    obtain ⟨e, rfl⟩ := join_dot es h0 (by rw [← h]; decide +kernel)
    have := (he e (by simp)).2.1
    simp only [join] at h
    rw [← h] at this
    simp at this
  · rintro ⟨es, h0, h, he, _⟩
    match es with
    | [] => exact absurd rfl h0
    | [e] =>
      simp only [join] at h
      have := (he e (by simp)).2.2 '.' (by rw [← h]; simp)
      revert this
      unfold Letter
      decide +kernel
    | e :: e2 :: l =>
      have := (he e (by simp)).1
      simp only [join] at h
      cases e with
      | nil => simp at this
      | cons x r => simp at h

/-! ## Cases that meet the hypotheses -/

def exW : World where
  parse s := if s = "-l 80" then some ["-l", "80"] else none
  expand s := if s = "~/server" then "/home/u/server" else s
  find s := if s = "/home/u/server" ∨ s = "curl" then some ("/bin" ++ s) else none
  hash s := s.length * 1000
  random s := s + 77
  node n := if n = 0 then some (some 1000, none) else none

def exF : FileOpts :=
  ⟨.val 10000, .absent, ⟨.val 3, .absent, .val 100⟩,
    [("client", ⟨0, [⟨"curl", .list ["http://server"], 5, none⟩], none, some 7, ⟨.null, .val true, .absent⟩⟩),
     ("server", ⟨0, [⟨"~/server", .str "-l 80", 0, some 9000⟩], some 50, some 60, ⟨.val 1, .absent, .absent⟩⟩)]⟩

def exC : Cli := ⟨none, some 5, ⟨none, none, some 200⟩⟩

theorem ex_run : sim exW (conf exF exC) ["server"] = .ok (.inr
    [⟨"client", [⟨"/bincurl", 5, none, ["curl", "http://server"]⟩], 82 ^^^ 6000, 0, false, some 1000, some 7, some 3, some 200⟩,
     ⟨"server", [⟨"/bin/home/u/server", 0, some 9000, ["/home/u/server", "-l", "80"]⟩], 82 ^^^ 6000, 0, true, some 50, some 60, some 1, none⟩]) := by
  decide +kernel

/-- The hypotheses of `C93_accept` hold for it. -/
example : Fits exW exF exC := by
  refine ⟨.inl (by decide), ⟨10000, ⟨[none], [], rfl, by simp⟩, by decide +kernel⟩, ?_⟩
  intro nh hm
  have c2 : ∀ h : HostFile, h.opts.captureSize = .absent → ∀ n, IsCapture exF exC h n → n < 2 ^ 64 := by
    intro h e n
    simp only [IsCapture, e, first_cons]
    rintro (h | ⟨_, h | ⟨h, _⟩⟩)
    · simp [InFile.given] at h
    · simp [exC] at h; omega
    · simp [exC] at h
  have nd : ∀ g, exW.node 0 = some g → (∀ d, g.1 = some d → d < 2 ^ 64) ∧ ∀ d, g.2 = some d → d < 2 ^ 64 := by
    intro g h
    simp [exW] at h
    subst h
    simp
  simp only [exF, List.mem_cons, List.not_mem_nil, or_false] at hm
  rcases hm with rfl | rfl
  · refine ⟨by simp; decide +kernel, by simp, by simp, c2 _ rfl, nd⟩
  · refine ⟨by simp; decide +kernel, by simp, by simp, c2 _ rfl, nd⟩

/-- A configuration whose process would start after the end is refused. -/
example : sim exW (conf exF { exC with stop := some 5 }) [] = .ok (.inl .start) := by decide +kernel

example : sim exW (conf exF exC) ["other"] = .ok (.inl .debug) := by decide +kernel

example : sim exW (conf { exF with seed := .null } { exC with seed := none }) [] = .panic := by decide +kernel

example : hostName "web-1.example".toList = true := by decide +kernel
example : Valid "a.b".toList := ⟨[['a'], ['b']], by simp, by decide +kernel, by simp [Letter], by decide +kernel, by decide +kernel⟩

end Shadow.Config
