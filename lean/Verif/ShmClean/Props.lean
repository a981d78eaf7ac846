import Verif.ShmClean.Model
import Verif.ProcMaps.Props
/-!
# C87: no file of a running process is removed
-/
namespace Shadow.ShmClean
open Shadow.ProcMaps

/-! ### Names -/

theorem Rep.snoc {acc n d : Nat} {s : List Char} {c : Char} (h : Rep 10 acc s n) (hc : DigitIs c d) (hd : d < 10) : Rep 10 acc (s ++ [c]) (n * 10 + d) := by
  induction h with
  | nil acc => exact .cons hc hd (.nil _)
  | cons h1 h2 _ ih => exact .cons h1 h2 ih

theorem digit_char {d : Nat} (h : d < 10) : DigitIs (Char.ofNat (48 + d)) d := by
  refine .inl ⟨h, ?_⟩
  have : d = 0 ∨ d = 1 ∨ d = 2 ∨ d = 3 ∨ d = 4 ∨ d = 5 ∨ d = 6 ∨ d = 7 ∨ d = 8 ∨ d = 9 := by omega
  rcases this with h | h | h | h | h | h | h | h | h | h <;> subst h <;> rfl

theorem decimalF_rep : ∀ (f n : Nat), n < f → Rep 10 0 (decimalF f n) n := by
  intro f
  induction f with
  | zero => intro n h; omega
  | succ f ih =>
    intro n h
    unfold decimalF
    by_cases hn : n < 10
    · have := Rep.snoc (.nil 0) (digit_char (d := n % 10) (by omega)) (by omega)
      simp only [hn, if_true]
      have e : 0 * 10 + n % 10 = n := by omega
      rw [e] at this
      exact this
    · have := Rep.snoc (ih (n / 10) (by omega)) (digit_char (d := n % 10) (by omega)) (by omega)
      simp only [hn, if_false]
      have e : n / 10 * 10 + n % 10 = n := by omega
      rw [e] at this
      exact this

theorem decimal_rep (n : Nat) : Rep 10 0 (decimal n) n := decimalF_rep _ _ (by omega)
theorem decimal_ne (n : Nat) : decimal n ≠ [] := by unfold decimal decimalF; simp

theorem pad_rep (w n : Nat) : Rep 10 0 (pad w (decimal n)) n := by
  unfold pad
  induction (w - (decimal n).length) with
  | zero => exact decimal_rep n
  | succ k ih => exact .cons (d := 0) (.inl ⟨by omega, rfl⟩) (by omega) ih

theorem pad_ne (w n : Nat) : pad w (decimal n) ≠ [] := by unfold pad; simp [decimal_ne]

theorem Rep.inj {acc n m : Nat} {s : List Char} (h : Rep 10 acc s n) (h' : Rep 10 acc s m) : n = m := by
  induction h with
  | nil acc => cases h'; rfl
  | cons h1 h2 _ ih =>
    cases h' with
    | cons g1 g2 g3 =>
      have : ∀ {c : Char} {a b : Nat}, DigitIs c a → DigitIs c b → a < 10 → b < 10 → a = b := by
        intro c a b ha hb _ _; unfold DigitIs at ha hb; omega
      rw [this g1 h1 g2 h2] at g3
      exact ih g3

theorem Rep.no {acc n : Nat} {s : List Char} (h : Rep 10 acc s n) : '-' ∉ s ∧ '.' ∉ s :=
  ⟨fun hm => (Rep.mem h _ hm).elim fun _ hd => DigitIs.ne hd (.inl (by decide)) rfl, fun hm => (Rep.mem h _ hm).elim fun _ hd => DigitIs.ne hd (.inl (by decide)) rfl⟩

theorem lastPiece_no {s cur : Name} (h : '-' ∉ s) : lastPiece cur s = cur ++ s := by
  induction s generalizing cur with
  | nil => simp [lastPiece]
  | cons c s ih => simp only [lastPiece]; rw [if_neg (by grind), ih (by grind)]; simp

theorem lastPiece_dash (a b cur : Name) : lastPiece cur (a ++ '-' :: b) = lastPiece [] b := by
  induction a generalizing cur with
  | nil => simp [lastPiece]
  | cons c a ih => simp only [List.cons_append, lastPiece]; split <;> exact ih _

theorem parseI_rep {s : Name} {n : Nat} (h : Rep 10 0 s n) (hs : s ≠ []) (hn : n < 2 ^ 31) : parseI 10 (2 ^ 31) s = some (n : Int) :=
  (parseI_iff (by omega) (by omega)).2 ⟨.inl ⟨n, ⟨s, hs, h, .inl rfl⟩, rfl⟩, by omega, by omega⟩

/-- **The process that made a file is read back from its name.** -/
theorem C87_name (t pid : Nat) (h : pid < 2 ^ 31) : pidOf (shmName t pid) = some (pid : Int) := by
  unfold pidOf shmName
  have e : ∀ a b c d : Name, pref ++ '_' :: (a ++ '.' :: (b ++ '-' :: d)) = (pref ++ '_' :: (a ++ '.' :: b)) ++ '-' :: d := by intros; simp
  rw [e _ _ [] _, lastPiece_dash, lastPiece_no (Rep.no (pad_rep 10 pid)).1]
  exact parseI_rep (pad_rep 10 pid) (pad_ne 10 pid) h

theorem cut {x : Char} {a b a' b' : Name} (h : a ++ x :: b = a' ++ x :: b') (ha : x ∉ a) (ha' : x ∉ a') : a = a' ∧ b = b' := by
  induction a generalizing a' with
  | nil =>
    cases a' with
    | nil => simp at h; exact ⟨rfl, h⟩
    | cons c a' => simp at h; grind
  | cons c a ih =>
    cases a' with
    | nil => simp at h; grind
    | cons c' a' =>
      simp at h
      have := ih h.2 (by grind) (by grind)
      grind

theorem shmName_inj {t p t' p' : Nat} (h : shmName t p = shmName t' p') : t = t' ∧ p = p' := by
  unfold shmName at h
  have h := List.append_cancel_left h
  simp only [List.cons.injEq, true_and] at h
  obtain ⟨h1, h2⟩ := cut h (Rep.no (decimal_rep _)).2 (Rep.no (decimal_rep _)).2
  obtain ⟨h3, h4⟩ := cut h2 (Rep.no (pad_rep _ _)).1 (Rep.no (pad_rep _ _)).1
  have e1 := Rep.inj (h1 ▸ decimal_rep (t / 1000000000)) (decimal_rep (t' / 1000000000))
  have e2 := Rep.inj (h3 ▸ pad_rep 9 (t % 1000000000)) (pad_rep 9 (t' % 1000000000))
  have e3 := Rep.inj (h4 ▸ pad_rep 10 p) (pad_rep 10 p')
  omega

/-! ### The invariant -/

/-- No file that is made from now on has this name. -/
def Old (s : St) (n : Name) : Prop := ∀ t p, n = shmName t p → t ≤ s.time

/-- The owner of a file of this name runs where the cleanup sees it. -/
def Live (s : St) (ns : Nat) (n : Name) (p : Proc) : Prop := ⟨n, some p⟩ ∈ s.files ∧ p ∈ s.procs ∧ p.ns = ns

def PhaseOk (s : St) (ns : Nat) : Phase → Prop
  | .idle => True
  | .listing _ seen => ∀ n ∈ seen, Old s n
  | .scanning paths must _ => (∀ n ∈ paths, Old s n) ∧ ∀ n ∈ paths, ∀ p, Live s ns n p → p.pid ∈ must
  | .removing todo pids _ => (∀ n ∈ todo, Old s n) ∧ ∀ n ∈ todo, ∀ p, Live s ns n p → (p.pid : Int) ∈ pids
  | .done _ => True

structure Inv (s : St) : Prop where
  files : ∀ f ∈ s.files, ∀ p, f.owner = some p → p.id < s.next ∧ p.pid < 2 ^ 31 ∧ ∃ t, f.name = shmName t p.pid
  old : ∀ f ∈ s.files, Old s f.name
  nodup : s.names.Nodup
  procs : ∀ p ∈ s.procs, p.id < s.next ∧ p.pid < 2 ^ 31
  uniq : ∀ p ∈ s.procs, ∀ q ∈ s.procs, p.pid = q.pid → p.ns = q.ns → p = q
  cl : ∀ k, PhaseOk s (s.ns k) (s.cl k)

theorem Inv.init (ns : Nat → Nat) : Inv (St.init ns) := by
  refine ⟨?_, ?_, ?_, ?_, ?_, ?_⟩ <;> simp [St.init, PhaseOk, St.names]

theorem PhaseOk.mono {s s' : St} {ns : Nat} {ph : Phase} (h : PhaseOk s ns ph) (ho : ∀ n, Old s n → Old s' n)
    (hl : ∀ n p, Old s n → Live s' ns n p → Live s ns n p) : PhaseOk s' ns ph := by
  cases ph <;> simp only [PhaseOk] at h ⊢
  · exact fun n hn => ho n (h n hn)
  · exact ⟨fun n hn => ho n (h.1 n hn), fun n hn p hp => h.2 n hn p (hl n p (h.1 n hn) hp)⟩
  · exact ⟨fun n hn => ho n (h.1 n hn), fun n hn p hp => h.2 n hn p (hl n p (h.1 n hn) hp)⟩

theorem PhaseOk.forget {s : St} {ns : Nat} {ph : Phase} {n : Name} (h : PhaseOk s ns ph) : PhaseOk s ns (ph.forget n) := by
  cases ph <;> exact h

theorem mem_pids {s : St} {ns p : Nat} : p ∈ s.pids ns ↔ ∃ q ∈ s.procs, q.ns = ns ∧ q.pid = p := by
  simp [St.pids]; grind

theorem mem_names {s : St} {n : Name} : n ∈ s.names ↔ ∃ f ∈ s.files, f.name = n := by simp [St.names]

theorem nodup_unlink {s : St} (h : s.names.Nodup) (n : Name) : (s.unlink n).names.Nodup := by
  unfold St.names at h ⊢
  exact h.sublist ((List.filter_sublist).map _)

theorem Inv.unlink {s : St} (h : Inv s) (n : Name) : Inv (s.unlink n) := by
  refine ⟨fun f hf => h.files f (List.mem_filter.1 hf).1, fun f hf => h.old f (List.mem_filter.1 hf).1, nodup_unlink h.nodup n, h.procs, h.uniq, fun k => ?_⟩
  refine (PhaseOk.forget (h.cl k)).mono (fun _ h => h) fun m p _ hl => ?_
  exact ⟨(List.mem_filter.1 hl.1).1, hl.2⟩

theorem Inv.set {s : St} (h : Inv s) (k : Nat) {ph : Phase} (hp : PhaseOk s (s.ns k) ph) : Inv (s.set k ph) := by
  refine ⟨h.files, h.old, h.nodup, h.procs, h.uniq, fun j => ?_⟩
  show PhaseOk s (s.ns j) (if j = k then ph else s.cl j)
  by_cases e : j = k
  · subst e; simpa using hp
  · simpa [e] using h.cl j

theorem Inv.step {s s' : St} {a : Act} (h : Inv s) (hs : Shadow.ShmClean.step s a = some s') : Inv s' := by
  cases a with
  | start pid ns =>
    simp only [Shadow.ShmClean.step] at hs
    split at hs
    · cases hs
    rename_i hg
    obtain rfl := Option.some.inj hs
    have hg1 : pid ∉ s.pids ns := fun h => hg (.inl h)
    have hg2 : pid < 2 ^ 31 := by have : ¬ 2 ^ 31 ≤ pid := fun h => hg (.inr h); omega
    refine ⟨fun f hf p hp => ?_, h.old, h.nodup, fun p hp => ?_, fun p hp q hq hpq hns => ?_, fun k => ?_⟩
    · have := h.files f hf p hp; exact ⟨by show p.id < s.next + 1; omega, this.2⟩
    · rcases List.mem_cons.1 hp with rfl | hp
      · exact ⟨by show s.next < s.next + 1; omega, hg2⟩
      · have := h.procs p hp; exact ⟨by show p.id < s.next + 1; omega, this.2⟩
    · rcases List.mem_cons.1 hp with rfl | hp <;> rcases List.mem_cons.1 hq with rfl | hq
      · rfl
      · exact absurd (mem_pids.2 ⟨q, hq, hns.symm, hpq.symm⟩) hg1
      · exact absurd (mem_pids.2 ⟨p, hp, hns, hpq⟩) hg1
      · exact h.uniq p hp q hq hpq hns
    · refine (h.cl k).mono (fun _ h => h) fun n p _ hl => ⟨hl.1, ?_, hl.2.2⟩
      rcases List.mem_cons.1 hl.2.1 with rfl | hp
      · have := (h.files _ hl.1 _ rfl).1; simp at this
      · exact hp
  | exit p =>
    simp only [Shadow.ShmClean.step] at hs
    split at hs
    · rename_i hp
      obtain rfl := Option.some.inj hs
      refine ⟨h.files, h.old, h.nodup, fun q hq => h.procs q (List.mem_filter.1 hq).1, fun q hq r hr => h.uniq q (List.mem_filter.1 hq).1 r (List.mem_filter.1 hr).1, fun k => ?_⟩
      have base : PhaseOk { s with procs := s.procs.filter (fun q => q != p) } (s.ns k) (s.cl k) :=
        (h.cl k).mono (fun _ h => h) fun n q _ hl => ⟨hl.1, (List.mem_filter.1 hl.2.1).1, hl.2.2⟩
      show PhaseOk { s with procs := s.procs.filter (fun q => q != p) } (s.ns k) (if s.ns k = p.ns then (s.cl k).exit p.pid else s.cl k)
      split
      · rename_i hk
        cases hc : s.cl k <;> simp only [hc, Phase.exit] at base ⊢ <;> try exact base
        refine ⟨base.1, fun n hn q hl => ?_⟩
        rw [List.mem_filter]
        refine ⟨base.2 n hn q hl, ?_⟩
        have hq := List.mem_filter.1 hl.2.1
        have : q ≠ p := by simpa using hq.2
        simp only [bne_iff_ne, ne_eq]
        exact fun e => this (h.uniq q hq.1 p hp e (by rw [hl.2.2, hk]))
      · exact base
    · cases hs
  | create p dt =>
    simp only [Shadow.ShmClean.step] at hs
    split at hs
    · rename_i hg
      obtain rfl := Option.some.inj hs
      have ho : ∀ n, Old s n → Old { s with files := ⟨shmName (s.time + dt) p.pid, some p⟩ :: s.files, time := s.time + dt } n :=
        fun n hn t q e => Nat.le_trans (hn t q e) (Nat.le_add_right _ _)
      refine ⟨fun f hf q hq => ?_, fun f hf => ?_, List.nodup_cons.2 ⟨fun hm => ?_, h.nodup⟩, h.procs, h.uniq, fun k => ?_⟩
      · rcases List.mem_cons.1 hf with rfl | hf
        · obtain rfl := Option.some.inj hq
          exact ⟨(h.procs p hg.1).1, (h.procs p hg.1).2, _, rfl⟩
        · exact h.files f hf q hq
      · rcases List.mem_cons.1 hf with rfl | hf
        · intro t q e; rw [← (shmName_inj e).1]; exact Nat.le_refl _
        · exact ho _ (h.old f hf)
      · obtain ⟨f, hf, e⟩ := mem_names.1 hm
        have := h.old f hf _ _ e; have := hg.2; omega
      · refine (h.cl k).mono ho fun n q hn hl => ⟨?_, hl.2⟩
        rcases List.mem_cons.1 hl.1 with e | hf
        · have e1 : n = shmName (s.time + dt) p.pid := congrArg File.name e
          have := hn _ _ e1; have := hg.2; omega
        · exact hf
    · cases hs
  | own p n =>
    simp only [Shadow.ShmClean.step] at hs
    split at hs
    · obtain rfl := Option.some.inj hs; exact h.unlink n
    · cases hs
  | touch n =>
    simp only [Shadow.ShmClean.step] at hs
    split at hs
    · cases hs
    · rename_i hg
      obtain rfl := Option.some.inj hs
      have hold : Old s n := fun t p e => absurd (.inr (by rw [e]; unfold shmName; simp)) hg
      refine ⟨fun f hf q hq => ?_, fun f hf => ?_, List.nodup_cons.2 ⟨fun hm => hg (.inl hm), h.nodup⟩, h.procs, h.uniq, fun k => ?_⟩
      · rcases List.mem_cons.1 hf with rfl | hf
        · cases hq
        · exact h.files f hf q hq
      · rcases List.mem_cons.1 hf with rfl | hf
        · exact hold
        · exact h.old f hf
      · refine (h.cl k).mono (fun _ h => h) fun m q _ hl => ⟨?_, hl.2⟩
        rcases List.mem_cons.1 hl.1 with e | hf
        · have := congrArg File.owner e; cases this
        · exact hf
  | open_ k =>
    simp only [Shadow.ShmClean.step] at hs
    split at hs
    · obtain rfl := Option.some.inj hs; exact h.set k (by simp [PhaseOk])
    · obtain rfl := Option.some.inj hs; exact h.set k (by simp [PhaseOk])
    · cases hs
  | see k n =>
    simp only [Shadow.ShmClean.step] at hs
    split at hs
    · rename_i must seen hc
      split at hs
      · rename_i hg
        obtain rfl := Option.some.inj hs
        have := h.cl k; rw [hc] at this
        refine h.set k fun m hm => ?_
        rcases List.mem_append.1 hm with hm | hm
        · exact this m hm
        · obtain ⟨f, hf, e⟩ := mem_names.1 hg.1
          rw [List.mem_singleton.1 hm, ← e]; exact h.old f hf
      · cases hs
    · cases hs
  | openProc k =>
    simp only [Shadow.ShmClean.step] at hs
    split at hs
    · rename_i must seen hc
      split at hs
      · obtain rfl := Option.some.inj hs
        have := h.cl k; rw [hc] at this
        refine h.set k ⟨fun n hn => this n (List.mem_filter.1 hn).1, fun n _ p hl => mem_pids.2 ⟨p, hl.2.1, hl.2.2, rfl⟩⟩
      · cases hs
    · cases hs
  | seeProc k n =>
    simp only [Shadow.ShmClean.step] at hs
    split at hs
    · rename_i paths must seen hc
      split at hs
      · obtain rfl := Option.some.inj hs
        have := h.cl k; rw [hc] at this
        exact h.set k this
      · cases hs
    · cases hs
  | begin_ k =>
    simp only [Shadow.ShmClean.step] at hs
    split at hs
    · rename_i paths must seen hc
      split at hs
      · rename_i hg
        obtain rfl := Option.some.inj hs
        have := h.cl k; rw [hc] at this
        refine h.set k ⟨this.1, fun n hn p hl => ?_⟩
        have hm := this.2 n hn p hl
        have hseen : decimal p.pid ∈ seen := by have := List.all_eq_true.1 hg _ hm; simpa using this
        exact List.mem_filterMap.2 ⟨_, hseen, parseI_rep (decimal_rep _) (decimal_ne _) (h.procs p hl.2.1).2⟩
      · cases hs
    · cases hs
  | take k ok =>
    simp only [Shadow.ShmClean.step] at hs
    split at hs
    · obtain rfl := Option.some.inj hs; exact h.set k trivial
    · rename_i n todo pids count hc
      have hk := h.cl k; rw [hc] at hk
      split at hs
      · obtain rfl := Option.some.inj hs
        refine (h.unlink n).set k ⟨fun m hm => hk.1 m (List.mem_cons_of_mem _ hm), fun m hm p hl => hk.2 m (List.mem_cons_of_mem _ hm) p ⟨(List.mem_filter.1 hl.1).1, hl.2⟩⟩
      · obtain rfl := Option.some.inj hs
        exact h.set k ⟨fun m hm => hk.1 m (List.mem_cons_of_mem _ hm), fun m hm p hl => hk.2 m (List.mem_cons_of_mem _ hm) p hl⟩
    · cases hs

theorem Inv.run {s s' : St} (as : List Act) (h : Inv s) (hr : Shadow.ShmClean.run s as = some s') : Inv s' := by
  induction as generalizing s with
  | nil => obtain rfl := Option.some.inj hr; exact h
  | cons a as ih =>
    simp only [Shadow.ShmClean.run] at hr
    split at hr
    · rename_i s1 h1; exact ih (h.step h1) hr
    · cases hr

/-- **No file of a running process is removed, except by itself.** Whatever started, ended, made and removed files before, and however many clean up
    at the same time: if a step removes a file of a process that runs, then the process does it itself, or somebody who does not see the process
    because it runs in another name space. -/
theorem C87_safe (ns : Nat → Nat) (as : List Act) {s s' : St} {a : Act} (hr : run (St.init ns) as = some s) (hs : step s a = some s')
    {n : Name} {p : Proc} (hf : ⟨n, some p⟩ ∈ s.files) (hp : p ∈ s.procs) (hg : (⟨n, some p⟩ : File) ∉ s'.files) :
    a = .own p n ∨ ∃ k ok, a = .take k ok ∧ p.ns ≠ ns k := by
  have h := Inv.run as (Inv.init ns) hr
  have hns : s.ns = ns := by
    have step_ns : ∀ {s s' : St} {a : Act}, step s a = some s' → s'.ns = s.ns := by
      intro s s' a hs
      cases a <;> simp only [step] at hs <;> repeat' split at hs
      all_goals first | (cases hs; done) | (cases hs; rfl)
    have : ∀ (as : List Act) {s s' : St}, run s as = some s' → s'.ns = s.ns := by
      intro as
      induction as with
      | nil => intro s s' hr; obtain rfl := Option.some.inj hr; rfl
      | cons a as ih =>
        intro s s' hr
        simp only [run] at hr
        split at hr
        · rename_i h1; rw [ih hr, step_ns h1]
        · cases hr
    exact this as hr
  cases a with
  | own q m =>
    simp only [step] at hs
    split at hs
    · rename_i hq
      obtain rfl := Option.some.inj hs
      by_cases e : n = m
      · have : q = p := by
          have hm := hq.2
          rw [← e] at hm
          have : ∀ (l : List File) (f g : File), (l.map (·.name)).Nodup → f ∈ l → g ∈ l → f.name = g.name → f = g := by
            intro l f g
            induction l with
            | nil => intro _ hf; cases hf
            | cons x l ih =>
              simp only [List.map_cons, List.nodup_cons, List.mem_map, List.mem_cons]
              grind
          have := this _ _ _ h.nodup hf hm rfl
          simpa using (congrArg File.owner this).symm
        exact .inl (by rw [e, this])
      · exact absurd (List.mem_filter.2 ⟨hf, by simpa using e⟩) hg
    · cases hs
  | take k ok =>
    refine .inr ⟨k, ok, rfl, fun e => ?_⟩
    simp only [step] at hs
    split at hs
    · obtain rfl := Option.some.inj hs; exact hg hf
    · rename_i m todo pids count hc
      have hk := h.cl k; rw [hc, hns] at hk
      split at hs
      · rename_i hd
        obtain rfl := Option.some.inj hs
        by_cases e' : n = m
        · subst e'
          have hmem := hk.2 n (List.mem_cons_self ..) p ⟨hf, hp, e⟩
          obtain ⟨_, hlt, t, ht⟩ := h.files _ hf p rfl
          have hdoom := hd.1
          simp only at ht
          rw [ht] at hdoom
          unfold doomed at hdoom
          rw [C87_name t p.pid hlt] at hdoom
          simp at hdoom
          exact hdoom hmem
        · exact hg (List.mem_filter.2 ⟨hf, by simpa using e'⟩)
      · obtain rfl := Option.some.inj hs; exact hg hf
    · cases hs
  | _ =>
    exfalso
    simp only [step] at hs
    repeat' split at hs
    all_goals first
      | (cases hs; done)
      | (obtain rfl := Option.some.inj hs; exact hg hf)
      | (obtain rfl := Option.some.inj hs; exact hg (List.mem_cons_of_mem _ hf))

/-! ### Everything that nobody uses is removed -/

/-- A file of Shadow whose maker is not there. -/
def Orphan (s : St) (ns : Nat) (n : Name) : Prop := (∃ rest, n = pref ++ rest) ∧ ∃ q, pidOf n = some q ∧ ∀ p ∈ s.procs, p.ns = ns → (p.pid : Int) ≠ q

/-- What a cleanup does after it began, if the file system lets it remove files. -/
def Act.goesOn (k : Nat) : Act → Prop
  | .see j _ | .openProc j | .seeProc j _ | .begin_ j => j = k
  | .take j ok => j = k ∧ ok = true
  | _ => False

/-- How far a cleanup is that runs alone from `s`. -/
def Alone (s : St) (k : Nat) (s' : St) : Phase → Prop
  | .listing must seen => s'.files = s.files ∧ must = s.names ∧ seen.Nodup
  | .scanning paths must seen => s'.files = s.files ∧ paths.Nodup ∧ (∀ n, (∃ rest, n = pref ++ rest) → n ∈ s.names → n ∈ paths) ∧ (∀ n ∈ paths, ∃ rest, n = pref ++ rest)
      ∧ must = s.pids (s.ns k) ∧ ∀ x ∈ seen, (∃ p ∈ s.pids (s.ns k), x = decimal p) ∨ parseI 10 (2 ^ 31) x = none
  | .removing todo pids count => (∀ q, q ∈ pids ↔ ∃ p ∈ s.pids (s.ns k), (p : Int) = q) ∧ todo.Nodup ∧ (∀ n ∈ todo, ∃ rest, n = pref ++ rest)
      ∧ (∀ f, f ∈ s'.files ↔ f ∈ s.files ∧ (Orphan s (s.ns k) f.name → f.name ∈ todo)) ∧ count + s'.files.length = s.files.length
  | .done count => (∀ f, f ∈ s'.files ↔ f ∈ s.files ∧ ¬ Orphan s (s.ns k) f.name) ∧ count + s'.files.length = s.files.length
  | .idle => False

theorem doomed_iff {s : St} {ns : Nat} {pids : List Int} {n : Name} (hp : ∀ q, q ∈ pids ↔ ∃ p ∈ s.pids ns, (p : Int) = q) (hn : ∃ rest, n = pref ++ rest) :
    doomed pids n = true ↔ Orphan s ns n := by
  unfold doomed Orphan
  cases hq : pidOf n with
  | none => simp
  | some q =>
    simp only [Option.some.injEq, Bool.not_eq_true', List.contains_eq_mem, decide_eq_false_iff_not, hp, mem_pids]
    constructor
    · exact fun h => ⟨hn, q, rfl, fun p hp hns e => h ⟨p.pid, ⟨p, hp, hns, rfl⟩, e⟩⟩
    · rintro ⟨_, q', rfl, h⟩ ⟨_, ⟨p, hp, hns, rfl⟩, e⟩
      exact h p hp hns e

theorem unlink_length {s : St} {n : Name} (h : s.names.Nodup) (hn : n ∈ s.names) : (s.unlink n).files.length + 1 = s.files.length := by
  unfold St.names at h hn
  show (s.files.filter (fun f => f.name != n)).length + 1 = s.files.length
  revert h hn
  generalize s.files = l
  intro h hn
  induction l with
  | nil => cases hn
  | cons f l ih =>
    simp only [List.map_cons, List.nodup_cons] at h
    by_cases e : f.name = n
    · have : l.filter (fun f => f.name != n) = l := List.filter_eq_self.2 fun g hg => by
        simp only [bne_iff_ne, ne_eq]; exact fun e' => h.1 (List.mem_map.2 ⟨g, hg, by rw [e', e]⟩)
      simp [e, this]
    · have := ih h.2 (by simp only [List.map_cons, List.mem_cons] at hn; rcases hn with hn | hn; exact absurd hn.symm e; exact hn)
      simp [e, this]

theorem Alone.step {s t t' : St} {k : Nat} {a : Act} (hi : Inv t) (hps : ∀ p ∈ s.procs, p.pid < 2 ^ 31) (hp : t.procs = s.procs ∧ t.ns = s.ns) (h : Alone s k t (t.cl k)) (ha : a.goesOn k)
    (hs : Shadow.ShmClean.step t a = some t') : (t'.procs = s.procs ∧ t'.ns = s.ns) ∧ Alone s k t' (t'.cl k) := by
  have hpid : t.pids (t.ns k) = s.pids (s.ns k) := by unfold St.pids; rw [hp.1, hp.2]
  cases a <;> simp only [Act.goesOn] at ha <;> try exact ha.elim
  case see j n =>
    subst ha
    simp only [Shadow.ShmClean.step] at hs
    split at hs
    · rename_i must seen hc
      rw [hc] at h
      split at hs
      · rename_i hg
        obtain rfl := Option.some.inj hs
        refine ⟨hp, ?_⟩
        simp only [St.set, if_true]
        exact ⟨h.1, h.2.1, List.nodup_append.2 ⟨h.2.2, by simp, by grind⟩⟩
      · cases hs
    · cases hs
  case openProc j =>
    subst ha
    simp only [Shadow.ShmClean.step] at hs
    split at hs
    · rename_i must seen hc
      rw [hc] at h
      split at hs
      · rename_i hg
        obtain rfl := Option.some.inj hs
        refine ⟨hp, ?_⟩
        simp only [St.set, if_true]
        refine ⟨h.1, h.2.2.filter _, fun n hn hm => List.mem_filter.2 ⟨?_, ?_⟩, fun n hn => ?_, hpid, by simp⟩
        · have := List.all_eq_true.1 hg n (h.2.1 ▸ hm); simpa using this
        · obtain ⟨r, rfl⟩ := hn; simp
        · have := (List.mem_filter.1 hn).2
          obtain ⟨r, hr⟩ := List.isPrefixOf_iff_prefix.1 this
          exact ⟨r, hr.symm⟩
      · cases hs
    · cases hs
  case seeProc j n =>
    subst ha
    simp only [Shadow.ShmClean.step] at hs
    split at hs
    · rename_i paths must seen hc
      rw [hc] at h
      split at hs
      · rename_i hg
        obtain rfl := Option.some.inj hs
        refine ⟨hp, ?_⟩
        simp only [St.set, if_true]
        refine ⟨h.1, h.2.1, h.2.2.1, h.2.2.2.1, h.2.2.2.2.1, fun x hx => ?_⟩
        rcases List.mem_append.1 hx with hx | hx
        · exact h.2.2.2.2.2 x hx
        · obtain rfl := List.mem_singleton.1 hx
          rcases hg with hg | hg
          · rw [hpid] at hg
            obtain ⟨p, h1, h2⟩ := List.any_eq_true.1 hg
            exact .inl ⟨p, h1, by simpa using h2⟩
          · exact .inr hg
      · cases hs
    · cases hs
  case begin_ j =>
    subst ha
    simp only [Shadow.ShmClean.step] at hs
    split at hs
    · rename_i paths must seen hc
      rw [hc] at h
      split at hs
      · rename_i hg
        obtain rfl := Option.some.inj hs
        refine ⟨hp, ?_⟩
        simp only [St.set, if_true]
        obtain ⟨h1, h2, h3, h4, h5, h6⟩ := h
        have par : ∀ p ∈ s.pids (s.ns j), parseI 10 (2 ^ 31) (decimal p) = some (p : Int) := fun p hm => by
          obtain ⟨q, hq, _, rfl⟩ := mem_pids.1 hm
          exact parseI_rep (decimal_rep _) (decimal_ne _) (hps q hq)
        refine ⟨fun q => ⟨fun hq => ?_, fun ⟨p, hm, e⟩ => ?_⟩, h2, h4, fun f => ?_, ?_⟩
        · obtain ⟨x, hx, e⟩ := List.mem_filterMap.1 hq
          rcases h6 x hx with ⟨p, hm, rfl⟩ | hn
          · rw [par p hm] at e; exact ⟨p, hm, Option.some.inj e⟩
          · rw [hn] at e; cases e
        · have : decimal p ∈ seen := by have := List.all_eq_true.1 hg p (h5 ▸ hm); simpa using this
          exact List.mem_filterMap.2 ⟨_, this, e ▸ par p hm⟩
        · show f ∈ t.files ↔ _
          rw [h1]
          exact ⟨fun hf => ⟨hf, fun ho => h3 _ ho.1 (mem_names.2 ⟨f, hf, rfl⟩)⟩, fun hf => hf.1⟩
        · show 0 + t.files.length = _
          rw [h1]; omega
      · cases hs
    · cases hs
  case take j ok =>
    obtain ⟨rfl, rfl⟩ := ha
    simp only [Shadow.ShmClean.step] at hs
    split at hs
    · rename_i pids count hc
      rw [hc] at h
      obtain rfl := Option.some.inj hs
      refine ⟨hp, ?_⟩
      simp only [St.set, if_true]
      exact ⟨fun f => (h.2.2.2.1 f).trans ⟨fun ⟨a, b⟩ => ⟨a, fun ho => by cases b ho⟩, fun ⟨a, b⟩ => ⟨a, fun ho => absurd ho b⟩⟩, h.2.2.2.2⟩
    · rename_i n todo pids count hc
      rw [hc] at h
      obtain ⟨h1, h2, h3, h4, h5⟩ := h
      have hn := h3 n (List.mem_cons_self ..)
      have hd := doomed_iff h1 hn
      split at hs
      · rename_i hg
        obtain rfl := Option.some.inj hs
        refine ⟨hp, ?_⟩
        simp only [St.set, if_true]
        refine ⟨h1, (List.nodup_cons.1 h2).2, fun m hm => h3 m (List.mem_cons_of_mem _ hm), fun f => ?_, ?_⟩
        · show f ∈ (t.unlink n).files ↔ _
          rw [show (t.unlink n).files = t.files.filter (fun f => f.name != n) from rfl, List.mem_filter, h4]
          simp only [bne_iff_ne, ne_eq, List.mem_cons]
          have := hd.1 hg.1
          have hnt := (List.nodup_cons.1 h2).1
          constructor
          · rintro ⟨⟨hf, ho⟩, hne⟩
            exact ⟨hf, fun o => (ho o).resolve_left hne⟩
          · rintro ⟨hf, ho⟩
            exact ⟨⟨hf, fun o => .inr (ho o)⟩, fun e => hnt (e ▸ ho (e ▸ this))⟩
        · have := unlink_length hi.nodup hg.2.2
          show count + 1 + (t.unlink n).files.length = _
          omega
      · rename_i hg
        obtain rfl := Option.some.inj hs
        refine ⟨hp, ?_⟩
        simp only [St.set, if_true]
        refine ⟨h1, (List.nodup_cons.1 h2).2, fun m hm => h3 m (List.mem_cons_of_mem _ hm), fun f => ?_, h5⟩
        show f ∈ t.files ↔ _
        have key : f ∈ t.files → Orphan s (s.ns j) f.name → f.name ≠ n := fun hf ho e => hg ⟨hd.2 (e ▸ ho), trivial, mem_names.2 ⟨f, hf, e⟩⟩
        constructor
        · intro hf
          have := (h4 f).1 hf
          exact ⟨this.1, fun ho => (List.mem_cons.1 (this.2 ho)).resolve_left (key hf ho)⟩
        · rintro ⟨hf, ho⟩
          exact (h4 f).2 ⟨hf, fun o => List.mem_cons_of_mem _ (ho o)⟩
    · cases hs

/-- **Everything that nobody uses is removed.** A cleanup that runs by itself, in whatever order it finds the files and the processes, and
    that may remove files, leaves exactly the files that are not Shadow's, whose names do not tell a process, or whose process runs; it tells how many it removed. -/
theorem C87_all (ns : Nat → Nat) (before as : List Act) {s s' : St} {k m : Nat} (hr : run (St.init ns) before = some s)
    (hs : run s (.open_ k :: as) = some s') (ha : ∀ a ∈ as, a.goesOn k) (hd : s'.cl k = .done m) :
    (∀ f, f ∈ s'.files ↔ f ∈ s.files ∧ ¬ Orphan s (s.ns k) f.name) ∧ m + s'.files.length = s.files.length := by
  have hi := Inv.run before (Inv.init ns) hr
  simp only [run] at hs
  split at hs
  · rename_i s1 h1
    have hi1 := hi.step h1
    have start : (s1.procs = s.procs ∧ s1.ns = s.ns) ∧ Alone s k s1 (s1.cl k) := by
      simp only [step] at h1
      split at h1 <;> first
        | (cases h1; done)
        | (obtain rfl := Option.some.inj h1; exact ⟨⟨rfl, rfl⟩, by simp [St.set, Alone]⟩)
    have key : ∀ (as : List Act) {t : St}, Inv t → ((t.procs = s.procs ∧ t.ns = s.ns) ∧ Alone s k t (t.cl k)) → run t as = some s' → (∀ a ∈ as, a.goesOn k) → Alone s k s' (s'.cl k) := by
      intro as
      induction as with
      | nil => intro t _ h hr _; obtain rfl := Option.some.inj hr; exact h.2
      | cons a as ih =>
        intro t hi h hr ha
        simp only [run] at hr
        split at hr
        · rename_i t1 h1
          exact ih (hi.step h1) (Alone.step hi (fun p hp => (Inv.procs ‹Inv s› p hp).2) h.1 h.2 (ha a (List.mem_cons_self ..)) h1) hr (fun b hb => ha b (List.mem_cons_of_mem _ hb))
        · cases hr
    have := key as hi1 start hs ha
    rw [hd] at this
    exact this
  · cases hs

end Shadow.ShmClean
