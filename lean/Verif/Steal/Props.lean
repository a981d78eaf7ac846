import Verif.Steal.Model
import Verif.Base.Count

/-!
# Every host is processed exactly once in each round (C40)
-/
namespace Shadow.Steal

open Shadow.Base

variable {H : Type}

/-! ## Specification -/

/-- In each of the rounds, the closure was called exactly once for each of the hosts: those that the scheduler began with in the
    first round, and those that the closure returned in the round before in the later rounds. Each element of a round tells what
    the closure was called with and what it returned. -/
def Rounds : List H → List (List (H × H)) → Prop
  | _, [] => True
  | hosts, r :: rs => (r.map Prod.fst).Perm hosts ∧ Rounds (r.map Prod.snd) rs

/-- The hosts after some rounds. -/
def current (hosts : List H) : List (List (H × H)) → List H
  | [] => hosts
  | r :: rs => current (r.map Prod.snd) rs

/-- The hosts that thread `i` of `n` begins with: the `i`-th, the `i + n`-th and so on. -/
def share (n i : Nat) (hosts : List H) : List H :=
  (hosts.zipIdx.filter (fun x => x.2 % n = i)).map Prod.fst

/-! ## Lemmas -/

theorem rounds_snoc : ∀ {rs : List (List (H × H))} {hosts : List H} {r : List (H × H)}, Rounds hosts rs →
    (r.map Prod.fst).Perm (current hosts rs) → Rounds hosts (rs ++ [r])
  | [], _, _, _, h2 => ⟨h2, trivial⟩
  | _ :: _, _, _, h1, h2 => ⟨h1.1, rounds_snoc h1.2 h2⟩

theorem current_snoc : ∀ {rs : List (List (H × H))} {hosts : List H} {r : List (H × H)}, current hosts (rs ++ [r]) = r.map Prod.snd
  | [], _, _ => rfl
  | _ :: rs, _, _ => current_snoc (rs := rs)

theorem current_length : ∀ {rs : List (List (H × H))} {hosts : List H}, Rounds hosts rs → (current hosts rs).length = hosts.length
  | [], _, _ => rfl
  | r :: rs, hosts, h => by
      have h1 := h.1.length_eq
      have h2 := current_length h.2
      simp only [List.length_map] at h1 h2
      rw [current, h2, h1]

theorem perm_set {α β : Type} (f : α → List β) : ∀ (l : List α) (i : Nat) (p q : α), l[i]? = some p →
    ((l.set i q).flatMap f ++ f p).Perm (l.flatMap f ++ f q)
  | [], _, _, _, h => by simp at h
  | x :: l, 0, p, q, h => by
      simp only [List.getElem?_cons_zero, Option.some.injEq] at h
      subst h
      classical
      rw [List.perm_iff_count]
      intro a
      simp only [List.set_cons_zero, List.flatMap_cons, List.count_append]
      omega
  | x :: l, i + 1, p, q, h => by
      simp only [List.getElem?_cons_succ] at h
      have := perm_set f l i p q h
      classical
      rw [List.perm_iff_count] at this ⊢
      intro a
      have := this a
      simp only [List.set_cons_succ, List.flatMap_cons, List.count_append] at this ⊢
      omega

/-- The host that a thread holds. -/
def held : Pc H → List H
  | .hold _ h => [h]
  | _ => []

def pos : Pc H → Option Nat
  | .out => none
  | .scan k => some k
  | .hold k _ => some k

theorem flatten_empty {l : List (List H)} : l.flatten = [] ↔ ∀ q ∈ l, q = [] := by
  rw [List.flatten_eq_nil_iff]

theorem all_empty {l : List (List H)} : l.all List.isEmpty = true ↔ l.flatten = [] := by
  simp [List.flatten_eq_nil_iff]

theorem held_idle {l : List (Pc H)} (h : ∀ p ∈ l, p = .out) : l.flatMap held = [] := by
  rw [List.flatMap_eq_nil_iff]
  intro p hp
  rw [h p hp]
  rfl

theorem all_idle {l : List (Pc H)} : l.all idle = true ↔ ∀ p ∈ l, p = .out := by
  rw [List.all_eq_true]
  constructor
  · intro h p hp
    have := h p hp
    cases p <;> simp_all [idle]
  · intro h p hp
    rw [h p hp]
    rfl

/-! ## The invariant -/

structure Inv (n : Nat) (hosts : List H) (s : St H) : Prop where
  pos : 0 < n
  lenF : s.frm.length = n
  lenT : s.to.length = n
  lenP : s.pcs.length = n
  cap : s.cap = hosts.length
  rounds : Rounds hosts s.past
  idle : s.phase ≠ .round → ∀ p ∈ s.pcs, p = .out
  outside : s.phase = .outside → if s.needSwap then s.frm.flatten = [] ∧ s.to.flatten.Perm (current hosts s.past)
    else s.to.flatten = [] ∧ s.frm.flatten.Perm (current hosts s.past)
  scope : s.phase = .scope → s.needSwap = false ∧ s.to.flatten = [] ∧ s.frm.flatten.Perm (current hosts s.past)
  swap : s.phase = .round → s.needSwap = true
  given : s.phase = .round → (s.frm.flatten ++ s.pcs.flatMap held ++ s.log.map Prod.fst).Perm (current hosts s.past)
  back : s.phase = .round → s.to.flatten.Perm (s.log.map Prod.snd)
  seen : s.phase = .round → ∀ (i : Nat) (p : Pc H) (k : Nat), s.pcs[i]? = some p → Steal.pos p = some k → k ≤ n ∧ ∀ j < k, s.frm[(i + j) % n]? = some []
  done : s.phase = .round → s.done = true → s.frm.flatten = []

/-! ## `new` -/

theorem assign_spec {cap : Nat} : ∀ {hs : List H} {qs qs' : List (List H)} {j : Nat}, 0 < qs.length → assign cap qs j hs = .ok qs' →
    qs'.length = qs.length ∧ qs'.flatten.Perm (qs.flatten ++ hs)
  | [], qs, qs', j, _, h => by
      rw [assign] at h
      cases h
      exact ⟨rfl, by simp⟩
  | x :: hs, qs, qs', j, hp, h => by
      have hl : j % qs.length < qs.length := Nat.mod_lt _ hp
      rw [assign, List.getElem?_eq_getElem hl] at h
      simp only at h
      split at h
      · have ih := assign_spec (qs := qs.set (j % qs.length) (qs[j % qs.length] ++ [x])) (by simpa using hp) h
        refine ⟨by simpa using ih.1, ih.2.trans ?_⟩
        have hg : qs[j % qs.length]? = some qs[j % qs.length] := List.getElem?_eq_getElem hl
        have := perm_set id qs _ _ (qs[j % qs.length] ++ [x]) hg
        classical
        rw [List.perm_iff_count] at this ⊢
        intro a
        have := this a
        simp only [List.flatMap_id, id, List.count_append, List.count_cons, List.count_nil] at this ⊢
        omega
      · cases h

theorem assign_total {cap : Nat} : ∀ {hs : List H} {qs : List (List H)} {j : Nat}, 0 < qs.length → qs.flatten.length + hs.length ≤ cap →
    ∃ qs', assign cap qs j hs = .ok qs'
  | [], qs, _, _, _ => ⟨qs, rfl⟩
  | x :: hs, qs, j, hp, h => by
      have hl : j % qs.length < qs.length := Nat.mod_lt _ hp
      have hg : qs[j % qs.length]? = some qs[j % qs.length] := List.getElem?_eq_getElem hl
      have h1 := (perm_set id qs _ _ (qs[j % qs.length] ++ [x]) hg).length_eq
      have h2 := (perm_set id qs _ _ [] hg).length_eq
      simp only [List.flatMap_id, id, List.length_append, List.length_cons, List.length_nil] at h1 h2 h
      have hc : qs[j % qs.length].length < cap := by omega
      obtain ⟨qs', h3⟩ := assign_total (hs := hs) (qs := qs.set (j % qs.length) (qs[j % qs.length] ++ [x])) (j := j + 1) (cap := cap)
        (by simpa using hp) (by omega)
      exact ⟨qs', by rw [assign, hg]; simp only; rw [if_pos hc, h3]⟩

theorem inv_new {n : Nat} {hosts : List H} {s : St H} (hn : 0 < n) (h : new n hosts = .ok s) : Inv n hosts s := by
  unfold new at h
  rw [R.bind_eq_ok] at h
  obtain ⟨_, h0, h⟩ := h
  rw [R.bind_eq_ok] at h
  obtain ⟨frm, h1, h⟩ := h
  cases h
  have h2 := assign_spec (by simpa using hn) h1
  have he : (List.replicate n ([] : List H)).flatten = [] := by simp
  rw [he, List.nil_append] at h2
  refine ⟨hn, by simpa using h2.1, by simp, by simp, rfl, trivial, ?_, ?_, ?_, ?_, ?_, ?_, ?_, ?_⟩
  · intro _ p hp
    exact (List.mem_replicate.1 hp).2
  · intro _
    rw [if_neg (by simp)]
    exact ⟨he, h2.2⟩
  all_goals (intro hc; cases hc)

/-! ## The steps -/

theorem inv_step {debug : Bool} {n : Nat} {hosts : List H} {s s' : St H} {a : Act H} (hi : Inv n hosts s) (ha : allowed s a)
    (hs : step debug s a = some (.ok s')) : Inv n hosts s' := by
  cases a with
  | scope =>
      rw [step] at hs
      split at hs
      · next hp =>
        have ho := hi.outside hp
        have hidle := hi.idle (by rw [hp]; decide)
        rw [Option.some.injEq] at hs
        split at hs
        · next hw =>
          rw [if_pos hw] at ho
          split at hs
          · cases hs
          · cases hs
            exact ⟨hi.pos, hi.lenT, hi.lenF, hi.lenP, hi.cap, hi.rounds, fun _ => hidle, (fun hc => by cases hc),
              fun _ => ⟨rfl, ho.1, ho.2⟩, (fun hc => by cases hc), (fun hc => by cases hc), (fun hc => by cases hc), (fun hc => by cases hc), (fun hc => by cases hc)⟩
        · next hw =>
          rw [if_neg hw] at ho
          cases hs
          exact ⟨hi.pos, hi.lenF, hi.lenT, hi.lenP, hi.cap, hi.rounds, fun _ => hidle, (fun hc => by cases hc),
            fun _ => ⟨by simpa using hw, ho.1, ho.2⟩, (fun hc => by cases hc), (fun hc => by cases hc), (fun hc => by cases hc), (fun hc => by cases hc), (fun hc => by cases hc)⟩
      · cases hs
  | run =>
      rw [step] at hs
      split at hs
      · next hp =>
        have ho := hi.scope hp
        have hidle := hi.idle (by rw [hp]; decide)
        cases hs
        refine ⟨hi.pos, hi.lenF, hi.lenT, hi.lenP, hi.cap, hi.rounds, (fun hc => absurd rfl hc), (fun hc => by cases hc), (fun hc => by cases hc),
          fun _ => rfl, fun _ => ?_, fun _ => ?_, fun _ => ?_, (fun _ hc => by cases hc)⟩
        · show (s.frm.flatten ++ s.pcs.flatMap held ++ []).Perm _
          rw [held_idle hidle]
          simpa using ho.2.2
        · show s.to.flatten.Perm []
          rw [ho.2.1]
        · intro i p k h1 h2
          rw [hidle p (List.mem_of_getElem? h1)] at h2
          cases h2
      · cases hs
  | leave =>
      rw [step] at hs
      split at hs
      · cases hs
      · next hp =>
        simp only [Bool.or_eq_true, decide_eq_true_eq, Bool.not_eq_true', not_or, Bool.not_eq_false] at hp
        have hidle := all_idle.1 hp.2
        cases hs
        cases hph : s.phase with
        | outside => exact absurd hph hp.1
        | scope =>
            have ho := hi.scope hph
            have hpe : (if Phase.scope = Phase.round then s.past ++ [s.log] else s.past) = s.past := if_neg (by decide)
            refine ⟨hi.pos, hi.lenF, hi.lenT, hi.lenP, hi.cap, by simp only [hpe]; exact hi.rounds, fun _ => hidle, fun _ => ?_, (fun hc => by cases hc),
              (fun hc => by cases hc), (fun hc => by cases hc), (fun hc => by cases hc), (fun hc => by cases hc), (fun hc => by cases hc)⟩
            simp only [hpe, ho.1]
            exact ⟨ho.2.1, ho.2.2⟩
        | round =>
            have hd := hi.done hph (ha hph)
            have hg := hi.given hph
            rw [hd, held_idle hidle] at hg
            refine ⟨hi.pos, hi.lenF, hi.lenT, hi.lenP, hi.cap, by simp only [if_true]; exact rounds_snoc hi.rounds (by simpa using hg), fun _ => hidle, fun _ => ?_,
              (fun hc => by cases hc), (fun hc => by cases hc), (fun hc => by cases hc), (fun hc => by cases hc), (fun hc => by cases hc), (fun hc => by cases hc)⟩
            simp only [if_true, hi.swap hph, current_snoc]
            exact ⟨hd, hi.back hph⟩
  | call i =>
      rw [step] at hs
      split at hs
      · next hpc =>
        split at hs
        case isFalse => cases hs
        next hp =>
        cases hs
        have hh := perm_set held s.pcs i _ (.scan 0) hpc
        simp only [held, List.append_nil] at hh
        refine ⟨hi.pos, hi.lenF, hi.lenT, by simpa using hi.lenP, hi.cap, hi.rounds, (fun hc => absurd hp hc), (fun hc => by rw [hp] at hc; cases hc),
          (fun hc => by rw [hp] at hc; cases hc), hi.swap, fun _ => ?_, hi.back, fun _ => ?_, hi.done⟩
        · exact ((hh.append_left _).append_right _).trans (hi.given hp)
        · intro i' p k h1 h2
          by_cases hii : i = i'
          · subst hii
            rw [getElem?_set_self' hpc] at h1
            cases h1
            cases h2
            exact ⟨Nat.zero_le _, fun j hj => absurd hj (Nat.not_lt_zero j)⟩
          · rw [List.getElem?_set_ne hii] at h1
            exact hi.seen hp i' p k h1 h2
      · cases hs
  | pop i =>
      rw [step] at hs
      split at hs
      · next k hpc =>
        have hph : s.phase = .round := Classical.byContradiction fun hc => by
          have := hi.idle hc _ (List.mem_of_getElem? hpc)
          cases this
        have hin : i < n := by
          rw [← hi.lenP]
          exact (List.getElem?_eq_some_iff.1 hpc).1
        rw [Option.some.injEq] at hs
        have hsk := hi.seen hph i _ k hpc rfl
        rw [hi.lenF] at hs
        split at hs
        · next hkn =>
          have hl : (i + k) % n < s.frm.length := by rw [hi.lenF]; exact Nat.mod_lt _ hi.pos
          split at hs
          · next h q hq =>
            cases hs
            have hh := perm_set held s.pcs i _ (.hold k h) hpc
            have hf := perm_set id s.frm _ _ q hq
            simp only [held, List.append_nil, List.flatMap_id, id] at hh hf
            refine ⟨hi.pos, by simpa using hi.lenF, hi.lenT, by simpa using hi.lenP, hi.cap, hi.rounds, (fun hc => absurd hph hc), (fun hc => by rw [hph] at hc; cases hc),
              (fun hc => by rw [hph] at hc; cases hc), hi.swap, fun _ => ?_, hi.back, fun _ => ?_, fun _ hd => ?_⟩
            · have hg := hi.given hph
              classical
              rw [List.perm_iff_count] at hg hh hf ⊢
              intro a
              have := hg a
              have := hh a
              have := hf a
              simp only [List.count_append, List.count_cons, List.count_nil] at *
              omega
            · intro i' p k' h1 h2
              have hne : ∀ j : Nat, s.frm[j]? = some [] → (s.frm.set ((i + k) % n) q)[j]? = some [] := by
                intro j hj
                by_cases he : (i + k) % n = j
                · rw [he, hj] at hq
                  cases hq
                · rw [List.getElem?_set_ne he]
                  exact hj
              by_cases hii : i = i'
              · subst hii
                rw [getElem?_set_self' hpc] at h1
                cases h1
                cases h2
                exact ⟨hsk.1, fun j hj => hne _ (hsk.2 j hj)⟩
              · rw [List.getElem?_set_ne hii] at h1
                have := hi.seen hph i' p k' h1 h2
                exact ⟨this.1, fun j hj => hne _ (this.2 j hj)⟩
            · have := flatten_empty.1 (hi.done hph hd) _ (List.mem_of_getElem? hq)
              cases this
          · next hq =>
            cases hs
            have hq' : s.frm[(i + k) % n]? = some [] := by
              rw [List.getElem?_eq_getElem hl] at hq ⊢
              cases hx : s.frm[(i + k) % n] with
              | nil => rfl
              | cons h q => exact absurd (by rw [hx]) (hq h q)
            have hh := perm_set held s.pcs i _ (.scan (k + 1)) hpc
            simp only [held, List.append_nil] at hh
            refine ⟨hi.pos, hi.lenF, hi.lenT, by simpa using hi.lenP, hi.cap, hi.rounds, (fun hc => absurd hph hc), (fun hc => by rw [hph] at hc; cases hc),
              (fun hc => by rw [hph] at hc; cases hc), hi.swap, fun _ => ?_, hi.back, fun _ => ?_, hi.done⟩
            · exact ((hh.append_left _).append_right _).trans (hi.given hph)
            · intro i' p k' h1 h2
              by_cases hii : i = i'
              · subst hii
                rw [getElem?_set_self' hpc] at h1
                cases h1
                cases h2
                refine ⟨hkn, fun j hj => ?_⟩
                rcases Nat.lt_succ_iff_lt_or_eq.1 hj with hj | rfl
                · exact hsk.2 j hj
                · exact hq'
              · rw [List.getElem?_set_ne hii] at h1
                exact hi.seen hph i' p k' h1 h2
        · next hkn =>
          cases hs
          have hk : k = n := Nat.le_antisymm hsk.1 (Nat.le_of_not_lt hkn)
          have hh := perm_set held s.pcs i _ .out hpc
          simp only [held, List.append_nil] at hh
          refine ⟨hi.pos, hi.lenF, hi.lenT, by simpa using hi.lenP, hi.cap, hi.rounds, (fun hc => absurd hph hc), (fun hc => by rw [hph] at hc; cases hc),
            (fun hc => by rw [hph] at hc; cases hc), hi.swap, fun _ => ?_, hi.back, fun _ => ?_, fun _ _ => ?_⟩
          · exact ((hh.append_left _).append_right _).trans (hi.given hph)
          · intro i' p k' h1 h2
            by_cases hii : i = i'
            · subst hii
              rw [getElem?_set_self' hpc] at h1
              cases h1
              cases h2
            · rw [List.getElem?_set_ne hii] at h1
              exact hi.seen hph i' p k' h1 h2
          · refine flatten_empty.2 fun q hq => ?_
            obtain ⟨m, hm⟩ := List.getElem?_of_mem hq
            have hmn : m < n := by
              rw [← hi.lenF]
              exact (List.getElem?_eq_some_iff.1 hm).1
            have key : ∃ j, j < n ∧ (i + j) % n = m := by
              by_cases hmi : i ≤ m
              · exact ⟨m - i, by omega, by rw [Nat.add_sub_of_le hmi]; exact Nat.mod_eq_of_lt hmn⟩
              · refine ⟨m + n - i, by omega, ?_⟩
                have : i + (m + n - i) = m + n := by omega
                rw [this, Nat.add_mod_right]
                exact Nat.mod_eq_of_lt hmn
            obtain ⟨j, hj, hjm⟩ := key
            have := hsk.2 j (by omega)
            rw [hjm, hm] at this
            exact Option.some.inj this
      · cases hs
  | ret i h' =>
      rw [step] at hs
      split at hs
      · next k h hpc =>
        have hph : s.phase = .round := Classical.byContradiction fun hc => by
          have := hi.idle hc _ (List.mem_of_getElem? hpc)
          cases this
        rw [Option.some.injEq] at hs
        split at hs
        · next q hq =>
          split at hs
          · cases hs
            have hh := perm_set held s.pcs i _ (.scan k) hpc
            have hf := perm_set id s.to _ _ (q ++ [h']) hq
            simp only [held, List.append_nil, List.flatMap_id, id] at hh hf
            refine ⟨hi.pos, hi.lenF, by simpa using hi.lenT, by simpa using hi.lenP, hi.cap, hi.rounds, (fun hc => absurd hph hc), (fun hc => by rw [hph] at hc; cases hc),
              (fun hc => by rw [hph] at hc; cases hc), hi.swap, fun _ => ?_, fun _ => ?_, fun _ => ?_, hi.done⟩
            · have hg := hi.given hph
              classical
              rw [List.perm_iff_count] at hg hh ⊢
              intro a
              have := hg a
              have := hh a
              simp only [List.map_append, List.map_cons, List.map_nil, List.count_append, List.count_cons, List.count_nil] at *
              omega
            · have hb := hi.back hph
              classical
              rw [List.perm_iff_count] at hb hf ⊢
              intro a
              have := hb a
              have := hf a
              simp only [List.map_append, List.map_cons, List.map_nil, List.count_append, List.count_cons, List.count_nil] at *
              omega
            · intro i' p k' h1 h2
              by_cases hii : i = i'
              · subst hii
                rw [getElem?_set_self' hpc] at h1
                cases h1
                exact hi.seen hph i _ k' hpc h2
              · rw [List.getElem?_set_ne hii] at h1
                exact hi.seen hph i' p k' h1 h2
          · cases hs
        · cases hs
      · cases hs

/-- A scheduler with `n` threads for `hosts`, after anything that can happen to it. -/
def Reach (debug : Bool) (n : Nat) (hosts : List H) (s : St H) : Prop := ∃ s0, new n hosts = .ok s0 ∧ Run debug s0 s

theorem run_inv {debug : Bool} {n : Nat} {hosts : List H} {s0 s : St H} (h0 : Inv n hosts s0) (h : Run debug s0 s) : Inv n hosts s := by
  induction h with
  | init => exact h0
  | step _ ha hs ih => exact inv_step ih ha hs

theorem reach_inv {debug : Bool} {n : Nat} {hosts : List H} {s : St H} (hn : 0 < n) (h : Reach debug n hosts s) : Inv n hosts s := by
  obtain ⟨s0, h0, h⟩ := h
  exact run_inv (inv_new hn h0) h

/-! ## Theorems -/

/-- In every round that is over, the closure was called exactly once for each host, and it got the hosts as the round before left
    them. -/
theorem C40_rounds {debug : Bool} {n : Nat} {hosts : List H} {s : St H} (hn : 0 < n) (h : Reach debug n hosts s) : Rounds hosts s.past :=
  (reach_inv hn h).rounds

/-- When a round begins, all hosts are available. -/
theorem C40_available {debug : Bool} {n : Nat} {hosts : List H} {s s' : St H} (hn : 0 < n) (h : Reach debug n hosts s)
    (hs : step debug s .run = some (.ok s')) : s'.frm.flatten.Perm (current hosts s.past) ∧ s'.to.flatten = [] := by
  have hi := reach_inv hn h
  rw [step] at hs
  split at hs
  · next hp =>
    cases hs
    exact ⟨(hi.scope hp).2.2, (hi.scope hp).2.1⟩
  · cases hs

/-- In a round every host is in exactly one place: it waits in a queue, a single thread has it, or it was processed. -/
theorem C40_one_place {debug : Bool} {n : Nat} {hosts : List H} {s : St H} (hn : 0 < n) (h : Reach debug n hosts s) (hp : s.phase = .round) :
    (s.frm.flatten ++ s.pcs.flatMap held ++ s.log.map Prod.fst).Perm (current hosts s.past) ∧ s.to.flatten.Perm (s.log.map Prod.snd) :=
  ⟨(reach_inv hn h).given hp, (reach_inv hn h).back hp⟩

/-- As soon as one thread finished `for_each` in a round, all hosts were taken. -/
theorem C40_done {debug : Bool} {n : Nat} {hosts : List H} {s : St H} (hn : 0 < n) (h : Reach debug n hosts s) (hp : s.phase = .round)
    (hd : s.done = true) : (s.pcs.flatMap held ++ s.log.map Prod.fst).Perm (current hosts s.past) := by
  have h1 := (reach_inv hn h).given hp
  rwa [(reach_inv hn h).done hp hd, List.nil_append] at h1

/-- No push finds a full queue and no debug assertion fails. -/
theorem C40_no_panic {debug : Bool} {n : Nat} {hosts : List H} {s : St H} (hn : 0 < n) (h : Reach debug n hosts s) (a : Act H) :
    step debug s a ≠ some .panic := by
  have hi := reach_inv hn h
  intro hc
  cases a with
  | scope =>
      rw [step] at hc
      split at hc
      · next hp =>
        have ho := hi.outside hp
        rw [Option.some.injEq] at hc
        split at hc
        · next hw =>
          rw [if_pos hw] at ho
          split at hc
          · next hd =>
            rw [all_empty.2 ho.1] at hd
            simp at hd
          · cases hc
        · cases hc
      · cases hc
  | run =>
      rw [step] at hc
      split at hc <;> cases hc
  | leave =>
      rw [step] at hc
      split at hc <;> cases hc
  | call i =>
      rw [step] at hc
      split at hc
      · split at hc <;> cases hc
      · cases hc
  | pop i =>
      rw [step] at hc
      split at hc
      · rw [Option.some.injEq] at hc
        split at hc
        · split at hc <;> cases hc
        · cases hc
      · cases hc
  | ret i h' =>
      rw [step] at hc
      split at hc
      · next k x hpc =>
        have hph : s.phase = .round := Classical.byContradiction fun hx => by
          have := hi.idle hx _ (List.mem_of_getElem? hpc)
          cases this
        have hin : i < s.to.length := by
          rw [hi.lenT, ← hi.lenP]
          exact (List.getElem?_eq_some_iff.1 hpc).1
        have hq : s.to[i]? = some s.to[i] := List.getElem?_eq_getElem hin
        rw [hq, Option.some.injEq] at hc
        simp only at hc
        have h1 := (hi.given hph).length_eq
        have h2 := (hi.back hph).length_eq
        have h3 := (perm_set id s.to _ _ [] hq).length_eq
        have h4 := (perm_set held s.pcs _ _ .out hpc).length_eq
        have h5 := current_length hi.rounds
        have h6 := hi.cap
        simp only [held, List.flatMap_id, id, List.length_append, List.length_cons, List.length_nil, List.length_map] at h1 h2 h3 h4
        split at hc
        · cases hc
        · next hx => omega
      · cases hc

/-- A scheduler can be made for any hosts but none, with any number of threads but none. -/
theorem C40_new {n : Nat} {hosts : List H} (hn : 0 < n) (hh : hosts ≠ []) : ∃ s, new n hosts = .ok s := by
  obtain ⟨qs, hq⟩ := assign_total (hs := hosts) (qs := List.replicate n []) (j := 0) (cap := hosts.length) (by simpa using hn) (by simp)
  have : hosts.length ≠ 0 := by simpa using hh
  unfold new
  rw [hq]
  simp only [ne_eq, this, not_false_eq_true, decide_true, Bool.or_true, R.assert_true, R.bind_ok, R.pure_eq]
  exact ⟨_, rfl⟩

theorem assign_share {cap : Nat} : ∀ {hs : List H} {qs qs' : List (List H)} {j : Nat}, 0 < qs.length → assign cap qs j hs = .ok qs' →
    ∀ (i : Nat) (q : List H), qs[i]? = some q → qs'[i]? = some (q ++ ((hs.zipIdx j).filter (fun x => x.2 % qs.length = i)).map Prod.fst)
  | [], qs, qs', j, _, h, i, q, hq => by
      rw [assign] at h
      cases h
      simpa using hq
  | x :: hs, qs, qs', j, hp, h, i, q, hq => by
      have hl : j % qs.length < qs.length := Nat.mod_lt _ hp
      rw [assign, List.getElem?_eq_getElem hl] at h
      simp only at h
      split at h
      · have ih := assign_share (qs := qs.set (j % qs.length) (qs[j % qs.length] ++ [x])) (by simpa using hp) h i
        rw [List.length_set] at ih
        rw [List.zipIdx_cons]
        by_cases hji : j % qs.length = i
        · subst hji
          rw [List.getElem?_eq_getElem hl] at hq
          cases hq
          rw [ih (qs[j % qs.length] ++ [x]) (by simp [hl])]
          simp
        · rw [ih q (by rw [List.getElem?_set_ne hji]; exact hq)]
          simp [hji]
      · cases h

/-- The hosts are dealt out in turn. -/
theorem C40_share {n : Nat} {hosts : List H} {s : St H} (h : new n hosts = .ok s) {i : Nat} (hi : i < n) : s.frm[i]? = some (share n i hosts) := by
  unfold new at h
  rw [R.bind_eq_ok] at h
  obtain ⟨_, h0, h⟩ := h
  rw [R.bind_eq_ok] at h
  obtain ⟨frm, h1, h⟩ := h
  cases h
  have := assign_share (by simp; omega) h1 i [] (by simp [hi])
  simpa [share] using this

/-- A thread takes a host from the queue of another thread only if its own queue is empty. -/
theorem C40_own_first {debug : Bool} {n : Nat} {hosts : List H} {s s' : St H} (hn : 0 < n) (h : Reach debug n hosts s) {i k : Nat} {x y : H} {q : List H}
    (hs : step debug s (.pop i) = some (.ok s')) (hx : s'.pcs[i]? = some (.hold k x)) (hq : s.frm[i]? = some (y :: q)) :
    x = y ∧ s'.frm = s.frm.set i q := by
  have hi := reach_inv hn h
  rw [step] at hs
  split at hs
  · next k' hpc =>
    have hph : s.phase = .round := Classical.byContradiction fun hc => by
      have := hi.idle hc _ (List.mem_of_getElem? hpc)
      cases this
    have hin : i < n := by
      rw [← hi.lenP]
      exact (List.getElem?_eq_some_iff.1 hpc).1
    have hk : k' = 0 := by
      cases k' with
      | zero => rfl
      | succ k'' =>
          have := (hi.seen hph i _ _ hpc rfl).2 0 (by omega)
          rw [Nat.add_zero, Nat.mod_eq_of_lt hin, hq] at this
          cases this
    subst hk
    rw [Option.some.injEq, hi.lenF, if_pos hn, Nat.add_zero, Nat.mod_eq_of_lt hin, hq] at hs
    cases hs
    rw [getElem?_set_self' hpc] at hx
    cases hx
    exact ⟨rfl, rfl⟩
  · cases hs

/-- How far the threads are from the end of the round. -/
def left (n : Nat) : Pc H → Nat
  | .out => 0
  | .scan k => n + 1 - k
  | .hold k _ => n + 2 - k

def remaining (s : St H) : Nat := 2 * s.frm.flatten.length + (s.pcs.map (left s.frm.length)).sum

theorem sum_set {α : Type} (f : α → Nat) : ∀ (l : List α) (i : Nat) (p q : α), l[i]? = some p → ((l.set i q).map f).sum + f p = (l.map f).sum + f q
  | [], _, _, _, h => by simp at h
  | x :: l, 0, p, q, h => by
      simp only [List.getElem?_cons_zero, Option.some.injEq] at h
      subst h
      simp only [List.set_cons_zero, List.map_cons, List.sum_cons]
      omega
  | x :: l, i + 1, p, q, h => by
      simp only [List.getElem?_cons_succ] at h
      have := sum_set f l i p q h
      simp only [List.set_cons_succ, List.map_cons, List.sum_cons]
      omega

/-- Nothing blocks a thread in `for_each`, and each of its steps brings the end of the round closer, whatever the other threads did
    before. -/
theorem C40_progress {debug : Bool} {n : Nat} {hosts : List H} {s : St H} (hn : 0 < n) (h : Reach debug n hosts s) {i : Nat} {p : Pc H}
    (hp : s.pcs[i]? = some p) (ho : p ≠ .out) (x : H) :
    ∃ s', (step debug s (.pop i) = some (.ok s') ∨ step debug s (.ret i x) = some (.ok s')) ∧ remaining s' < remaining s := by
  have hi := reach_inv hn h
  have hph : s.phase = .round := Classical.byContradiction fun hc => ho (hi.idle hc _ (List.mem_of_getElem? hp))
  cases p with
  | out => exact absurd rfl ho
  | scan k =>
      have hk := (hi.seen hph i _ k hp rfl).1
      rw [← hi.lenF] at hk
      simp only [step, hp]
      by_cases hkn : k < s.frm.length
      · simp only [if_pos hkn]
        have hl : (i + k) % s.frm.length < s.frm.length := Nat.mod_lt _ (by omega)
        rw [List.getElem?_eq_getElem hl]
        cases hq : s.frm[(i + k) % s.frm.length] with
        | nil =>
            refine ⟨_, .inl rfl, ?_⟩
            have h1 := sum_set (left s.frm.length) s.pcs i _ (.scan (k + 1)) hp
            simp only [remaining, left] at h1 ⊢
            omega
        | cons y q =>
            refine ⟨_, .inl rfl, ?_⟩
            have h1 := sum_set (left s.frm.length) s.pcs i _ (.hold k y) hp
            have hg : s.frm[(i + k) % s.frm.length]? = some (y :: q) := by rw [List.getElem?_eq_getElem hl, hq]
            have h2 := (perm_set id s.frm _ _ q hg).length_eq
            simp only [List.flatMap_id, id, List.length_append, List.length_cons] at h2
            simp only [remaining, left, List.length_set] at h1 ⊢
            omega
      · simp only [if_neg hkn]
        refine ⟨_, .inl rfl, ?_⟩
        have h1 := sum_set (left s.frm.length) s.pcs i _ .out hp
        simp only [remaining, left] at h1 ⊢
        omega
  | hold k y =>
      have hk := (hi.seen hph i _ k hp rfl).1
      have hnp := C40_no_panic hn h (.ret i x)
      have h1 := sum_set (left s.frm.length) s.pcs i _ (.scan k) hp
      have hf := hi.lenF
      simp only [step, hp] at hnp ⊢
      split at hnp
      · split at hnp
        · next hc =>
          simp only [if_pos hc]
          refine ⟨_, .inr rfl, ?_⟩
          simp only [remaining, left] at h1 ⊢
          omega
        · exact absurd rfl hnp
      · exact absurd rfl hnp

theorem rounds_ids {ι : Type} (id : H → ι) : ∀ {rs : List (List (H × H))} {hosts : List H}, Rounds hosts rs →
    (∀ r ∈ rs, ∀ x ∈ r, id x.2 = id x.1) → ∀ r ∈ rs, (r.map (fun x => id x.1)).Perm (hosts.map id)
  | [], _, _, _, r, hr => by cases hr
  | r0 :: rs, hosts, h, hid, r, hr => by
      have h0 : (r0.map (fun x => id x.1)).Perm (hosts.map id) := by
        have := h.1.map id
        rwa [List.map_map] at this
      rcases List.mem_cons.1 hr with rfl | hr
      · exact h0
      · have h1 := rounds_ids id h.2 (fun r hr => hid r (List.mem_cons_of_mem _ hr)) r hr
        rw [List.map_map] at h1
        refine h1.trans ?_
        have : r0.map (id ∘ Prod.snd) = r0.map (fun x => id x.1) := by
          apply List.map_congr_left
          intro x hx
          exact hid r0 (List.mem_cons_self ..) x hx
        rw [this]
        exact h0

/-- If the closure returns the host that it was given, and the hosts have different names, then every round that is over processed
    each name exactly once. -/
theorem C40_names {ι : Type} {debug : Bool} {n : Nat} {hosts : List H} {s : St H} (hn : 0 < n) (h : Reach debug n hosts s) (name : H → ι)
    (hd : (hosts.map name).Nodup) (hid : ∀ r ∈ s.past, ∀ x ∈ r, name x.2 = name x.1) :
    ∀ r ∈ s.past, (r.map (fun x => name x.1)).Nodup ∧ ∀ m, m ∈ r.map (fun x => name x.1) ↔ m ∈ hosts.map name := by
  intro r hr
  have hp := rounds_ids name (C40_rounds hn h) hid r hr
  exact ⟨hp.nodup_iff.2 hd, fun m => hp.mem_iff⟩

/-- What some rounds make of a host. -/
def evolve (g : Nat → H → H) : Nat → H → H
  | 0, h => h
  | k + 1, h => evolve (fun j => g (j + 1)) k (g 0 h)

theorem rounds_outcome : ∀ {rs : List (List (H × H))} {hosts : List H} {g : Nat → H → H}, Rounds hosts rs →
    (∀ (k : Nat) (r : List (H × H)), rs[k]? = some r → ∀ x ∈ r, x.2 = g k x.1) → (current hosts rs).Perm (hosts.map (evolve g rs.length))
  | [], hosts, g, _, _ => by
      have : evolve g 0 = id := rfl
      simp [current, this]
  | r :: rs, hosts, g, h, hg => by
      have h1 := rounds_outcome (g := fun j => g (j + 1)) h.2 (fun k r' hr' x hx => hg (k + 1) r' (by simpa using hr') x hx)
      rw [current]
      refine h1.trans ?_
      rw [List.map_map]
      have h2 : r.map (evolve (fun j => g (j + 1)) rs.length ∘ Prod.snd) = (r.map Prod.fst).map (evolve g (r :: rs).length) := by
        rw [List.map_map]
        apply List.map_congr_left
        intro x hx
        show evolve _ rs.length x.2 = evolve g (rs.length + 1) x.1
        rw [hg 0 r rfl x hx]
        rfl
      rw [h2]
      exact h.1.map _

/-- If what the closure makes of a host in a round depends on nothing but the host, then the hosts after some rounds do not depend
    on the number of threads or on what each of them took. -/
theorem C40_outcome {debug : Bool} {n : Nat} {hosts : List H} {s : St H} (hn : 0 < n) (h : Reach debug n hosts s) (g : Nat → H → H)
    (hg : ∀ (k : Nat) (r : List (H × H)), s.past[k]? = some r → ∀ x ∈ r, x.2 = g k x.1) :
    (current hosts s.past).Perm (hosts.map (evolve g s.past.length)) :=
  rounds_outcome (C40_rounds hn h) hg

/-- There is no scheduler for no hosts. -/
theorem C40_no_hosts {n : Nat} (hn : 0 < n) : new n ([] : List H) = .panic := by
  unfold new
  have : (n = 0 || ([] : List H).length ≠ 0) = false := by simp; omega
  simp only [this]
  rfl

/-- A scheduler without threads forgets its hosts. -/
theorem C40_no_threads (hosts : List H) : ∃ s, new 0 hosts = .ok s ∧ s.frm = [] ∧ s.to = [] := by
  have : assign hosts.length (List.replicate 0 []) 0 hosts = .ok [] := by
    cases hosts <;> rfl
  unfold new
  rw [this]
  exact ⟨_, rfl, rfl, rfl⟩

/-! ## A run: three hosts on two threads, of which the second steals a host from the first -/

def demo0 : St Nat := ⟨[[10, 12], [11]], [[], []], 3, false, .outside, [.out, .out], [], false, []⟩

theorem demo0_new : new 2 [10, 11, 12] = .ok demo0 := by decide

example : share 2 0 [10, 11, 12] = [10, 12] ∧ share 2 1 [10, 11, 12] = [11] := by decide

/-- Thread 0 holds host 10 while thread 1 processes the others. -/
def demoRound : List (Act Nat) := [.scope, .run, .call 0, .pop 0, .call 1, .pop 1, .ret 1 111, .pop 1, .pop 1, .ret 1 112]

def demoMid : St Nat := ⟨[[], []], [[], [111, 112]], 3, true, .round, [.hold 0 10, .scan 1], [(11, 111), (12, 112)], false, []⟩

theorem demoMid_run : Run true demo0 demoMid := exec_run .init (by decide : exec true demo0 demoRound = some demoMid)

theorem demoMid_reach : Reach true 2 [10, 11, 12] demoMid := ⟨demo0, demo0_new, demoMid_run⟩

/-- The second round takes the hosts as the first one left them. -/
def demoEnd : St Nat :=
  ⟨[[], []], [[210, 211, 212], []], 3, true, .outside, [.out, .out], [(110, 210), (111, 211), (112, 212)], true,
    [[(11, 111), (12, 112), (10, 110)], [(110, 210), (111, 211), (112, 212)]]⟩

theorem demoEnd_reach : Reach true 2 [10, 11, 12] demoEnd :=
  ⟨demo0, demo0_new, exec_run demoMid_run (by decide : exec true demoMid ([.pop 1, .pop 1, .ret 0 110, .pop 0, .pop 0, .pop 0, .leave,
    .scope, .run, .call 0, .pop 0, .ret 0 210, .pop 0, .pop 0, .ret 0 211, .pop 0, .ret 0 212, .pop 0, .pop 0, .leave]) = some demoEnd)⟩

example : Rounds [10, 11, 12] demoEnd.past := C40_rounds (by decide) demoEnd_reach

example : (current [10, 11, 12] demoEnd.past).Perm ([10, 11, 12].map (evolve (fun _ h => h + 100) 2)) :=
  C40_outcome (by decide) demoEnd_reach (fun _ h => h + 100) (by
    intro k r hr x hx
    have hm := List.mem_of_getElem? hr
    have : ∀ r ∈ demoEnd.past, ∀ x ∈ r, x.2 = x.1 + 100 := by decide
    exact this r hm x hx)

example : ∀ r ∈ demoEnd.past, (r.map (fun x => x.1 % 100)).Nodup ∧ ∀ m, m ∈ r.map (fun x => x.1 % 100) ↔ m ∈ [10, 11, 12].map (· % 100) :=
  C40_names (by decide) demoEnd_reach (· % 100) (by decide) (by decide)

example : ∃ s', (step true demoMid (.pop 0) = some (.ok s') ∨ step true demoMid (.ret 0 110) = some (.ok s')) ∧ remaining s' < remaining demoMid :=
  C40_progress (by decide) demoMid_reach (i := 0) (p := .hold 0 10) rfl (by decide) 110

example : (demoMid.frm.flatten ++ demoMid.pcs.flatMap held ++ demoMid.log.map Prod.fst).Perm [10, 11, 12] :=
  (C40_one_place (by decide) demoMid_reach rfl).1

def demoFirst : St Nat := ⟨[[10, 12], [11]], [[], []], 3, true, .round, [.scan 0, .out], [], false, []⟩

theorem demoFirst_reach : Reach true 2 [10, 11, 12] demoFirst :=
  ⟨demo0, demo0_new, exec_run .init (by decide : exec true demo0 [.scope, .run, .call 0] = some demoFirst)⟩

example (s' : St Nat) (hs : step true demoFirst (.pop 0) = some (.ok s')) (hx : s'.pcs[0]? = some (.hold 0 10)) : s'.frm = [[12], [11]] :=
  (C40_own_first (by decide) demoFirst_reach hs hx (y := 10) (q := [12]) rfl).2

def demoScope : St Nat := { demo0 with phase := .scope }

example : ∃ s', step true demoScope .run = some (.ok s') ∧ s'.frm.flatten.Perm [10, 11, 12] :=
  ⟨_, rfl, (C40_available (by decide) ⟨demo0, demo0_new, exec_run .init (by decide : exec true demo0 [.scope] = some demoScope)⟩ rfl).1⟩

def demoDone : St Nat := { demoMid with pcs := [.hold 0 10, .out], done := true }

example : (demoDone.pcs.flatMap held ++ demoDone.log.map Prod.fst).Perm [10, 11, 12] :=
  C40_done (by decide) ⟨demo0, demo0_new, exec_run demoMid_run (by decide : exec true demoMid [.pop 1, .pop 1] = some demoDone)⟩ rfl rfl

/-! ## A closure that does not iterate -/

/-- The steps without the contract. -/
def steps (debug : Bool) (s : St H) : List (Act H) → Option (R (St H))
  | [] => some (.ok s)
  | a :: as =>
      match step debug s a with
      | some (.ok s') => steps debug s' as
      | r => r

/-- If the closure of a round does not call `for_each`, the next round finds no hosts; with debug assertions the scheduler panics
    instead. -/
theorem C40_lost :
    (∃ s, steps false demo0 [.scope, .run, .leave, .scope, .run] = some (.ok s) ∧ s.frm.flatten = [] ∧ s.to.flatten.Perm [10, 11, 12]) ∧
    steps true demo0 [.scope, .run, .leave, .scope] = some .panic :=
  ⟨⟨_, rfl, by decide, by decide⟩, by decide⟩

end Shadow.Steal
