import Verif.Rooted.Model

/-!
# C60 (references): a value lives as long as a strong reference to it

The specification counts the references of each object from the trace alone, and says for each operation what it must return.
-/
namespace Shadow.Rooted

open Shadow.Base

/-! ## Specification -/

/-- An object: its value, its root, and the references that were made and not explicitly dropped. -/
structure Obj where
  v : Nat
  root : Nat
  strong : Nat
  weak : Nat
deriving DecidableEq, Repr

/-- What may happen next, and the objects afterwards; `none` is "this must not happen". -/
def Spec.next (m : Nat → Option Obj) : Ev → Option (Nat → Option Obj)
  | .made b v root => match m b with
    | none => some (fun c => if c = b then some ⟨v, root, 1, 0⟩ else m c)
    | some _ => none
  | .ref b .strong root => match m b with
    -- A strong reference is made only while there is one.
    | some o => if o.root = root ∧ 0 < o.strong then some (fun c => if c = b then some { o with strong := o.strong + 1 } else m c) else none
    | none => none
  | .ref b .weak root => match m b with
    | some o => if o.root = root ∧ 0 < o.strong + o.weak then some (fun c => if c = b then some { o with weak := o.weak + 1 } else m c) else none
    | none => none
  | .noUpgrade b root => match m b with
    -- An upgrade fails only when no strong reference is left.
    | some o => if o.root = root ∧ o.strong = 0 ∧ 0 < o.weak then some m else none
    | none => none
  | .dropped b .strong root out freed => match m b with
    -- The last strong reference gets the value, and the last reference frees the memory.
    | some o => if o.root = root ∧ 0 < o.strong ∧ out = (if o.strong = 1 then some o.v else none) ∧ freed = (o.strong == 1 && o.weak == 0)
        then some (fun c => if c = b then some { o with strong := o.strong - 1 } else m c) else none
    | none => none
  | .dropped b .weak root out freed => match m b with
    | some o => if o.root = root ∧ 0 < o.weak ∧ out = none ∧ freed = (o.strong == 0 && o.weak == 1)
        then some (fun c => if c = b then some { o with weak := o.weak - 1 } else m c) else none
    | none => none
  | .lost b k => match m b with
    | some o => if 0 < (match k with | .strong => o.strong | .weak => o.weak) then some m else none
    | none => none
  | .read b v => match m b with
    | some o => if 0 < o.strong ∧ o.v = v then some m else none
    | none => none
  | .wrongRoot b root => match m b with
    | some o => if o.root ≠ root then some m else none
    | none => none
  | .overflow b k => match m b with
    | some o => if (match k with | .strong => o.strong | .weak => o.weak) = 2 ^ 32 - 1 then some m else none
    | none => none

def Spec.replay (m : Nat → Option Obj) : List Ev → Option (Nat → Option Obj)
  | [] => some m
  | e :: l => match Spec.next m e with
    | some m' => Spec.replay m' l
    | none => none

theorem replay_append (m m' : Nat → Option Obj) : ∀ (l l' : List Ev), Spec.replay m l = some m' → Spec.replay m (l ++ l') = Spec.replay m' l'
  | [], l', h => by simp only [Spec.replay, Option.some.injEq] at h; subst h; rfl
  | e :: l, l', h => by
      simp only [Spec.replay, List.cons_append] at h ⊢
      split at h
      · rename_i m1 h1
        exact replay_append m1 m' l l' h
      · cases h

/-! ## The invariant -/

/-- The handle refers to `b` with kind `k`. -/
def isRef (b : Nat) (k : Kind) : Option Handle → Bool
  | some h => decide (h.box = b ∧ h.kind = k)
  | none => false

/-- The references of `b` of kind `k`. -/
def refs (s : St) (b : Nat) (k : Kind) : Nat := s.hs.countP (isRef b k)

/-- The object `b` and its memory. -/
structure BoxOk (s : St) (b : Nat) (o : Obj) : Prop where
  strong : o.strong = refs s b .strong
  weak : o.weak = refs s b .weak
  small : o.strong < 2 ^ 32 ∧ o.weak < 2 ^ 32
  here : ∀ bx, s.boxes[b]? = some (some bx) →
    bx.strong = o.strong ∧ bx.weak = o.weak ∧ 0 < o.strong + o.weak ∧ bx.val = if 0 < o.strong then some o.v else none
  freed : s.boxes[b]? = some none → o.strong = 0 ∧ o.weak = 0

structure Inv (s : St) (m : Nat → Option Obj) : Prop where
  dom : ∀ b, (m b).isSome ↔ b < s.boxes.length
  box : ∀ b o, m b = some o → BoxOk s b o
  handles : ∀ (i : Nat) (h : Handle), s.hs[i]? = some (some h) → ∃ o, m h.box = some o ∧ o.root = h.tag

theorem inv_init : Inv .init (fun _ => none) :=
  ⟨by simp [St.init], by simp, by simp [St.init]⟩

theorem refs_pos {s : St} {i : Nat} {h : Handle} (hi : s.hs[i]? = some (some h)) : 0 < refs s h.box h.kind :=
  (countP_pos _ _).2 ⟨i, _, hi, by simp [isRef]⟩

theorem refs_le (s : St) (b : Nat) (k : Kind) : refs s b k ≤ s.hs.countP (fun o => o.isSome) := by
  unfold refs
  apply List.countP_mono_left
  intro o _ ho
  cases o
  · simp [isRef] at ho
  · rfl

theorem handle_eq {s : St} {i : Nat} {h : Handle} (hh : s.handle i = some h) : s.hs[i]? = some (some h) := by
  unfold St.handle at hh
  split at hh
  · rename_i g hg
    split at hh
    · cases hh
    · cases hh; exact hg
  · cases hh

/-- A live reference leads to memory that is there. -/
theorem inv_deref {s : St} {m : Nat → Option Obj} (h : Inv s m) {i : Nat} {g : Handle} (hi : s.hs[i]? = some (some g)) :
    ∃ o bx, m g.box = some o ∧ o.root = g.tag ∧ s.boxes[g.box]? = some (some bx) ∧ s.deref g.box = .ok bx ∧
      (match g.kind with | .strong => 0 < o.strong | .weak => 0 < o.weak) := by
  obtain ⟨o, ho, hr⟩ := h.handles i g hi
  have hb := h.box _ _ ho
  have hp := refs_pos hi
  have hl : g.box < s.boxes.length := (h.dom _).1 (by simp [ho])
  have hpos : (match g.kind with | .strong => 0 < o.strong | .weak => 0 < o.weak) := by
    cases hk : g.kind
    · rw [hk] at hp; simp only; rw [hb.strong]; exact hp
    · rw [hk] at hp; simp only; rw [hb.weak]; exact hp
  cases hx : s.boxes[g.box]? with
  | none => simp at hx; omega
  | some y =>
    cases y with
    | none =>
      have := hb.freed hx
      cases hk : g.kind <;> rw [hk] at hpos <;> simp only at hpos <;> omega
    | some bx => exact ⟨o, bx, ho, hr, rfl, by simp [St.deref, hx, R.unwrap_some], hpos⟩

theorem getElem?_snoc {α : Type} (l : List α) (x : α) (i : Nat) : (l ++ [x])[i]? = if i < l.length then l[i]? else if i = l.length then some x else none := by
  rw [List.getElem?_append]
  split
  · rfl
  · by_cases h : i = l.length
    · subst h; simp
    · rw [if_neg h]
      have : i - l.length ≠ 0 := by omega
      cases h1 : i - l.length
      · omega
      · simp

theorem inv_new {s : St} {m : Nat → Option Obj} (h : Inv s m) (root v : Nat) :
    ∃ m', Spec.replay m (s.new root v).2 = some m' ∧ Inv (s.new root v).1 m' := by
  have hn : m s.boxes.length = none := by
    have := h.dom s.boxes.length
    cases hm : m s.boxes.length
    · rfl
    · rw [hm] at this; simp at this
  refine ⟨fun c => if c = s.boxes.length then some ⟨v, root, 1, 0⟩ else m c, by simp only [St.new, Spec.replay, Spec.next, hn], ?_⟩
  have hz : ∀ k, refs s s.boxes.length k = 0 := by
    intro k
    unfold refs
    rw [countP_zero]
    intro p hp
    cases p with
    | none => rfl
    | some g =>
      obtain ⟨i, hi⟩ := List.getElem?_of_mem hp
      obtain ⟨o, ho, _⟩ := h.handles i g hi
      simp only [isRef, decide_eq_false_iff_not, not_and]
      intro hb
      rw [hb, hn] at ho
      cases ho
  have hrefs : ∀ b k, refs (s.new root v).1 b k = refs s b k + (if b = s.boxes.length ∧ k = .strong then 1 else 0) := by
    intro b k
    simp only [refs, St.new, List.countP_append, List.countP_cons, List.countP_nil, isRef]
    grind
  refine ⟨?_, ?_, ?_⟩
  · intro b
    simp only [St.new, List.length_append, List.length_singleton]
    split
    · rename_i e; subst e; simp
    · rw [h.dom b]; omega
  · intro b o hb
    split at hb
    · rename_i e
      subst e
      cases hb
      refine ⟨?_, ?_, ?_, ?_, ?_⟩
      · rw [hrefs, hz]; simp
      · rw [hrefs, hz]; simp
      · exact ⟨by show 1 < 2 ^ 32; decide, by show 0 < 2 ^ 32; decide⟩
      · intro bx hbx
        simp only [St.new, getElem?_snoc] at hbx
        simp at hbx
        subst hbx
        simp
      · intro hbx
        simp only [St.new, getElem?_snoc] at hbx
        simp at hbx
    · rename_i e
      have ho := h.box b o hb
      have hl : b < s.boxes.length := (h.dom b).1 (by simp [hb])
      refine ⟨?_, ?_, ho.small, ?_, ?_⟩
      · rw [hrefs, ho.strong]; simp [e]
      · rw [hrefs, ho.weak]; simp
      · intro bx hbx
        simp only [St.new, getElem?_snoc, hl, if_true] at hbx
        exact ho.here bx hbx
      · intro hbx
        simp only [St.new, getElem?_snoc, hl, if_true] at hbx
        exact ho.freed hbx
  · intro i g hi
    simp only [St.new, getElem?_snoc] at hi
    split at hi
    · obtain ⟨o, ho, hr⟩ := h.handles i g hi
      have : g.box ≠ s.boxes.length := by intro e; rw [e, hn] at ho; cases ho
      exact ⟨o, by simp [this, ho], hr⟩
    · split at hi
      · cases hi; exact ⟨⟨v, root, 1, 0⟩, by simp, rfl⟩
      · cases hi

/-- The object with one more or one less reference. -/
def Obj.setCount (o : Obj) : Kind → Nat → Obj
  | .strong, n => { o with strong := n }
  | .weak, n => { o with weak := n }

def Obj.count (o : Obj) : Kind → Nat
  | .strong => o.strong
  | .weak => o.weak

theorem inv_cloneAs {debug : Bool} {s : St} {m : Nat → Option Obj} (h : Inv s m) (hall : allowed debug s) {i : Nat} {g : Handle}
    (hi : s.hs[i]? = some (some g)) (root : Nat) (k : Kind) (hk : k = .strong → ∀ o, m g.box = some o → 0 < o.strong) :
    ∃ s' e, s.cloneAs debug g root k = .ok (s', e) ∧ ∃ m', Spec.replay m e = some m' ∧ Inv s' m' := by
  obtain ⟨o, bx, ho, hr, hbx, hd, hpos⟩ := inv_deref h hi
  have hb := h.box _ _ ho
  have hh := hb.here bx hbx
  have hl : g.box < s.boxes.length := (h.dom _).1 (by simp [ho])
  unfold St.cloneAs
  by_cases c1 : root ≠ g.tag
  · rw [if_pos c1]
    refine ⟨_, _, rfl, m, ?_, h⟩
    have : o.root ≠ root := by rw [hr]; exact fun e => c1 e.symm
    simp only [Spec.replay, Spec.next, ho]
    rw [if_pos this]
  · rw [if_neg c1]
    have c1 : root = g.tag := by omega
    subst c1
    have hcount : bx.count k = o.count k := by cases k <;> simp [Box.count, Obj.count, hh]
    have hlt : o.count k < 2 ^ 32 := by cases k <;> simp [Obj.count, hb.small]
    have hrf : o.count k = refs s g.box k := by cases k <;> simp [Obj.count, hb.strong, hb.weak]
    simp only [hd, R.bind_ok, hcount]
    unfold inc
    by_cases c2 : o.count k + 1 < 2 ^ 32
    · rw [if_pos c2]
      refine ⟨_, _, rfl, fun c => if c = g.box then some (o.setCount k (o.count k + 1)) else m c, ?_, ?_⟩
      · cases k
        · simp [Spec.replay, Spec.next, ho, hr, hk rfl o ho, Obj.setCount, Obj.count]
        · simp [Spec.replay, Spec.next, ho, hr, hh.2.2.1, Obj.setCount, Obj.count]
      · have hrefs : ∀ b k', refs ⟨s.boxes.set g.box (some (bx.setCount k (o.count k + 1))), s.hs ++ [some { g with kind := k, lost := false }]⟩ b k' =
            refs s b k' + (if b = g.box ∧ k' = k then 1 else 0) := by
          intro b k'
          simp only [refs, List.countP_append, List.countP_cons, List.countP_nil, isRef]
          grind
        refine ⟨?_, ?_, ?_⟩
        · intro b
          simp only [List.length_set]
          split
          · rename_i e; subst e; simp [hl]
          · exact h.dom b
        · intro b o' hb'
          split at hb'
          · rename_i e
            subst e
            cases hb'
            refine ⟨?_, ?_, ?_, ?_, ?_⟩
            · rw [hrefs]; have := hb.strong; cases k <;> simp_all [Obj.setCount, Obj.count]
            · rw [hrefs]; have := hb.weak; cases k <;> simp_all [Obj.setCount, Obj.count]
            · have := hb.small; cases k <;> simp_all [Obj.setCount, Obj.count]
            · intro bx' hbx'
              simp only [List.getElem?_set_self hl, Option.some.injEq] at hbx'
              subst hbx'
              cases k
              · have := hk rfl o ho
                simp_all [Obj.setCount, Obj.count, Box.setCount]; omega
              · simp_all [Obj.setCount, Obj.count, Box.setCount]; omega
            · intro hbx'
              simp [hl] at hbx'
          · rename_i e
            have ho' := h.box b o' hb'
            refine ⟨?_, ?_, ho'.small, ?_, ?_⟩
            · rw [hrefs, ho'.strong]; simp [e]
            · rw [hrefs, ho'.weak]; simp [e]
            · intro bx' hbx'
              rw [List.getElem?_set_ne (fun e' => e e'.symm)] at hbx'
              exact ho'.here bx' hbx'
            · intro hbx'
              rw [List.getElem?_set_ne (fun e' => e e'.symm)] at hbx'
              exact ho'.freed hbx'
        · intro j g' hj
          have hroot : (o.setCount k (o.count k + 1)).root = o.root := by cases k <;> rfl
          simp only [getElem?_snoc] at hj
          split at hj
          · obtain ⟨o', ho', hr'⟩ := h.handles j g' hj
            by_cases e : g'.box = g.box
            · rw [e, ho] at ho'; cases ho'
              exact ⟨_, if_pos e, by rw [hroot]; exact hr'⟩
            · exact ⟨o', by rw [if_neg e]; exact ho', hr'⟩
          · split at hj
            · cases hj
              exact ⟨_, if_pos rfl, by rw [hroot]; exact hr⟩
            · cases hj
    · rw [if_neg c2]
      by_cases c3 : debug = true
      · rw [if_pos c3]
        refine ⟨_, _, rfl, m, ?_, h⟩
        have : o.count k = 2 ^ 32 - 1 := by omega
        cases k
        · simp only [Spec.replay, Spec.next, ho]; rw [if_pos (by exact this)]
        · simp only [Spec.replay, Spec.next, ho]; rw [if_pos (by exact this)]
      · exfalso
        rcases hall with e | e
        · exact c3 e
        · have := refs_le s g.box k
          omega

theorem inv_upgrade {debug : Bool} {s : St} {m : Nat → Option Obj} (h : Inv s m) (hall : allowed debug s) {i : Nat} {g : Handle}
    (hi : s.hs[i]? = some (some g)) (hw : g.kind = .weak) (root : Nat) :
    ∃ s' e, s.upgrade debug g root = .ok (s', e) ∧ ∃ m', Spec.replay m e = some m' ∧ Inv s' m' := by
  obtain ⟨o, bx, ho, hr, hbx, hd, hpos⟩ := inv_deref h hi
  have hb := h.box _ _ ho
  have hh := hb.here bx hbx
  unfold St.upgrade
  by_cases c1 : root ≠ g.tag
  · rw [if_pos c1]
    refine ⟨_, _, rfl, m, ?_, h⟩
    have : o.root ≠ root := by rw [hr]; exact fun e => c1 e.symm
    simp only [Spec.replay, Spec.next, ho]
    rw [if_pos this]
  · rw [if_neg c1]
    have c1 : root = g.tag := by omega
    subst c1
    simp only [hd, R.bind_ok]
    by_cases c2 : bx.strong = 0
    · rw [if_pos c2]
      refine ⟨_, _, rfl, m, ?_, h⟩
      rw [hw] at hpos
      simp only at hpos
      simp only [Spec.replay, Spec.next, ho]
      rw [if_pos ⟨hr, by omega, hpos⟩]
    · rw [if_neg c2]
      exact inv_cloneAs h hall hi g.tag .strong (fun _ o' ho' => by rw [ho] at ho'; cases ho'; omega)

/-- A handle is lost: nothing else changes. -/
theorem inv_lose {s : St} {m : Nat → Option Obj} (h : Inv s m) {i : Nat} {g : Handle} (hi : s.hs[i]? = some (some g)) :
    Inv { s with hs := s.hs.set i (some { g with lost := true }) } m := by
  have hrefs : ∀ b k, refs { s with hs := s.hs.set i (some { g with lost := true }) } b k = refs s b k := by
    intro b k
    have := countP_set (isRef b k) s.hs i (some g) (some { g with lost := true }) hi
    simp only [refs]
    simp only [isRef] at this
    omega
  refine ⟨h.dom, ?_, ?_⟩
  · intro b o hb
    have ho := h.box b o hb
    exact ⟨by rw [hrefs]; exact ho.strong, by rw [hrefs]; exact ho.weak, ho.small, ho.here, ho.freed⟩
  · intro j g' hj
    simp only [List.getElem?_set] at hj
    split at hj
    · split at hj
      · cases hj; exact h.handles i g hi
      · cases hj
    · exact h.handles j g' hj

theorem inv_drop {debug : Bool} {s : St} {m : Nat → Option Obj} (h : Inv s m) {i : Nat} {g : Handle}
    (hi : s.hs[i]? = some (some g)) (root : Nat) :
    ∃ s' e, s.safelyDrop debug i g root = .ok (s', e) ∧ ∃ m', Spec.replay m e = some m' ∧ Inv s' m' := by
  obtain ⟨o, bx, ho, hr, hbx, hd, hpos⟩ := inv_deref h hi
  have hb := h.box _ _ ho
  have hh := hb.here bx hbx
  have hl : g.box < s.boxes.length := (h.dom _).1 (by simp [ho])
  unfold St.safelyDrop
  by_cases c1 : root ≠ g.tag
  · rw [if_pos c1]
    refine ⟨_, _, rfl, m, ?_, inv_lose h hi⟩
    have : o.root ≠ root := by rw [hr]; exact fun e => c1 e.symm
    cases hk : g.kind <;> rw [hk] at hpos <;> simp only at hpos <;> simp [Spec.replay, Spec.next, ho, this, hpos]
  · rw [if_neg c1]
    have c1 : root = g.tag := by omega
    subst c1
    have hcount : bx.count g.kind = o.count g.kind := by cases g.kind <;> simp [Box.count, Obj.count, hh]
    have hp : 0 < o.count g.kind := by cases hk : g.kind <;> rw [hk] at hpos <;> exact hpos
    have hdec : dec debug (o.count g.kind) = .ok (o.count g.kind - 1) := if_pos hp
    simp only [hd, R.bind_ok, hcount, hdec, R.pure_eq]
    have hrefs : ∀ bs b k, refs ⟨bs, s.hs.set i none⟩ b k = refs s b k - (if b = g.box ∧ k = g.kind then 1 else 0) := by
      intro bs b k
      have := countP_set (isRef b k) s.hs i (some g) none hi
      simp only [refs]
      simp only [isRef] at this
      grind
    have key : ∀ (y : Option Box), (∀ bx', y = some bx' → bx'.strong = (o.setCount g.kind (o.count g.kind - 1)).strong ∧ bx'.weak = (o.setCount g.kind (o.count g.kind - 1)).weak ∧
          0 < bx'.strong + bx'.weak ∧ bx'.val = if 0 < bx'.strong then some o.v else none) →
        (y = none → (o.setCount g.kind (o.count g.kind - 1)).strong = 0 ∧ (o.setCount g.kind (o.count g.kind - 1)).weak = 0) →
        Inv ⟨s.boxes.set g.box y, s.hs.set i none⟩ (fun c => if c = g.box then some (o.setCount g.kind (o.count g.kind - 1)) else m c) := by
      intro y hy1 hy2
      refine ⟨?_, ?_, ?_⟩
      · intro b
        simp only [List.length_set]
        split
        · rename_i e; subst e; simp [hl]
        · exact h.dom b
      · intro b o' hb'
        split at hb'
        · rename_i e
          subst e
          cases hb'
          refine ⟨?_, ?_, ?_, ?_, ?_⟩
          · rw [hrefs]; have := hb.strong; cases hk : g.kind <;> simp_all [Obj.setCount, Obj.count]
          · rw [hrefs]; have := hb.weak; cases hk : g.kind <;> simp_all [Obj.setCount, Obj.count]
          · have := hb.small; cases g.kind <;> simp only [Obj.setCount, Obj.count] <;> omega
          · intro bx' hbx'
            simp only [List.getElem?_set_self hl, Option.some.injEq] at hbx'
            have := hy1 bx' hbx'
            have hv : (o.setCount g.kind (o.count g.kind - 1)).v = o.v := by cases g.kind <;> rfl
            refine ⟨this.1, this.2.1, by omega, ?_⟩
            rw [this.2.2.2, this.1, hv]
          · intro hbx'
            simp only [List.getElem?_set_self hl, Option.some.injEq] at hbx'
            exact hy2 hbx'
        · rename_i e
          have ho' := h.box b o' hb'
          refine ⟨?_, ?_, ho'.small, ?_, ?_⟩
          · rw [hrefs, ho'.strong]; simp [e]
          · rw [hrefs, ho'.weak]; simp [e]
          · intro bx' hbx'
            rw [List.getElem?_set_ne (fun e' => e e'.symm)] at hbx'
            exact ho'.here bx' hbx'
          · intro hbx'
            rw [List.getElem?_set_ne (fun e' => e e'.symm)] at hbx'
            exact ho'.freed hbx'
      · intro j g' hj
        have hroot : (o.setCount g.kind (o.count g.kind - 1)).root = o.root := by cases g.kind <;> rfl
        simp only [List.getElem?_set] at hj
        split at hj
        · split at hj <;> cases hj
        · obtain ⟨o', ho', hr'⟩ := h.handles j g' hj
          by_cases e : g'.box = g.box
          · rw [e, ho] at ho'; cases ho'
            exact ⟨_, if_pos e, by rw [hroot]; exact hr'⟩
          · exact ⟨o', by rw [if_neg e]; exact ho', hr'⟩
    have hv := hh.2.2.2
    have h1 := hh.1
    have h2 := hh.2.1
    have h3 := hh.2.2.1
    refine ⟨_, _, rfl, fun c => if c = g.box then some (o.setCount g.kind (o.count g.kind - 1)) else m c, ?_, ?_⟩
    · cases hk : g.kind
      · rw [hk] at hp; simp only [Obj.count] at hp
        rw [if_pos hp] at hv
        have a1 : ((bx.setCount .strong (o.strong - 1)).settle).1 = if o.strong = 1 then some o.v else none := by
          simp only [Box.settle, Box.setCount, hv]
          grind
        have a2 : ((bx.setCount .strong (o.strong - 1)).settle).2.isNone = (o.strong == 1 && o.weak == 0) := by
          simp only [Box.settle, Box.setCount, h2]
          grind
        simp only [Spec.replay, Spec.next, ho, Obj.count, a1, a2]
        rw [if_pos (by simp [hr, hp])]
        rfl
      · rw [hk] at hp; simp only [Obj.count] at hp
        have a1 : ((bx.setCount .weak (o.weak - 1)).settle).1 = none := by
          simp only [Box.settle, Box.setCount, hv]
          grind
        have a2 : ((bx.setCount .weak (o.weak - 1)).settle).2.isNone = (o.strong == 0 && o.weak == 1) := by
          simp only [Box.settle, Box.setCount, h1]
          grind
        simp only [Spec.replay, Spec.next, ho, Obj.count, a1, a2]
        rw [if_pos (by simp [hr, hp])]
        rfl
    · apply key
      · intro bx' hbx'
        cases hk : g.kind <;> rw [hk] at hp hbx' <;> simp only [Obj.count] at hp <;>
          simp only [Box.settle, Box.setCount, Obj.setCount, Obj.count] at hbx' ⊢ <;> grind
      · intro hf
        cases hk : g.kind <;> rw [hk] at hp hf <;> simp only [Obj.count] at hp <;>
          simp only [Box.settle, Box.setCount, Obj.setCount, Obj.count] at hf ⊢ <;> grind

theorem inv_step {debug : Bool} {s : St} {m : Nat → Option Obj} (h : Inv s m) (hall : allowed debug s) (a : Act) (r : R (St × List Ev))
    (hs : step debug s a = some r) : ∃ s' e, r = .ok (s', e) ∧ ∃ m', Spec.replay m e = some m' ∧ Inv s' m' := by
  cases a with
  | new root v =>
    simp only [step, Option.some.injEq] at hs
    subst hs
    obtain ⟨m', h1, h2⟩ := inv_new h root v
    exact ⟨_, _, rfl, m', h1, h2⟩
  | clone i root =>
    simp only [step, Option.map_eq_some_iff] at hs
    obtain ⟨g, hg, rfl⟩ := hs
    refine inv_cloneAs h hall (handle_eq hg) root g.kind ?_
    intro hk o ho
    obtain ⟨o', _, ho', _, _, _, hp⟩ := inv_deref h (handle_eq hg)
    rw [ho] at ho'; cases ho'
    rw [hk] at hp; exact hp
  | downgrade i root =>
    simp only [step] at hs
    split at hs
    · rename_i g hg
      split at hs
      · cases hs
        exact inv_cloneAs h hall (handle_eq hg) root .weak (fun e => by cases e)
      · cases hs
    · cases hs
  | upgrade i root =>
    simp only [step] at hs
    split at hs
    · rename_i g hg
      split at hs
      · rename_i hk
        cases hs
        exact inv_upgrade h hall (handle_eq hg) hk root
      · cases hs
    · cases hs
  | drop i root =>
    simp only [step, Option.map_eq_some_iff] at hs
    obtain ⟨g, hg, rfl⟩ := hs
    exact inv_drop h (handle_eq hg) root
  | lose i =>
    simp only [step, Option.map_eq_some_iff] at hs
    obtain ⟨g, hg, rfl⟩ := hs
    refine ⟨_, _, rfl, m, ?_, inv_lose h (handle_eq hg)⟩
    obtain ⟨o, _, ho, _, _, _, hp⟩ := inv_deref h (handle_eq hg)
    cases hk : g.kind <;> rw [hk] at hp <;> simp only at hp <;> simp [Spec.replay, Spec.next, ho, hp]
  | read i =>
    simp only [step] at hs
    split at hs
    · rename_i g hg
      split at hs
      · rename_i hk
        cases hs
        obtain ⟨o, bx, ho, hr, hbx, hd, hp⟩ := inv_deref h (handle_eq hg)
        rw [hk] at hp; simp only at hp
        have hh := (h.box _ _ ho).here bx hbx
        have hv := hh.2.2.2
        rw [if_pos hp] at hv
        refine ⟨s, [.read g.box o.v], ?_, m, ?_, h⟩
        · simp only [St.read, hd, R.bind_ok, hv, R.unwrap_some, R.pure_eq]
        · simp [Spec.replay, Spec.next, ho, hp]
      · cases hs
    · cases hs

theorem run_inv {debug : Bool} {s : St} {tr : List Ev} (h : Run debug s tr) : ∃ m, Spec.replay (fun _ => none) tr = some m ∧ Inv s m := by
  induction h with
  | init => exact ⟨_, rfl, inv_init⟩
  | step h1 h2 h3 ih =>
    obtain ⟨m, h4, h5⟩ := ih
    obtain ⟨s', e, he, m', h6, h7⟩ := inv_step h5 h2 _ _ h3
    cases he
    exact ⟨m', by rw [replay_append _ _ _ _ h4]; exact h6, h7⟩

/-! ## Theorems -/

/-- **C60 (a).**  Everything that the owners of references observe is what the specification says: a value is read as it was made while there
is a strong reference; an upgrade fails exactly when there is no strong reference; the last strong reference that is dropped gets the
value and no other drop does; the memory is freed by the drop of the last reference; an operation panics exactly when it is given another
root, and then changes no count.  No operation fails otherwise, and none touches memory that was freed. -/
theorem C60_refs {debug : Bool} {s : St} {tr : List Ev} (h : Run debug s tr) :
    (∃ m, Spec.replay (fun _ => none) tr = some m) ∧ ∀ a, allowed debug s → step debug s a ≠ some .panic := by
  obtain ⟨m, h1, h2⟩ := run_inv h
  refine ⟨⟨m, h1⟩, ?_⟩
  intro a hall hs
  obtain ⟨s', e, he, _⟩ := inv_step h2 hall a _ hs
  cases he

/-- The events that hand the value of `b` out. -/
def handsOut (b : Nat) : Ev → Bool
  | .dropped c _ _ out _ => decide (c = b) && out.isSome
  | _ => false

/-- The events that free the memory of `b`. -/
def frees (b : Nat) : Ev → Bool
  | .dropped c _ _ _ freed => decide (c = b) && freed
  | _ => false

/-- 1 if the object was made and has no strong reference. -/
def noStrong : Option Obj → Nat
  | some o => if o.strong = 0 then 1 else 0
  | none => 0

/-- 1 if the object was made and has no reference. -/
def noRef : Option Obj → Nat
  | some o => if o.strong = 0 ∧ o.weak = 0 then 1 else 0
  | none => 0

theorem next_counts {m m' : Nat → Option Obj} {e : Ev} (h : Spec.next m e = some m') (b : Nat) :
    (handsOut b e).toNat + noStrong (m b) = noStrong (m' b) ∧ (frees b e).toNat + noRef (m b) = noRef (m' b) := by
  cases e with
  | dropped c k root out freed =>
    cases ho : m c with
    | none => cases k <;> simp only [Spec.next, ho] at h <;> cases h
    | some o =>
      cases k
      · simp only [Spec.next, ho] at h
        by_cases hc : o.root = root ∧ 0 < o.strong ∧ out = (if o.strong = 1 then some o.v else none) ∧ freed = (o.strong == 1 && o.weak == 0)
        · rw [if_pos hc, Option.some.injEq] at h
          subst h
          obtain ⟨_, hp, rfl, rfl⟩ := hc
          by_cases e : b = c
          · subst e
            simp only [ho, if_true, noStrong, noRef, handsOut, frees]
            by_cases e1 : o.strong = 1
            · by_cases e2 : o.weak = 0 <;> simp [e1, e2]
            · have e2 : o.strong ≠ 0 := by omega
              have e3 : o.strong - 1 ≠ 0 := by omega
              simp [e1, e2, e3]
          · have e' : c ≠ b := fun x => e x.symm
            simp [e, e', handsOut, frees]
        · rw [if_neg hc] at h; cases h
      · simp only [Spec.next, ho] at h
        by_cases hc : o.root = root ∧ 0 < o.weak ∧ out = none ∧ freed = (o.strong == 0 && o.weak == 1)
        · rw [if_pos hc, Option.some.injEq] at h
          subst h
          obtain ⟨_, hp, rfl, rfl⟩ := hc
          by_cases e : b = c
          · subst e
            simp only [ho, if_true, noStrong, noRef, handsOut, frees]
            by_cases e1 : o.weak = 1
            · by_cases e2 : o.strong = 0 <;> simp [e1, e2]
            · have e2 : o.weak ≠ 0 := by omega
              have e3 : o.weak - 1 ≠ 0 := by omega
              simp [e1, e2, e3]
          · have e' : c ≠ b := fun x => e x.symm
            simp [e, e', handsOut, frees]
        · rw [if_neg hc] at h; cases h
  | ref c k root =>
    cases k <;> simp only [Spec.next] at h <;> split at h <;> try (cases h)
    all_goals
      rename_i o ho
      split at h <;> try (cases h)
      rename_i hc
      by_cases e : b = c
      · subst e
        simp only [ho, if_true, noStrong, noRef, handsOut, frees]
        grind
      · simp [e, handsOut, frees]
  | made c v root =>
    simp only [Spec.next] at h
    split at h <;> try (cases h)
    rename_i ho
    by_cases e : b = c
    · subst e; simp [ho, noStrong, noRef, handsOut, frees]
    · simp [e, handsOut, frees]
  | noUpgrade c root => simp only [Spec.next] at h; split at h <;> (try split at h) <;> cases h <;> simp [handsOut, frees]
  | lost c k =>
    have : m' = m := by simp only [Spec.next] at h; grind
    subst this
    simp [handsOut, frees]
  | read c v => simp only [Spec.next] at h; split at h <;> (try split at h) <;> cases h <;> simp [handsOut, frees]
  | wrongRoot c root => simp only [Spec.next] at h; split at h <;> (try split at h) <;> cases h <;> simp [handsOut, frees]
  | overflow c k =>
    have : m' = m := by simp only [Spec.next] at h; grind
    subst this
    simp [handsOut, frees]

theorem replay_counts : ∀ (tr : List Ev) {m m' : Nat → Option Obj} (_ : Spec.replay m tr = some m') (b : Nat),
    tr.countP (handsOut b) + noStrong (m b) = noStrong (m' b) ∧ tr.countP (frees b) + noRef (m b) = noRef (m' b)
  | [], m, m', h, b => by simp only [Spec.replay, Option.some.injEq] at h; subst h; simp
  | e :: l, m, m', h, b => by
      simp only [Spec.replay] at h
      split at h
      · rename_i m1 h1
        have a1 := next_counts h1 b
        have a2 := replay_counts l h b
        simp only [List.countP_cons]
        cases hx : handsOut b e <;> cases hy : frees b e <;> simp_all <;> omega
      · cases h

/-- **C60 (b).**  The value of each object is handed out exactly once if all its strong references were explicitly dropped and never
otherwise, and its memory is freed exactly once if all its references were, and never otherwise. -/
theorem C60_once {debug : Bool} {s : St} {tr : List Ev} (h : Run debug s tr) (b : Nat) (hb : b < s.boxes.length) :
    ((∃ g, some g ∈ s.hs ∧ g.box = b ∧ g.kind = .strong) → tr.countP (handsOut b) = 0) ∧
    ((¬ ∃ g, some g ∈ s.hs ∧ g.box = b ∧ g.kind = .strong) → tr.countP (handsOut b) = 1) ∧
    ((∃ g, some g ∈ s.hs ∧ g.box = b) → tr.countP (frees b) = 0) ∧
    ((¬ ∃ g, some g ∈ s.hs ∧ g.box = b) → tr.countP (frees b) = 1) := by
  obtain ⟨m, h1, h2⟩ := run_inv h
  have hc := replay_counts tr h1 b
  cases hm : m b with
  | none => have := (h2.dom b).2 hb; rw [hm] at this; cases this
  | some o =>
    have ho := h2.box b o hm
    rw [hm] at hc
    simp only [noStrong, noRef, Nat.add_zero] at hc
    have pos : ∀ k, 0 < refs s b k ↔ ∃ g, some g ∈ s.hs ∧ g.box = b ∧ g.kind = k := by
      intro k
      unfold refs
      rw [List.countP_pos_iff]
      constructor
      · rintro ⟨p, hp, hf⟩
        cases p with
        | none => simp [isRef] at hf
        | some g => simp only [isRef, decide_eq_true_eq] at hf; exact ⟨g, hp, hf⟩
      · rintro ⟨g, hg, hf⟩
        exact ⟨_, hg, by simp only [isRef, decide_eq_true_eq]; exact hf⟩
    have p1 := pos .strong
    have p2 := pos .weak
    rw [← ho.strong] at p1
    rw [← ho.weak] at p2
    refine ⟨?_, ?_, ?_, ?_⟩
    · intro e
      rw [hc.1, if_neg (by have := p1.2 e; omega)]
    · intro e
      rw [hc.1, if_pos (by have := mt p1.1 e; omega)]
    · rintro ⟨g, hg, hgb⟩
      rw [hc.2, if_neg]
      cases hk : g.kind
      · have := p1.2 ⟨g, hg, hgb, hk⟩; omega
      · have := p2.2 ⟨g, hg, hgb, hk⟩; omega
    · intro e
      rw [hc.2, if_pos]
      have a1 : ¬ 0 < o.strong := fun hp => by obtain ⟨g, hg, hgb, _⟩ := p1.1 hp; exact e ⟨g, hg, hgb⟩
      have a2 : ¬ 0 < o.weak := fun hp => by obtain ⟨g, hg, hgb, _⟩ := p2.1 hp; exact e ⟨g, hg, hgb⟩
      omega

/-! ### Tags -/

theorem tagsFrom_range : ∀ (n next : Nat), next + n < 2 ^ 32 → tagsFrom next n = .ok (List.range' next n)
  | 0, next, _ => rfl
  | n + 1, next, h => by
      have h1 : tagNew next = (.ok next, next + 1) := by
        unfold tagNew
        rw [if_pos (by omega), Nat.mod_eq_of_lt (by omega)]
      simp only [tagsFrom, h1, R.bind_ok, tagsFrom_range n (next + 1) (by omega), R.pure_eq, List.range'_succ]

theorem tagsFrom_panic : ∀ (n next : Nat), next < 2 ^ 32 → 2 ^ 32 ≤ next + n → tagsFrom next n = .panic
  | 0, next, h1, h2 => by omega
  | n + 1, next, h1, h2 => by
      by_cases e : next = 2 ^ 32 - 1
      · simp only [tagsFrom, tagNew]
        rw [if_neg (fun c => c e)]
        rfl
      · have h3 : tagNew next = (.ok next, next + 1) := by
          unfold tagNew
          rw [if_pos e, Nat.mod_eq_of_lt (by omega)]
        simp only [tagsFrom, h3, R.bind_ok, tagsFrom_panic n (next + 1) (by omega) (by omega), R.bind_panic]

/-- **C60 (c).**  The roots that a process makes have different tags: all calls succeed with distinct ids, or one of them panics. -/
theorem C60_tags (n : Nat) :
    (∃ l, tagsFrom 0 n = .ok l ∧ l.length = n ∧ l.Nodup) ∨ (tagsFrom 0 n = .panic ∧ 2 ^ 32 ≤ n) := by
  by_cases h : n < 2 ^ 32
  · exact .inl ⟨_, tagsFrom_range n 0 (by omega), by simp, List.nodup_range'⟩
  · exact .inr ⟨tagsFrom_panic n 0 (by decide) (by omega), by omega⟩

/-! ### What goes wrong with 2³² references -/

/-- The states that a release build can reach without the condition on the number of references. -/
inductive Any : St → Prop
  | init : Any .init
  | step {s s' : St} {e : List Ev} {a : Act} : Any s → step false s a = some (.ok (s', e)) → Any s'

/-- An object with `n` references and a count of `c`. -/
def many (n c : Nat) : St := ⟨[some ⟨some 5, c, 0⟩], List.replicate n (some ⟨.strong, 7, 0, false⟩)⟩

theorem many_handle (n c i : Nat) (h : i < n) : (many n c).handle i = some ⟨.strong, 7, 0, false⟩ := by
  simp [many, St.handle, h]

theorem many_clone (n c : Nat) (h : 0 < n) :
    step false (many n c) (.clone 0 7) = some (.ok (many (n + 1) (if c + 1 < 2 ^ 32 then c + 1 else 0), [.ref 0 .strong 7])) := by
  simp only [step, many_handle n c 0 h, Option.map_some, St.cloneAs, ne_eq, not_true_eq_false, if_false]
  have : (many n c).deref 0 = .ok ⟨some 5, c, 0⟩ := rfl
  simp only [this, R.bind_ok, Box.count, inc]
  by_cases e : c + 1 < 2 ^ 32
  · rw [if_pos e]
    simp only [e, if_true, R.pure_eq, many, Box.setCount, List.set_cons_zero, List.replicate_succ']
  · rw [if_neg e]
    simp only [e, if_false, Bool.false_eq_true, R.pure_eq, many, Box.setCount, List.set_cons_zero, List.replicate_succ']

theorem many_any : ∀ (n : Nat), n + 1 < 2 ^ 32 → Any (many (n + 1) (n + 1))
  | 0, _ => Any.step (a := .new 7 5) .init rfl
  | n + 1, h => by
      have h1 := many_any n (by omega)
      have h2 := many_clone (n + 1) (n + 1) (by omega)
      rw [if_pos (by omega)] at h2
      exact Any.step h1 h2

theorem many_drop (n : Nat) (h : 1 < n) :
    step false (many n 1) (.drop 1 7) = some (.ok (⟨[none], (List.replicate n (some ⟨.strong, 7, 0, false⟩)).set 1 none⟩, [.dropped 0 .strong 7 (some 5) true])) := by
  simp only [step, many_handle n 1 1 h, Option.map_some, St.safelyDrop, ne_eq, not_true_eq_false, if_false]
  have : (many n 1).deref 0 = .ok ⟨some 5, 1, 0⟩ := rfl
  simp only [this, R.bind_ok, Box.count, dec]
  rfl

theorem many_freed (n : Nat) (h : 1 < n) :
    (St.mk [none] ((List.replicate n (some ⟨.strong, 7, 0, false⟩)).set 1 none)).handle 0 = some ⟨.strong, 7, 0, false⟩ := by
  have : 0 < n := by omega
  simp [St.handle, this]

/-- **C60 (d), finding.**  In a release build, where the counts wrap, enough clones followed by one drop free the memory although references
to it are left, and reading through one of them is a use after free.  (`std::rc::Rc` aborts instead.) -/
theorem C60_overflow_frees : ∃ s s' e, Any s ∧ step false s (.drop 1 7) = some (.ok (s', e)) ∧ .dropped 0 .strong 7 (some 5) true ∈ e ∧
      s'.handle 0 = some ⟨.strong, 7, 0, false⟩ ∧ step false s' (.read 0) = some .panic := by
  obtain ⟨N, hN⟩ : ∃ N, N = 2 ^ 32 - 2 := ⟨_, rfl⟩
  have h1 := many_any N (by omega)
  have h2 := many_clone (N + 1) (N + 1) (by omega)
  rw [if_neg (by omega)] at h2
  have h3 := many_clone (N + 1 + 1) 0 (by omega)
  rw [if_pos (by decide)] at h3
  have h4 := many_drop (N + 1 + 1 + 1) (by omega)
  have h5 := many_freed (N + 1 + 1 + 1) (by omega)
  refine ⟨_, _, _, Any.step (Any.step h1 h2) h3, h4, List.mem_singleton.2 rfl, h5, ?_⟩
  simp only [step, h5, if_true]
  rfl

/-! ### Examples -/

/-- A run of a list of operations. -/
def exec (debug : Bool) (s : St) : List Act → Option (St × List Ev)
  | [] => some (s, [])
  | a :: l => match step debug s a with
    | some (.ok (s', e)) => (exec debug s' l).map (fun r => (r.1, e ++ r.2))
    | _ => none

/-- Two strong references and a weak one: the second drop hands the value out, the upgrade then fails, and the last drop frees the memory. -/
example : (exec false .init [.new 7 5, .clone 0 7, .downgrade 0 7, .drop 0 7, .upgrade 2 7, .drop 3 7, .read 1, .drop 1 8]).map (·.2) =
    some [.made 0 5 7, .ref 0 .strong 7, .ref 0 .weak 7, .dropped 0 .strong 7 none false, .ref 0 .strong 7, .dropped 0 .strong 7 none false,
      .read 0 5, .wrongRoot 0 8, .lost 0 .strong] := by decide

example : (exec false .init [.new 7 5, .clone 0 7, .downgrade 0 7, .drop 0 7, .drop 1 7, .upgrade 2 7, .drop 2 7]) =
    some (⟨[none], [none, none, none]⟩, [.made 0 5 7, .ref 0 .strong 7, .ref 0 .weak 7, .dropped 0 .strong 7 none false,
      .dropped 0 .strong 7 (some 5) false, .noUpgrade 0 7, .dropped 0 .weak 7 none true]) := by decide

/-- The hypotheses of the theorems are met by a run. -/
example : ∃ s tr, Run false s tr ∧ allowed false s ∧ .dropped 0 .strong 7 (some 5) true ∈ tr := by
  have h0 : Run false (St.init.new 7 5).1 ([] ++ (St.init.new 7 5).2) := Run.step (a := .new 7 5) .init (.inr (by decide)) rfl
  exact ⟨_, _, Run.step (a := .drop 0 7) h0 (.inr (by decide)) rfl, .inr (by decide), by decide⟩

end Shadow.Rooted
