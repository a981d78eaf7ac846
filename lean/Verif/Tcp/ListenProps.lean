import Verif.Tcp.StatesProps

/-!
# The listening socket: its children and queues
-/
namespace Shadow.Tcp.ListenProps

open Shadow.Base Shadow.Tcp.StatesProps Shadow.Tcp.ConnProps Shadow.Tcp.Stream Shadow.Tcp.SendProps Shadow.Tcp.SeqAt

/-! ### Queues -/

theorem mem_syncQueue {q : List Nat} {k : Nat} {b : Bool} (hq : q.Nodup) (j : Nat) :
    j ∈ Listener.syncQueue q k b ↔ (j ≠ k ∧ j ∈ q) ∨ (j = k ∧ b = true) := by
  unfold Listener.syncQueue Listener.removeFrom
  cases b with
  | true =>
    simp only [if_true, and_true]
    by_cases hk : k ∈ q
    · rw [if_pos (by simpa using hk)]
      by_cases hj : j = k
      · subst hj; simp [hk]
      · simp [hj]
    · rw [if_neg (by simpa using hk)]
      by_cases hj : j = k
      · subst hj; simp
      · simp [hj]
  | false =>
    rw [if_neg (by simp), List.Nodup.mem_erase_iff hq]
    simp

theorem nodup_syncQueue {q : List Nat} {k : Nat} {b : Bool} (hq : q.Nodup) : (Listener.syncQueue q k b).Nodup := by
  unfold Listener.syncQueue Listener.removeFrom
  split
  · split
    · exact hq
    · rename_i h
      have hk : k ∉ q := by simpa using h
      rw [List.nodup_append]
      refine ⟨hq, by simp, ?_⟩
      intro a ha b hb
      simp only [List.mem_singleton] at hb
      subst hb
      intro e
      subst e
      exact hk ha
  · exact hq.erase _

theorem syncQueue_gone {q : List Nat} {k : Nat} (hq : q.Nodup) :
    Listener.removeFrom (Listener.syncQueue q k false) k = Listener.syncQueue q k false := by
  unfold Listener.removeFrom
  refine List.erase_of_not_mem ?_
  rw [mem_syncQueue hq]
  simp

theorem syncQueue_length (q : List Nat) (k : Nat) (b : Bool) :
    (Listener.syncQueue q k b).length ≤ q.length + (if b = true ∧ k ∉ q then 1 else 0) := by
  unfold Listener.syncQueue Listener.removeFrom
  cases b with
  | false => simp [List.length_erase]; split <;> omega
  | true =>
    by_cases hk : k ∈ q
    · simp [hk]
    · simp [hk]

/-! ### The invariant -/

/-- The states that a child can have before it is accepted. -/
def KidName (n : Name) : Prop :=
  n = .synReceived ∨ n = .established ∨ n = .closeWait ∨ n = .reset ∨ n = .closed

structure KidOk (sc : Bool) (t : Tcp) : Prop where
  ok : TcpOk t
  name : KidName t.name
  fresh : sc = true → ∀ c, t.st = .on .synReceived c → c.synWasAcked = false

structure Base (l : Listener) : Prop where
  keys : (l.children.map Child.key).Nodup
  lt : ∀ c ∈ l.children, c.key < l.nextKey
  map : ∀ a k, l.connMap a = some k ↔ ∃ c ∈ l.children, c.key = k ∧ c.addrs = a
  kids : ∀ c ∈ l.children, KidOk l.scaling c.tcp
  qn : l.acceptQueue.Nodup
  sn : l.toSend.Nodup
  qmem : ∀ k ∈ l.acceptQueue, ∃ c ∈ l.children, c.key = k
  smem : ∀ k ∈ l.toSend, ∃ c ∈ l.children, c.key = k
  buf : l.sendBuffer = []

/-- The queues agree with the state of this child, and it is not closed. -/
structure Synced (l : Listener) (c : Child) : Prop where
  acc : c.key ∈ l.acceptQueue ↔ Listener.acceptable c.tcp = true
  snd : c.tcp.wantsToSend = .ok (decide (c.key ∈ l.toSend))
  open_ : c.tcp.name ≠ .closed

structure Ok (l : Listener) : Prop extends Base l where
  synced : ∀ c ∈ l.children, Synced l c

theorem child_some {l : Listener} {k : Nat} {c : Child} (h : l.child k = some c) : c ∈ l.children ∧ c.key = k := by
  unfold Listener.child at h
  exact ⟨List.mem_of_find?_eq_some h, by simpa using List.find?_some h⟩

theorem key_inj {L : List Child} (h : (L.map Child.key).Nodup) {a b : Child} (ha : a ∈ L) (hb : b ∈ L) (e : a.key = b.key) :
    a = b := by
  induction L with
  | nil => cases ha
  | cons x L ih =>
    rw [List.map_cons, List.nodup_cons] at h
    obtain ⟨h1, h2⟩ := h
    rcases List.mem_cons.1 ha with rfl | ha' <;> rcases List.mem_cons.1 hb with rfl | hb'
    · rfl
    · exact absurd (by rw [e]; exact List.mem_map_of_mem hb') h1
    · exact absurd (by rw [← e]; exact List.mem_map_of_mem ha') h1
    · exact ih h2 ha' hb'

theorem child_of_mem {l : Listener} (h : (l.children.map Child.key).Nodup) {c : Child} (hc : c ∈ l.children) :
    l.child c.key = some c := by
  cases hx : l.child c.key with
  | none =>
    unfold Listener.child at hx
    rw [List.find?_eq_none] at hx
    exact absurd (by simp) (hx c hc)
  | some d =>
    obtain ⟨h1, h2⟩ := child_some hx
    rw [key_inj h h1 hc h2]

theorem closed_iff (t : Tcp) : t.poll.closed = true ↔ t.name = .closed := by
  obtain ⟨st, e⟩ := t
  cases st with
  | on k c => cases k <;> simp [Tcp.poll, Tcp.name, Kind.name]
  | rst b w => simp [Tcp.poll, Tcp.name]
  | closed b w => simp [Tcp.poll, Tcp.name]

theorem acceptable_iff (t : Tcp) : Listener.acceptable t = true ↔ t.name = .established ∨ t.name = .closeWait := by
  obtain ⟨st, e⟩ := t
  cases st with
  | on k c => cases k <;> simp [Listener.acceptable, Tcp.name, Kind.name]
  | rst b w => simp [Listener.acceptable, Tcp.name]
  | closed b w => simp [Listener.acceptable, Tcp.name]

theorem closed_wants {t : Tcp} {w : Bool} (h : t.name = .closed) (hw : t.wantsToSend = .ok w) : w = false := by
  obtain ⟨st, e⟩ := t
  cases st with
  | on k c => cases k <;> cases h
  | rst b w => cases h
  | closed b w => cases hw; rfl

/-- The listener after a child got the state `t` and the queues were brought up to date. -/
def updated (l : Listener) (c : Child) (t : Tcp) (w : Bool) : Listener :=
  if t.name = .closed then
    { l with
      children := l.children.filter (fun x => x.key != c.key)
      acceptQueue := Listener.syncQueue l.acceptQueue c.key (Listener.acceptable t)
      toSend := Listener.syncQueue l.toSend c.key w
      connMap := fun a => if a = c.addrs then none else l.connMap a }
  else
    { l with
      children := l.children.map (fun x => if x.key = c.key then { x with tcp := t } else x)
      acceptQueue := Listener.syncQueue l.acceptQueue c.key (Listener.acceptable t)
      toSend := Listener.syncQueue l.toSend c.key w }

theorem find_map (L : List Child) (k : Nat) (t : Tcp) :
    (L.map (fun x => if x.key = k then { x with tcp := t } else x)).find? (fun c => c.key == k) =
      (L.find? (fun c => c.key == k)).map (fun x => { x with tcp := t }) := by
  induction L with
  | nil => rfl
  | cons x L ih =>
    by_cases hx : x.key = k
    · simp [hx]
    · simp only [List.map_cons, if_neg hx]
      rw [List.find?_cons_of_neg (by simpa using hx), List.find?_cons_of_neg (by simpa using hx), ih]

theorem filter_map_key (L : List Child) (k : Nat) (t : Tcp) :
    (L.map (fun x => if x.key = k then { x with tcp := t } else x)).filter (fun x => x.key != k) =
      L.filter (fun x => x.key != k) := by
  induction L with
  | nil => rfl
  | cons x L ih =>
    by_cases hx : x.key = k
    · simp [hx, ih]
    · simp [hx, ih]

/-- What `with_child` computes. -/
theorem withChild_spec {α : Type} {l : Listener} {k : Nat} {f : Tcp → R (Tcp × α)} {o : Option (Listener × α)}
    (h : Base l) (hx : l.withChild k f = .ok o) :
    (o = none ∧ ∀ c ∈ l.children, c.key ≠ k) ∨
    ∃ c t x w, c ∈ l.children ∧ c.key = k ∧ f c.tcp = .ok (t, x) ∧ t.wantsToSend = .ok w ∧
      o = some (updated l c t w, x) := by
  unfold Listener.withChild at hx
  cases hc : l.child k with
  | none =>
    rw [hc] at hx
    cases hx
    left
    refine ⟨rfl, ?_⟩
    intro c hm e
    subst e
    rw [child_of_mem h.keys hm] at hc
    cases hc
  | some c =>
    right
    rw [hc] at hx
    obtain ⟨hm, rfl⟩ := child_some hc
    simp only [R.bind_eq_ok] at hx
    obtain ⟨⟨t, x⟩, hf, o1, hs, l', hu, hx⟩ := hx
    cases hx
    refine ⟨c, t, x, ?_⟩
    have hc2 : (l.setChild c.key t).child c.key = some { c with tcp := t } := by
      unfold Listener.child Listener.setChild
      simp only
      rw [find_map]
      unfold Listener.child at hc
      rw [hc]
      rfl
    unfold Listener.syncChild at hs
    rw [hc2] at hs
    simp only [R.bind_eq_ok, R.assert_eq_ok] at hs
    obtain ⟨w, hw, _, hmap, hd⟩ := hs
    refine ⟨w, hm, rfl, hf, hw, ?_⟩
    unfold Listener.dropIf at hd
    unfold updated
    by_cases hcl : t.name = .closed
    · rw [if_pos ((closed_iff t).2 hcl)] at hd
      rw [if_pos hcl]
      simp only [R.bind_eq_ok] at hd
      obtain ⟨r, hr, r2, hr2, hd⟩ := hd
      cases hd
      unfold Listener.removeChild at hr
      have hc3 : ((l.setChild c.key t).syncQueues c.key w (Listener.acceptable t)).child c.key = some { c with tcp := t } := hc2
      rw [hc3] at hr
      simp only [R.bind_eq_ok, R.assert_eq_ok] at hr
      obtain ⟨_, -, hr⟩ := hr
      cases hr
      simp only [R.unwrap_some] at hr2
      cases hr2
      simp only [R.unwrap_some] at hu
      cases hu
      have hwf := closed_wants hcl hw
      subst hwf
      have hacc : Listener.acceptable t = false := by
        rw [Bool.eq_false_iff]
        intro hh
        rw [acceptable_iff, hcl] at hh
        rcases hh with hh | hh <;> cases hh
      simp only [Listener.syncQueues, Listener.setChild, hacc]
      rw [syncQueue_gone h.qn, syncQueue_gone h.sn, filter_map_key]
    · rw [if_neg (fun hh => hcl ((closed_iff t).1 hh))] at hd
      rw [if_neg hcl]
      cases hd
      simp only [R.unwrap_some] at hu
      cases hu
      rfl

/-- Bringing one child up to date keeps the invariant, if the others are up to date. -/
theorem updated_ok {l : Listener} {c : Child} {t : Tcp} {w : Bool} (h : Base l) (hm : c ∈ l.children)
    (hs : ∀ d ∈ l.children, d.key ≠ c.key → Synced l d) (hk : KidOk l.scaling t) (hw : t.wantsToSend = .ok w) :
    Ok (updated l c t w) := by
  have hqm := fun j => mem_syncQueue (k := c.key) (b := Listener.acceptable t) h.qn j
  have hsm := fun j => mem_syncQueue (k := c.key) (b := w) h.sn j
  have hqn := nodup_syncQueue (k := c.key) (b := Listener.acceptable t) h.qn
  have hsn := nodup_syncQueue (k := c.key) (b := w) h.sn
  unfold updated
  by_cases hcl : t.name = .closed
  · rw [if_pos hcl]
    have hacc : Listener.acceptable t = false := by
      rw [Bool.eq_false_iff]
      intro hh
      rw [acceptable_iff, hcl] at hh
      rcases hh with hh | hh <;> cases hh
    have hwf := closed_wants hcl hw
    have hother : ∀ d ∈ l.children, d.key ≠ c.key → d.addrs ≠ c.addrs := by
      intro d hd hne ha
      have h1 := (h.map d.addrs d.key).2 ⟨d, hd, rfl, rfl⟩
      have h2 := (h.map c.addrs c.key).2 ⟨c, hm, rfl, rfl⟩
      rw [ha, h2] at h1
      exact hne (Option.some.inj h1).symm
    refine ⟨⟨?_, ?_, ?_, ?_, hqn, hsn, ?_, ?_, h.buf⟩, ?_⟩
    · exact h.keys.sublist (List.Sublist.map _ (List.filter_sublist))
    · intro d hd; exact h.lt d (List.mem_filter.1 hd).1
    · intro a k
      simp only
      constructor
      · intro hx
        by_cases ha : a = c.addrs
        · rw [if_pos ha] at hx; cases hx
        · rw [if_neg ha] at hx
          obtain ⟨d, hd, rfl, rfl⟩ := (h.map a k).1 hx
          refine ⟨d, List.mem_filter.2 ⟨hd, ?_⟩, rfl, rfl⟩
          simp only [bne_iff_ne, ne_eq]
          intro e
          rw [key_inj h.keys hd hm e] at ha
          exact ha rfl
      · rintro ⟨d, hd, rfl, rfl⟩
        obtain ⟨hd, hne⟩ := List.mem_filter.1 hd
        simp only [bne_iff_ne, ne_eq] at hne
        rw [if_neg (hother d hd hne)]
        exact (h.map _ _).2 ⟨d, hd, rfl, rfl⟩
    · intro d hd; exact h.kids d (List.mem_filter.1 hd).1
    · intro j hj
      rw [hqm] at hj
      rcases hj with ⟨hne, hj⟩ | ⟨-, hj⟩
      · obtain ⟨d, hd, rfl⟩ := h.qmem j hj
        exact ⟨d, List.mem_filter.2 ⟨hd, by simpa using hne⟩, rfl⟩
      · rw [hacc] at hj; cases hj
    · intro j hj
      rw [hsm] at hj
      rcases hj with ⟨hne, hj⟩ | ⟨-, hj⟩
      · obtain ⟨d, hd, rfl⟩ := h.smem j hj
        exact ⟨d, List.mem_filter.2 ⟨hd, by simpa using hne⟩, rfl⟩
      · rw [hwf] at hj; cases hj
    · intro d hd
      obtain ⟨hd, hne⟩ := List.mem_filter.1 hd
      simp only [bne_iff_ne, ne_eq] at hne
      obtain ⟨s1, s2, s3⟩ := hs d hd hne
      refine ⟨?_, ?_, s3⟩
      · show d.key ∈ Listener.syncQueue _ _ _ ↔ _
        rw [hqm, ← s1]
        simp [hne]
      · rw [s2]
        congr 1
        have : d.key ∈ Listener.syncQueue l.toSend c.key w ↔ d.key ∈ l.toSend := by rw [hsm]; simp [hne]
        show decide (d.key ∈ l.toSend) = decide (d.key ∈ Listener.syncQueue l.toSend c.key w)
        rw [decide_eq_decide]
        exact this.symm
  · rw [if_neg hcl]
    have hkey : ∀ x : Child, (if x.key = c.key then ({ x with tcp := t } : Child) else x).key = x.key := by
      intro x; split <;> rfl
    have haddr : ∀ x : Child, (if x.key = c.key then ({ x with tcp := t } : Child) else x).addrs = x.addrs := by
      intro x; split <;> rfl
    refine ⟨⟨?_, ?_, ?_, ?_, hqn, hsn, ?_, ?_, h.buf⟩, ?_⟩
    · have : (l.children.map (fun x => if x.key = c.key then ({ x with tcp := t } : Child) else x)).map Child.key =
          l.children.map Child.key := by
        rw [List.map_map]
        exact List.map_congr_left (fun x _ => hkey x)
      show ((l.children.map (fun x => if x.key = c.key then ({ x with tcp := t } : Child) else x)).map Child.key).Nodup
      rw [this]
      exact h.keys
    · intro d hd
      obtain ⟨x, hx, rfl⟩ := List.mem_map.1 hd
      rw [hkey]
      exact h.lt x hx
    · intro a k
      rw [h.map a k]
      constructor
      · rintro ⟨d, hd, rfl, rfl⟩
        exact ⟨_, List.mem_map.2 ⟨d, hd, rfl⟩, hkey d, haddr d⟩
      · rintro ⟨d, hd, rfl, rfl⟩
        obtain ⟨x, hx, rfl⟩ := List.mem_map.1 hd
        exact ⟨x, hx, (hkey x).symm, (haddr x).symm⟩
    · intro d hd
      obtain ⟨x, hx, rfl⟩ := List.mem_map.1 hd
      split
      · exact hk
      · exact h.kids x hx
    · intro j hj
      rw [hqm] at hj
      have : ∃ d ∈ l.children, d.key = j := by
        rcases hj with ⟨-, hj⟩ | ⟨rfl, -⟩
        · exact h.qmem j hj
        · exact ⟨c, hm, rfl⟩
      obtain ⟨d, hd, rfl⟩ := this
      exact ⟨_, List.mem_map.2 ⟨d, hd, rfl⟩, hkey d⟩
    · intro j hj
      rw [hsm] at hj
      have : ∃ d ∈ l.children, d.key = j := by
        rcases hj with ⟨-, hj⟩ | ⟨rfl, -⟩
        · exact h.smem j hj
        · exact ⟨c, hm, rfl⟩
      obtain ⟨d, hd, rfl⟩ := this
      exact ⟨_, List.mem_map.2 ⟨d, hd, rfl⟩, hkey d⟩
    · intro d hd
      obtain ⟨x, hx, rfl⟩ := List.mem_map.1 hd
      by_cases hxc : x.key = c.key
      · rw [if_pos hxc]
        refine ⟨?_, ?_, hcl⟩
        · show x.key ∈ Listener.syncQueue _ _ _ ↔ _
          rw [hqm]
          simp [hxc]
        · show t.wantsToSend = .ok (decide (x.key ∈ Listener.syncQueue l.toSend c.key w))
          rw [hw]
          have : x.key ∈ Listener.syncQueue l.toSend c.key w ↔ w = true := by rw [hsm]; simp [hxc]
          cases w with
          | true => rw [decide_eq_true (this.2 rfl)]
          | false => rw [decide_eq_false (fun hh => by cases this.1 hh)]
      · rw [if_neg hxc]
        obtain ⟨s1, s2, s3⟩ := hs x hx hxc
        refine ⟨?_, ?_, s3⟩
        · show x.key ∈ Listener.syncQueue _ _ _ ↔ _
          rw [hqm, ← s1]
          simp [hxc]
        · rw [s2]
          have : x.key ∈ Listener.syncQueue l.toSend c.key w ↔ x.key ∈ l.toSend := by rw [hsm]; simp [hxc]
          show R.ok (decide (x.key ∈ l.toSend)) = R.ok (decide (x.key ∈ Listener.syncQueue l.toSend c.key w))
          congr 1
          rw [decide_eq_decide]
          exact this.symm

theorem withChild_ok {α : Type} {l l' : Listener} {k : Nat} {f : Tcp → R (Tcp × α)} {x : α}
    (h : Base l) (hs : ∀ d ∈ l.children, d.key ≠ k → Synced l d)
    (hf : ∀ c ∈ l.children, c.key = k → ∀ t y, f c.tcp = .ok (t, y) → KidOk l.scaling t)
    (hx : l.withChild k f = .ok (some (l', x))) : Ok l' := by
  rcases withChild_spec h hx with ⟨e, -⟩ | ⟨c, t, x', w, hm, hk, e1, e2, e3⟩
  · cases e
  · cases e3
    subst hk
    exact updated_ok h hm hs (hf c hm rfl t _ e1) e2

/-! ### A new child -/

/-- What a new connection is after the first SYN. -/
theorem first_push {a b : Addr} {sc : Bool} {hd : Header} {pl : Payload} (hp : pl.flatten.length < 2147483648)
    (hw : hd.windowSize < 65536) (hs : hd.flags.syn = true) (hr : hd.flags.rst = false) :
    ∃ c m q irs, (Conn.new a b 0 sc).pushPacket hd pl = .ok (c, m) ∧ ConnInv 0 [] q irs [] c ∧
      c.send.buffer.finAdded = false ∧
      c.isReset = false ∧ c.needToSendRst = false ∧ c.recv.isSome = true ∧
      (q = if hd.flags.ack = true ∧ Seq.new hd.ack = 1 then 1 else 0) ∧
      c.send.window = hd.windowSize ∧ c.send.buffer.transmittedUpTo = 0 ∧
      c.scaling.isConfigured = !sc ∧ c.localAddr = a ∧ c.remoteAddr = b := by
  have h := inv_new a b 0 sc (by decide) 0
  have hL := payload_bound (hd := hd) hp
  have ho := pushPacket_spec h (p := 0) hL (fun r hh => by cases hh)
  have hcfg : (afterSyn (Conn.new a b 0 sc) hd).scaling.isConfigured = !sc := by
    unfold afterSyn Conn.new
    cases sc <;> rfl
  have hl : (streamItems ([] : List Byte) (Conn.new a b 0 sc).send.buffer.finAdded).length = 1 := rfl
  generalize hy : (Conn.new a b 0 sc).pushPacket hd pl = y at ho
  cases ho with
  | afterReset h1 => cases h1
  | noSyn _ _ _ h1 => rw [hs] at h1; cases h1
  | rst _ h1 => rw [hr] at h1; cases h1
  | later _ _ h1 => cases h1
  | first h1 h2 h3 h4 h5 =>
    cases h5 with
    | outside _ q => cases q
    | reset q =>
      exfalso
      rcases q with ⟨q, -⟩ | ⟨q, -⟩ | ⟨-, q, -⟩ <;> cases q
    | noShift q => rw [hs] at q; cases q
    | accepted q1 q2 q3 =>
      rename_i c' m
      obtain ⟨a', irs', k1, k2, k3, k4, -⟩ := pushPacket_inv h hw hL hy
      obtain ⟨r', s', a2, shift, ee, f1, f2, f3, f4, f5, f6, f7, f8, f9, f10, f11, f12⟩ := q2
      subst ee
      have hsh : shift = 0 := by
        unfold Conn.windowShift at f4
        rw [hs] at f4
        cases f4
        rfl
      subst hsh
      have ha2 : a' = a2 := by
        have e1 := k2.send.start
        have e2 := f6.start
        have l1 := k2.send.le
        have l2 := f6.le
        simp only at e1 e2 l1 l2
        rw [f10] at l2
        rw [k3, hl] at l1
        have hl2 : (streamItems ([] : List Byte) (afterSyn (Conn.new a b 0 sc) hd).send.buffer.finAdded).length = 1 := rfl
        rw [hl2] at l2
        rw [e1] at e2
        rcases Nat.le_total a' a2 with hle | hle
        · exact pos_inj e2 hle (by omega)
        · exact (pos_inj e2.symm hle (by omega)).symm
      subst ha2
      have hle : a' ≤ 1 := by
        have := k2.send.le
        rw [k3, hl] at this
        exact this
      refine ⟨_, m, a', irs', rfl, k2, k3, rfl, rfl, rfl, ?_, ?_, ?_, hcfg, rfl, rfl⟩
      · by_cases hak : hd.flags.ack = true ∧ Seq.new hd.ack = 1
        · rw [if_pos hak]
          refine f12 1 hak.1 ?_ (by omega) (Nat.le_refl _)
          rw [hak.2]
          rfl
        · rw [if_neg hak]
          rcases k4 with e | ⟨e1, e2, e3⟩
          · exact e
          · exfalso
            have : a' = 1 := by omega
            subst this
            exact hak ⟨e2, e3⟩
      · show s'.window = _
        rw [f7]
        omega
      · show s'.buffer.transmittedUpTo = 0
        rw [f9]
        rfl

/-- When the new connection has something to send. -/
theorem first_wants {c : Conn} {q irs : Nat} {sc : Bool} (h : ConnInv 0 [] q irs [] c) (hf : c.send.buffer.finAdded = false)
    (hre : c.isReset = false) (hn : c.needToSendRst = false) (hrs : c.recv.isSome = true)
    (htx : c.send.buffer.transmittedUpTo = 0) (hcfg : c.scaling.isConfigured = !sc) :
    (q = 0 → 0 < c.send.window → c.wantsToSend = .ok true) ∧
    (sc = true → (0 < q ∨ c.send.window = 0) → c.wantsToSend = .panic) := by
  have hwin : c.send.window < M := by have := h.window; simp only [windowMax] at this; omega
  have hl : (streamItems ([] : List Byte) c.send.buffer.finAdded) = [Item.syn] := by rw [hf]; rfl
  have hspec := nextDataSegment_spec h.send hwin
  rw [hl] at hspec
  constructor
  · intro hq hw
    subst hq
    rcases hspec with ⟨-, e⟩ | ⟨p, n, f, pl, e, e1, e2, e3, e4, e5, e6, e7, e8, -⟩
    · exact absurd htx (e 0 (Nat.le_refl _) (by simp) (by omega))
    · have hpn : p = 0 ∧ n = 1 := by simp at e3; omega
      obtain ⟨rfl, rfl⟩ := hpn
      have hsyn : f.syn = true := head_syn.1 (by rw [e6]; rfl)
      unfold Conn.wantsToSend Conn.nextSegment
      rw [hn, hre, e]
      simp only [R.bind_ok, R.pure_eq, hsyn]
      rfl
  · intro hsc hq
    subst hsc
    have hnone : c.nextDataSegment = .ok none := by
      rcases hspec with ⟨e, -⟩ | ⟨p, n, f, pl, e, e1, e2, e3, e4, -⟩
      · exact e
      · exfalso
        simp at e3
        omega
    obtain ⟨r, hr⟩ := Option.isSome_iff_exists.1 hrs
    have hwe : c.wantsEmpty = .panic := by
      unfold Conn.wantsEmpty
      rw [recvWindow_spec hr (h.recv r hr).1]
      simp only [WindowScaling.recvWindowScaleShift, hcfg]
      rfl
    unfold Conn.wantsToSend Conn.nextSegment
    rw [hn, hre, hnone]
    simp only [R.bind_ok, hwe]
    rfl

theorem syncChild_spec {l : Listener} {c : Child} {o : Option Listener} (h : Base l) (hm : c ∈ l.children)
    (hx : l.syncChild c.key = .ok o) :
    ∃ w, c.tcp.wantsToSend = .ok w ∧ o = some (updated l c c.tcp w) := by
  have hset : l.setChild c.key c.tcp = l := by
    unfold Listener.setChild
    have : l.children.map (fun x => if x.key = c.key then ({ x with tcp := c.tcp } : Child) else x) = l.children := by
      rw [List.map_congr_left (g := id)]
      · simp
      · intro x hx
        by_cases hxc : x.key = c.key
        · rw [if_pos hxc, key_inj h.keys hx hm hxc]
          rfl
        · rw [if_neg hxc]
          rfl
    rw [this]
  have hc := child_of_mem h.keys hm
  cases o with
  | none =>
    unfold Listener.syncChild at hx
    rw [hc] at hx
    simp only [R.bind_eq_ok] at hx
    obtain ⟨w, -, _, -, hd⟩ := hx
    unfold Listener.dropIf at hd
    split at hd
    · simp only [R.bind_eq_ok] at hd
      obtain ⟨r, -, r2, -, hd⟩ := hd
      cases hd
    · cases hd
  | some l' =>
    have hw : l.withChild c.key (fun t => .ok (t, ())) = .ok (some (l', ())) := by
      unfold Listener.withChild
      rw [hc]
      simp only [R.bind_ok, hset, hx, R.unwrap_some]
      rfl
    rcases withChild_spec h hw with ⟨e, -⟩ | ⟨d, t, x, w, h1, h2, h3, h4, h5⟩
    · cases e
    · cases h3
      cases h5
      have := key_inj h.keys h1 hm h2
      subst this
      exact ⟨w, h4, rfl⟩

theorem insert_base {l : Listener} {t : Tcp} {a : Addr × Addr} (h : Ok l) (ha : l.connMap a = none)
    (hk : KidOk l.scaling t) : Base (l.insertChild t a) := by
  have hnew : ∀ c ∈ l.children, c.addrs ≠ a := by
    intro c hc e
    have := (h.map c.addrs c.key).2 ⟨c, hc, rfl, rfl⟩
    rw [e, ha] at this
    cases this
  unfold Listener.insertChild
  refine ⟨?_, ?_, ?_, ?_, h.qn, h.sn, ?_, ?_, h.buf⟩
  · rw [List.map_append, List.nodup_append]
    refine ⟨h.keys, by simp, ?_⟩
    intro x hx y hy e
    simp only [List.map_cons, List.map_nil, List.mem_singleton] at hy
    obtain ⟨c, hc, rfl⟩ := List.mem_map.1 hx
    have := h.lt c hc
    omega
  · intro c hc
    rcases List.mem_append.1 hc with hc | hc
    · have := h.lt c hc
      exact Nat.lt_succ_of_lt this
    · simp only [List.mem_singleton] at hc
      subst hc
      exact Nat.lt_succ_self _
  · intro b k
    simp only
    constructor
    · intro hx
      by_cases hb : b = a
      · rw [if_pos hb] at hx
        cases hx
        exact ⟨_, List.mem_append_right _ (List.mem_singleton.2 rfl), rfl, hb.symm⟩
      · rw [if_neg hb] at hx
        obtain ⟨c, hc, e1, e2⟩ := (h.map b k).1 hx
        exact ⟨c, List.mem_append_left _ hc, e1, e2⟩
    · rintro ⟨c, hc, rfl, rfl⟩
      rcases List.mem_append.1 hc with hc | hc
      · rw [if_neg (hnew c hc)]
        exact (h.map _ _).2 ⟨c, hc, rfl, rfl⟩
      · simp only [List.mem_singleton] at hc
        subst hc
        rw [if_pos rfl]
  · intro c hc
    rcases List.mem_append.1 hc with hc | hc
    · exact h.kids c hc
    · simp only [List.mem_singleton] at hc
      subst hc
      exact hk
  · intro k hk
    obtain ⟨c, hc, e⟩ := h.qmem k hk
    exact ⟨c, List.mem_append_left _ hc, e⟩
  · intro k hk
    obtain ⟨c, hc, e⟩ := h.smem k hk
    exact ⟨c, List.mem_append_left _ hc, e⟩

/-- What `register_child` does. -/
theorem registerChild_spec {l l' : Listener} {hd : Header} {pl : Payload} (h : Ok l)
    (hw : hd.windowSize < 65536) (hp : pl.flatten.length < 2147483648) (hx : l.registerChild hd pl = .ok l') :
    hd.flags.syn = true ∧ hd.flags.rst = false ∧ l.connMap (hd.src, hd.dst) = none ∧
    ∃ c w, let k : Child := ⟨l.nextKey, ⟨.on .synReceived c, none⟩, (hd.src, hd.dst)⟩
      (∃ m, (Conn.new hd.dst hd.src 0 l.scaling).pushPacket hd pl = .ok (c, m)) ∧
      c.wantsToSend = .ok w ∧ k.tcp.wantsToSend = .ok w ∧ KidOk l.scaling k.tcp ∧
      l' = updated (l.insertChild k.tcp k.addrs) k k.tcp w ∧ Ok l' := by
  unfold Listener.registerChild at hx
  simp only [R.bind_eq_ok, R.assert_eq_ok] at hx
  obtain ⟨_, hs, _, hr, ⟨c, m⟩, hpush, _, hmap, o, hsync, hu⟩ := hx
  have hr' : hd.flags.rst = false := by simpa using hr
  have hmap' : l.connMap (hd.src, hd.dst) = none := by simpa using hmap
  refine ⟨hs, hr', hmap', c, ?_⟩
  obtain ⟨c2, m2, q, irs, e1, e2, e3, e4, e5, e6, e7, e8, e9, e10, -⟩ :=
    first_push (a := hd.dst) (b := hd.src) (sc := l.scaling) hp hw hs hr'
  rw [e1] at hpush
  cases hpush
  have htcp := child_ok hr' hw hp e1
  -- the child before its freshness is known
  have hkid0 : KidOk false ⟨.on .synReceived c, none⟩ := ⟨htcp, Or.inl rfl, fun hh => by cases hh⟩
  have hwts : ∃ w, c.wantsToSend = .ok w := by
    unfold Listener.syncChild at hsync
    have hcc : (l.insertChild ⟨.on .synReceived c, none⟩ (hd.src, hd.dst)).child l.nextKey =
        some ⟨l.nextKey, ⟨.on .synReceived c, none⟩, (hd.src, hd.dst)⟩ := by
      have hb := insert_base (l := { l with scaling := false }) (t := ⟨.on .synReceived c, none⟩) (a := (hd.src, hd.dst))
        ⟨⟨h.keys, h.lt, h.map, fun d hd => ⟨(h.kids d hd).ok, (h.kids d hd).name, fun hh => by cases hh⟩, h.qn, h.sn, h.qmem,
          h.smem, h.buf⟩, fun d hd => ⟨(h.synced d hd).acc, (h.synced d hd).snd, (h.synced d hd).open_⟩⟩ hmap' hkid0
      exact child_of_mem hb.keys (c := ⟨l.nextKey, ⟨.on .synReceived c, none⟩, (hd.src, hd.dst)⟩)
        (List.mem_append_right _ (List.mem_singleton.2 rfl))
    rw [hcc] at hsync
    simp only [R.bind_eq_ok] at hsync
    obtain ⟨w, hw, -⟩ := hsync
    exact ⟨w, hw⟩
  obtain ⟨w, hwt⟩ := hwts
  have hkid : KidOk l.scaling ⟨.on .synReceived c, none⟩ := by
    refine ⟨htcp, Or.inl rfl, ?_⟩
    intro hsc c' hc'
    cases hc'
    rw [Bool.eq_false_iff]
    intro hak
    have hq := e2.acked.1 hak
    have := (first_wants e2 e3 e4 e5 e6 e9 (sc := l.scaling) e10).2 hsc (Or.inl hq)
    rw [hwt] at this
    cases this
  have hb := insert_base h hmap' hkid
  have hm : (⟨l.nextKey, ⟨.on .synReceived c, none⟩, (hd.src, hd.dst)⟩ : Child) ∈
      (l.insertChild ⟨.on .synReceived c, none⟩ (hd.src, hd.dst)).children :=
    List.mem_append_right _ (List.mem_singleton.2 rfl)
  obtain ⟨w2, g1, g2⟩ := syncChild_spec hb hm hsync
  have : w2 = w := by
    have g1' : c.wantsToSend = .ok w2 := g1
    rw [hwt] at g1'
    cases g1'
    rfl
  subst this
  subst g2
  simp only [R.unwrap_some] at hu
  cases hu
  refine ⟨w2, ⟨_, e1⟩, hwt, g1, hkid, rfl, ?_⟩
  refine updated_ok hb hm ?_ hkid g1
  intro d hdm hne
  rcases List.mem_append.1 hdm with hdm | hdm
  · have s := h.synced d hdm
    exact ⟨s.acc, s.snd, s.open_⟩
  · simp only [List.mem_singleton] at hdm
    subst hdm
    exact absurd rfl hne

/-! ### The operations keep the invariant -/

theorem nextKind_synReceived {k : Kind} {c : Conn} (h : Tcp.nextKind k c = some .synReceived) : c.synWasAcked = false := by
  cases k <;> unfold Tcp.nextKind at h <;> cases hs : c.synWasAcked <;> cases hr : c.receivedSyn <;>
    cases hf : c.receivedFin <;> cases ha : c.finWasAcked <;> simp_all

theorem push_kid {sc : Bool} {t t' : Tcp} {hd : Header} {pl : Payload} {r : Res Nat} (h : KidOk sc t)
    (hw : hd.windowSize < 65536) (hp : pl.flatten.length < 2147483648) (hx : t.push hd pl = .ok (t', r)) : KidOk sc t' := by
  obtain ⟨h1, h2⟩ := push_ok h.ok hw hp hx
  refine ⟨h1, ?_, ?_⟩
  · have hn := h.name
    rcases h2 with e | e
    · rw [e]; exact hn
    · generalize t'.name = n' at e ⊢
      generalize t.name = n at e hn
      unfold KidName at hn ⊢
      cases e <;> simp_all
  · intro hsc c' hc'
    obtain ⟨st, err⟩ := t
    cases st with
    | rst b w => cases hx; cases hc'
    | closed b w => cases hx; cases hc'
    | on k c =>
      simp only [Tcp.push] at hx
      by_cases hm : (!c.packetAddrsMatch hd) = true
      · rw [if_pos hm] at hx; cases hx; exact h.fresh hsc c' hc'
      · rw [if_neg hm] at hx
        simp only [R.bind_eq_ok] at hx
        obtain ⟨⟨c2, m⟩, q1, t2, q2, hx⟩ := hx
        cases hx
        simp only at q2
        unfold Tcp.afterPacket at q2
        by_cases hr : c2.isReset = true
        · rw [if_pos hr] at q2
          have hreach : ConnReach c2 := .step (show OnOk k c from h.ok).reach (.push q1 hw hp)
          obtain ⟨-, ⟨-, _, -, -, -, rfl⟩ | ⟨-, rfl⟩⟩ := connectionWasReset_spec hreach q2 <;> cases hc'
        · rw [if_neg hr] at q2
          unfold Tcp.afterPush at q2
          cases hk : Tcp.nextKind k c2 with
          | none =>
            rw [hk] at q2
            simp only [mkClosed_true] at q2
            cases q2
            cases hc'
          | some k' =>
            rw [hk] at q2
            cases q2
            simp only [CState.on.injEq] at hc'
            obtain ⟨rfl, rfl⟩ := hc'
            exact nextKind_synReceived hk

theorem pop_kid {sc : Bool} {t t' : Tcp} {r : Res (Header × Payload)} (h : KidOk sc t) (hx : t.pop = .ok (t', r)) :
    KidOk sc t' := by
  obtain ⟨h1, h2, -⟩ := pop_ok h.ok hx
  refine ⟨h1, ?_, ?_⟩
  · rcases h2 with e | ⟨-, e⟩
    · rw [e]; exact h.name
    · rw [e]; simp [KidName]
  · intro hsc c' hc'
    obtain ⟨st, err⟩ := t
    cases st with
    | closed b w => cases hx; cases hc'
    | rst b w =>
      have : t'.name ≠ .synReceived := by
        rcases h2 with e | ⟨-, e⟩
        · rw [e]; simp [Tcp.name]
        · rw [e]; simp
      exfalso
      apply this
      unfold Tcp.name
      rw [hc']
      rfl
    | on k c =>
      simp only [Tcp.pop, R.bind_eq_ok] at hx
      obtain ⟨⟨c2, o⟩, h3, hx⟩ := hx
      cases hx
      simp only [CState.on.injEq] at hc'
      obtain ⟨rfl, rfl⟩ := hc'
      obtain ⟨-, -, k3, -⟩ := popPacket_facts (show OnOk _ c from h.ok).reach h3
      rw [k3]
      exact h.fresh hsc c rfl

theorem timeout_kid {sc : Bool} {t t' : Tcp} {k : Kind} (h : KidOk sc t) (hx : t.timeout k = .ok t') : KidOk sc t' := by
  obtain ⟨h1, h2⟩ := timeout_ok h.ok hx
  rcases h2 with e | e
  · by_cases ht : t' = t
    · subst ht; exact h
    · refine ⟨h1, by rw [e]; exact h.name, ?_⟩
      intro hsc c' hc'
      exfalso
      obtain ⟨st, err⟩ := t
      cases st with
      | closed b w => cases hx; exact ht rfl
      | rst b w => cases hx; exact ht rfl
      | on k' c =>
        simp only [Tcp.timeout] at hx
        by_cases h3 : k' = k
        · subst h3
          rw [if_pos rfl] at hx
          by_cases h4 : k' = .synSent ∨ k' = .synReceived
          · rw [if_pos h4] at hx
            simp only [R.bind_eq_ok, R.assert_eq_ok] at hx
            obtain ⟨⟨t2, r⟩, h5, _, h6, hx⟩ := hx
            cases hx
            have hok : TcpOk ⟨.on k' c, some .timedOut⟩ := h.ok
            obtain ⟨-, h7⟩ := rstClose_ok hok h5
            have hn : t2.name = .synReceived := by unfold Tcp.name; rw [hc']; rfl
            rcases h7 with ⟨-, e2, -⟩ | ⟨-, ⟨-, e2⟩ | ⟨-, e2⟩⟩
            · rw [e2] at h6; cases h6
            · rw [hn] at e2; cases e2
            · rw [hn] at e2; cases e2
          · rw [if_neg h4] at hx
            by_cases h5 : k' = .timeWait
            · subst h5
              rw [if_pos rfl, mkClosed_true] at hx
              cases hx
              cases hc'
            · rw [if_neg h5] at hx; cases hx; exact ht rfl
        · rw [if_neg h3] at hx; cases hx; exact ht rfl
  · have hn := h.name
    refine ⟨h1, ?_, ?_⟩
    · generalize t'.name = n' at e ⊢
      generalize t.name = n at e hn
      unfold KidName at hn ⊢
      cases e <;> simp_all
    · intro hsc c' hc'
      exfalso
      have hn' : t'.name = .synReceived := by unfold Tcp.name; rw [hc']; rfl
      rw [hn'] at e
      generalize t.name = n at e
      cases e

/-- How a packet is treated. -/
inductive PushCase (l : Listener) (hd : Header) (pl : Payload) (l' : Listener) : Prop where
  /-- Nothing changes: a queue is full or the packet belongs to no connection. -/
  | ignored : l' = l → PushCase l hd pl l'
  /-- A new child. -/
  | new : l.registerChild hd pl = .ok l' → l.connMap (hd.src, hd.dst) = none → l.acceptQueue.length < l.maxBacklog →
      l.children.length - l.acceptQueue.length < l.maxBacklog → PushCase l hd pl l'
  /-- The packet goes to the child of its address pair. -/
  | child {c t x w} : c ∈ l.children → c.addrs = (hd.src, hd.dst) → c.tcp.push hd pl = .ok (t, x) → t.wantsToSend = .ok w →
      l' = updated l c t w →
      (c.tcp.name = .synReceived → hd.flags.ack = true → l.acceptQueue.length < l.maxBacklog) → PushCase l hd pl l'

theorem isSynReceived_iff {l : Listener} {c : Child} (h : Base l) (hm : c ∈ l.children) :
    l.isSynReceived c.key = true ↔ c.tcp.name = .synReceived := by
  unfold Listener.isSynReceived
  rw [child_of_mem h.keys hm]
  obtain ⟨k, ⟨st, e⟩, a⟩ := c
  cases st with
  | on k c => cases k <;> simp [Tcp.name, Kind.name]
  | rst b w => simp [Tcp.name]
  | closed b w => simp [Tcp.name]

theorem push_spec {l l' : Listener} {hd : Header} {pl : Payload} {r : Res Nat} (h : Ok l)
    (hx : l.push hd pl = .ok (l', r)) : PushCase l hd pl l' := by
  unfold Listener.push at hx
  simp only [R.bind_eq_ok] at hx
  obtain ⟨sf, h1, hx⟩ := hx
  by_cases hfull : (hd.flags.syn && (l.acceptFull || sf)) = true
  · rw [if_pos hfull] at hx
    cases hx
    exact .ignored rfl
  · rw [if_neg hfull] at hx
    cases hm : l.connMap (hd.src, hd.dst) with
    | none =>
      rw [hm] at hx
      simp only [Listener.pushNew] at hx
      by_cases hs : hd.flags.syn = true
      · rw [if_pos hs] at hx
        simp only [R.bind_eq_ok] at hx
        obtain ⟨l2, h2, hx⟩ := hx
        cases hx
        rw [hs, Bool.true_and] at hfull
        have hf1 : l.acceptFull = false := by
          cases hh : l.acceptFull with
          | false => rfl
          | true => rw [hh] at hfull; exact absurd rfl hfull
        have hf2 : sf = false := by
          cases hh : sf with
          | false => rfl
          | true => rw [hh] at hfull; simp at hfull
        subst hf2
        unfold Listener.synFull at h1
        simp only [R.bind_eq_ok] at h1
        obtain ⟨_, -, h1⟩ := h1
        have h1' : decide (l.maxBacklog ≤ l.children.length - l.acceptQueue.length) = false := R.ok.inj h1
        refine .new h2 hm ?_ ?_
        · unfold Listener.acceptFull at hf1
          have := of_decide_eq_false hf1
          omega
        · have := of_decide_eq_false h1'
          omega
      · rw [if_neg hs] at hx
        cases hx
        exact .ignored rfl
    | some k =>
      rw [hm] at hx
      simp only [Listener.pushToChild] at hx
      by_cases hdrop : (l.isSynReceived k && hd.flags.ack && l.acceptFull) = true
      · rw [if_pos hdrop] at hx
        cases hx
        exact .ignored rfl
      · rw [if_neg hdrop] at hx
        simp only [R.bind_eq_ok] at hx
        obtain ⟨o, h2, hx⟩ := hx
        obtain ⟨c, hcm, rfl, hca⟩ := (h.map _ _).1 hm
        rcases withChild_spec h.toBase h2 with ⟨-, e⟩ | ⟨d, t, x, w, g1, g2, g3, g4, g5⟩
        · exact absurd rfl (e c hcm)
        · have := key_inj h.keys g1 hcm g2
          subst this
          subst g5
          simp only [R.unwrap_some] at hx
          cases hx
          refine .child g1 hca g3 g4 rfl ?_
          intro hn hack
          have := (isSynReceived_iff h.toBase g1).2 hn
          rw [this, hack] at hdrop
          simp only [Bool.and_self, Bool.true_and, Listener.acceptFull, decide_eq_true_eq] at hdrop
          omega

theorem push_keeps {l l' : Listener} {hd : Header} {pl : Payload} {r : Res Nat} (h : Ok l)
    (hw : hd.windowSize < 65536) (hp : pl.flatten.length < 2147483648) (hx : l.push hd pl = .ok (l', r)) : Ok l' := by
  cases push_spec h hx with
  | ignored e => subst e; exact h
  | new h1 => 
    obtain ⟨-, -, -, c, w, q⟩ := registerChild_spec h hw hp h1
    exact q.2.2.2.2.2
  | child h1 h2 h3 h4 h5 h6 =>
    subst h5
    exact updated_ok h.toBase h1 (fun d hd _ => h.synced d hd) (push_kid (h.kids _ h1) hw hp h3) h4

/-- What `pop_packet` does. -/
theorem pop_spec {l l' : Listener} {r : Res (Header × Payload)} (h : Ok l) (hx : l.pop = .ok (l', r)) :
    (l.toSend = [] ∧ l' = l ∧ r = .err .noPacket) ∨
    ∃ c t w y rest, l.toSend = c.key :: rest ∧ c ∈ l.children ∧ c.tcp.pop = .ok (t, .ok y) ∧ t.wantsToSend = .ok w ∧
      l' = updated { l with toSend := rest } c t w ∧ r = .ok y ∧ Base { l with toSend := rest } ∧ Ok l' := by
  unfold Listener.pop at hx
  rw [h.buf] at hx
  simp only at hx
  cases hq : l.toSend with
  | nil =>
    rw [hq] at hx
    cases hx
    exact Or.inl ⟨rfl, rfl, rfl⟩
  | cons k rest =>
    right
    rw [hq] at hx
    simp only [R.bind_eq_ok, R.assert_eq_ok] at hx
    obtain ⟨o, h1, p, h2, _, h3, hx⟩ := hx
    have hsn := h.sn
    rw [hq, List.nodup_cons] at hsn
    have hb : Base { l with toSend := rest } := by
      refine ⟨h.keys, h.lt, h.map, h.kids, h.qn, hsn.2, h.qmem, ?_, h.buf⟩
      intro j hj
      exact h.smem j (by rw [hq]; exact List.mem_cons_of_mem _ hj)
    rw [← h.buf] at h1
    rcases withChild_spec hb h1 with ⟨-, e⟩ | ⟨c, t, x, w, g1, g2, g3, g4, g5⟩
    · obtain ⟨c, hc, e2⟩ := h.smem k (by rw [hq]; exact List.mem_cons_self)
      exact absurd e2 (e c hc)
    · subst g2
      subst g5
      simp only [R.unwrap_some] at h2
      cases h2
      cases hx
      simp only at h3
      cases r with
      | err e => cases h3
      | ok y =>
        refine ⟨c, t, w, y, rest, rfl, g1, g3, g4, rfl, rfl, hb, ?_⟩
        refine updated_ok hb g1 ?_ (pop_kid (h.kids c g1) g3) g4
        intro d hdm hne
        obtain ⟨s1, s2, s3⟩ := h.synced d hdm
        refine ⟨s1, ?_, s3⟩
        rw [s2, hq]
        congr 1
        rw [decide_eq_decide]
        simp [hne]

/-- What `accept` does. -/
theorem accept_spec {l : Listener} (h : Ok l) :
    (l.acceptQueue = [] ∧ l.accept = .ok (l, .err .nothingToAccept)) ∨
    ∃ c rest l', l.acceptQueue = c.key :: rest ∧ c ∈ l.children ∧ l.accept = .ok (l', .ok c.tcp) ∧
      (c.tcp.name = .established ∨ c.tcp.name = .closeWait) ∧ Ok l' ∧
      l' = { l with
        children := l.children.filter (fun x => x.key != c.key)
        acceptQueue := rest
        toSend := Listener.removeFrom l.toSend c.key
        connMap := fun a => if a = c.addrs then none else l.connMap a } := by
  unfold Listener.accept
  cases hq : l.acceptQueue with
  | nil => exact Or.inl ⟨rfl, rfl⟩
  | cons k rest =>
    right
    obtain ⟨c, hc, rfl⟩ := h.qmem k (by rw [hq]; exact List.mem_cons_self)
    have hqn := h.qn
    rw [hq, List.nodup_cons] at hqn
    have hacc := (h.synced c hc).acc.1 (by rw [hq]; exact List.mem_cons_self)
    have hmap := (h.map c.addrs c.key).2 ⟨c, hc, rfl, rfl⟩
    have hcc : ({ l with acceptQueue := rest } : Listener).child c.key = some c := child_of_mem h.keys hc
    have hrest : Listener.removeFrom rest c.key = rest := List.erase_of_not_mem hqn.1
    refine ⟨c, rest, _, rfl, hc, ?_, (acceptable_iff _).1 hacc, ?_, rfl⟩
    · unfold Listener.removeChild
      dsimp only
      rw [hcc]
      simp only [hmap, beq_self_eq_true, R.assert_true, R.bind_ok, R.pure_eq, R.unwrap_some, hacc, hrest]
    · have hne : ∀ d ∈ l.children, d.key ≠ c.key → d.addrs ≠ c.addrs := by
        intro d hd hne ha
        have h1 := (h.map d.addrs d.key).2 ⟨d, hd, rfl, rfl⟩
        rw [ha, hmap] at h1
        exact hne (Option.some.inj h1).symm
      have hsm : ∀ j, j ∈ Listener.removeFrom l.toSend c.key ↔ j ≠ c.key ∧ j ∈ l.toSend := fun j =>
        List.Nodup.mem_erase_iff h.sn
      refine ⟨⟨?_, ?_, ?_, ?_, hqn.2, h.sn.erase _, ?_, ?_, h.buf⟩, ?_⟩
      · exact h.keys.sublist (List.Sublist.map _ (List.filter_sublist))
      · intro d hd; exact h.lt d (List.mem_filter.1 hd).1
      · intro a k
        simp only
        constructor
        · intro hx
          by_cases ha : a = c.addrs
          · rw [if_pos ha] at hx; cases hx
          · rw [if_neg ha] at hx
            obtain ⟨d, hd, rfl, rfl⟩ := (h.map a k).1 hx
            refine ⟨d, List.mem_filter.2 ⟨hd, ?_⟩, rfl, rfl⟩
            simp only [bne_iff_ne, ne_eq]
            intro e
            rw [key_inj h.keys hd hc e] at ha
            exact ha rfl
        · rintro ⟨d, hd, rfl, rfl⟩
          obtain ⟨hd, hn⟩ := List.mem_filter.1 hd
          simp only [bne_iff_ne, ne_eq] at hn
          rw [if_neg (hne d hd hn)]
          exact (h.map _ _).2 ⟨d, hd, rfl, rfl⟩
      · intro d hd; exact h.kids d (List.mem_filter.1 hd).1
      · intro j hj
        obtain ⟨d, hd, rfl⟩ := h.qmem j (by rw [hq]; exact List.mem_cons_of_mem _ hj)
        refine ⟨d, List.mem_filter.2 ⟨hd, ?_⟩, rfl⟩
        simp only [bne_iff_ne, ne_eq]
        intro e
        rw [e] at hj
        exact hqn.1 hj
      · intro j hj
        obtain ⟨hj1, hj2⟩ := (hsm j).1 hj
        obtain ⟨d, hd, rfl⟩ := h.smem j hj2
        exact ⟨d, List.mem_filter.2 ⟨hd, by simpa using hj1⟩, rfl⟩
      · intro d hd
        obtain ⟨hd, hn⟩ := List.mem_filter.1 hd
        simp only [bne_iff_ne, ne_eq] at hn
        obtain ⟨s1, s2, s3⟩ := h.synced d hd
        refine ⟨?_, ?_, s3⟩
        · rw [← s1, hq]
          simp [hn]
        · rw [s2]
          congr 1
          rw [decide_eq_decide]
          show d.key ∈ l.toSend ↔ d.key ∈ Listener.removeFrom l.toSend c.key
          rw [hsm]
          simp [hn]

theorem timeout_spec {l l' : Listener} {key : Nat} {k : Kind} (h : Ok l) (hx : l.timeout key k = .ok l') :
    l' = l ∨ ∃ c t w, c ∈ l.children ∧ c.key = key ∧ c.tcp.timeout k = .ok t ∧ t.wantsToSend = .ok w ∧
      l' = updated l c t w ∧ Ok l' := by
  unfold Listener.timeout at hx
  simp only [R.bind_eq_ok] at hx
  obtain ⟨o, h1, hx⟩ := hx
  cases hx
  rcases withChild_spec h.toBase h1 with ⟨rfl, -⟩ | ⟨c, t, x, w, g1, g2, g3, g4, rfl⟩
  · exact Or.inl rfl
  · right
    simp only [R.bind_eq_ok] at g3
    obtain ⟨t2, g3, e⟩ := g3
    cases e
    exact ⟨c, t, w, g1, g2, g3, g4, rfl, updated_ok h.toBase g1 (fun d hd _ => h.synced d hd) (timeout_kid (h.kids c g1) g3) g4⟩

theorem new_ok (sc : Bool) (b : Nat) : Ok (Listener.new sc b) := by
  refine ⟨⟨List.nodup_nil, ?_, ?_, ?_, List.nodup_nil, List.nodup_nil, ?_, ?_, rfl⟩, ?_⟩
  · intro c hc; cases hc
  · intro a k
    constructor
    · intro hh; cases hh
    · rintro ⟨c, hc, -⟩; cases hc
  · intro c hc; cases hc
  · intro c hc; cases hc
  · intro c hc; cases hc
  · intro c hc; cases hc

theorem relisten_ok {l : Listener} (h : Ok l) (b : Nat) : Ok (l.relisten b) :=
  ⟨⟨h.keys, h.lt, h.map, h.kids, h.qn, h.sn, h.qmem, h.smem, h.buf⟩,
    fun d hd => ⟨(h.synced d hd).acc, (h.synced d hd).snd, (h.synced d hd).open_⟩⟩

end Shadow.Tcp.ListenProps
