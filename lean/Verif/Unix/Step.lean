import Verif.Unix.Abs

/-!
# Unix-domain sockets: every call does what the specification says
-/

namespace Shadow.Unix

open Shadow.Base Spec

variable {α : Type}

theorem waiting_of {S S' : Nat → Option (Sock α)} (h : Waiting S fun _ => False)
    (back : ∀ c t, S' c = some t → t.proto.isConn = true → t.held = false →
      ∃ t0, S c = some t0 ∧ t0.proto.isConn = true ∧ t0.held = false)
    (fwd : ∀ c t i s b q lim, S' c = some t → t.held = false → S i = some s →
      s.proto = .listening b q lim → c ∈ q →
      ∃ i s b q lim, S' i = some s ∧ s.proto = .listening b q lim ∧ c ∈ q) :
    Waiting S' fun _ => False := by
  intro c t hc h1 h2 _
  obtain ⟨t0, h3, h4, h5⟩ := back c t hc h1 h2
  obtain ⟨i, s, b, q, lim, h6, h7, h8⟩ := h c t0 h3 h4 h5 id
  exact fwd c t i s b q lim hc h2 h6 h7 h8

theorem waiting_put {S S' : Nat → Option (Sock α)} {i : Nat} {s s' : Sock α}
    (h : Waiting S fun _ => False) (hs : S i = some s) (es : S' = put S i (some s'))
    (hh : s'.held = s.held ∨ s'.held = true)
    (hc : s'.held = false → s'.proto.isConn = s.proto.isConn)
    (hq : ∀ b q l, s.proto = .listening b q l → ∃ b' l', s'.proto = .listening b' q l') :
    Waiting S' fun _ => False := by
  subst es
  refine waiting_of h ?_ ?_
  · intro c t hc1 h1 h2
    by_cases e : c = i
    · subst e
      rw [put_same] at hc1; cases hc1
      refine ⟨s, hs, by rw [← hc h2]; exact h1, ?_⟩
      rcases hh with hh | hh
      · rw [← hh]; exact h2
      · rw [hh] at h2; cases h2
    · rw [put_ne _ _ e] at hc1
      exact ⟨t, hc1, h1, h2⟩
  · intro c t j u b q lim _ _ hj hp hm
    by_cases e : j = i
    · subst e
      rw [hs] at hj; cases hj
      obtain ⟨b', l', e'⟩ := hq b q lim hp
      exact ⟨j, s', b', q, l', put_same .., e', hm⟩
    · exact ⟨j, u, b, q, lim, by rw [put_ne _ _ e]; exact hj, hp, hm⟩

theorem shape_set {w w' : World α} {i : Nat} {s' : Sock α} {k : Sk α}
    (es : w'.socks = put w.socks i (some s')) (en : w'.next = w.next) (el : w'.limit = w.limit)
    (eb : w'.nonblock = w.nonblock) (hk : skOf s' = k) : Shape w' ((abs w).set i k) := by
  refine ⟨fun j => ?_, eb, en, el⟩
  rw [es]
  simp only [Host.set, abs, put]
  split
  · simp [hk]
  · rfl

/-! ## bind, listen, accept, the non-blocking flag -/

theorem bindName_spec {w : World α} {k : Kind} {addr : Addr} {auto : Option Nat} :
    (∀ n, commonBind w k addr auto = .ok n → bindName addr auto = some n ∧ w.ns k n = none) ∧
    (∀ e, commonBind w k addr auto = .error e →
      match addr with
        | .foreign => e = .invalid
        | .path => e = .notSup
        | _ => e = .addrInUse ∧ ∀ n, bindName addr auto = some n → w.ns k n ≠ none) := by
  refine ⟨fun n hn => ⟨?_, commonBind_free hn⟩, fun e he => ?_⟩
  · unfold commonBind at hn
    grind [bindName]
  · unfold commonBind at he
    grind [bindName]

theorem good_bind {w : World α} {i : Nat} {s : Sock α} (h : Inv w) (hs : w.socks i = some s)
    (hh : s.held = true) (addr : Addr) (auto : Option Nat) :
    Good w (.bind i addr auto) (.ok (bind w i s addr auto)) := by
  have hsk := sock_abs hs
  have body : ∀ (hd : s.proto = .init none ∨ ∃ p r, s.proto = .dgram none p r),
      Good w (.bind i addr auto) (.ok (bindBody w i s addr auto)) := by
    intro hd
    unfold bindBody
    have hb := bindName_spec (w := w) (k := s.kind) (addr := addr) (auto := auto)
    cases e : commonBind w s.kind addr auto with
    | error er =>
      refine good_same h (.bindNot i _ addr auto er hsk hh ?_)
      have := hb.2 er e
      rcases hd with hd | ⟨p, r, hd⟩ <;> simp only [skOf, hd] <;> exact this
    | ok n =>
      obtain ⟨h1, h2⟩ := hb.1 n e
      have hm := mid_bind h hs hd h2
      have es : (w.register s.kind n i).socks =
          put w.socks i (some { s with proto := s.proto.bindTo n, reg := some n }) := by
        unfold World.register; rw [mod_some hs]
      have ec : (w.register s.kind n i).cbs = [] := h.idle
      have ns : (w.register s.kind n i).ns =
        fun k' n' => if k' = s.kind ∧ n' = n then some i else w.ns k' n' := rfl
      have hq : Waiting (w.register s.kind n i).socks fun _ => False := by
        refine waiting_put h.queued hs es (.inl rfl) ?_ ?_
        · intro _; rcases hd with hd | ⟨p, r, hd⟩ <;> simp [hd, Proto.bindTo, Proto.isConn]
        · intro b q l e; rcases hd with hd | ⟨p, r, hd⟩ <;> simp [hd] at e
      rcases hd with hd | ⟨p, r, hd⟩
      · refine ⟨_, _, ((abs w).set i ⟨s.kind, .idle (some n), true⟩).bound s.kind n i, rfl, hm, hq, ?_,
          ?_, .bind i s.kind addr auto n (by rw [hsk, sk_init hd hh]) h1 h2⟩
        · have := shape_set (w := w) (w' := w.register s.kind n i) es rfl rfl rfl
            (k := ⟨s.kind, .idle (some n), true⟩) (by simp [skOf, hd, Proto.bindTo, hh])
          exact ⟨this.sock, this.nonblock, this.count, this.limit⟩
        · exact owner_names hm.names rfl (by rw [ec]; simp)
      · refine ⟨_, _, ((abs w).set i ⟨s.kind, .dgram (some n) p (msgsOf r s.buf.pkts), true⟩).bound s.kind n i,
          rfl, hm, hq, ?_,
          ?_, .bindD i s.kind addr auto n p _ (by rw [hsk, sk_dgram hd hh]) h1 h2⟩
        · have := shape_set (w := w) (w' := w.register s.kind n i) es rfl rfl rfl
            (k := ⟨s.kind, .dgram (some n) p (msgsOf r s.buf.pkts), true⟩)
            (by simp [skOf, hd, Proto.bindTo, hh])
          exact ⟨this.sock, this.nonblock, this.count, this.limit⟩
        · exact owner_names hm.names rfl (by rw [ec]; simp)
  unfold bind
  split
  · exact body (.inl ‹_›)
  · rename_i hp
    exact good_same h (.bindNot i _ addr auto _ hsk hh (by simp [skOf, hp]))
  · exact body (.inr ⟨_, _, ‹_›⟩)
  · rename_i hp
    exact good_same h (.bindNot i _ addr auto _ hsk hh (by simp [skOf, hp]))
  · refine good_same h (.bindNot i _ addr auto _ hsk hh ?_)
    cases hp : s.proto with
    | init b => cases b <;> simp_all
    | dgram b p r => cases b <;> simp_all
    | _ => simp [skOf, hp]

/-- A call that replaces one socket's state, refreshes it and queues nothing. -/
theorem good_one {w : World α} {i : Nat} {s s' : Sock α} {a : Act α} {r : Ret α} {k : Sk α} (h : Inv w)
    (hs : w.socks i = some s) (hh' : s'.held = true)
    (hwf : Wf (put w.socks i (some s')) w.next) (hal : Alike s s')
    (hq : ∀ b q l, s.proto = .listening b q l → ∃ b' l', s'.proto = .listening b' q l')
    (hk : skOf s' = k) (hd : Does (abs w) a r ((abs w).set i k)) (f : Sock α → Sock α) (hf : f s = s') :
    Good w a (refresh (w.mod i f) i false >>= fun w => .ok (w, r)) := by
  rw [refresh_false, mod_some hs, hf]
  simp only [R.bind_ok]
  let w0 : World α := { w with socks := put w.socks i (some s') }
  have hr := fixed_rest w0 i
  have hm : Mid (fixed w0 i) (fixed w0 i).cbs := by
    refine mid_one (w' := fixed w0 i) h hs hwf hal hr.1 hr.2.1 hr.2.2.1 hr.2.2.2.2.2.1 hr.2.2.2.2.1
      (fun j hj => fixed_ne w0 hj) ?_ (by rw [hr.2.2.2.1]; exact h.idle)
    intro u hu
    exact fixed_flags (w := w0) (by rw [hr.1] at hu; exact hu)
  refine ⟨fixed w0 i, r, _, rfl, hm, ?_, shape_set (w := w) hr.1 hr.2.1 hr.2.2.2.2.2.1 hr.2.2.2.2.2.2 hk, ?_, hd⟩
  · exact waiting_put h.queued hs hr.1 (.inr hh') (by rw [hh']; simp) hq
  · exact owner_names hm.names (by rw [hr.2.2.1]; rfl) (by rw [hr.2.2.2.1]; simp [w0, h.idle])

theorem capacity_eq (b : Int) : queueSize b = capacity b := by
  unfold queueSize capacity somaxconn
  split <;> split <;> omega

theorem good_listen {w : World α} {i : Nat} {s : Sock α} (h : Inv w) (hs : w.socks i = some s)
    (hh : s.held = true) (backlog : Int) :
    Good w (.listen i backlog) (listen w i s backlog) := by
  have hsk := sock_abs hs
  unfold listen
  split
  · rename_i b hp
    refine good_one (s' := { s with proto := .listening b [] (queueSize backlog) }) h hs hh
      (wf_listen h.mid.wf hs _ (.inl ⟨hp, rfl⟩)) ?_ (by simp [hp])
      (k := ⟨s.kind, .listening b [] (capacity backlog), true⟩) (by simp [skOf, hh, capacity_eq]) ?_ _ rfl
    · constructor <;> simp [hp, SameName, Proto.over, Proto.early, owed]
    · exact .listen i s.kind b backlog (by rw [hsk, sk_init hp hh])
  · rename_i hp
    exact good_same h (.listenNot i _ backlog _ hsk hh (by simp [skOf, hp]))
  · rename_i b q l hp
    refine good_one (s' := { s with proto := .listening b q (queueSize backlog) }) h hs hh
      (wf_listen h.mid.wf hs _ (.inr ⟨l, hp⟩)) ?_ (by simp [hp])
      (k := ⟨s.kind, .listening b q (capacity backlog), true⟩) (by simp [skOf, hh, capacity_eq]) ?_ _ rfl
    · constructor <;> simp [hp, SameName, Proto.over, Proto.early, owed]
    · exact .relisten i s.kind b q l backlog (by rw [hsk, sk_listening hp hh])
  · refine good_same h (.listenNot i _ backlog _ hsk hh ?_)
    have ho := h.mid.wf.held i s hs hh
    cases hp : s.proto with
    | init b => cases b <;> simp_all
    | _ => simp_all [skOf, Proto.over]

theorem block_eq (b : Bool) (x : Wait) : (block b x : Ret α) = orWait b x := rfl

theorem good_accept {w : World α} {i : Nat} {s : Sock α} (h : Inv w) (hs : w.socks i = some s)
    (hh : s.held = true) : Good w (.accept i) (accept w i s) := by
  have hsk := sock_abs hs
  unfold accept
  split
  · rename_i b q lim hp
    cases q with
    | nil => exact good_same h (.acceptNone i s.kind b lim (by rw [hsk, sk_listening hp hh]))
    | cons c q =>
      obtain ⟨t, ht, h1, h2, h3, h4⟩ := h.mid.wf.child i s b (c :: q) lim c hs hp (by simp)
      have hne : i ≠ c := by rintro rfl; rw [hs] at ht; cases ht; rw [hh] at h1; cases h1
      have hs' : (w.mod c fun s => { s with held := true }).socks i = some s := by
        rw [mod_some ht]; simp only [put_ne _ _ hne, hs]
      simp only
      rw [refresh_false, mod_some hs', mod_some ht]
      simp only [R.bind_ok]
      let S0 := put (put w.socks c (some { t with held := true })) i
        (some { s with proto := .listening b q lim })
      let w0 : World α := { w with socks := S0 }
      have hr := fixed_rest w0 i
      have hm : Mid (fixed w0 i) (fixed w0 i).cbs := by
        refine mid_accept (w' := fixed w0 i) h hs hp ht h4 hne hr.1 hr.2.1 hr.2.2.1 hr.2.2.2.2.2.1
          hr.2.2.2.2.1 (fun j hj => fixed_ne w0 hj) ?_ (by rw [hr.2.2.2.1]; exact h.idle)
        intro u hu
        exact fixed_flags (w := w0) (by rw [hr.1] at hu; exact hu)
      refine ⟨fixed w0 i, _, _, rfl, hm, ?_, ?_, ?_,
        .accept i s.kind b c lim q _ (by rw [hsk, sk_listening hp hh]) (sock_abs ht)⟩
      · rw [hr.1]
        have hnd := h.mid.wf.nodup i s b _ lim hs hp
        simp only [w0, S0]
        refine waiting_of h.queued ?_ ?_
        · intro x u hx hc hl
          simp only [put] at hx
          split at hx
          · cases hx; simp [Proto.isConn] at hc
          · split at hx
            · cases hx; cases hl
            · exact ⟨u, hx, hc, hl⟩
        · intro x u j v b' q' l' hx hl hj hv hm
          by_cases e : j = i
          · subst e
            rw [hs] at hj; cases hj
            rw [hp] at hv; cases hv
            refine ⟨j, _, b, q, lim, put_same .., rfl, ?_⟩
            rcases List.mem_cons.1 hm with rfl | hm
            · rw [put_ne _ _ (Ne.symm hne), put_same] at hx
              cases hx; cases hl
            · exact hm
          · refine ⟨j, v, b', q', l', ?_, hv, hm⟩
            rw [put_ne _ _ e, put_ne]
            · exact hj
            · rintro rfl
              rw [ht] at hj; cases hj
              rw [hv] at h4; cases h4
      · have e1 := shape_set (w := w) (w' := { w with socks := put w.socks c (some { t with held := true }) })
          rfl rfl rfl rfl (k := { skOf t with held := true }) rfl
        refine ⟨fun j => ?_, hr.2.2.2.2.2.2, hr.2.1, hr.2.2.2.2.2.1⟩
        rw [hr.1]
        simp only [w0, S0, Host.set, put] at *
        split
        · simp [skOf, hh]
        · exact e1.sock j
      · exact owner_names hm.names (by rw [hr.2.2.1]; rfl) (by rw [hr.2.2.2.1]; simp [w0, h.idle])
  · rename_i hp
    exact good_same h (.acceptNot i _ _ hsk hh (by simp [skOf, hp]))
  · rename_i hp
    exact good_same h (.acceptNot i _ _ hsk hh (by simp [skOf, hp]))
  · refine good_same h (.acceptNot i _ _ hsk hh ?_)
    have ho := h.mid.wf.held i s hs hh
    cases hp : s.proto <;> simp_all [skOf, Proto.over]

theorem good_nonblock {w : World α} {i : Nat} {s : Sock α} (h : Inv w) (hs : w.socks i = some s)
    (hh : s.held = true) (on : Bool) :
    Good w (.nonblock i on) (.ok ({ w with nonblock := put w.nonblock i on }, .done)) := by
  have hm : Mid ({ w with nonblock := put w.nonblock i on } : World α) w.cbs := by
    rw [h.idle]
    exact ⟨h.mid.wf, ⟨h.mid.names.found, h.mid.names.there, h.mid.names.due, h.mid.names.once⟩,
      ⟨h.mid.acct.conn, h.mid.acct.dgram, h.mid.acct.early, h.mid.acct.target, h.mid.acct.cap⟩,
      ⟨h.mid.bits.exact, h.mid.bits.grew⟩⟩
  refine ⟨_, _, _, rfl, hm, h.queued, ?_, owner_names hm.names rfl (by simp [h.idle]),
    .nonblock i _ on (sock_abs hs) hh⟩
  exact ⟨fun _ => rfl, rfl, rfl, rfl⟩

end Shadow.Unix
