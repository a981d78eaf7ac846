import Verif.Unix.Join

/-!
# Unix-domain sockets: sending and receiving
-/

namespace Shadow.Unix

open Shadow.Base Spec

variable {α : Type}

theorem sendLen_spec (k : Kind) (limit sent len : Nat) :
    (∀ n, sendLen k limit sent len = .ok n → Fits k limit sent len n) ∧
    (sendLen k limit sent len = .error .again → Full k limit sent len) ∧
    (∀ e, sendLen k limit sent len = .error e → e ≠ .again → e = .msgSize ∧ TooLong k limit sent len) := by
  unfold sendLen
  split
  · refine ⟨by simp, fun _ => .inl (by omega), by simp⟩
  · cases k
    · refine ⟨fun n hn => ?_, by simp, by simp⟩
      cases hn
      exact .stream rfl (by omega)
    all_goals
      simp only
      split
      · refine ⟨fun n hn => ?_, by simp, by simp⟩
        cases hn
        exact .packet (by simp) (by omega) (by omega)
      · split
        · exact ⟨by simp, fun _ => .inr ⟨by simp, by omega, by omega⟩, by simp⟩
        · refine ⟨by simp, by simp, fun e he _ => ?_⟩
          cases he
          exact ⟨rfl, by omega, by simp, by omega⟩

theorem fits_le {k : Kind} {limit used len n : Nat} (h : Fits k limit used len n) :
    n ≤ len ∧ used + n ≤ limit := by
  cases h <;> omega

/-- The end of a send over a connection: the peer's buffer is `bf`. -/
theorem good_sendLink {w : World α} {i p n : Nat} {s t : Sock α} {b a b' a' : Option Nat} {bf : Buf α}
    {act : Act α} (h : Inv w) (hs : w.socks i = some s) (hp : s.proto = .conn b a p) (ht : w.socks p = some t)
    (hc : t.proto = .conn b' a' i) (hr : t.buf.readers ≠ 0)
    (h1 : bf.readers = t.buf.readers) (h2 : bf.writers = t.buf.writers) (h3 : bf.ears = t.buf.ears)
    (h5 : t.kind = .stream → bf.pkts = []) (h6 : t.kind ≠ .stream → bf.bytes = [])
    (hv : vol bf = vol t.buf + n) (hn : w.sent i + n ≤ w.limit)
    (hd : Does (abs w) act (.sent n) ((abs w).set p ⟨t.kind, .linked b' a' i (inboxOf t.kind bf), t.held⟩)) :
    Good w act (refresh { w with
        socks := put w.socks p (some { t with buf := bf.pub })
        cbs := w.cbs ++ heard bf t.buf.st true
        sent := put w.sent i (w.sent i + n) } i false >>= fun w => .ok (w, .sent n)) := by
  rw [refresh_false, R.bind_ok]
  generalize hw0 : ({ w with
        socks := put w.socks p (some { t with buf := bf.pub })
        cbs := w.cbs ++ heard bf t.buf.st true
        sent := put w.sent i (w.sent i + n) } : World α) = w0
  have hf := fixed_rest w0 i
  have es : (fixed w0 i).socks = put w.socks p (some { t with buf := bf.pub }) := by rw [hf.1, ← hw0]
  have ec : (fixed w0 i).cbs = heard bf t.buf.st true := by rw [hf.2.2.2.1, ← hw0]; simp [h.idle]
  have hm : Mid (fixed w0 i) (fixed w0 i).cbs := by
    refine mid_sendConn h hs hp ht hr h1 h2 h3 h5 h6 hv hn es (by rw [hf.2.1, ← hw0])
      (by rw [hf.2.2.1, ← hw0]) (by rw [hf.2.2.2.2.2.1, ← hw0]) (by rw [hf.2.2.2.2.1, ← hw0])
      (fun j hj => by rw [fixed_ne _ hj, ← hw0]) ?_ ec
    intro u hu
    exact fixed_flags (by rw [hf.1] at hu; exact hu)
  refine ⟨_, _, _, rfl, hm, ?_, shape_set es (by rw [hf.2.1, ← hw0]) (by rw [hf.2.2.2.2.2.1, ← hw0])
    (by rw [hf.2.2.2.2.2.2, ← hw0]) ?_, owner_names hm.names (by rw [hf.2.2.1, ← hw0]; rfl)
      (by rw [ec]; intro k n; exact heard_unbind), hd⟩
  · exact waiting_put h.queued ht es (.inl rfl) (fun _ => rfl) (fun b q l e => ⟨b, l, e⟩)
  · simp only [skOf, hc]
    cases t.kind <;> rfl

theorem good_sendConn {w : World α} {i p : Nat} {s : Sock α} {b a : Option Nat} (h : Inv w)
    (hs : w.socks i = some s) (hh : s.held = true) (hp : s.proto = .conn b a p) (dst : Option Addr)
    (data : List α) (dw : Bool) (fault : Option Nat)
    (hbad : ¬ Bad (abs w) (.send i dst data dw fault))
    (hdst : dst = none ∨ (s.kind ≠ .stream ∧ dst ≠ some .foreign)) :
    Good w (.send i dst data dw fault) (sendConn w i s p data dw fault) := by
  have hsk : (abs w).sock i = some ⟨s.kind, .linked b a p (inboxOf s.kind s.buf), true⟩ := by
    rw [sock_abs hs, sk_conn hp, hh]
  have hkd : s.kind ≠ .dgram := by
    intro e
    have := (h.mid.wf.isD i s hs).2 e
    rw [hp] at this; cases this
  obtain ⟨hne, t, ht, hk, hcase⟩ := Inv.peer h hs hp
  unfold sendConn commonSend
  rw [if_neg hne]
  rcases hcase with ⟨hc, hr, _⟩ | ⟨⟨b', a', hc⟩, hr, _⟩
  · rw [if_pos hr]
    simp only [R.bind_ok]
    exact good_same h (.sendPipe i p s.kind b a _ dst data dw fault hsk
      ((dead_iff ht).2 (by rw [hc]; rfl)) hdst)
  · have hr0 : w.readers p ≠ 0 := by omega
    have hrt : t.buf.readers ≠ 0 := by simpa [World.readers, ht] using hr0
    have hsp := h.mid.wf.noPkts p t ht
    have hsb := h.mid.wf.noBytes p t ht
    rw [if_neg hr0]
    have hnd : ¬ Dead (abs w) p := by rw [dead_iff ht, hc]; simp [Proto.over]
    have hfl := flight_conn h hs hp ht hc
    have hskp : (abs w).sock p = some ⟨s.kind, .linked b' a' i (inboxOf t.kind t.buf), t.held⟩ := by
      rw [sock_abs ht, sk_conn hc, hk]
    obtain ⟨hs1, hs2, hs3⟩ := sendLen_spec s.kind w.limit (w.sent i) data.length
    cases e : sendLen s.kind w.limit (w.sent i) data.length with
    | error er =>
      by_cases hag : er = .again
      · subst hag
        have hd : Does (abs w) (.send i dst data dw fault) (orWait (w.nonblock i || dw) (.writable i)) (abs w) :=
          .sendFull i p s.kind b a _ dst data dw fault hsk hnd hdst (by rw [hfl]; exact hs2 e)
        cases hb : (w.nonblock i || dw) <;> rw [hb] at hd <;> exact good_same h hd
      · obtain ⟨rfl, h2⟩ := hs3 er e hag
        simp only [R.bind_ok]
        exact good_same h (.sendLong i p s.kind b a _ dst data dw fault hsk hnd hdst (by rw [hfl]; exact h2))
    | ok len =>
      have hfit : Fits s.kind (abs w).limit (inFlight (abs w) i) data.length len := by
        rw [hfl]; exact hs1 len e
      have hle := fits_le (hs1 len e)
      have hlen : (data.take len).length = len := by rw [List.length_take]; omega
      simp only [write, hlen]
      cases hfa : fault.filter (decide <| · < len) with
      | none =>
        have hsound : Sound fault len := by
          rintro f rfl
          simp only [Option.filter] at hfa
          split at hfa
          · cases hfa
          · rename_i hx; simpa using hx
        cases hkk : s.kind with
        | dgram => exact (hkd hkk).elim
        | stream =>
          simp only
          by_cases h0 : len = 0
          · subst h0
            rw [if_pos rfl]
            have hw : ({ w with sent := put w.sent i (w.sent i + 0) } : World α) = w := by
              rw [Nat.add_zero, put_id]
            simp only [R.bind_ok, hw]
            rw [refresh_false, R.bind_ok]
            have hb := Inv.bits h hs (by rw [hp]; rfl)
            have hfx : fixed w i = w := by rw [fixed_some hs, ← hb, put_id]
            rw [hfx]
            exact good_same h (.sendNothing i p s.kind b a b' a' _ _ t.held dst data dw fault 0 hsk hskp hdst
              hfit ⟨hkk, rfl⟩)
          · rw [if_neg h0]
            rw [touch_some ht]
            refine good_sendLink (n := len) (bf := { t.buf with bytes := t.buf.bytes ++ data.take len }) h hs hp ht hc
              hrt rfl rfl rfl hsp (fun e => (e (by rw [hk]; exact hkk)).elim) ?_ hle.2 ?_
            · simp only [vol, List.length_append, hlen]; omega
            · have := Does.sendSome i p s.kind b a b' a' _ _ t.held dst data dw fault len hsk hskp hdst hfit
                (fun _ => h0) hsound
              simpa [hk, hkk, inboxOf, Inbox.add] using this
        | seq =>
          simp only [R.bind_ok]
          rw [touch_some ht]
          refine good_sendLink (n := len) (bf := { t.buf with pkts := t.buf.pkts ++ [data.take len] }) h hs hp ht hc
            hrt rfl rfl rfl (fun e => by rw [hk, hkk] at e; cases e) hsb ?_ hle.2 ?_
          · simp only [vol, List.map_append, List.sum_append, List.map_cons, List.map_nil, List.sum_cons,
              List.sum_nil, hlen]; omega
          · have := Does.sendSome i p s.kind b a b' a' _ _ t.held dst data dw fault len hsk hskp hdst hfit
              (fun e => by rw [hkk] at e; cases e) hsound
            simpa [hk, hkk, inboxOf, Inbox.add] using this
      | some f =>
        obtain ⟨rfl, hf⟩ : fault = some f ∧ f < len := by
          cases fault with
          | none => simp at hfa
          | some g =>
            simp only [Option.filter] at hfa
            split at hfa
            · rename_i hx; cases hfa; exact ⟨rfl, by simpa using hx⟩
            · cases hfa
        have hf0 : s.kind = .stream → f = 0 := by
          intro hkk
          rcases Nat.eq_zero_or_pos f with h0 | h0
          · exact h0
          · rw [hkk] at hsk
            exact (hbad (.sendFault i _ true dst data dw f hsk h0 (by omega))).elim
        have hdoes := Does.sendFault i p s.kind b a _ dst data dw f len hsk hnd hdst hfit hf hf0
        cases hkk : s.kind with
        | dgram => exact (hkd hkk).elim
        | stream =>
          have h0 := hf0 hkk
          subst h0
          have hw : w.poke p (fun b => { b with bytes := b.bytes ++ (data.take len).take 0 }) = w := by
            rw [poke_some ht]
            simp only [List.take_zero, List.append_nil]
            rw [← ht, put_id]
          simp only [hw, R.bind_ok]
          exact good_same h hdoes
        | seq =>
          simp only [R.bind_ok]
          exact good_same h hdoes

theorem notes_length {S : Nat → Option (Sock α)} {n i : Nat} {s : Sock α} {b a : Option Nat} {r : List Entry}
    (h : Wf S n) (hs : S i = some s) (hp : s.proto = .dgram b a r) : r.length = s.buf.pkts.length := by
  have := congrArg List.length (h.notes i s b a r hs hp)
  simpa using this.symm

theorem msgs_append {r : List Entry} {ds : List (List α)} (h : r.length = ds.length) (e : Entry) (d : List α) :
    msgsOf (r ++ [e]) (ds ++ [d]) = msgsOf r ds ++ [⟨e.src, e.addr, d⟩] := by
  simp [msgsOf, List.zipWith_append h]

theorem good_sendDgram {w : World α} {i p : Nat} {s : Sock α} {b q : Option Nat} {r : List Entry} (h : Inv w)
    (hs : w.socks i = some s) (hh : s.held = true) (hp : s.proto = .dgram b q r) (dst : Option Addr)
    (data : List α) (dw : Bool) (fault : Option Nat) (hne : p ≠ i)
    (hdst : Dest (abs w) q dst p) (hpk : (w.socks p).map Sock.kind = some .dgram) :
    Good w (.send i dst data dw fault) (sendDgram w i s p b data dw fault) := by
  have hkd : s.kind = .dgram := (h.mid.wf.isD i s hs).1 (by rw [hp]; rfl)
  have hsk : (abs w).sock i = some ⟨.dgram, .dgram b q (msgsOf r s.buf.pkts), true⟩ := by
    rw [sock_abs hs, sk_dgram hp hh, hkd]
  cases ht : w.socks p with
  | none => simp [ht] at hpk
  | some t =>
    have htk : t.kind = .dgram := by simpa [ht] using hpk
    have htd := (h.mid.wf.isD p t ht).2 htk
    unfold sendDgram commonSend
    rw [if_neg hne]
    have hrd := h.mid.wf.readers p t ht (by cases hc : t.proto <;> rw [hc] at htd <;> first | rfl | cases htd)
    cases hc : t.proto with
    | init _ => rw [hc] at htd; cases htd
    | listening _ _ _ => rw [hc] at htd; cases htd
    | conn _ _ _ => rw [hc] at htd; cases htd
    | closed => rw [hc] at htd; cases htd
    | dgramClosed =>
      rw [hc] at hrd
      have hr : w.readers p = 0 := by simpa [World.readers, ht, Proto.over] using hrd
      rw [if_pos hr]
      simp only [R.bind_ok, hkd]
      exact good_same h (.sendDDead i p b q _ dst data dw fault hsk hdst
        ((dead_iff ht).2 (by rw [hc]; rfl)))
    | dgram b' q' r' =>
      rw [hc] at hrd
      have hrt : t.buf.readers = 1 := by simpa [Proto.over] using hrd
      have hr : w.readers p ≠ 0 := by simp [World.readers, ht, hrt]
      rw [if_neg hr]
      have hth := h.mid.wf.heldD p t b' q' r' ht hc
      have hnd : ¬ Dead (abs w) p := by rw [dead_iff ht, hc]; simp [Proto.over]
      have hfl := flight_dgram h hs hp
      have hskp : (abs w).sock p = some ⟨.dgram, .dgram b' q' (msgsOf r' t.buf.pkts), true⟩ := by
        rw [sock_abs ht, sk_dgram hc hth, htk]
      obtain ⟨hs1, hs2, hs3⟩ := sendLen_spec .dgram w.limit (w.sent i) data.length
      rw [hkd]
      cases e : sendLen .dgram w.limit (w.sent i) data.length with
      | error er =>
        by_cases hag : er = .again
        · subst hag
          have hd : Does (abs w) (.send i dst data dw fault) (orWait (w.nonblock i || dw) (.writable i)) (abs w) :=
            .sendDFull i p b q _ dst data dw fault hsk hdst hnd (by rw [hfl]; exact hs2 e)
          cases hb : (w.nonblock i || dw) <;> rw [hb] at hd <;> exact good_same h hd
        · obtain ⟨rfl, h2⟩ := hs3 er e hag
          simp only [R.bind_ok]
          exact good_same h (.sendDLong i p b q _ dst data dw fault hsk hdst hnd (by rw [hfl]; exact h2))
      | ok len =>
        have hlen : len = data.length := by
          cases hs1 len e with
          | stream h1 => cases h1
          | packet => rfl
        have hle := fits_le (hs1 len e)
        subst hlen
        have hfit : Fits .dgram (abs w).limit (inFlight (abs w) i) data.length data.length := by
          rw [hfl]; exact hs1 _ e
        simp only [write, List.take_length]
        cases hfa : fault.filter (decide <| · < data.length) with
        | some f =>
          obtain ⟨rfl, hf⟩ : fault = some f ∧ f < data.length := by
            cases fault with
            | none => simp at hfa
            | some g =>
              simp only [Option.filter] at hfa
              split at hfa
              · rename_i hx; cases hfa; exact ⟨rfl, by simpa using hx⟩
              · cases hfa
          simp only [R.bind_ok]
          exact good_same h (.sendDFault i p b q _ dst data dw f hsk hdst hnd hfit hf)
        | none =>
          have hsound : Sound fault data.length := by
            rintro f rfl
            simp only [Option.filter] at hfa
            split at hfa
            · cases hfa
            · rename_i hx; simpa using hx
          simp only [R.bind_ok]
          rw [touch_some ht]
          simp only []
          generalize hbf : ({ t.buf with pkts := t.buf.pkts ++ [data] } : Buf α) = bf
          have hisd : isDgram ({ w with
              socks := put w.socks p (some { t with buf := bf.pub })
              cbs := w.cbs ++ heard bf t.buf.st true
              sent := put w.sent i (w.sent i + data.length) } : World α) p = true := by
            simp only [isDgram, put_same, hc]
          rw [hisd, R.assert_true, R.bind_ok]
          rw [mod_some (i := p) (put_same ..), refresh_false, R.bind_ok]
          simp only [put_put, Sock.note, hc]
          generalize hw0 : ({ w with
              socks := put w.socks p (some { t with
                buf := bf.pub, proto := .dgram b' q' (r' ++ [{ src := i, addr := b, len := data.length }]) })
              cbs := w.cbs ++ heard bf t.buf.st true
              sent := put w.sent i (w.sent i + data.length) } : World α) = w0
          have hf := fixed_rest w0 i
          have es : (fixed w0 i).socks = put w.socks p (some { t with
                buf := bf.pub, proto := .dgram b' q' (r' ++ [{ src := i, addr := b, len := data.length }]) }) := by
            rw [hf.1, ← hw0]
          have ec : (fixed w0 i).cbs = heard bf t.buf.st true := by rw [hf.2.2.2.1, ← hw0]; simp [h.idle]
          have hm : Mid (fixed w0 i) (fixed w0 i).cbs := by
            refine mid_sendDgram (d := data) (e := { src := i, addr := b, len := data.length }) h hs hp ht hc rfl rfl
              (by rw [← hbf]) (by rw [← hbf]) ?_ (by rw [← hbf]) hle.2 es (by rw [hf.2.1, ← hw0])
              (by rw [hf.2.2.1, ← hw0]) (by rw [hf.2.2.2.2.2.1, ← hw0]) (by rw [hf.2.2.2.2.1, ← hw0])
              (fun j hj => by rw [fixed_ne _ hj, ← hw0]) ?_ ec
            · rw [← hbf]; exact h.mid.wf.noBytes p t ht (by rw [htk]; simp)
            · intro u hu
              exact fixed_flags (by rw [hf.1] at hu; exact hu)
          refine ⟨_, _, _, rfl, hm, ?_, shape_set es (by rw [hf.2.1, ← hw0]) (by rw [hf.2.2.2.2.2.1, ← hw0])
            (by rw [hf.2.2.2.2.2.2, ← hw0]) ?_, owner_names hm.names (by rw [hf.2.2.1, ← hw0]; rfl)
              (by rw [ec]; intro k n; exact heard_unbind),
            .sendD i p b q b' q' _ _ dst data dw fault hsk hdst hskp hfit hsound⟩
          · exact waiting_put h.queued ht es (.inl rfl) (by simp [hth]) (by simp [hc])
          · simp only [skOf, htk, hth, Buf.pub, ← hbf]
            rw [msgs_append (notes_length h.mid.wf ht hc)]

theorem good_send {w : World α} {i : Nat} {s : Sock α} (h : Inv w) (hs : w.socks i = some s)
    (hh : s.held = true) (dst : Option Addr) (data : List α) (dw : Bool) (fault : Option Nat)
    (hbad : ¬ Bad (abs w) (.send i dst data dw fault)) :
    Good w (.send i dst data dw fault) (send w i s dst data dw fault) := by
  have hsk := sock_abs hs
  unfold send
  split
  · rename_i b hp
    cases dst with
    | none =>
      cases hk : s.kind <;>
        exact good_same h (.sendNot i _ _ data dw fault _ hsk hh (by simp [skOf, hp]))
    | some addr =>
      cases hk : s.kind <;>
        exact good_same h (.sendNot i _ _ data dw fault _ hsk hh (by simp [skOf, hp, hk]))
  · rename_i b a p hp
    have hsk' : (abs w).sock i = some ⟨s.kind, .linked b a p (inboxOf s.kind s.buf), true⟩ := by
      rw [hsk, sk_conn hp, hh]
    have hkd : s.kind ≠ .dgram := by
      intro e
      have := (h.mid.wf.isD i s hs).2 e
      rw [hp] at this; cases this
    cases dst with
    | none => exact good_sendConn h hs hh hp none data dw fault hbad (.inl rfl)
    | some addr =>
      by_cases hf : addr = .foreign
      · subst hf
        exact good_same h (.sendAddr i p s.kind b a _ _ data dw fault _ hsk' (.inl ⟨rfl, rfl⟩))
      · cases hk : s.kind with
        | dgram => exact (hkd hk).elim
        | stream =>
          have : resolve w .stream (some p) (some addr) = .error .isConn := by
            cases addr <;> first | rfl | exact (hf rfl).elim
          simp only [this]
          exact good_same h (.sendAddr i p s.kind b a _ _ data dw fault _ hsk' (.inr ⟨hf, hk, rfl⟩))
        | seq =>
          have : resolve w .seq (some p) (some addr) = .ok p := by
            cases addr <;> first | rfl | exact (hf rfl).elim
          simp only [this]
          exact good_sendConn h hs hh hp _ data dw fault hbad (.inr ⟨by rw [hk]; simp, by simpa using hf⟩)
  · rename_i b q r hp
    have hkd : s.kind = .dgram := (h.mid.wf.isD i s hs).1 (by rw [hp]; rfl)
    have hsk' : (abs w).sock i = some ⟨.dgram, .dgram b q (msgsOf r s.buf.pkts), true⟩ := by
      rw [hsk, sk_dgram hp hh, hkd]
    rw [hkd]
    have go : ∀ p, Dest (abs w) q dst p → (w.socks p).map Sock.kind = some .dgram →
        Good w (.send i dst data dw fault) (sendDgram w i s p b data dw fault) := by
      intro p hd hk
      refine good_sendDgram h hs hh hp dst data dw fault ?_ hd hk
      rintro rfl
      exact hbad (.selfSend p _ _ _ _ _ dst data dw fault hsk' hd)
    cases dst with
    | none =>
      cases q with
      | none => exact good_same h (.sendDNot i b _ _ _ data dw fault _ hsk' (.unconnected rfl))
      | some p => exact go p (.default p rfl) (h.mid.wf.peerD i s b p r hs hp)
    | some addr =>
      cases addr with
      | foreign => exact good_same h (.sendDNot i b _ _ _ data dw fault _ hsk' .foreign)
      | path => exact good_same h (.sendDNot i b _ _ _ data dw fault _ hsk' .path)
      | unnamed => exact good_same h (.sendDNot i b _ _ _ data dw fault _ hsk' .unnamed)
      | name n =>
        simp only [resolve, lookup]
        cases hns : w.ns .dgram n with
        | none => exact good_same h (.sendDNot i b _ _ _ data dw fault _ hsk' (.nobody n hns))
        | some p =>
          obtain ⟨t, ht, hk, _, _⟩ := h.mid.names.found _ _ _ hns
          exact go p (.name n p hns) (by simp [ht, hk])
  · refine good_same h (.sendNot i _ _ data dw fault _ hsk hh ?_)
    have ho := h.mid.wf.held i s hs hh
    cases hp : s.proto <;> simp_all [skOf, Proto.over]

theorem set_self {A : Host α} {i : Nat} {x : Sk α} (h : A.sock i = some x) : A.set i x = A := by
  have : (fun j => if j = i then some x else A.sock j) = A.sock := by
    funext j
    split
    · rename_i e; rw [e, h]
    · rfl
  simp only [Host.set, this]

theorem hasData_false {b : Buf α} (h : b.hasData = false) : b.bytes = [] ∧ b.pkts = [] := by
  simpa [Buf.hasData] using h

/-- The end of a receive from a connection: `n` bytes are gone and the buffer is `bf`. -/
theorem good_recvLink {w : World α} {i p n : Nat} {s : Sock α} {b a : Option Nat} {bf : Buf α}
    {act : Act α} {ret : Ret α} (h : Inv w) (hs : w.socks i = some s) (hh : s.held = true)
    (hp : s.proto = .conn b a p)
    (h1 : bf.readers = s.buf.readers) (h2 : bf.writers = s.buf.writers) (h3 : bf.ears = s.buf.ears)
    (h5 : s.kind = .stream → bf.pkts = []) (h6 : s.kind ≠ .stream → bf.bytes = [])
    (hv : vol s.buf = vol bf + n)
    (hd : Does (abs w) act ret ((abs w).set i ⟨s.kind, .linked b a p (inboxOf s.kind bf), true⟩)) :
    Good w act (refresh (if 0 < n then
        ({ w with socks := put w.socks i (some { s with buf := bf.pub })
                  cbs := w.cbs ++ heard bf s.buf.st false } : World α).queue [.inform p n]
      else { w with socks := put w.socks i (some { s with buf := bf.pub })
                    cbs := w.cbs ++ heard bf s.buf.st false }) i false >>= fun w => .ok (w, ret)) := by
  rw [refresh_false, R.bind_ok]
  generalize hw0 : (if 0 < n then
        ({ w with socks := put w.socks i (some { s with buf := bf.pub })
                  cbs := w.cbs ++ heard bf s.buf.st false } : World α).queue [.inform p n]
      else { w with socks := put w.socks i (some { s with buf := bf.pub })
                    cbs := w.cbs ++ heard bf s.buf.st false }) = w0
  have hf := fixed_rest w0 i
  have f1 : w0.socks = put w.socks i (some { s with buf := bf.pub }) := by rw [← hw0]; split <;> rfl
  have f2 : w0.next = w.next := by rw [← hw0]; split <;> rfl
  have f3 : w0.ns = w.ns := by rw [← hw0]; split <;> rfl
  have f4 : w0.cbs = heard bf s.buf.st false ++ if 0 < n then [.inform p n] else [] := by
    rw [← hw0]; split <;> simp [h.idle]
  have f5 : w0.sent = w.sent := by rw [← hw0]; split <;> rfl
  have f6 : w0.limit = w.limit := by rw [← hw0]; split <;> rfl
  have f7 : w0.nonblock = w.nonblock := by rw [← hw0]; split <;> rfl
  have f8 : w0.flags = w.flags := by rw [← hw0]; split <;> rfl
  have es : (fixed w0 i).socks = put w.socks i (some { s with buf := bf.pub }) := by rw [hf.1, f1]
  have ec : (fixed w0 i).cbs = heard bf s.buf.st false ++ if 0 < n then [.inform p n] else [] := by
    rw [hf.2.2.2.1, f4]
  have hm : Mid (fixed w0 i) (fixed w0 i).cbs := by
    refine mid_recvConn h hs hp h1 h2 h3 h5 h6 hv rfl es (by rw [hf.2.1, f2])
      (by rw [hf.2.2.1, f3]) (by rw [hf.2.2.2.2.2.1, f6]) (by rw [hf.2.2.2.2.1, f5])
      (fun j hj => by rw [fixed_ne _ hj, f8]) ?_ ec
    intro u hu
    exact fixed_flags (by rw [hf.1] at hu; exact hu)
  refine ⟨_, _, _, rfl, hm, ?_, shape_set es (by rw [hf.2.1, f2]) (by rw [hf.2.2.2.2.2.1, f6])
    (by rw [hf.2.2.2.2.2.2, f7]) ?_, owner_names hm.names (by rw [hf.2.2.1, f3]; rfl) ?_, hd⟩
  · exact waiting_put h.queued hs es (.inl rfl) (fun _ => rfl) (fun b q l e => ⟨b, l, e⟩)
  · simp only [skOf, hp, hh]
    cases s.kind <;> rfl
  · rw [ec]
    intro k m hx
    rcases List.mem_append.1 hx with hx | hx
    · exact heard_unbind hx
    · split at hx <;> simp at hx

theorem good_recvConn {w : World α} {i p : Nat} {s : Sock α} {b a : Option Nat} (h : Inv w)
    (hs : w.socks i = some s) (hh : s.held = true) (hp : s.proto = .conn b a p) (room : Nat)
    (dw trunc : Bool) (fault : Option Nat)
    (hbad : ¬ Bad (abs w) (.recv i room dw trunc fault)) :
    Good w (.recv i room dw trunc fault) (recvConn w i s a p room dw trunc fault) := by
  have hsk : (abs w).sock i = some ⟨s.kind, .linked b a p (inboxOf s.kind s.buf), true⟩ := by
    rw [sock_abs hs, sk_conn hp, hh]
  have hkd : s.kind ≠ .dgram := by
    intro e
    have := (h.mid.wf.isD i s hs).2 e
    rw [hp] at this; cases this
  have hsp := h.mid.wf.noPkts i s hs
  have hsb := h.mid.wf.noBytes i s hs
  obtain ⟨hne, t, ht, hk, hcase⟩ := Inv.peer h hs hp
  unfold recvConn commonRecv
  cases hdt : s.buf.hasData with
  | false =>
    obtain ⟨hb0, hp0⟩ := hasData_false hdt
    have hib : inboxOf s.kind s.buf = .none s.kind := inbox_empty hb0 hp0
    rw [hib] at hsk
    rcases hcase with ⟨hc, _, hw⟩ | ⟨⟨b', a', hc⟩, _, hw⟩
    · have hdead : Dead (abs w) p := (dead_iff ht).2 (by rw [hc]; rfl)
      have e1 : (!false && (s.kind == .dgram || decide (0 < s.buf.writers))) = false := by
        simp [hkd, hw]
      have e2 : s.buf.pop room = ([], 0, s.buf) := by
        have : ({ s.buf with bytes := [] } : Buf α) = s.buf := by rw [← hb0]
        simp only [Buf.pop, hp0, hb0, List.take_nil, List.drop_nil, List.length_nil, Nat.min_zero]
        rw [← hp0, this]
      have e3 : fault.filter (decide <| · < ([] : List α).length) = none := by
        cases fault <;> simp [Option.filter]
      simp only [e1, Bool.false_eq_true, if_false, e2, e3]
      rw [touch_some hs]
      have e4 : (s.buf.pop room).2.2 = s.buf := by rw [e2]
      have e5 : (if (trunc && (s.kind != .stream)) = true then 0 else ([] : List α).length) = 0 := by
        split <;> rfl
      have e6 : (trunc && (s.kind != .stream) && decide (([] : List α).length < 0)) = false := by simp
      simp only [e4, e5, e6]
      refine good_recvLink (n := 0) (bf := s.buf) h hs hh hp rfl rfl rfl hsp hsb rfl ?_
      rw [hib, set_self hsk]
      exact .recvEnd i p s.kind b a room dw trunc fault hsk hdead
    · have hnd : ¬ Dead (abs w) p := by rw [dead_iff ht, hc]; simp [Proto.over]
      have e1 : (!false && (s.kind == .dgram || decide (0 < s.buf.writers))) = true := by simp [hw]
      simp only [e1, if_true]
      exact good_same h (.recvWait i p s.kind b a room dw trunc fault hsk hnd)
  | true =>
    simp only [Bool.not_true, Bool.false_and, Bool.false_eq_true, if_false]
    have hpl : (s.buf.pop room).1.length ≤ room := by
      unfold Buf.pop; split <;> simp [List.length_take] <;> omega
    cases hfa : fault.filter (decide <| · < (s.buf.pop room).1.length) with
    | some f =>
      obtain ⟨rfl, hf⟩ : fault = some f ∧ f < (s.buf.pop room).1.length := by
        cases fault with
        | none => simp at hfa
        | some g =>
          simp only [Option.filter] at hfa
          split at hfa
          · rename_i hx; cases hfa; exact ⟨rfl, by simpa using hx⟩
          · cases hfa
      have hgood : s.kind = .stream ∧ f = 0 := by
        refine Classical.byContradiction fun hx => ?_
        exact hbad (.recvFault i _ room dw trunc f hsk (by omega) hx)
      obtain ⟨hks, rfl⟩ := hgood
      have hp0 := hsp hks
      have hw : w.poke i (·.lose 0) = w := by
        rw [poke_some hs]
        simp only [Buf.lose, hp0, List.drop_zero]
        rw [← hp0, ← hs, put_id]
      simp only [hw]
      have hib : inboxOf s.kind s.buf = .stream s.buf.bytes := by rw [hks]; rfl
      rw [hib, hks] at hsk
      refine good_same h (.recvFault i p b a s.buf.bytes room dw trunc hsk ?_ (by omega))
      intro hb; simp [Buf.hasData, hb, hp0] at hdt
    | none =>
      have hsound : ∀ n, (s.buf.pop room).1.length = n → Sound fault n := by
        rintro n rfl f rfl
        simp only [Option.filter] at hfa
        split at hfa
        · cases hfa
        · rename_i hx; simpa using hx
      have hsd : Sound fault room := by
        rintro f rfl
        refine Classical.byContradiction fun hx => ?_
        have hlt : f < room := by omega
        by_cases hg : s.kind = .stream ∧ f = 0
        · obtain ⟨hks, rfl⟩ := hg
          have hb : s.buf.bytes ≠ [] := by
            intro hb; simp [Buf.hasData, hb, hsp hks] at hdt
          have := hsound _ rfl 0 rfl
          simp only [Buf.pop, hsp hks, List.length_take] at this
          have := List.length_pos_iff.2 hb
          omega
        · exact hbad (.recvFault i _ room dw trunc f hsk hlt hg)
      simp only []
      rw [touch_some hs]
      by_cases hks : s.kind = .stream
      · have hp0 := hsp hks
        have hb : s.buf.bytes ≠ [] := by
          intro hb; simp [Buf.hasData, hb, hp0] at hdt
        have hib : inboxOf s.kind s.buf = .stream s.buf.bytes := by rw [hks]; rfl
        have e2 : s.buf.pop room = (s.buf.bytes.take room, min room s.buf.bytes.length,
            { s.buf with bytes := s.buf.bytes.drop room }) := by simp [Buf.pop, hp0]
        have e3 : (s.kind != Kind.stream) = false := by simp [hks]
        simp only [e2, e3, Bool.and_false, Bool.false_eq_true, if_false, Bool.false_and, List.length_take]
        rw [hib] at hsk
        refine good_recvLink (n := min room s.buf.bytes.length)
          (bf := { s.buf with bytes := s.buf.bytes.drop room }) h hs hh hp rfl rfl rfl (fun _ => hp0)
          (fun e => (e hks).elim) ?_ ?_
        · simp only [vol, List.length_drop]; omega
        · have := Does.recvStream i p s.kind b a s.buf.bytes room dw trunc fault hsk hb hsd
          simpa [hks, inboxOf] using this
      · have hb0 := hsb hks
        cases hpk : s.buf.pkts with
        | nil => simp [Buf.hasData, hb0, hpk] at hdt
        | cons d ps =>
          have hib : ∀ bf : Buf α, inboxOf s.kind bf = .packets bf.pkts := by
            intro bf
            cases hx : s.kind <;> first | rfl | exact (hks hx).elim
          have e2 : s.buf.pop room = (d.take room, d.length, { s.buf with pkts := ps }) := by
            simp [Buf.pop, hpk]
          have e3 : (s.kind != Kind.stream) = true := by simp [hks]
          simp only [e2, e3, Bool.and_true, List.length_take]
          rw [hib, hpk] at hsk
          refine good_recvLink (n := d.length) (bf := { s.buf with pkts := ps }) h hs hh hp rfl rfl rfl
            (fun e => (hks e).elim) (fun _ => hb0) ?_ ?_
          · simp only [vol, hpk, List.map_cons, List.sum_cons]; omega
          · have := Does.recvPacket i p s.kind b a d ps room dw trunc fault hsk hsd
            have e4 : decide (room < d.length) = decide (min room d.length < d.length) := by
              apply decide_eq_decide.2; omega
            simpa [hib, packetRet, e4] using this

theorem good_recvDgram {w : World α} {i : Nat} {s : Sock α} {b q : Option Nat} {r : List Entry} (h : Inv w)
    (hs : w.socks i = some s) (hh : s.held = true) (hp : s.proto = .dgram b q r) (room : Nat)
    (dw trunc : Bool) (fault : Option Nat)
    (hbad : ¬ Bad (abs w) (.recv i room dw trunc fault)) :
    Good w (.recv i room dw trunc fault) (recvDgram w i s r room dw trunc fault) := by
  have hkd : s.kind = .dgram := (h.mid.wf.isD i s hs).1 (by rw [hp]; rfl)
  have hsk : (abs w).sock i = some ⟨.dgram, .dgram b q (msgsOf r s.buf.pkts), true⟩ := by
    rw [sock_abs hs, sk_dgram hp hh, hkd]
  have hb0 := h.mid.wf.noBytes i s hs (by rw [hkd]; simp)
  have hnl := notes_length h.mid.wf hs hp
  have hnt := h.mid.wf.notes i s b q r hs hp
  unfold recvDgram commonRecv
  cases hpk : s.buf.pkts with
  | nil =>
    have hr : r = [] := by rw [hpk] at hnl; simpa using hnl
    subst hr
    have hdt : s.buf.hasData = false := by simp [Buf.hasData, hb0, hpk]
    simp only [hdt, hkd, Bool.not_false, beq_self_eq_true, Bool.true_or, Bool.and_self, if_true]
    exact good_same h (.recvDWait i b q room dw trunc fault hsk)
  | cons d ps =>
    cases r with
    | nil => rw [hpk] at hnl; simp at hnl
    | cons e r =>
      have hdt : s.buf.hasData = true := by simp [Buf.hasData, hpk]
      have he : d.length = e.len := by rw [hpk] at hnt; simp at hnt; exact hnt.1
      have e2 : s.buf.pop room = (d.take room, d.length, { s.buf with pkts := ps }) := by
        simp [Buf.pop, hpk]
      have hsd : Sound fault room := by
        rintro f rfl
        refine Classical.byContradiction fun hx => ?_
        exact hbad (.recvFault i _ room dw trunc f hsk (by omega) (by simp))
      have hfa : fault.filter (decide <| · < (d.take room).length) = none := by
        cases fault with
        | none => rfl
        | some f =>
          have := hsd f rfl
          simp only [Option.filter, List.length_take]
          rw [if_neg]
          simp only [decide_eq_true_eq]; omega
      have e3 : (s.kind != Kind.stream) = true := by simp [hkd]
      simp only [hdt, Bool.not_true, Bool.false_and, Bool.false_eq_true, if_false, e2, hfa, e3,
        Bool.and_true]
      simp only [List.length_take, he, beq_self_eq_true, R.assert_true, R.bind_ok]
      rw [touch_some hs, mod_some (i := i) (put_same ..)]
      have e4 : (s.buf.pop room).2.2 = { s.buf with pkts := ps } := by rw [e2]
      simp only [put_put, Sock.notes, hp, e4]
      generalize hbf : ({ s.buf with pkts := ps } : Buf α) = bf
      rw [refresh_false, R.bind_ok]
      generalize hw0 : World.queue _ _ = w0
      have f1 : w0.socks = put w.socks i (some { s with buf := bf.pub, proto := .dgram b q r }) := by rw [← hw0]; rfl
      have f2 : w0.next = w.next := by rw [← hw0]; rfl
      have f3 : w0.ns = w.ns := by rw [← hw0]; rfl
      have f4 : w0.cbs = heard bf s.buf.st false ++ [.inform e.src e.len] := by rw [← hw0]; simp [h.idle]
      have f5 : w0.sent = w.sent := by rw [← hw0]; rfl
      have f6 : w0.limit = w.limit := by rw [← hw0]; rfl
      have f7 : w0.nonblock = w.nonblock := by rw [← hw0]; rfl
      have f8 : w0.flags = w.flags := by rw [← hw0]; rfl
      have hf := fixed_rest w0 i
      have es : (fixed w0 i).socks = _ := hf.1.trans f1
      have ec : (fixed w0 i).cbs = _ := hf.2.2.2.1.trans f4
      have hm : Mid (fixed w0 i) (fixed w0 i).cbs := by
        refine mid_recvDgram (d := d) h hs hp (by rw [← hbf]) (by rw [← hbf]) (by rw [← hbf]; exact hb0)
          (by rw [← hbf]; exact hpk) es (by rw [hf.2.1, f2])
          (by rw [hf.2.2.1, f3]) (by rw [hf.2.2.2.2.2.1, f6]) (by rw [hf.2.2.2.2.1, f5])
          (fun j hj => by rw [fixed_ne _ hj, f8]) ?_ ec
        intro u hu
        exact fixed_flags (by rw [hf.1] at hu; exact hu)
      have hdoes := Does.recvD (A := abs w) i b q ⟨e.src, e.addr, d⟩ (msgsOf r ps) room dw trunc fault
        (by rw [hsk, hpk]; rfl) hsd
      have e5 : decide (room < e.len) = decide (min room e.len < e.len) := by
        apply decide_eq_decide.2; omega
      refine ⟨_, _, _, rfl, hm, ?_, shape_set es (by rw [hf.2.1, f2]) (by rw [hf.2.2.2.2.2.1, f6])
        (by rw [hf.2.2.2.2.2.2, f7]) (k := ⟨.dgram, .dgram b q (msgsOf r ps), true⟩) ?_,
        owner_names hm.names (by rw [hf.2.2.1, f3]; rfl) ?_, ?_⟩
      · exact waiting_put h.queued hs es (.inl rfl) (by simp [hh]) (by simp [hp])
      · simp [skOf, hkd, hh, ← hbf, Buf.pub]
      · rw [ec]
        intro k m hx
        rcases List.mem_append.1 hx with hx | hx
        · exact heard_unbind hx
        · simp at hx
      · simpa [packetRet, e5, he] using hdoes

theorem good_recv {w : World α} {i : Nat} {s : Sock α} (h : Inv w) (hs : w.socks i = some s)
    (hh : s.held = true) (room : Nat) (dw trunc : Bool) (fault : Option Nat)
    (hbad : ¬ Bad (abs w) (.recv i room dw trunc fault)) :
    Good w (.recv i room dw trunc fault) (recv w i s room dw trunc fault) := by
  have hsk := sock_abs hs
  unfold recv
  split
  · rename_i b hp
    refine good_same h (.recvNot i _ room dw trunc fault _ hsk hh ?_)
    simp only [skOf, hp]
    cases s.kind <;> rfl
  · rename_i hp; exact good_recvConn h hs hh hp room dw trunc fault hbad
  · rename_i hp; exact good_recvDgram h hs hh hp room dw trunc fault hbad
  · refine good_same h (.recvNot i _ room dw trunc fault _ hsk hh ?_)
    have ho := h.mid.wf.held i s hs hh
    cases hp : s.proto <;> simp_all [skOf, Proto.over]

end Shadow.Unix
