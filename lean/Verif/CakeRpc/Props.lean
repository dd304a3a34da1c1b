import Verif.CakeRpc.Lemmas

/-!
# Properties: remote procedure calls served by a component in CakeML (C94, C95)
-/

namespace Verif.CakeRpc

open Marshal (Byte enc dec)

theorem client_ok {ws : Nat} (hw : WordSize ws) : Marshal.EnvOk (client ws) := by
  rcases hw with rfl | rfl <;> exact ⟨by decide, by decide⟩

theorem idBytes_eq {n : Nat} (h1 : 1 < n) (h2 : n ≤ 2 ^ 64) : Marshal.indexBytes n = idBytes n := by
  unfold Marshal.indexBytes idBytes Macros.typeToFit
  rw [if_pos h1]
  split
  · rfl
  · split
    · rfl
    · split
      · rfl
      · rfl

theorem proper_of_fits {ws : Nat} {t : Ty} {v : Val} (h : Fits t v) : Marshal.Proper (client ws) t.c (v.c t) := by
  cases t with
  | int sz =>
    cases v with
    | int n => exact Marshal.enc_length _ _
    | string s => cases h
  | string =>
    cases v with
    | int n => cases h
    | string s => exact h

theorem proper_inC {ws : Nat} {ps : List (Ty × Val)} (h : ∀ p ∈ ps, Fits p.1 p.2) :
    ∀ p ∈ inC ps, Marshal.Proper (client ws) p.1 p.2 := by
  intro p hp
  obtain ⟨q, hq, rfl⟩ := List.mem_map.mp hp
  exact proper_of_fits (h q hq)

theorem size_small {ws : Nat} (hw : WordSize ws) : 120 * ws + 1 < (client ws).U := by
  rcases hw with rfl | rfl <;> decide

/-- What a client that has called a method sends. -/
theorem sent_bytes {ws : Nat} (hw : WordSize ws) {n index : Nat} {args : List (Ty × Val)} (hargs : ∀ p ∈ args, Fits p.1 p.2)
    {o o' : Marshal.Out} {len : Nat} (hsend : Marshal.marshalInputs (client ws) n index (120 * ws) o (inC args) = .ok (o', len)) :
    ∃ r, Marshal.bytesOf o' (Marshal.sentLength (client ws) false (120 * ws) len) =
        Marshal.wireIndex n index ++ (inC args).flatMap (fun p => Marshal.wire (client ws) p.2) ++ r ∧
      (Marshal.bytesOf o' (Marshal.sentLength (client ws) false (120 * ws) len)).length ≤ 120 * ws := by
  obtain ⟨s1, s2⟩ := Marshal.marshalInputs_spec (client_ok hw) n index (120 * ws) (size_small hw) o (inC args) (proper_inC hargs)
  by_cases hle : (Marshal.wireIndex n index ++ (inC args).flatMap (fun p => Marshal.wire (client ws) p.2)).length ≤ 120 * ws
  · obtain ⟨o2, h1, h2, _⟩ := s1 hle
    rw [hsend] at h1
    cases h1
    have hb := Marshal.sentLength_bounds (client_ok hw) false (120 * ws) _ ⟨120, by simp [client, Nat.mul_comm]⟩ hle
    obtain ⟨r, hr⟩ := Marshal.bytesOf_prefix o' _ _ hb.1 h2
    refine ⟨r, hr, ?_⟩
    simp only [Marshal.bytesOf, List.length_map, List.length_range]
    exact hb.2
  · obtain ⟨o2, h1, _⟩ := s2 (by omega)
    rw [hsend] at h1
    cases h1

/-- C94, the way there: when a client in C calls a method with arguments that it can represent, and its stub sends the
message, then the component in CakeML calls the implementation of this method for the type of the interface of this
client, with these arguments, whatever was in its array before. The badges of different types are different (C35). -/
theorem call_delivered [DecidableEq τ] {ws : Nat} (hw : WordSize ws) (ends : List (End τ)) (methods : τ → List Method) (ep : Int)
    (b : Buf) (hb : b.length = bsize ws) (e : End τ) (he : e ∈ ends) (hd : ∀ e' ∈ ends, e'.badge = e.badge → e'.type = e.type)
    (hbadge : e.badge < 2 ^ (8 * ws)) (hmax : (methods e.type).length ≤ 2 ^ 64) (index : Nat) (m : Method)
    (hm : (methods e.type)[index]? = some m) (args : List (Ty × Val)) (hins : args.map (·.1) = m.ins)
    (hargs : ∀ p ∈ args, Fits p.1 p.2) (o o' : Marshal.Out) (len : Nat)
    (hsend : Marshal.marshalInputs (client ws) (methods e.type).length index (120 * ws) o (inC args) = .ok (o', len)) :
    ∃ b', b'.length = bsize ws ∧
      accept ws ends methods b ep (Marshal.bytesOf o' (Marshal.sentLength (client ws) false (120 * ws) len)) e.badge =
        .ok (b', e.type, index, args.map (·.2)) := by
  obtain ⟨r, hmsg, hlen⟩ := sent_bytes hw hargs hsend
  generalize Marshal.bytesOf o' (Marshal.sentLength (client ws) false (120 * ws) len) = msg at hmsg hlen
  obtain ⟨b', r', hr, hbl, hdrop⟩ := recv_ok b ep msg e.badge hb hw hlen hbadge
  refine ⟨b', hbl, ?_⟩
  have hlt : index < (methods e.type).length := by
    by_contra hge
    rw [List.getElem?_eq_none (by omega)] at hm
    cases hm
  unfold accept
  rw [hr]
  simp only
  unfold dispatch
  rw [typeOf_end he hd]
  simp only
  by_cases hn : (methods e.type).length ≤ 1
  · have h0 : index = 0 := by omega
    subst h0
    rw [if_pos hn, if_pos hn]
    simp only [hm]
    have hwi : Marshal.wireIndex (methods e.type).length 0 = [] := by
      unfold Marshal.wireIndex; rw [if_neg (by omega)]
    rw [hmsg, hwi, List.nil_append, List.append_assoc] at hdrop
    rw [← hins, unmarshalAll_at b' ws args (reserved ws) _ hargs (by rw [hbl]; unfold reserved bsize; omega) hdrop]
  · rw [if_neg hn, if_neg hn]
    have hwi : Marshal.wireIndex (methods e.type).length index = enc (idBytes (methods e.type).length) index := by
      unfold Marshal.wireIndex; rw [if_pos (by omega), idBytes_eq (by omega) hmax]
    have hel := Marshal.enc_length (idBytes (methods e.type).length) index
    rw [hmsg, hwi, List.append_assoc, List.append_assoc] at hdrop
    have hl := congrArg List.length hdrop
    simp only [List.length_drop, List.length_append, hel] at hl
    have hpos : reserved ws + 120 * ws = bsize ws := by unfold reserved bsize; omega
    have hid : bytesToInt b' (reserved ws) (idBytes (methods e.type).length) = .ok index := by
      rw [bytesToInt_eq (by omega), hdrop, List.take_left' hel, Marshal.dec_enc]
      rw [← idBytes_eq (by omega) hmax]
      exact Marshal.index_fits _ hmax _ hlt
    rw [hid]
    simp only [hm]
    have hd2 : b'.drop (reserved ws + idBytes (methods e.type).length) =
        (inC args).flatMap (fun p => Marshal.wire (client ws) p.2) ++ (r ++ r') := by
      rw [← List.drop_drop, hdrop, List.drop_left' hel]
    rw [← hins, unmarshalAll_at b' ws args _ _ hargs (by omega) hd2]

theorem bytesOf_memcpy (ipc : Nat → Byte) (bytes : List Byte) (i : Nat) (h : i < bytes.length) :
    (Marshal.memcpy ⟨ipc, 0⟩ 0 bytes).mem i = bytes[i] := by
  have := (Marshal.memcpy_wrote ⟨ipc, 0⟩ 0 bytes).2 i h
  simpa using this

/-- C94, the way back: when the implementation returns results that C can represent and that fit into a message, then
the stub of the client returns exactly these, or reports that it has no memory for a string. -/
theorem results_returned_partial {ws : Nat} (hw : WordSize ws) (b : Buf) (hb : b.length = bsize ws) (ep : Int) (m : Method)
    (results : List Val) (hlen : results.length = (m.ret.toList ++ m.outs).length)
    (hfits : ∀ p ∈ (m.ret.toList ++ m.outs).zip results, Fits p.1 p.2)
    (hsize : ((inC ((m.ret.toList ++ m.outs).zip results)).flatMap (fun p => Marshal.wire (client ws) p.2)).length ≤ 120 * ws)
    (ipc : Nat → Byte) (malloc : Nat → Bool) :
    ∃ b' sent, answer ws b ep m results ipc = .ok (b', sent) ∧ b'.length = bsize ws ∧
      (Marshal.unmarshalOutputs (client ws) malloc false sent (m.ret.map Ty.c) (m.outs.map Ty.c) =
          .ok ((inC ((m.ret.toList ++ m.outs).zip results)).map (·.2)) ∨
        (Marshal.unmarshalOutputs (client ws) malloc false sent (m.ret.map Ty.c) (m.outs.map Ty.c) = .error .noMemory ∧
          ∃ n, malloc n = false)) := by
  generalize hps : (m.ret.toList ++ m.outs).zip results = ps at hfits hsize
  have hroom : reserved ws + ((inC ps).flatMap (fun p => Marshal.wire (client ws) p.2)).length ≤ b.length := by
    rw [hb]; unfold reserved bsize; omega
  unfold answer
  rw [hps, marshalAll_fits ws ps b (reserved ws) hfits hroom]
  simp only
  have hcast : ((reserved ws + ((inC ps).flatMap (fun p => Marshal.wire (client ws) p.2)).length : Nat) : Int) - (reserved ws : Int) =
      (((inC ps).flatMap (fun p => Marshal.wire (client ws) p.2)).length : Int) := by omega
  rw [hcast]
  obtain ⟨b', hs, hbl⟩ := send_ok (over b (reserved ws) ((inC ps).flatMap (fun p => Marshal.wire (client ws) p.2))) ep _ ipc
    (by rw [over_length hroom, hb]) hw hsize
  refine ⟨b', _, hs, hbl, ?_⟩
  rw [over_drop (by omega), List.take_left]
  have hts : (m.ret.map Ty.c).toList ++ m.outs.map Ty.c = (inC ps).map (·.1) := by
    have h1 : (inC ps).map (·.1) = (ps.map (·.1)).map Ty.c := by simp [inC]
    rw [h1, ← hps, List.map_fst_zip (by omega)]
    cases m.ret <;> simp
  unfold Marshal.unmarshalOutputs
  rw [hts]
  have := Marshal.from_complete (client_ok hw) malloc false [] (inC ps) (proper_inC hfits) (120 * ws) (size_small hw)
    ⟨120, by simp [client, Nat.mul_comm]⟩
    (Marshal.memcpy ⟨ipc, 0⟩ 0 ((inC ps).flatMap (fun p : Marshal.Ty × Marshal.Val => Marshal.wire (client ws) p.2)))
    hsize (fun i h => bytesOf_memcpy ipc ((inC ps).flatMap (fun p : Marshal.Ty × Marshal.Val => Marshal.wire (client ws) p.2)) i h)
  exact this

/-- The arrays of the loop keep their length. -/
theorem accept_length [DecidableEq τ] {ws : Nat} {ends : List (End τ)} {methods : τ → List Method} {b b' : Buf} {ep : Int}
    {msg : List Byte} {badge : Nat} {t : τ} {i : Nat} {vs : List Val} (hb : b.length = bsize ws)
    (h : accept ws ends methods b ep msg badge = .ok (b', t, i, vs)) : b'.length = bsize ws := by
  unfold accept at h
  cases hr : recv ws b ep msg badge with
  | error e => rw [hr] at h; cases h
  | ok q =>
    obtain ⟨b1, len, bg⟩ := q
    rw [hr] at h
    simp only at h
    cases hd : dispatch ws ends methods b1 bg with
    | error e => rw [hd] at h; cases h
    | ok x =>
      obtain ⟨t', i', vs'⟩ := x
      rw [hd] at h
      simp only [Except.ok.injEq, Prod.mk.injEq] at h
      obtain ⟨rfl, _⟩ := h
      unfold recv at hr
      cases h1 : put .subscript b 1 (intToBytes ep ws) with
      | error e => rw [h1] at hr; cases hr
      | ok c =>
        rw [h1] at hr
        simp only at hr
        cases h2 : put .overrun c 0 (0 :: (enc ws msg.length ++ enc ws badge ++ msg)) with
        | error e => rw [h2] at hr; cases hr
        | ok c2 =>
          rw [h2] at hr
          simp only at hr
          cases h3 : bytesToInt c2 1 ws with
          | error e => rw [h3] at hr; cases hr
          | ok l =>
            rw [h3] at hr
            simp only at hr
            cases h4 : bytesToInt c2 (1 + ws) ws with
            | error e => rw [h4] at hr; cases hr
            | ok g =>
              rw [h4] at hr
              simp only [Except.ok.injEq, Prod.mk.injEq] at hr
              obtain ⟨rfl, _⟩ := hr
              rw [(put_length h2).1, (put_length h1).1, hb]

theorem unmarshalAll_fail (b : Buf) : ∀ (ts : List Ty) (off : Nat) (e : Stop), unmarshalAll b off ts = .error e → e = .subscript := by
  intro ts
  induction ts with
  | nil => intro off e h; cases h
  | cons t ts ih =>
    intro off e h
    rw [unmarshalAll] at h
    cases hu : unmarshal b off t with
    | error e' =>
      rw [hu] at h
      cases h
      cases t with
      | int sz =>
        simp only [unmarshal, bytesToInt] at hu
        cases hb : bytesLoop b off sz 0 with
        | error e2 => rw [hb] at hu; cases hu; exact bytesLoop_fail _ _ _ _ _ hb
        | ok n => rw [hb] at hu; cases hu
      | string =>
        simp only [unmarshal, readCString] at hu
        cases hb : nulIdx b b.length (b.length + 2) off with
        | error e2 => rw [hb] at hu; cases hu; exact nulIdx_fail _ _ _ _ _ hb
        | ok n => rw [hb] at hu; cases hu
    | ok q =>
      obtain ⟨v, off1⟩ := q
      rw [hu] at h
      simp only at h
      cases hr : unmarshalAll b off1 ts with
      | error e' => rw [hr] at h; cases h; exact ih _ _ hr
      | ok vs => rw [hr] at h; cases h

theorem marshalAll_fail : ∀ (ps : List (Ty × Val)) (b : Buf) (off : Nat) (e : Stop), marshalAll b off ps = .error e → e = .subscript := by
  intro ps
  induction ps with
  | nil => intro b off e h; cases h
  | cons p ps ih =>
    obtain ⟨t, v⟩ := p
    intro b off e h
    rw [marshalAll] at h
    cases hu : marshal b off v t with
    | error e' =>
      rw [hu] at h
      cases h
      have hput : ∀ (b : Buf) (off : Nat) (bs : List Byte) e', put .subscript b off bs = .error e' → e' = .subscript := by
        intro b off bs e' h
        unfold put at h
        split at h
        · cases h
        · cases h; rfl
      cases t with
      | int sz =>
        cases v with
        | string s => simp only [marshal, Except.error.injEq] at hu; exact hu.symm
        | int n =>
          simp only [marshal] at hu
          cases hp : put .subscript b off (intToBytes n sz) with
          | error e2 => rw [hp] at hu; cases hu; exact hput _ _ _ _ hp
          | ok _ => rw [hp] at hu; cases hu
      | string =>
        cases v with
        | int n => simp only [marshal, Except.error.injEq] at hu; exact hu.symm
        | string s =>
          simp only [marshal] at hu
          split at hu
          · cases hu; rfl
          · generalize (if s.length ≤ b.length - off - 1 then s.length else b.length - off - 1) = n at hu
            cases hp : put .subscript b off (s.take n) with
            | error e2 => rw [hp] at hu; cases hu; exact hput _ _ _ _ hp
            | ok b2 =>
              rw [hp] at hu
              simp only at hu
              cases hq : put .subscript b2 (off + n) [0] with
              | error e2 => rw [hq] at hu; cases hu; exact hput _ _ _ _ hq
              | ok _ => rw [hq] at hu; cases hu
    | ok q =>
      obtain ⟨b1, off1⟩ := q
      rw [hu] at h
      exact ih _ _ _ h

/-- One round, for every message the kernel can carry: the C code never leaves the arrays, and what is sent has at most 120 words. -/
theorem round_safe [DecidableEq τ] {ws : Nat} (hw : WordSize ws) (ends : List (End τ)) (methods : τ → List Method) (ep : Int)
    (b : Buf) (hb : b.length = bsize ws) (ev : Event τ) (hmsg : ev.msg.length ≤ 120 * ws) (hbadge : ev.badge < 2 ^ (8 * ws)) :
    (∀ e, round ws ends methods ep b ev = .error e → e ≠ .overrun) ∧
    (∀ b' called sent, round ws ends methods ep b ev = .ok (b', called, sent) → b'.length = bsize ws ∧ sent.length ≤ 120 * ws) := by
  obtain ⟨b1, r1, hr, hbl1, _⟩ := recv_ok b ep ev.msg ev.badge hb hw hmsg hbadge
  have hacc : (∀ e, accept ws ends methods b ep ev.msg ev.badge = .error e → e ≠ .overrun) := by
    intro e h
    unfold accept at h
    rw [hr] at h
    simp only at h
    cases hd : dispatch ws ends methods b1 ev.badge with
    | ok x => rw [hd] at h; cases h
    | error e' =>
      rw [hd] at h
      cases h
      unfold dispatch at hd
      cases ht : typeOf ends ev.badge with
      | none => rw [ht] at hd; cases hd; exact fun h => (by cases h)
      | some t =>
        rw [ht] at hd
        simp only at hd
        cases hi : (if (methods t).length ≤ 1 then Except.ok 0 else bytesToInt b1 (reserved ws) (idBytes (methods t).length)) with
        | error e2 =>
          rw [hi] at hd
          cases hd
          split at hi
          · cases hi
          · rw [bytesLoop_fail _ _ _ _ _ hi]; exact fun h => (by cases h)
        | ok i =>
          rw [hi] at hd
          simp only at hd
          cases hm : (methods t)[i]? with
          | none => rw [hm] at hd; cases hd; exact fun h => (by cases h)
          | some m =>
            rw [hm] at hd
            simp only at hd
            cases hu : unmarshalAll b1 (if (methods t).length ≤ 1 then reserved ws else reserved ws + idBytes (methods t).length) m.ins with
            | error e2 => rw [hu] at hd; cases hd; rw [unmarshalAll_fail _ _ _ _ hu]; exact fun h => (by cases h)
            | ok vs => rw [hu] at hd; cases hd
  unfold round
  cases ha : accept ws ends methods b ep ev.msg ev.badge with
  | error e => exact ⟨fun e' h => (by cases h; exact hacc _ ha), fun _ _ _ h => (by cases h)⟩
  | ok q =>
    obtain ⟨b2, t, i, vs⟩ := q
    have hb2 := accept_length hb ha
    simp only
    cases hm : (methods t)[i]? with
    | none => exact ⟨fun e' h => (by cases h; exact fun h => (by cases h)), fun _ _ _ h => (by cases h)⟩
    | some m =>
      simp only
      unfold answer
      cases hml : marshalAll b2 (reserved ws) ((m.ret.toList ++ m.outs).zip (ev.impl t i vs)) with
      | error e =>
        simp only
        exact ⟨fun e' h => (by cases h; rw [marshalAll_fail _ _ _ _ hml]; exact fun h => (by cases h)), fun _ _ _ h => (by cases h)⟩
      | ok q =>
        obtain ⟨b3, off⟩ := q
        obtain ⟨l1, l2, l3⟩ := marshalAll_length _ _ _ _ _ hml (by rw [hb2]; unfold reserved bsize; omega)
        have hoff : off - reserved ws ≤ 120 * ws := by
          rw [hb2] at l3; unfold reserved bsize at *; omega
        have hcast : (off : Int) - (reserved ws : Int) = ((off - reserved ws : Nat) : Int) := by omega
        obtain ⟨b4, hs, hbl⟩ := send_ok b3 ep (off - reserved ws) ev.ipc (by omega) hw hoff
        simp only
        rw [hcast, hs]
        simp only
        refine ⟨fun e' h => (by cases h), fun b' c s h => ?_⟩
        simp only [Except.ok.injEq, Prod.mk.injEq] at h
        obtain ⟨rfl, _, rfl⟩ := h
        refine ⟨hbl, ?_⟩
        simp only [List.length_map, List.length_range]
        have hdiv : (off - reserved ws + ws - 1) / ws ≤ 120 := by
          have hpos : 0 < ws := by rcases hw with rfl | rfl <;> decide
          apply Nat.le_of_lt_succ
          rw [Nat.div_lt_iff_lt_mul hpos]
          rw [Nat.succ_mul]
          omega
        exact Nat.mul_le_mul_right ws hdiv

/-- C95: whatever messages arrive, and whatever the implementation returns, the C code never accesses memory outside of
the array and of the IPC buffer, in any history; and no reply has more than 120 words. -/
theorem never_overruns [DecidableEq τ] {ws : Nat} (hw : WordSize ws) (ends : List (End τ)) (methods : τ → List Method) (ep : Int)
    (evs : List (Event τ)) (hevs : ∀ ev ∈ evs, ev.msg.length ≤ 120 * ws ∧ ev.badge < 2 ^ (8 * ws)) :
    (serve ws ends methods ep (start ws) evs).2 ≠ .error .overrun ∧
    ∀ r ∈ (serve ws ends methods ep (start ws) evs).1, r.2.length ≤ 120 * ws := by
  have key : ∀ (evs : List (Event τ)) (b : Buf), b.length = bsize ws → (∀ ev ∈ evs, ev.msg.length ≤ 120 * ws ∧ ev.badge < 2 ^ (8 * ws)) →
      (serve ws ends methods ep b evs).2 ≠ .error .overrun ∧ ∀ r ∈ (serve ws ends methods ep b evs).1, r.2.length ≤ 120 * ws := by
    intro evs
    induction evs with
    | nil => intro b _ _; exact ⟨fun h => (by cases h), fun r hr => (by simp [serve] at hr)⟩
    | cons ev evs ih =>
      intro b hb h
      obtain ⟨s1, s2⟩ := round_safe hw ends methods ep b hb ev (h ev (by simp)).1 (h ev (by simp)).2
      rw [serve]
      cases hr : round ws ends methods ep b ev with
      | error e => exact ⟨fun h => (by cases h; exact s1 _ hr rfl), fun r hr => (by simp at hr)⟩
      | ok q =>
        obtain ⟨b', called, sent⟩ := q
        obtain ⟨l1, l2⟩ := s2 _ _ _ hr
        obtain ⟨i1, i2⟩ := ih b' l1 (fun ev hev => h ev (by simp [hev]))
        refine ⟨i1, ?_⟩
        intro r hr
        simp only [List.mem_cons] at hr
        rcases hr with rfl | hr
        · exact l2
        · exact i2 r hr
  exact key evs _ (by simp [start]) hevs

/-- C95: a message through a capability that no client has, or with a method that does not exist, is never handed to an
implementation; it ends the component. -/
theorem unknown_refused [DecidableEq τ] {ws : Nat} (hw : WordSize ws) (ends : List (End τ)) (methods : τ → List Method) (ep : Int)
    (b : Buf) (hb : b.length = bsize ws) (msg : List Byte) (hmsg : msg.length ≤ 120 * ws) (badge : Nat) (hbadge : badge < 2 ^ (8 * ws)) :
    ((∀ e ∈ ends, e.badge ≠ badge) → accept ws ends methods b ep msg badge = .error .badge) ∧
    (∀ t, typeOf ends badge = some t → 1 < (methods t).length → (methods t).length ≤ 2 ^ 64 → ∀ (x r : List Byte), msg = x ++ r →
      x.length = idBytes (methods t).length → (methods t).length ≤ dec x → accept ws ends methods b ep msg badge = .error .method) := by
  obtain ⟨b1, r1, hr, hbl1, hdrop⟩ := recv_ok b ep msg badge hb hw hmsg hbadge
  constructor
  · intro h
    unfold accept
    rw [hr]
    simp only
    unfold dispatch
    rw [typeOf_none h]
  · intro t ht hn hmax x r hx hxl hge
    unfold accept
    rw [hr]
    simp only
    unfold dispatch
    rw [ht]
    simp only
    rw [if_neg (by omega)]
    rw [hx, List.append_assoc] at hdrop
    have hl := congrArg List.length hdrop
    simp only [List.length_drop, List.length_append] at hl
    have hml : x.length + r.length ≤ 120 * ws := by rw [hx, List.length_append] at hmsg; exact hmsg
    have hid : bytesToInt b1 (reserved ws) (idBytes (methods t).length) = .ok (dec x) := by
      have hpos : 0 < idBytes (methods t).length := by
        unfold idBytes
        split
        · decide
        · split
          · decide
          · split
            · decide
            · decide
      rw [bytesToInt_eq (by omega), hdrop, List.take_left' hxl]
    rw [hid]
    simp only
    rw [List.getElem?_eq_none hge]

/-- C94: which parameters are accepted: no arrays; unsigned numbers, whose size is that of C, and strings. -/
theorem supported_types (type : String) (array : Bool) (t : Ty) : tyOf type array = some t ↔
    array = false ∧ ((∃ bits ∈ [8, 16, 32, 64], type = "uint" ++ toString bits ++ "_t" ∧ t = .int (bits / 8)) ∨
      (type = "string" ∧ t = .string)) := by
  have e8 : "uint" ++ toString 8 ++ "_t" = "uint8_t" := by decide
  have e16 : "uint" ++ toString 16 ++ "_t" = "uint16_t" := by decide
  have e32 : "uint" ++ toString 32 ++ "_t" = "uint32_t" := by decide
  have e64 : "uint" ++ toString 64 ++ "_t" = "uint64_t" := by decide
  simp only [List.mem_cons, List.not_mem_nil, or_false, exists_eq_or_imp, exists_eq_left, e8, e16, e32, e64]
  cases array with
  | true => simp [tyOf]
  | false =>
    unfold tyOf
    simp only [Bool.false_eq_true, if_false, true_and]
    by_cases h1 : type = "uint8_t"
    · subst h1; simp [eq_comm]
    · rw [if_neg h1]
      by_cases h2 : type = "uint16_t"
      · subst h2; simp [eq_comm]
      · rw [if_neg h2]
        by_cases h3 : type = "uint32_t"
        · subst h3; simp [eq_comm]
        · rw [if_neg h3]
          by_cases h4 : type = "uint64_t"
          · subst h4; simp [eq_comm]
          · rw [if_neg h4]
            by_cases h5 : type = "string"
            · subst h5; simp [eq_comm]
            · rw [if_neg h5]
              simp [h1, h2, h3, h4, h5]

/-! ### Disagreements -/

/-- An interface with one method `uint8_t f(in uint8_t x)`. -/
def byteMethod : Method := ⟨[.int 1], some (.int 1), []⟩

/-- An implementation that returns its argument. -/
def echo : Unit → Nat → List Val → List Val := fun _ _ vs => vs

set_option maxRecDepth 100000 in
/-- **Disagreement with C95.** A message that is too short is not refused: the arguments are taken from what an earlier
message, of another client, has left in the array. Here the second client sends an empty message and gets as its
argument, and as its reply, the byte that the first one had sent. -/
theorem short_message_accepted :
    ((serve 4 [⟨(), 1⟩, ⟨(), 2⟩] (fun _ => [byteMethod]) 5 (start 4)
      [⟨[77, 0, 0, 0], 1, echo, fun _ => 0⟩, ⟨[], 2, echo, fun _ => 0⟩]).1) =
      [(((), 0, [.int 77]), [77, 0, 0, 0]), (((), 0, [.int 77]), [77, 0, 0, 0])] := by
  rfl

set_option maxRecDepth 100000 in
/-- **Disagreement with C94.** A result that does not fit its type is not refused: 300 arrives as 44. -/
theorem wraps_silently :
    (answer 4 (start 4) 5 byteMethod [.int 300] (fun _ => 0)).toOption.map (fun r => r.2) = some [44, 0, 0, 0] := by
  rfl

set_option maxRecDepth 4000 in
/-- **Disagreement with C95.** The end of the last word of a reply is not written: the client gets what was in the IPC buffer
of the component, here nines. -/
theorem padding_leaks :
    (answer 4 (start 4) 5 byteMethod [.int 44] (fun _ => 9)).toOption.map (fun r => r.2) = some [44, 9, 9, 9] := by
  rfl

/-- **Disagreement with C94.** A string that does not fit is not refused: it is cut at the end of the array. -/
theorem long_string_cut (b : Buf) (off : Nat) (s : List Byte) (hoff : off + 1 ≤ b.length) (hlong : b.length - off - 1 < s.length) :
    marshal b off (.string s) .string = .ok (b.take off ++ s.take (b.length - off - 1) ++ [0], b.length) := by
  simp only [marshal]
  rw [if_neg (by omega), if_neg (by omega)]
  have hl : (s.take (b.length - off - 1)).length = b.length - off - 1 := by rw [List.length_take]; omega
  rw [put_ok _ (by omega)]
  simp only
  have hx := over_length (b := b) (off := off) (bytes := s.take (b.length - off - 1)) (by omega)
  rw [put_ok _ (by rw [hx]; simp; omega)]
  have hov : off + (b.length - off - 1) = off + (s.take (b.length - off - 1)).length := by omega
  rw [hov, over_over (by omega)]
  simp only [Except.ok.injEq, Prod.mk.injEq]
  constructor
  · unfold over
    rw [List.drop_eq_nil_of_le (by simp; omega)]
    simp
  · omega

/-! ### Examples -/

/-- Two clients with different interfaces. -/
def demoEnds : List (End Nat) := [⟨0, 3⟩, ⟨1, 5⟩, ⟨0, 9⟩]

/-- `uint32_t length(in string s)`, and an interface with three methods. -/
def demoMethods : Nat → List Method
  | 0 => [⟨[.string], some (.int 4), []⟩]
  | _ => [⟨[], none, []⟩, ⟨[.int 2, .string], none, [.int 8, .string]⟩, ⟨[.int 1], none, []⟩]

example : typeOf demoEnds 9 = some 0 ∧ typeOf demoEnds 5 = some 1 ∧ typeOf demoEnds 4 = none := by decide

/-- The arguments of a call of the second method of the second interface. -/
def demoArgs : List (Ty × Val) := [(.int 2, .int 770), (.string, .string [104, 105])]

theorem demoArgs_fit : ∀ p ∈ demoArgs, Fits p.1 p.2 := by
  intro p hp
  simp only [demoArgs, List.mem_cons, List.not_mem_nil, or_false] at hp
  rcases hp with rfl | rfl
  · exact ⟨by decide, by decide⟩
  · show (0 : Byte) ∉ [104, 105]; decide

/-- The hypotheses of `call_delivered` can be met. -/
example : ∃ o' len, Marshal.marshalInputs (client 8) 3 1 960 ⟨fun _ => 7, 0⟩ (inC demoArgs) = .ok (o', len) ∧
    ∃ b', accept 8 demoEnds demoMethods (start 8) 5 (Marshal.bytesOf o' (Marshal.sentLength (client 8) false 960 len)) 5 =
      .ok (b', 1, 1, [.int 770, .string [104, 105]]) := by
  obtain ⟨h1, -⟩ := Marshal.marshalInputs_spec (client_ok (.inr rfl)) 3 1 960 (by decide) ⟨fun _ => 7, 0⟩ (inC demoArgs)
    (proper_inC demoArgs_fit)
  obtain ⟨o', h, _⟩ := h1 (by decide)
  refine ⟨o', _, h, ?_⟩
  obtain ⟨b', _, hb'⟩ := call_delivered (ws := 8) (.inr rfl) demoEnds demoMethods 5 (start 8) (by simp [start]) ⟨1, 5⟩ (by decide)
    (by decide) (by decide) (by decide) 1 ⟨[.int 2, .string], none, [.int 8, .string]⟩ rfl demoArgs rfl demoArgs_fit _ _ _ h
  exact ⟨b', hb'⟩

/-- The hypotheses of `results_returned_partial` can be met. -/
example : ∃ b' sent, answer 8 (start 8) 5 ⟨[], none, [.int 8, .string]⟩ [.int (2 ^ 40), .string [65]] (fun _ => 1) = .ok (b', sent) ∧
    Marshal.unmarshalOutputs (client 8) (fun _ => true) false sent none [.scalar 8, .string] =
      .ok [.scalar (enc 8 (2 ^ 40)), .string [65]] := by
  obtain ⟨b', sent, h1, _, h2⟩ := results_returned_partial (ws := 8) (.inr rfl) (start 8) (by simp [start]) 5 ⟨[], none, [.int 8, .string]⟩
    [.int (2 ^ 40), .string [65]] rfl (by
      intro p hp
      simp only [Option.toList_none, List.nil_append, List.zip_cons_cons, List.zip_nil_right, List.mem_cons, List.not_mem_nil, or_false] at hp
      rcases hp with rfl | rfl
      · exact ⟨by decide, by decide⟩
      · show (0 : Byte) ∉ [65]; decide) (by decide) (fun _ => 1) (fun _ => true)
  refine ⟨b', sent, h1, ?_⟩
  rcases h2 with h2 | ⟨_, n, hn⟩
  · exact h2
  · cases hn

end Verif.CakeRpc
