import Verif.ConnCaps.Names

/-!
# C126: a connection gives each end the capabilities of its role, and nothing else
-/

namespace Verif.ConnCaps
open Verif.Context

/-! ## What is in the slots -/

theorem render_inv (rt : Bool) (items : List Item) (hp : Proper items) (s : St) (slots : List (List Nat))
    (h : render rt start items = .ok (s, slots)) : Inv (jobs rt items) s ∧
    (∀ it j slot, Uses items slots it j slot → ∃ op, (ops rt it)[j]? = some op ∧
      s.core.capStore it.me.space op.label (capKey op.cap) = some slot) ∧
    (∀ it j op, it ∈ items → (ops rt it)[j]? = some op → ∃ slot, Uses items slots it j slot) := by
  obtain ⟨s', slots', h1, h2, _, h3, h4⟩ := rendered rt items hp
  rw [h] at h1
  cases h1
  exact ⟨h2, h3, h4⟩

theorem uses_mem {items : List Item} {slots : List (List Nat)} {it : Item} {j slot : Nat} (h : Uses items slots it j slot) :
    it ∈ items := by
  obtain ⟨k, _, h, _⟩ := h
  exact List.mem_of_getElem? h

/-- The capability in a slot that an item uses. -/
theorem used (rt : Bool) (items : List Item) (hp : Proper items) (s : St) (slots : List (List Nat))
    (h : render rt start items = .ok (s, slots)) (it : Item) (j slot : Nat) (hu : Uses items slots it j slot) :
    ∃ op, (ops rt it)[j]? = some op ∧ op ∈ ops rt it ∧ op.label = it.conn.name ∧
      s.badge it.me.space slot = lastBadge it.me.space it.conn.name op.cap (jobs rt items) ∧
      (op.obj = none → (s.core.cnodes it.me.space)[slot]? = some none) ∧
      ∀ n, op.obj = some n → ∃ o, (fullName it.conn.name n, o) ∈ s.core.objects ∧
        Holds s it.me.space slot o (rightsOf it.me.space it.conn.name op.cap (jobs rt items)) := by
  obtain ⟨hi, h1, _⟩ := render_inv rt items hp s slots h
  obtain ⟨op, h2, h3⟩ := h1 it j slot hu
  have hm : op ∈ ops rt it := List.mem_of_getElem? h2
  obtain ⟨f1, _⟩ := ops_facts rt it op hm
  obtain ⟨slot', g1, g2, g3⟩ := hi.cont it.me.space op ((mem_jobs _ _ _ _).mpr ⟨it, uses_mem hu, rfl, hm⟩)
  rw [h3] at g1
  cases g1
  rw [f1] at g2 g3
  refine ⟨op, h2, hm, f1, g3, ?_, ?_⟩
  · intro e
    rw [e] at g2
    exact g2
  · intro n e
    rw [e] at g2
    exact g2

/-- A capability that a component holds comes from an item. -/
theorem held (rt : Bool) (items : List Item) (hp : Proper items) (s : St) (slots : List (List Nat))
    (h : render rt start items = .ok (s, slots)) (sp slot o : Nat) (r : Rights) (hh : Holds s sp slot o r) :
    ∃ it ∈ items, ∃ op ∈ ops rt it, ∃ n, it.me.space = sp ∧ op.obj = some n ∧ (fullName it.conn.name n, o) ∈ s.core.objects ∧
      r = rightsOf sp it.conn.name op.cap (jobs rt items) := by
  obtain ⟨hi, _, _⟩ := render_inv rt items hp s slots h
  obtain ⟨l, k, h1⟩ := hi.full sp slot _ hh
  obtain ⟨op, h2, h3, h4⟩ := hi.back sp l k slot h1
  obtain ⟨it, e1, e2, e3⟩ := (mem_jobs _ _ _ _).mp h2
  obtain ⟨f1, _⟩ := ops_facts rt it op e3
  obtain ⟨slot', g1, g2, _⟩ := hi.cont sp op h2
  rw [h3, ← h4, h1] at g1
  cases g1
  refine ⟨it, e1, op, e3, ?_⟩
  unfold Holds at hh
  rw [f1] at g2
  cases hop : op.obj with
  | none =>
    rw [hop] at g2
    simp only [Content] at g2
    rw [hh] at g2
    cases g2
  | some n =>
    rw [hop] at g2
    obtain ⟨o', k1, k2⟩ := g2
    rw [hh] at k2
    cases k2
    exact ⟨n, e2, rfl, k1, rfl⟩

theorem object_name {s : Context.St} (h : ObjInv s) {a b : Text} {o : Nat} (ha : (a, o) ∈ s.objects) (hb : (b, o) ∈ s.objects) :
    a = b := congrArg Prod.fst (List.inj_on_of_nodup_map h.objs ha hb rfl)

theorem name_object {s : Context.St} (h : ObjInv s) {a : Text} {o o' : Nat} (ha : (a, o) ∈ s.objects) (hb : (a, o') ∈ s.objects) :
    o = o' := congrArg Prod.snd (List.inj_on_of_nodup_map h.names ha hb rfl)

/-- Two allocations of the same object are of the same connection and have the same name. -/
theorem same_object (rt : Bool) (items : List Item) (hp : Proper items) (hn : NoClash items) (s : St) (hi : ObjInv s.core)
    (a b : Item) (ha : a ∈ items) (hb : b ∈ items) (p q : Op) (hp' : p ∈ ops rt a) (hq : q ∈ ops rt b) (n m : Text) (o : Nat)
    (e1 : p.obj = some n) (e2 : q.obj = some m) (h1 : (fullName a.conn.name n, o) ∈ s.core.objects)
    (h2 : (fullName b.conn.name m, o) ∈ s.core.objects) : a.conn = b.conn ∧ n = m := by
  obtain ⟨g1, g2⟩ := fullName_inj _ _ n m (ops_isName rt a p hp' n e1) (ops_isName rt b q hq m e2) (hn a ha b hb) (hn b hb a ha)
    (object_name hi h1 h2)
  exact ⟨hp.names a ha b hb g1, g2⟩

/-! ## The channel between the ends -/

/-- The name of the object that a receiver waits for. -/
def chan (c : Conn) (e : End) : Text :=
  match c.kind with
  | .rpc => tEp
  | .notification => numbered tNotification (c.dsts.idxOf e)
  | .queue => numbered tEp (c.dsts.idxOf e)
  | .bind | .native => tNotification

theorem dst_chan (rt : Bool) (c : Conn) (e : End) : ∃ op, (ops rt ⟨c, .dst, e⟩)[0]? = some op ∧ op.obj = some (chan c e) ∧
    op.want.read = true := by
  obtain ⟨name, kind, srcs, dsts⟩ := c
  cases kind <;> exact ⟨_, rfl, rfl, rfl⟩

theorem src_chan (rt : Bool) (c : Conn) (e e' : End) (he : e' ∈ c.dsts) : ∃ op,
    (ops rt ⟨c, .src, e⟩)[sendIndex c e e']? = some op ∧ op.obj = some (chan c e') ∧ op.want.write = true ∧
    (c.kind = .rpc → op.want.grantreply = true) := by
  have hlt : c.dsts.idxOf e' < c.dsts.length := List.idxOf_lt_length_of_mem he
  obtain ⟨name, kind, srcs, dsts⟩ := c
  cases kind
  · simp only [ops, srcOps, sendIndex, chan]
    cases hl : e.lock
    · exact ⟨_, rfl, rfl, rfl, fun _ => rfl⟩
    · exact ⟨_, rfl, rfl, rfl, fun _ => rfl⟩
  · simp only [ops, srcOps, sendIndex, chan]
    simp only at hlt
    refine ⟨alloc name (numbered tNotification (dsts.idxOf e')) writeRights, ?_, rfl, rfl, fun h => by cases h⟩
    simp [hlt]
  · simp only [ops, srcOps, sendIndex, chan]
    simp only at hlt
    refine ⟨alloc name (numbered tEp (dsts.idxOf e')) bothRights, ?_, rfl, rfl, fun h => by cases h⟩
    simp [hlt]
  · exact ⟨_, rfl, rfl, rfl, fun h => by cases h⟩
  · exact ⟨_, rfl, rfl, rfl, fun h => by cases h⟩

/-- A right that an item asks for is there. -/
theorem right_there (rt : Bool) (items : List Item) (it : Item) (hm : it ∈ items) (op : Op) (ho : op ∈ ops rt it) (r : Rights → Bool)
    (hr : r = Rights.read ∨ r = Rights.write ∨ r = Rights.grant ∨ r = Rights.grantreply) (hw : r op.want = true) :
    r (rightsOf it.me.space it.conn.name op.cap (jobs rt items)) = true :=
  (rightsOf_iff _ _ _ _ r hr).mpr ⟨op, (mem_jobs _ _ _ _).mpr ⟨it, hm, rfl, ho⟩, (ops_facts rt it op ho).1, rfl, hw⟩

/-- A right that is there was asked for by an end of the connection in the same component. -/
theorem right_from (rt : Bool) (items : List Item) (hp : Proper items) (it : Item) (hm : it ∈ items) (cap : Text) (sp : Nat)
    (r : Rights → Bool) (hr : r = Rights.read ∨ r = Rights.write ∨ r = Rights.grant ∨ r = Rights.grantreply)
    (h : r (rightsOf sp it.conn.name cap (jobs rt items)) = true) :
    ∃ it' ∈ items, ∃ op ∈ ops rt it', it'.conn = it.conn ∧ it'.me.space = sp ∧ op.cap = cap ∧ r op.want = true := by
  obtain ⟨op, h1, h2, h3, h4⟩ := (rightsOf_iff _ _ _ _ r hr).mp h
  obtain ⟨it', e1, e2, e3⟩ := (mem_jobs _ _ _ _).mp h1
  obtain ⟨f1, _⟩ := ops_facts rt it' op e3
  exact ⟨it', e1, op, e3, hp.names it' e1 it hm (by rw [← f1, h2]), e2, h3, h4⟩

/-- C126: the templates of all ends of connections can be rendered, in any order. -/
theorem rendering_succeeds (rt : Bool) (items : List Item) (hp : Proper items) :
    ∃ s slots, render rt start items = .ok (s, slots) ∧ slots.length = items.length := by
  obtain ⟨s, slots, h1, _, h2, _⟩ := rendered rt items hp
  exact ⟨s, slots, h1, h2⟩

/-- C126: the ends of a connection are wired: in whatever order the ends are rendered, the slot that
the code of a sender uses for a receiver and the slot at which the receiver waits hold capabilities to
the same object; the sender may send on it (and be answered, if it is a call), and the receiver may
receive. -/
theorem wired (rt : Bool) (items : List Item) (hp : Proper items) (s : St) (slots : List (List Nat))
    (h : render rt start items = .ok (s, slots)) (c : Conn) (e e' : End)
    (ha : (⟨c, .src, e⟩ : Item) ∈ items) (hb : (⟨c, .dst, e'⟩ : Item) ∈ items) :
    (∃ x, Uses items slots ⟨c, .src, e⟩ (sendIndex c e e') x) ∧ (∃ y, Uses items slots ⟨c, .dst, e'⟩ 0 y) ∧
    ∀ x y, Uses items slots ⟨c, .src, e⟩ (sendIndex c e e') x → Uses items slots ⟨c, .dst, e'⟩ 0 y →
      ∃ o r r', Holds s e.space x o r ∧ Holds s e'.space y o r' ∧ r.write = true ∧ r'.read = true ∧
        (c.kind = .rpc → r.grantreply = true) := by
  obtain ⟨hi, _, hex⟩ := render_inv rt items hp s slots h
  obtain ⟨p, p1, p2, p3, p4⟩ := src_chan rt c e e' (hp.member _ hb)
  obtain ⟨q, q1, q2, q3⟩ := dst_chan rt c e'
  refine ⟨hex _ _ p ha p1, hex _ _ q hb q1, ?_⟩
  intro x y hx hy
  obtain ⟨p', a1, a2, _, _, _, a6⟩ := used rt items hp s slots h _ _ _ hx
  obtain ⟨q', b1, b2, _, _, _, b6⟩ := used rt items hp s slots h _ _ _ hy
  rw [p1] at a1; cases a1
  rw [q1] at b1; cases b1
  obtain ⟨o, a7, a8⟩ := a6 _ p2
  obtain ⟨o', b7, b8⟩ := b6 _ q2
  have hoo := name_object hi.obj a7 b7
  subst hoo
  refine ⟨o, _, _, a8, b8, right_there rt items _ ha p a2 _ (by tauto) p3, right_there rt items _ hb q b2 _ (by tauto) q3, ?_⟩
  intro hk
  exact right_there rt items _ ha p a2 _ (by tauto) (p4 hk)

theorem single_mem {α : Type} {l : List α} {a b : α} (h : l.length = 1) (ha : a ∈ l) (hb : b ∈ l) : a = b := by
  obtain ⟨x, rfl⟩ := List.length_eq_one_iff.mp h
  rw [List.mem_singleton] at ha hb
  rw [ha, hb]

theorem idxOf_inj {l : List End} {a b : End} (ha : a ∈ l) (hb : b ∈ l) (h : l.idxOf a = l.idxOf b) : a = b := by
  have h1 := List.getElem_idxOf (List.idxOf_lt_length_of_mem ha)
  have h2 := List.getElem_idxOf (List.idxOf_lt_length_of_mem hb)
  rw [← h1, ← h2]
  congr 1

/-- C126: every receiver has a channel of its own: different receivers of a connection wait for
different objects. -/
theorem receivers_apart (rt : Bool) (items : List Item) (hp : Proper items) (s : St) (slots : List (List Nat))
    (h : render rt start items = .ok (s, slots)) (c : Conn) (e e' : End) (hne : e ≠ e') (x y o o' : Nat) (r r' : Rights)
    (hx : Uses items slots ⟨c, .dst, e⟩ 0 x) (hy : Uses items slots ⟨c, .dst, e'⟩ 0 y)
    (ho : Holds s e.space x o r) (ho' : Holds s e'.space y o' r') : o ≠ o' := by
  rintro rfl
  obtain ⟨hi, _, _⟩ := render_inv rt items hp s slots h
  obtain ⟨p, p1, p2, _⟩ := dst_chan rt c e
  obtain ⟨q, q1, q2, _⟩ := dst_chan rt c e'
  obtain ⟨p', a1, _, _, _, _, a6⟩ := used rt items hp s slots h _ _ _ hx
  obtain ⟨q', b1, _, _, _, _, b6⟩ := used rt items hp s slots h _ _ _ hy
  rw [p1] at a1; cases a1
  rw [q1] at b1; cases b1
  obtain ⟨o1, a7, a8⟩ := a6 _ p2
  obtain ⟨o2, b7, b8⟩ := b6 _ q2
  unfold Holds at ho ho' a8 b8
  rw [ho] at a8; cases a8
  rw [ho'] at b8; cases b8
  have hname := object_name hi.obj a7 b7
  have hch : chan c e = chan c e' := List.append_cancel_left hname
  have m1 : e ∈ c.dsts := hp.member _ (uses_mem hx)
  have m2 : e' ∈ c.dsts := hp.member _ (uses_mem hy)
  have hone : oneReceiver c.kind = true → e = e' := fun hk => single_mem (hp.receiver _ (uses_mem hx) hk) m1 m2
  unfold chan at hch
  cases hk : c.kind <;> rw [hk] at hch hone
  · exact hne (hone rfl)
  · exact hne (idxOf_inj m1 m2 (numbered_inj hch))
  · exact hne (idxOf_inj m1 m2 (numbered_inj hch))
  · exact hne (hone rfl)
  · exact hne (hone rfl)

/-- C126: two components hold capabilities to the same object only if a connection has ends in both.
Partial: it must not be that one connection has the name of another one followed by
`_userspace_buffer` (`buffer_lock_shared`). -/
theorem isolated_partial (rt : Bool) (items : List Item) (hp : Proper items) (hn : NoClash items) (s : St)
    (slots : List (List Nat)) (h : render rt start items = .ok (s, slots)) (sp sp' slot slot' o : Nat) (r r' : Rights)
    (h1 : Holds s sp slot o r) (h2 : Holds s sp' slot' o r') :
    ∃ a ∈ items, ∃ b ∈ items, a.conn = b.conn ∧ a.me.space = sp ∧ b.me.space = sp' := by
  obtain ⟨hi, _, _⟩ := render_inv rt items hp s slots h
  obtain ⟨a, a1, p, a2, n, a3, a4, a5, _⟩ := held rt items hp s slots h sp slot o r h1
  obtain ⟨b, b1, q, b2, m, b3, b4, b5, _⟩ := held rt items hp s slots h sp' slot' o r' h2
  exact ⟨a, a1, b, b1, (same_object rt items hp hn s hi.obj a b a1 b1 p q a2 b2 n m o a4 b4 a5 b5).1, a3, b3⟩

/-- No template asks for the right to grant. -/
theorem ops_grant (rt : Bool) (it : Item) (op : Op) (h : op ∈ ops rt it) : op.want.grant = false := by
  obtain ⟨⟨name, kind, srcs, dsts⟩, side, me⟩ := it
  cases side <;> cases kind <;> simp only [ops, srcOps, dstOps, alloc] at h
  · rcases List.mem_append.mp h with h | h
    · split at h
      · rw [List.mem_singleton] at h; subst h; rfl
      · cases h
    · rw [List.mem_singleton] at h; subst h; rfl
  · obtain ⟨i, _, rfl⟩ := List.mem_map.mp h; rfl
  · obtain ⟨i, _, rfl⟩ := List.mem_map.mp h; rfl
  · rw [List.mem_singleton] at h; subst h; rfl
  · rw [List.mem_singleton] at h; subst h; rfl
  · rcases List.mem_append.mp h with h | h
    · rw [List.mem_singleton] at h; subst h; rfl
    · split at h
      · rw [List.mem_singleton] at h; subst h; rfl
      · split at h
        · rw [List.mem_singleton] at h; subst h; rfl
        · cases h
  · simp only [List.mem_cons, List.not_mem_nil, or_false] at h
    rcases h with rfl | rfl | rfl <;> rfl
  · simp only [List.mem_cons, List.not_mem_nil, or_false] at h
    rcases h with rfl | rfl | rfl <;> rfl
  · rw [List.mem_singleton] at h; subst h; rfl
  · rw [List.mem_singleton] at h; subst h; rfl

/-- C126: no capability of a connection can be used to transfer other capabilities. -/
theorem no_grant (rt : Bool) (items : List Item) (hp : Proper items) (s : St) (slots : List (List Nat))
    (h : render rt start items = .ok (s, slots)) (sp slot o : Nat) (r : Rights) (hh : Holds s sp slot o r) : r.grant = false := by
  obtain ⟨a, a1, p, a2, n, a3, a4, a5, rfl⟩ := held rt items hp s slots h sp slot o r hh
  by_contra hg
  rw [Bool.not_eq_false] at hg
  obtain ⟨it, _, op, e2, _, _, _, e6⟩ := right_from rt items hp a a1 _ sp _ (by tauto) hg
  rw [ops_grant rt it op e2] at e6
  cases e6

/-- A sender does not read its channel, except in the queue connector. -/
theorem src_read (rt : Bool) (c : Conn) (e : End) (op : Op) (h : op ∈ ops rt ⟨c, .src, e⟩) (hk : c.kind ≠ .queue)
    (hr : op.want.read = true) : c.kind = .rpc ∧ op.obj = some tBuffer := by
  obtain ⟨name, kind, srcs, dsts⟩ := c
  cases kind <;> simp only [ops, srcOps, alloc] at h
  · rcases List.mem_append.mp h with h | h
    · split at h
      · rw [List.mem_singleton] at h; subst h; exact ⟨rfl, rfl⟩
      · cases h
    · rw [List.mem_singleton] at h; subst h; cases hr
  · obtain ⟨i, _, rfl⟩ := List.mem_map.mp h; cases hr
  · exact absurd rfl hk
  · rw [List.mem_singleton] at h; subst h; cases hr
  · rw [List.mem_singleton] at h; subst h; cases hr

/-- A receiver does not write its channel, except in the bind connector. -/
theorem dst_write (rt : Bool) (c : Conn) (e : End) (op : Op) (h : op ∈ ops rt ⟨c, .dst, e⟩) (hk : c.kind ≠ .bind)
    (hr : op.want.write = true ∨ op.want.grantreply = true) :
    (c.kind = .notification ∨ c.kind = .queue) ∧ ∃ i, op.obj = some (numbered tHandoff i) ∨ op.obj = some (numbered tLock i) := by
  obtain ⟨name, kind, srcs, dsts⟩ := c
  cases kind <;> simp only [ops, dstOps, alloc] at h
  · rcases List.mem_append.mp h with h | h
    · rw [List.mem_singleton] at h; subst h; rcases hr with hr | hr <;> cases hr
    · split at h
      · rw [List.mem_singleton] at h; subst h; rcases hr with hr | hr <;> cases hr
      · split at h
        · rw [List.mem_singleton] at h; subst h; rcases hr with hr | hr <;> cases hr
        · cases h
  · simp only [List.mem_cons, List.not_mem_nil, or_false] at h
    rcases h with rfl | rfl | rfl
    · rcases hr with hr | hr <;> cases hr
    · exact ⟨.inl rfl, _, .inl rfl⟩
    · exact ⟨.inl rfl, _, .inr rfl⟩
  · simp only [List.mem_cons, List.not_mem_nil, or_false] at h
    rcases h with rfl | rfl | rfl
    · rcases hr with hr | hr <;> cases hr
    · exact ⟨.inr rfl, _, .inl rfl⟩
    · exact ⟨.inr rfl, _, .inr rfl⟩
  · exact absurd rfl hk
  · rw [List.mem_singleton] at h; subst h; rcases hr with hr | hr <;> cases hr

theorem chan_ne (c : Conn) (e : End) : chan c e ≠ tBuffer ∧ chan c e ≠ tReply ∧
    ∀ i, chan c e ≠ numbered tHandoff i ∧ chan c e ≠ numbered tLock i := by
  obtain ⟨name, kind, srcs, dsts⟩ := c
  cases kind <;> refine ⟨?_, ?_, fun i => ⟨?_, ?_⟩⟩ <;> intro h <;>
    simp [chan, numbered, tEp, tBuffer, tReply, tNotification, tHandoff, tLock] at h

/-- C126: authority follows the direction of a connection. A component that has no `to` end of a
connection cannot receive what is sent to its receivers, and one that has no `from` end can neither
send to them nor answer for a sender. Partial: a sender of the queue connector may receive
(`queue_sender_receives`), the receiver of the bind connector may send to itself
(`bind_receiver_sends`), and names must not clash. -/
theorem directed_partial (rt : Bool) (items : List Item) (hp : Proper items) (hn : NoClash items) (s : St)
    (slots : List (List Nat)) (h : render rt start items = .ok (s, slots)) (c : Conn) (e : End) (y o : Nat) (r0 : Rights)
    (hy : Uses items slots ⟨c, .dst, e⟩ 0 y) (ho : Holds s e.space y o r0) (sp slot : Nat) (r : Rights) (hh : Holds s sp slot o r) :
    (c.kind ≠ .queue → (∀ it ∈ items, it.conn = c → it.side = .dst → it.me.space ≠ sp) → r.read = false) ∧
    (c.kind ≠ .bind → (∀ it ∈ items, it.conn = c → it.side = .src → it.me.space ≠ sp) →
      r.write = false ∧ r.grantreply = false) := by
  obtain ⟨hi, _, _⟩ := render_inv rt items hp s slots h
  obtain ⟨q, q1, q2, _⟩ := dst_chan rt c e
  obtain ⟨q', b1, b2, _, _, _, b6⟩ := used rt items hp s slots h _ _ _ hy
  rw [q1] at b1; cases b1
  obtain ⟨o2, b7, b8⟩ := b6 _ q2
  unfold Holds at ho b8
  rw [ho] at b8; cases b8
  obtain ⟨a, a1, p, a2, n, a3, a4, a5, rfl⟩ := held rt items hp s slots h sp slot o r hh
  obtain ⟨g1, g2⟩ := same_object rt items hp hn s hi.obj a ⟨c, .dst, e⟩ a1 (uses_mem hy) p q a2 b2 n _ o a4 q2 a5 b7
  simp only at g1
  obtain ⟨c1, _, c2⟩ := chan_ne c e
  have hfun : ∀ (it : Item) (op : Op), op ∈ ops rt it → it.conn = a.conn → op.cap = p.cap → op.obj = some (chan c e) := by
    intro it op hop hc hcap
    rw [(ops_facts rt it op hop).2, hc, hcap, ← (ops_facts rt a p a2).2, a4, g2]
  constructor
  · intro hk hno
    by_contra hr
    rw [Bool.not_eq_false] at hr
    obtain ⟨⟨c', side, me⟩, e1, op, e2, e3, e4, e5, e6⟩ := right_from rt items hp a a1 _ sp _ (by tauto) hr
    simp only at e3 e4
    have hobj := hfun _ op e2 e3 e5
    rw [g1] at e3
    cases side
    · subst e3
      obtain ⟨_, e7⟩ := src_read rt c' me op e2 hk e6
      rw [hobj] at e7
      exact c1 (Option.some.inj e7)
    · exact hno _ e1 e3 rfl e4
  · intro hk hno
    have key : ∀ f : Rights → Bool, (f = Rights.write ∨ f = Rights.grantreply) →
        f (rightsOf sp a.conn.name p.cap (jobs rt items)) = false := by
      intro f hf
      by_contra hr
      rw [Bool.not_eq_false] at hr
      obtain ⟨⟨c', side, me⟩, e1, op, e2, e3, e4, e5, e6⟩ := right_from rt items hp a a1 _ sp f (by tauto) hr
      simp only at e3 e4
      have hobj := hfun _ op e2 e3 e5
      rw [g1] at e3
      cases side
      · exact hno _ e1 e3 rfl e4
      · subst e3
        obtain ⟨_, i, e7⟩ := dst_write rt c' me op e2 hk (by rcases hf with rfl | rfl; exacts [.inl e6, .inr e6])
        rw [hobj] at e7
        rcases e7 with e7 | e7
        · exact (c2 i).1 (Option.some.inj e7)
        · exact (c2 i).2 (Option.some.inj e7)
    exact ⟨key _ (.inl rfl), key _ (.inr rfl)⟩

/-! ## Objects of one end -/

/-- The names of the objects of one end. -/
theorem own_name (rt : Bool) (it : Item) (j : Nat) (hj : Own it j) (op : Op) (h : (ops rt it)[j]? = some op) (n : Text)
    (hn : op.obj = some n) :
    (it.side = .dst ∧ (n = numbered tHandoff (it.conn.dsts.idxOf it.me) ∨ n = numbered tLock (it.conn.dsts.idxOf it.me)) ∧
      oneReceiver it.conn.kind = false) ∨
    (it.side = .dst ∧ n = tReply ∧ it.conn.kind = .rpc) ∨ (it.side = .src ∧ n = tBuffer ∧ it.me.lock = true) := by
  obtain ⟨⟨name, kind, srcs, dsts⟩, side, me⟩ := it
  rcases hj with ⟨h1, h2⟩ | ⟨h1, h2, h3, h4⟩
  · simp only at h1
    subst h1
    obtain ⟨j, rfl⟩ : ∃ k, j = k + 1 := ⟨j - 1, by omega⟩
    cases kind <;> simp only [ops, dstOps, alloc, List.singleton_append, List.getElem?_cons_succ] at h
    · refine .inr (.inl ⟨rfl, ?_, rfl⟩)
      have hm := List.mem_of_getElem? h
      split at hm
      · rw [List.mem_singleton] at hm; subst hm; cases hn; rfl
      · split at hm
        · rw [List.mem_singleton] at hm; subst hm; cases hn
        · cases hm
    · refine .inl ⟨rfl, ?_, rfl⟩
      have hm := List.mem_of_getElem? h
      simp only [List.mem_cons, List.not_mem_nil, or_false] at hm
      rcases hm with rfl | rfl <;> cases hn
      · exact .inl rfl
      · exact .inr rfl
    · refine .inl ⟨rfl, ?_, rfl⟩
      have hm := List.mem_of_getElem? h
      simp only [List.mem_cons, List.not_mem_nil, or_false] at hm
      rcases hm with rfl | rfl <;> cases hn
      · exact .inl rfl
      · exact .inr rfl
    · simp at h
    · simp at h
  · simp only at h1 h2 h3
    subst h1; subst h2; subst h4
    refine .inr (.inr ⟨rfl, ?_, h3⟩)
    simp only [ops, srcOps, h3, if_true, alloc, List.singleton_append, List.getElem?_cons_zero, Option.some.injEq] at h
    subst h
    cases hn
    rfl

/-- Which ends ask for these names. -/
theorem own_end (rt : Bool) (it : Item) (op : Op) (h : op ∈ ops rt it) (n : Text) (hn : op.obj = some n) :
    (∀ i, n = numbered tHandoff i ∨ n = numbered tLock i → it.side = .dst ∧ i = it.conn.dsts.idxOf it.me) ∧
    (n = tReply → it.side = .dst) ∧ (n = tBuffer → it.side = .src) := by
  obtain ⟨⟨name, kind, srcs, dsts⟩, side, me⟩ := it
  have d1 : ∀ i j, numbered tHandoff i ≠ numbered tLock j := by intro i j h; simp [numbered, tHandoff, tLock] at h
  have d2 : ∀ i j, numbered tNotification i ≠ numbered tHandoff j := by intro i j h; simp [numbered, tHandoff, tNotification] at h
  have d3 : ∀ i j, numbered tNotification i ≠ numbered tLock j := by intro i j h; simp [numbered, tLock, tNotification] at h
  have d4 : ∀ i j, numbered tEp i ≠ numbered tHandoff j := by intro i j h; simp [numbered, tHandoff, tEp] at h
  have d5 : ∀ i j, numbered tEp i ≠ numbered tLock j := by intro i j h; simp [numbered, tLock, tEp] at h
  have e1 : ∀ j, tEp ≠ numbered tHandoff j ∧ tEp ≠ numbered tLock j := by
    intro j; constructor <;> intro h <;> simp [numbered, tHandoff, tLock, tEp] at h
  have e2 : ∀ j, tNotification ≠ numbered tHandoff j ∧ tNotification ≠ numbered tLock j := by
    intro j; constructor <;> intro h <;> simp [numbered, tHandoff, tLock, tNotification] at h
  have e3 : ∀ j, tBuffer ≠ numbered tHandoff j ∧ tBuffer ≠ numbered tLock j := by
    intro j; constructor <;> intro h <;> simp [numbered, tHandoff, tLock, tBuffer] at h
  have e4 : ∀ j, tReply ≠ numbered tHandoff j ∧ tReply ≠ numbered tLock j := by
    intro j; constructor <;> intro h <;> simp [numbered, tHandoff, tLock, tReply] at h
  have f1 : ∀ j, numbered tHandoff j ≠ tReply ∧ numbered tLock j ≠ tReply ∧ numbered tNotification j ≠ tReply ∧ numbered tEp j ≠ tReply := by
    intro j; refine ⟨?_, ?_, ?_, ?_⟩ <;> intro h <;> simp [numbered, tHandoff, tLock, tReply, tNotification, tEp] at h
  have f2 : ∀ j, numbered tHandoff j ≠ tBuffer ∧ numbered tLock j ≠ tBuffer ∧ numbered tNotification j ≠ tBuffer ∧ numbered tEp j ≠ tBuffer := by
    intro j; refine ⟨?_, ?_, ?_, ?_⟩ <;> intro h <;> simp [numbered, tHandoff, tLock, tBuffer, tNotification, tEp] at h
  have g1 : tEp ≠ tReply := by decide
  have g2 : tEp ≠ tBuffer := by decide
  have g3 : tNotification ≠ tReply := by decide
  have g4 : tNotification ≠ tBuffer := by decide
  have g5 : tBuffer ≠ tReply := by decide
  have fin : ∀ (m : Text) (d : Side) (me : End), (∀ j, m ≠ numbered tHandoff j ∧ m ≠ numbered tLock j) → (m = tReply → d = .dst) → (m = tBuffer → d = .src) →
      (∀ i, m = numbered tHandoff i ∨ m = numbered tLock i → d = .dst ∧ i = dsts.idxOf me) ∧ (m = tReply → d = .dst) ∧ (m = tBuffer → d = .src) := by
    intro m d me h1 h2 h3
    refine ⟨?_, h2, h3⟩
    rintro i (h | h)
    · exact absurd h (h1 i).1
    · exact absurd h (h1 i).2
  cases side <;> cases kind <;> simp only [ops, srcOps, dstOps, alloc] at h
  · rcases List.mem_append.mp h with h | h
    · split at h
      · rw [List.mem_singleton] at h; subst h; cases hn
        exact fin _ _ me e3 (fun h => absurd h g5) (fun _ => rfl)
      · cases h
    · rw [List.mem_singleton] at h; subst h; cases hn
      exact fin _ _ me e1 (fun h => absurd h g1) (fun h => absurd h g2)
  · obtain ⟨i, _, rfl⟩ := List.mem_map.mp h; cases hn
    exact fin _ _ me (fun j => ⟨d2 _ _, d3 _ _⟩) (fun h => absurd h (f1 _).2.2.1) (fun h => absurd h (f2 _).2.2.1)
  · obtain ⟨i, _, rfl⟩ := List.mem_map.mp h; cases hn
    exact fin _ _ me (fun j => ⟨d4 _ _, d5 _ _⟩) (fun h => absurd h (f1 _).2.2.2) (fun h => absurd h (f2 _).2.2.2)
  · rw [List.mem_singleton] at h; subst h; cases hn
    exact fin _ _ me e2 (fun h => absurd h g3) (fun h => absurd h g4)
  · rw [List.mem_singleton] at h; subst h; cases hn
    exact fin _ _ me e2 (fun h => absurd h g3) (fun h => absurd h g4)
  · rcases List.mem_append.mp h with h | h
    · rw [List.mem_singleton] at h; subst h; cases hn
      exact fin _ _ me e1 (fun h => absurd h g1) (fun h => absurd h g2)
    · split at h
      · rw [List.mem_singleton] at h; subst h; cases hn
        exact fin _ _ me e4 (fun _ => rfl) (fun h => absurd h.symm g5)
      · split at h
        · rw [List.mem_singleton] at h; subst h; cases hn
        · cases h
  · simp only [List.mem_cons, List.not_mem_nil, or_false] at h
    rcases h with rfl | rfl | rfl <;> cases hn
    · exact fin _ _ me (fun j => ⟨d2 _ _, d3 _ _⟩) (fun h => absurd h (f1 _).2.2.1) (fun h => absurd h (f2 _).2.2.1)
    · refine ⟨?_, fun h => absurd h (f1 _).1, fun h => absurd h (f2 _).1⟩
      rintro i (h | h)
      · exact ⟨rfl, (numbered_inj h).symm⟩
      · exact absurd h (d1 _ _)
    · refine ⟨?_, fun h => absurd h (f1 _).2.1, fun h => absurd h (f2 _).2.1⟩
      rintro i (h | h)
      · exact absurd h.symm (d1 _ _)
      · exact ⟨rfl, (numbered_inj h).symm⟩
  · simp only [List.mem_cons, List.not_mem_nil, or_false] at h
    rcases h with rfl | rfl | rfl <;> cases hn
    · exact fin _ _ me (fun j => ⟨d4 _ _, d5 _ _⟩) (fun h => absurd h (f1 _).2.2.2) (fun h => absurd h (f2 _).2.2.2)
    · refine ⟨?_, fun h => absurd h (f1 _).1, fun h => absurd h (f2 _).1⟩
      rintro i (h | h)
      · exact ⟨rfl, (numbered_inj h).symm⟩
      · exact absurd h (d1 _ _)
    · refine ⟨?_, fun h => absurd h (f1 _).2.1, fun h => absurd h (f2 _).2.1⟩
      rintro i (h | h)
      · exact absurd h.symm (d1 _ _)
      · exact ⟨rfl, (numbered_inj h).symm⟩
  · rw [List.mem_singleton] at h; subst h; cases hn
    exact fin _ _ me e2 (fun h => absurd h g3) (fun h => absurd h g4)
  · rw [List.mem_singleton] at h; subst h; cases hn
    exact fin _ _ me e2 (fun h => absurd h g3) (fun h => absurd h g4)

/-- C126: the objects that an end uses for itself - the hand-off and the lock of a receiver of events,
the reply object of a server, the lock of a client's buffer - are held by its component only.
Partial: names must not clash (`buffer_lock_shared`). -/
theorem own_objects_partial (rt : Bool) (items : List Item) (hp : Proper items) (hn : NoClash items) (s : St)
    (slots : List (List Nat)) (h : render rt start items = .ok (s, slots)) (it : Item) (j : Nat) (hj : Own it j)
    (y o : Nat) (r0 : Rights) (hy : Uses items slots it j y) (ho : Holds s it.me.space y o r0)
    (sp slot : Nat) (r : Rights) (hh : Holds s sp slot o r) : sp = it.me.space := by
  obtain ⟨hi, _, _⟩ := render_inv rt items hp s slots h
  obtain ⟨q, b1, b2, _, _, b5, b6⟩ := used rt items hp s slots h _ _ _ hy
  cases hq : q.obj with
  | none =>
    have := b5 hq
    unfold Holds at ho
    rw [ho] at this
    cases this
  | some m =>
    obtain ⟨o2, b7, b8⟩ := b6 _ hq
    unfold Holds at ho b8
    rw [ho] at b8; cases b8
    obtain ⟨a, a1, p, a2, n, a3, a4, a5, _⟩ := held rt items hp s slots h sp slot o r hh
    have hm := uses_mem hy
    obtain ⟨g1, g2⟩ := same_object rt items hp hn s hi.obj a it a1 hm p q a2 b2 n _ o a4 hq a5 b7
    subst g2
    obtain ⟨k1, k2, k3⟩ := own_end rt a p a2 n a4
    have ma := hp.member a a1
    have mb := hp.member it hm
    rw [← a3]
    rcases own_name rt it j hj q b1 n hq with ⟨w1, w2, _⟩ | ⟨w1, w2, w3⟩ | ⟨w1, w2, w3⟩
    · obtain ⟨z1, z2⟩ := k1 _ w2
      rw [z1] at ma
      rw [w1] at mb
      simp only [Conn.ends, g1] at ma mb z2
      rw [idxOf_inj mb ma z2]
    · have z1 := k2 w2
      rw [z1] at ma
      rw [w1] at mb
      simp only [Conn.ends, g1] at ma mb
      rw [single_mem (hp.receiver it hm (by rw [w3]; rfl)) ma mb]
    · have z1 := k3 w2
      rw [z1] at ma
      rw [w1] at mb
      simp only [Conn.ends, g1] at ma mb
      rw [single_mem (hp.buffer it hm w1 w3) ma mb]

/-- The allocations of an item are for different objects. -/
theorem ops_apart (rt : Bool) (it : Item) (i j : Nat) (p q : Op) (hp : (ops rt it)[i]? = some p) (hq : (ops rt it)[j]? = some q)
    (n : Text) (e1 : p.obj = some n) (e2 : q.obj = some n) : i = j := by
  have hnd : ((ops rt it).map (·.obj)).Nodup := by
    obtain ⟨⟨name, kind, srcs, dsts⟩, side, me⟩ := it
    have g1 : tBuffer ≠ tEp := by decide
    have g2 : tEp ≠ tReply := by decide
    have d1 : ∀ i j, numbered tHandoff i ≠ numbered tLock j := by intro i j h; simp [numbered, tHandoff, tLock] at h
    have d2 : ∀ i j, numbered tNotification i ≠ numbered tHandoff j := by intro i j h; simp [numbered, tHandoff, tNotification] at h
    have d3 : ∀ i j, numbered tNotification i ≠ numbered tLock j := by intro i j h; simp [numbered, tLock, tNotification] at h
    have d4 : ∀ i j, numbered tEp i ≠ numbered tHandoff j := by intro i j h; simp [numbered, tHandoff, tEp] at h
    have d5 : ∀ i j, numbered tEp i ≠ numbered tLock j := by intro i j h; simp [numbered, tLock, tEp] at h
    cases side <;> cases kind <;> simp only [ops, srcOps, dstOps, alloc]
    · cases me.lock <;> simp [g1]
    · rw [List.map_map]
      exact List.Nodup.map (fun a b h => numbered_inj (Option.some.inj h)) List.nodup_range
    · rw [List.map_map]
      exact List.Nodup.map (fun a b h => numbered_inj (Option.some.inj h)) List.nodup_range
    · simp
    · simp
    · cases rt <;> cases me.mightBlock <;> simp [g2]
    · simp [d1, d2, d3]
    · simp [d1, d4, d5]
    · simp
    · simp
  rw [List.nodup_iff_getElem?_ne_getElem?] at hnd
  have hi : ((ops rt it).map (·.obj))[i]? = some (some n) := by rw [List.getElem?_map, hp, Option.map_some, e1]
  have hj : ((ops rt it).map (·.obj))[j]? = some (some n) := by rw [List.getElem?_map, hq, Option.map_some, e2]
  rcases Nat.lt_trichotomy i j with h | h | h
  · exact absurd (hi.trans hj.symm) (hnd i j h (List.getElem?_eq_some_iff.mp hj).1)
  · exact h
  · exact absurd (hj.trans hi.symm) (hnd j i h (List.getElem?_eq_some_iff.mp hi).1)

/-- C126: an end uses different objects for different purposes: the receivers that a sender reaches,
the channel, the hand-off, the locks and the reply object are all different. -/
theorem purposes_apart (rt : Bool) (items : List Item) (hp : Proper items) (s : St) (slots : List (List Nat))
    (h : render rt start items = .ok (s, slots)) (it : Item) (i j : Nat) (hne : i ≠ j) (x y o o' : Nat) (r r' : Rights)
    (hx : Uses items slots it i x) (hy : Uses items slots it j y)
    (ho : Holds s it.me.space x o r) (ho' : Holds s it.me.space y o' r') : o ≠ o' := by
  rintro rfl
  obtain ⟨hi, _, _⟩ := render_inv rt items hp s slots h
  obtain ⟨p, a1, _, _, _, a5, a6⟩ := used rt items hp s slots h _ _ _ hx
  obtain ⟨q, b1, _, _, _, b5, b6⟩ := used rt items hp s slots h _ _ _ hy
  unfold Holds at ho ho' a6 b6
  cases hpo : p.obj with
  | none => rw [a5 hpo] at ho; cases ho
  | some n =>
    cases hqo : q.obj with
    | none => rw [b5 hqo] at ho'; cases ho'
    | some m =>
      obtain ⟨o1, a7, a8⟩ := a6 _ hpo
      obtain ⟨o2, b7, b8⟩ := b6 _ hqo
      rw [ho] at a8; cases a8
      rw [ho'] at b8; cases b8
      have hnm : n = m := List.append_cancel_left (object_name hi.obj a7 b7)
      subst hnm
      exact hne (ops_apart rt it i j p q a1 b1 n hpo hqo)

/-! ## Badges -/

theorem lastBadge_const (sp : Nat) (l n : Text) (js : List (Nat × Op)) (b : Nat)
    (h : ∀ j ∈ js, Same sp l n j = true → j.2.badge = none ∨ j.2.badge = some b)
    (hex : ∃ j ∈ js, Same sp l n j = true ∧ j.2.badge = some b) : lastBadge sp l n js = some b := by
  have key : ∀ (js : List (Nat × Op)) (acc : Option Nat),
      (∀ j ∈ js, Same sp l n j = true → j.2.badge = none ∨ j.2.badge = some b) →
      (acc = some b ∨ ∃ j ∈ js, Same sp l n j = true ∧ j.2.badge = some b) →
      js.foldl (fun b j => if Same sp l n j then (match j.2.badge with | none => b | some x => some x) else b) acc = some b := by
    intro js
    induction js with
    | nil =>
      intro acc _ h2
      rcases h2 with h2 | ⟨j, hj, _⟩
      · exact h2
      · cases hj
    | cons j js ih =>
      intro acc h1 h2
      simp only [List.foldl_cons]
      refine ih _ (fun x hx => h1 x (by simp [hx])) ?_
      cases hs : Same sp l n j with
      | false =>
        simp only [Bool.false_eq_true, if_false]
        rcases h2 with h2 | ⟨x, hx, hx'⟩
        · exact .inl h2
        · rcases List.mem_cons.mp hx with e | hx
          · rw [e, hs] at hx'; cases hx'.1
          · exact .inr ⟨x, hx, hx'⟩
      | true =>
        simp only [if_true]
        rcases h1 j (by simp) hs with hb | hb
        · rw [hb]
          simp only
          rcases h2 with h2 | ⟨x, hx, hx'⟩
          · exact .inl h2
          · rcases List.mem_cons.mp hx with e | hx
            · rw [e, hb] at hx'; cases hx'.2
            · exact .inr ⟨x, hx, hx'⟩
        · rw [hb]
          exact .inl rfl
  exact key js none h (.inr hex)

/-- The allocation of the endpoint of a client. -/
theorem client_op (rt : Bool) (c : Conn) (e e' : End) (hk : c.kind = .rpc) :
    (ops rt ⟨c, .src, e⟩)[sendIndex c e e']? =
      some ⟨c.name, some tEp, tEp ++ ['_'] ++ e.iface, callRights, ((clientBadges c)[c.srcs.idxOf e]?).join⟩ := by
  obtain ⟨name, kind, srcs, dsts⟩ := c
  simp only at hk
  subst hk
  simp only [ops, srcOps, sendIndex]
  cases e.lock <;> rfl

/-- Which badge is set in the slot of a client. -/
theorem client_badge (rt : Bool) (it : Item) (hk : it.conn.kind = .rpc) (op : Op) (h : op ∈ ops rt it) (iface : Text)
    (hc : op.cap = tEp ++ ['_'] ++ iface) :
    op.badge = none ∨ (it.side = .src ∧ it.me.iface = iface ∧ op.badge = ((clientBadges it.conn)[it.conn.srcs.idxOf it.me]?).join) := by
  obtain ⟨⟨name, kind, srcs, dsts⟩, side, me⟩ := it
  simp only at hk
  subst hk
  cases side <;> simp only [ops, srcOps, dstOps, alloc] at h
  · rcases List.mem_append.mp h with h | h
    · split at h
      · rw [List.mem_singleton] at h; subst h; exact .inl rfl
      · cases h
    · rw [List.mem_singleton] at h; subst h
      exact .inr ⟨rfl, List.append_cancel_left hc, rfl⟩
  · rcases List.mem_append.mp h with h | h
    · rw [List.mem_singleton] at h; subst h; exact .inl rfl
    · split at h
      · rw [List.mem_singleton] at h; subst h; exact .inl rfl
      · split at h
        · rw [List.mem_singleton] at h; subst h; exact .inl rfl
        · cases h

/-- C126: a client calls with a badge of its own: the one that is configured for it, if there is one.
Partial: no other client in the same component may have the same interface name
(`grouped_clients_share_badge`). -/
theorem client_badge_partial (rt : Bool) (items : List Item) (hp : Proper items) (s : St) (slots : List (List Nat))
    (h : render rt start items = .ok (s, slots)) (c : Conn) (e e' : End) (hk : c.kind = .rpc) (halone : Alone items c e)
    (x : Nat) (hx : Uses items slots ⟨c, .src, e⟩ (sendIndex c e e') x) :
    ∃ b, s.badge e.space x = some b ∧ (clientBadges c)[c.srcs.idxOf e]? = some (some b) ∧
      (∀ b', e.badge = some b' → b = b') := by
  have hm := uses_mem hx
  have hmem : e ∈ c.srcs := hp.member _ hm
  have hlt : c.srcs.idxOf e < c.srcs.length := List.idxOf_lt_length_of_mem hmem
  obtain ⟨g1, g2, g3, _⟩ := Badges.allocate_spec (c.srcs.map (·.badge))
  have hex : ∃ b, (clientBadges c)[c.srcs.idxOf e]? = some (some b) := by
    cases hb : (clientBadges c)[c.srcs.idxOf e]? with
    | none =>
      rw [List.getElem?_eq_none_iff] at hb
      unfold clientBadges at hb
      rw [g1, List.length_map] at hb
      omega
    | some o =>
      cases o with
      | none => exact absurd hb (g2 _)
      | some b => exact ⟨b, rfl⟩
  obtain ⟨b, hb⟩ := hex
  obtain ⟨op, a1, a2, a3, a4, _⟩ := used rt items hp s slots h _ _ _ hx
  rw [client_op rt c e e' hk] at a1
  cases a1
  refine ⟨b, ?_, hb, ?_⟩
  · rw [a4]
    apply lastBadge_const
    · rintro ⟨sp, op⟩ hj hs
      obtain ⟨s1, s2, s3⟩ := (same_iff _ _ _ _).mp hs
      obtain ⟨it, i1, i2, i3⟩ := (mem_jobs _ _ _ _).mp hj
      simp only at s1 s2 s3 ⊢
      have hconn : it.conn = c := hp.names it i1 _ hm (by rw [← (ops_facts rt it op i3).1, s2])
      rcases client_badge rt it (by rw [hconn]; exact hk) op i3 e.iface s3 with z | ⟨z1, z2, z3⟩
      · exact .inl z
      · right
        rw [z3, halone it i1 hconn z1 (by rw [i2, s1]) z2, hconn, hb]
        rfl
    · refine ⟨(e.space, _), (mem_jobs _ _ _ _).mpr ⟨_, hm, rfl, a2⟩, ?_, ?_⟩
      · exact (same_iff _ _ _ _).mpr ⟨rfl, rfl, rfl⟩
      · simp only [hb]
        rfl
  · intro b' hb'
    have hget : (c.srcs.map (·.badge))[c.srcs.idxOf e]? = some (some b') := by
      rw [List.getElem?_map, List.getElem?_eq_getElem hlt, List.getElem_idxOf hlt, Option.map_some, hb']
    have := g3 _ _ hget
    unfold clientBadges at hb
    rw [hb] at this
    cases this
    rfl

/-- C126: a server can tell its clients apart. Partial: the configured badges must be different, and
clients in the same component must have different interface names. -/
theorem clients_told_apart_partial (rt : Bool) (items : List Item) (hp : Proper items) (s : St) (slots : List (List Nat))
    (h : render rt start items = .ok (s, slots)) (c : Conn) (e e' d : End) (hk : c.kind = .rpc) (hne : e ≠ e')
    (h1 : Alone items c e) (h2 : Alone items c e')
    (hcfg : ∀ (i j b : Nat), (c.srcs.map (·.badge))[i]? = some (some b) → (c.srcs.map (·.badge))[j]? = some (some b) → i = j)
    (x y : Nat) (hx : Uses items slots ⟨c, .src, e⟩ (sendIndex c e d) x) (hy : Uses items slots ⟨c, .src, e'⟩ (sendIndex c e' d) y) :
    s.badge e.space x ≠ none ∧ s.badge e.space x ≠ s.badge e'.space y := by
  obtain ⟨b, b1, b2, _⟩ := client_badge_partial rt items hp s slots h c e d hk h1 x hx
  obtain ⟨b', c1, c2, _⟩ := client_badge_partial rt items hp s slots h c e' d hk h2 y hy
  rw [b1, c1]
  refine ⟨by simp, ?_⟩
  intro hbb
  cases hbb
  have hnd := Badges.allocate_distinct_partial (c.srcs.map (·.badge)) hcfg
  have m1 : e ∈ c.srcs := hp.member _ (uses_mem hx)
  have m2 : e' ∈ c.srcs := hp.member _ (uses_mem hy)
  rw [List.nodup_iff_getElem?_ne_getElem?] at hnd
  have hl1 : c.srcs.idxOf e < (clientBadges c).length := (List.getElem?_eq_some_iff.mp b2).1
  have hl2 : c.srcs.idxOf e' < (clientBadges c).length := (List.getElem?_eq_some_iff.mp c2).1
  rcases Nat.lt_trichotomy (c.srcs.idxOf e) (c.srcs.idxOf e') with hlt | heq | hgt
  · exact hnd _ _ hlt hl2 (b2.trans c2.symm)
  · exact hne (idxOf_inj m1 m2 heq)
  · exact hnd _ _ hgt hl1 (c2.trans b2.symm)

/-- C126: a sender of the bind connector signals with the badge that is configured for it. Partial: no
other sender of the connection may be in the same component (`bind_badge_overwritten`). -/
theorem bind_badge_partial (rt : Bool) (items : List Item) (hp : Proper items) (s : St) (slots : List (List Nat))
    (h : render rt start items = .ok (s, slots)) (c : Conn) (e : End) (hk : c.kind = .bind) (b : Nat) (hb : e.badge = some b)
    (halone : ∀ it ∈ items, it.conn = c → it.side = .src → it.me.space = e.space → it.me = e)
    (x : Nat) (hx : Uses items slots ⟨c, .src, e⟩ 0 x) : s.badge e.space x = some b := by
  have hm := uses_mem hx
  obtain ⟨op, a1, a2, a3, a4, _⟩ := used rt items hp s slots h _ _ _ hx
  have hop : ops rt ⟨c, .src, e⟩ = [alloc c.name tNotification writeRights e.badge] := by
    simp only [ops, srcOps, hk]
  rw [hop] at a1
  simp only [List.getElem?_cons_zero, Option.some.injEq] at a1
  subst a1
  rw [a4]
  apply lastBadge_const
  · rintro ⟨sp, op⟩ hj hs
    obtain ⟨s1, s2, s3⟩ := (same_iff _ _ _ _).mp hs
    obtain ⟨it, i1, i2, i3⟩ := (mem_jobs _ _ _ _).mp hj
    simp only at s1 s2 s3 ⊢
    have hconn : it.conn = c := hp.names it i1 _ hm (by rw [← (ops_facts rt it op i3).1, s2])
    obtain ⟨ic, side, me⟩ := it
    simp only at hconn
    subst hconn
    cases side
    · have hme := halone _ i1 rfl rfl (by rw [i2, s1])
      simp only at hme
      subst hme
      rw [hop, List.mem_singleton] at i3
      subst i3
      exact .inr hb
    · simp only [ops, dstOps, hk, List.mem_singleton] at i3
      subst i3
      exact .inl rfl
  · exact ⟨(e.space, _), (mem_jobs _ _ _ _).mpr ⟨_, hm, rfl, a2⟩, (same_iff _ _ _ _).mpr ⟨rfl, rfl, rfl⟩, hb⟩

/-- C126: all signals of the native connector carry the badge for which the receiver looks. -/
theorem native_badge (rt : Bool) (items : List Item) (hp : Proper items) (s : St) (slots : List (List Nat))
    (h : render rt start items = .ok (s, slots)) (it : Item) (hk : it.conn.kind = .native)
    (x : Nat) (hx : Uses items slots it 0 x) : s.badge it.me.space x = some 0xbad1dea := by
  have hm := uses_mem hx
  obtain ⟨op, a1, a2, a3, a4, _⟩ := used rt items hp s slots h _ _ _ hx
  have hall : ∀ it : Item, it.conn.kind = .native → ∀ op ∈ ops rt it, op.badge = some 0xbad1dea := by
    rintro ⟨c, side, me⟩ hk op ho
    simp only at hk
    cases side
    · simp only [ops, srcOps, hk, List.mem_singleton] at ho; subst ho; rfl
    · simp only [ops, dstOps, hk, List.mem_singleton] at ho; subst ho; rfl
  rw [a4]
  apply lastBadge_const
  · rintro ⟨sp, op'⟩ hj hs
    obtain ⟨s1, s2, s3⟩ := (same_iff _ _ _ _).mp hs
    obtain ⟨it', i1, i2, i3⟩ := (mem_jobs _ _ _ _).mp hj
    have hconn : it'.conn = it.conn := hp.names it' i1 _ hm (by rw [← (ops_facts rt it' op' i3).1, s2])
    exact .inr (hall it' (by rw [hconn]; exact hk) op' i3)
  · exact ⟨(it.me.space, op), (mem_jobs _ _ _ _).mpr ⟨_, hm, rfl, a2⟩, (same_iff _ _ _ _).mpr ⟨rfl, a3, rfl⟩, hall it hk op a2⟩

/-! ## Disagreements -/

/-- The capability and the badge in a slot. -/
def at_ (r : Except String (St × List (List Nat))) (sp i : Nat) : Option (Cap × Option Nat) :=
  match r with
  | .error _ => none
  | .ok (s, _) =>
    match (s.core.cnodes sp)[i]? with
    | some (some c) => some (c, s.badge sp i)
    | _ => none

/-- The slots that the code uses. -/
def slots_ (r : Except String (St × List (List Nat))) : Option (List (List Nat)) := r.toOption.map (·.2)

def clientA : End := ⟨"a".toList, "s".toList, 1, false, none, false⟩
def clientB : End := ⟨"b".toList, "s".toList, 1, false, none, false⟩
def clientC : End := ⟨"c".toList, "s".toList, 2, false, none, false⟩
def server : End := ⟨"d".toList, "p".toList, 3, true, none, false⟩
def callConn : Conn := ⟨"conn".toList, .rpc, [clientA, clientB, clientC], [server]⟩

/-- **Disagreement with C126.** Two instances of one component in a group, with the same interface
name, share a slot, and the badge of the one that is rendered last: the server cannot tell them
apart, although badges 1 and 2 were allocated. -/
theorem grouped_clients_share_badge :
    clientBadges callConn = [some 1, some 2, some 3] ∧
    slots_ (render false start [⟨callConn, .src, clientA⟩, ⟨callConn, .src, clientB⟩, ⟨callConn, .dst, server⟩]) = some [[0], [0], [0, 1]] ∧
    at_ (render false start [⟨callConn, .src, clientA⟩, ⟨callConn, .src, clientB⟩, ⟨callConn, .dst, server⟩]) 1 0 =
      some (⟨0, callRights⟩, some 2) := by decide +kernel

def emitA : End := ⟨"a".toList, "e1".toList, 1, false, some 1, false⟩
def emitB : End := ⟨"a".toList, "e2".toList, 1, false, some 2, false⟩
def waiter : End := ⟨"d".toList, "p".toList, 3, false, none, false⟩
def bindConn : Conn := ⟨"conn".toList, .bind, [emitA, emitB], [waiter]⟩

/-- **Disagreement with C126.** An instance with two interfaces on one connection of the bind connector
has one capability for both: the badge of the first interface is overwritten by that of the second. -/
theorem bind_badge_overwritten :
    slots_ (render false start [⟨bindConn, .src, emitA⟩, ⟨bindConn, .src, emitB⟩, ⟨bindConn, .dst, waiter⟩]) = some [[0], [0], [0]] ∧
    at_ (render false start [⟨bindConn, .src, emitA⟩, ⟨bindConn, .src, emitB⟩, ⟨bindConn, .dst, waiter⟩]) 1 0 =
      some (⟨0, writeRights⟩, some 2) := by decide +kernel

/-- **Disagreement with C126.** The receiver of the bind connector may signal itself. -/
theorem bind_receiver_sends :
    at_ (render false start [⟨bindConn, .src, emitA⟩, ⟨bindConn, .dst, waiter⟩]) 3 0 = some (⟨0, bothRights⟩, none) := by decide +kernel

def queueConn : Conn := ⟨"conn".toList, .queue, [emitA], [waiter]⟩

/-- **Disagreement with C126.** A sender of the queue connector may receive from the endpoint of the
receiver, and so take events that are meant for it. -/
theorem queue_sender_receives :
    at_ (render false start [⟨queueConn, .src, emitA⟩, ⟨queueConn, .dst, waiter⟩]) 1 0 = some (⟨0, bothRights⟩, none) ∧
    at_ (render false start [⟨queueConn, .src, emitA⟩, ⟨queueConn, .dst, waiter⟩]) 3 0 = some (⟨0, readRights⟩, none) := by decide +kernel

def lockClient : End := ⟨"a".toList, "s".toList, 1, false, none, true⟩
def bufConn : Conn := ⟨"c".toList, .rpc, [lockClient], [server]⟩
def otherClient : End := ⟨"x".toList, "t".toList, 5, false, none, false⟩
def otherServer : End := ⟨"y".toList, "q".toList, 6, false, none, false⟩
def otherConn : Conn := ⟨"c_userspace_buffer".toList, .rpc, [otherClient], [otherServer]⟩

/-- **Disagreement with C126.** The lock of the buffer of connection `c` is the endpoint of connection
`c_userspace_buffer`, between other components. -/
theorem buffer_lock_shared :
    (at_ (render false start [⟨bufConn, .src, lockClient⟩, ⟨otherConn, .src, otherClient⟩]) 1 0).map (·.1.obj) = some 0 ∧
    (at_ (render false start [⟨bufConn, .src, lockClient⟩, ⟨otherConn, .src, otherClient⟩]) 5 0).map (·.1.obj) = some 0 := by decide +kernel

/-! ## The hypotheses can be met -/

def ev1 : End := ⟨"x".toList, "c1".toList, 5, false, none, false⟩
def ev2 : End := ⟨"y".toList, "c2".toList, 6, false, none, false⟩
def evConn : Conn := ⟨"ev".toList, .notification, [emitA], [ev1, ev2]⟩
def callConn2 : Conn := ⟨"conn".toList, .rpc, [clientA, clientC], [server]⟩
def demo : List Item :=
  [⟨evConn, .dst, ev2⟩, ⟨callConn2, .dst, server⟩, ⟨callConn2, .src, clientC⟩, ⟨evConn, .src, emitA⟩, ⟨callConn2, .src, clientA⟩,
   ⟨evConn, .dst, ev1⟩]

theorem demo_proper : Proper demo := by
  constructor <;> decide +kernel

theorem demo_noClash : NoClash demo := by
  unfold NoClash
  decide +kernel

theorem demo_alone : Alone demo callConn2 clientA ∧ Alone demo callConn2 clientC := by
  unfold Alone
  decide +kernel

theorem demo_slots : slots_ (render false start demo) = some [[0, 1, 2], [0, 1], [0], [0, 1], [2], [0, 1, 2]] ∧
    at_ (render false start demo) 1 1 = some (⟨0, writeRights⟩, none) ∧ at_ (render false start demo) 6 0 = some (⟨0, readRights⟩, none) ∧
    at_ (render false start demo) 1 2 = some (⟨3, callRights⟩, some 1) ∧ at_ (render false start demo) 2 0 = some (⟨3, callRights⟩, some 2) ∧
    at_ (render false start demo) 3 0 = some (⟨3, readRights⟩, none) := by decide +kernel

end Verif.ConnCaps
