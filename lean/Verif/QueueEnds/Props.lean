import Verif.QueueEnds.Spec
import Verif.VqAlloc.Props
import Verif.MsgQ.Props

/-!
# The two ends of a queue in shared memory (C129)
-/

namespace Verif.QueueEnds

open Verif.VqAlloc

/-! ### Where the rings and the buffers are -/

theorem driverInit_made {m : Machine} {sz : Sizes} {heap driver : Bool} {b q size notify bs : Nat} {d : Driver}
    (h : driverInit m sz heap driver b q size notify bs = .made d) :
    driver = true ∧ b ≠ 0 ∧ heap = true ∧ bs ≠ 0 ∧
    d = ⟨q, b, b + availSize sz q, b + availSize sz q + usedSize sz q, notify,
      init (b + ringBytes sz q) ((size + m.W - ringBytes sz q % m.W) % m.W % m.U) bs⟩ := by
  unfold driverInit at h
  split at h
  · cases h
  · rename_i h1
    simp only at h
    split at h
    · cases h
    · rename_i h2
      split at h
      · cases h
      · rename_i h3
        injection h with h
        refine ⟨by simpa using fun hd => h1 (.inl hd), fun hb => h1 (.inr hb), by simpa using h2, h3, ?_⟩
        rw [← h]
        simp only [availSize, usedSize, ringBytes, descSize, Driver.mk.injEq, true_and]
        refine ⟨by omega, by omega, ?_⟩
        congr 1
        · omega
        · congr 4; omega

theorem deviceInit_made {sz : Sizes} {device : Bool} {b q notify : Nat} {v : Device}
    (h : deviceInit sz device b q notify = .made v) :
    device = true ∧ b ≠ 0 ∧
    v = ⟨q, b, b + availSize sz q, b + availSize sz q + usedSize sz q, notify, b + ringBytes sz q⟩ := by
  unfold deviceInit at h
  split at h
  · cases h
  · rename_i h1
    injection h with h
    refine ⟨by simpa using fun hd => h1 (.inl hd), fun hb => h1 (.inr hb), ?_⟩
    rw [← h]
    simp only [availSize, usedSize, ringBytes, descSize, Device.mk.injEq, true_and]
    refine ⟨by omega, by omega, by omega⟩

/-- C129: a driver is set up exactly if there are an object and shared memory, the heap has room and blocks have bytes; otherwise the reason is
returned. -/
theorem driver_result (m : Machine) (sz : Sizes) (heap driver : Bool) (b q size notify bs : Nat) (hb : 0 < bs) :
    ((driver = false ∨ b = 0) → driverInit m sz heap driver b q size notify bs = .error 22) ∧
    (driver = true → b ≠ 0 → heap = false → driverInit m sz heap driver b q size notify bs = .error 12) ∧
    (driver = true → b ≠ 0 → heap = true → ∃ d, driverInit m sz heap driver b q size notify bs = .made d) := by
  refine ⟨fun h => ?_, fun h1 h2 h3 => ?_, fun h1 h2 h3 => ?_⟩
  · simp [driverInit, h, EINVAL]
  · simp [driverInit, h1, h2, h3, ENOMEM]
  · simp [driverInit, h1, h2, h3, Nat.pos_iff_ne_zero.1 hb]

/-- C129: a device is set up exactly if there are an object and shared memory. -/
theorem device_result (sz : Sizes) (device : Bool) (b q notify : Nat) :
    ((device = false ∨ b = 0) → deviceInit sz device b q notify = .error 22) ∧
    (device = true → b ≠ 0 → ∃ v, deviceInit sz device b q notify = .made v) := by
  refine ⟨fun h => ?_, fun h1 h2 => ?_⟩
  · simp [deviceInit, h, EINVAL]
  · simp [deviceInit, h1, h2]

/-- C129: a driver has one ring after the other at the beginning of the memory, without gaps and overlaps, and the buffers after them. -/
theorem driver_laid_out (m : Machine) (sz : Sizes) (heap driver : Bool) (b q size notify bs : Nat) (d : Driver)
    (h : driverInit m sz heap driver b q size notify bs = .made d) :
    LaidOut sz q b d.avail d.used d.desc d.alloc.base ∧ d.queueLen = q ∧ d.notify = notify ∧ d.alloc.bs = bs := by
  obtain ⟨_, _, _, _, rfl⟩ := driverInit_made h
  exact ⟨⟨rfl, rfl, rfl, by simp [init, ringBytes]; omega⟩, rfl, rfl, rfl⟩

/-- C129: so has a device. -/
theorem device_laid_out (sz : Sizes) (device : Bool) (b q notify : Nat) (v : Device) (h : deviceInit sz device b q notify = .made v) :
    LaidOut sz q b v.avail v.used v.desc v.cookie ∧ v.queueLen = q ∧ v.notify = notify := by
  obtain ⟨_, _, rfl⟩ := deviceInit_made h
  exact ⟨⟨rfl, rfl, rfl, by simp [ringBytes]; omega⟩, rfl, rfl⟩

/-- C129: whatever the addresses at which the two components see the memory, an end finds each ring at the same distance from its beginning
as the other. -/
theorem same_place (m : Machine) (sz : Sizes) (heap driver device : Bool) (b b' q size notify notify' bs : Nat) (d : Driver) (v : Device)
    (h : driverInit m sz heap driver b q size notify bs = .made d) (h' : deviceInit sz device b' q notify' = .made v) :
    d.avail + b' = v.avail + b ∧ d.used + b' = v.used + b ∧ d.desc + b' = v.desc + b ∧ d.queueLen = v.queueLen := by
  obtain ⟨_, _, _, _, rfl⟩ := driverInit_made h
  obtain ⟨_, _, rfl⟩ := deviceInit_made h'
  refine ⟨?_, ?_, ?_, rfl⟩ <;> simp only <;> omega

/-- C129: the offset that a driver sends for a buffer leads the device to the same byte of the memory, and the driver back to its buffer. -/
theorem same_byte (m : Machine) (sz : Sizes) (heap driver device : Bool) (b b' q size notify notify' bs : Nat) (d : Driver) (v : Device)
    (h : driverInit m sz heap driver b q size notify bs = .made d) (h' : deviceInit sz device b' q notify' = .made v)
    (p : Nat) (hp : b + ringBytes sz q ≤ p) (hw : p < m.W) :
    v.pointer (d.offset m p) + b = p + b' ∧ d.pointer (d.offset m p) = p := by
  obtain ⟨_, _, _, _, rfl⟩ := driverInit_made h
  obtain ⟨_, _, rfl⟩ := deviceInit_made h'
  have e : (p + m.W - (b + ringBytes sz q)) % m.W = p - (b + ringBytes sz q) := by
    have : p + m.W - (b + ringBytes sz q) = p - (b + ringBytes sz q) + m.W := by omega
    rw [this, Nat.add_mod_right, Nat.mod_eq_of_lt (by omega)]
  simp only [Device.pointer, Driver.pointer, Driver.offset, init, e]
  omega

theorem usable {m : Machine} {size r : Nat} (hr : r ≤ size) (hs : size < m.W) : (size + m.W - r % m.W) % m.W = size - r := by
  rw [Nat.mod_eq_of_lt (by omega : r < m.W)]
  have : size + m.W - r = size - r + m.W := by omega
  rw [this, Nat.add_mod_right, Nat.mod_eq_of_lt (by omega)]

/-- C129: if the rings fit in the memory, then after every history each buffer that is allocated is behind the rings and within the memory,
and is not in use; the device finds it behind its rings and within its memory. A request that fits in a block is refused only if all blocks of
the memory behind the rings are in use. Missing for the full claim: memory that is too small for the rings (`short_memory`) is not refused. -/
theorem buffers_inside_partial (m : Machine) (sz : Sizes) (heap driver device : Bool) (b b' q size notify notify' bs : Nat) (d : Driver) (v : Device)
    (h : driverInit m sz heap driver b q size notify bs = .made d) (h' : deviceInit sz device b' q notify' = .made v)
    (hr : ringBytes sz q ≤ size) (hw : b + size ≤ m.W) (hu : size - ringBytes sz q < m.U) (hi : 2 * ((size - ringBytes sz q) / bs) < m.U)
    (cs : List Call) (hl : Legal (run m d.alloc [] cs).2) (k : Nat) :
    let r := run m d.alloc [] cs
    (∀ p a', alloc r.1 k = some (p, a') →
      k ≤ bs ∧ p ∉ live r.2 ∧ d.desc + descSize sz q ≤ p ∧ p + bs ≤ b + size ∧
      v.desc + descSize sz q ≤ v.pointer (d.offset m p) ∧ v.pointer (d.offset m p) + bs ≤ b' + size) ∧
    (alloc r.1 k = none ↔ bs < k ∨ (live r.2).length = (size - ringBytes sz q) / bs) := by
  obtain ⟨_, hb0, _, hbs, rfl⟩ := driverInit_made h
  have hsb := same_byte m sz heap driver device b b' q size notify notify' bs _ v h h'
  obtain ⟨_, _, rfl⟩ := deviceInit_made h'
  simp only at hl
  have e : (size + m.W - ringBytes sz q % m.W) % m.W % m.U = size - ringBytes sz q := by
    rw [usable hr (by omega), Nat.mod_eq_of_lt hu]
  simp only [e] at hl hsb ⊢
  have hf : Fits m (b + ringBytes sz q) (size - ringBytes sz q) bs := ⟨Nat.pos_of_ne_zero hbs, by omega, hi⟩
  obtain ⟨h1, h2, _, _⟩ := alloc_correct m _ _ _ hf cs hl k
  refine ⟨fun p a' ha => ?_, h2⟩
  obtain ⟨⟨i, hi1, hi2⟩, h3, h4⟩ := h1 p a' ha
  have h5 := (hsb p (by omega) (by omega)).1
  have h6 : ringBytes sz q = availSize sz q + usedSize sz q + descSize sz q := rfl
  refine ⟨h4, h3, ?_, ?_, ?_, ?_⟩ <;> omega

/-- **Disagreement with C129.** If the rings need more than the shared memory, then both ends are set up all the same, and the first buffer that
is allocated is outside of the memory: the size that is left wraps around. -/
theorem short_memory (m : Machine) (sz : Sizes) (b q size notify bs : Nat) (hb : b ≠ 0) (hbs : 0 < bs) (hr : size < ringBytes sz q)
    (hw : ringBytes sz q < m.W) (hl : bs ≤ (size + m.W - ringBytes sz q) % m.U) :
    ∃ d, driverInit m sz true true b q size notify bs = .made d ∧ ∃ p a', alloc d.alloc bs = some (p, a') ∧ b + size < p := by
  obtain ⟨d, hd⟩ := (driver_result m sz true true b q size notify bs hbs).2.2 rfl hb rfl
  refine ⟨d, hd, ?_⟩
  obtain ⟨_, _, _, _, rfl⟩ := driverInit_made hd
  have e : (size + m.W - ringBytes sz q % m.W) % m.W % m.U = (size + m.W - ringBytes sz q) % m.U := by
    rw [Nat.mod_eq_of_lt hw, Nat.mod_eq_of_lt (by omega : size + m.W - ringBytes sz q < m.W)]
  simp only [e]
  have hn : 0 < (size + m.W - ringBytes sz q) % m.U / bs := Nat.div_pos hl hbs
  have h : ∃ a', alloc (init (b + ringBytes sz q) ((size + m.W - ringBytes sz q) % m.U) bs) bs = some (b + ringBytes sz q, a') := by
    unfold alloc init
    simp only [gt_iff_lt, Nat.lt_irrefl, if_false, Nat.mul_zero, Nat.add_zero]
    rw [if_neg (by omega)]
    exact ⟨_, rfl⟩
  obtain ⟨a', h⟩ := h
  exact ⟨_, a', h, by omega⟩

/-- **Disagreement with C129.** An end can be set up again: two drivers of the same memory hand out the same buffer. -/
theorem same_buffer_twice (m : Machine) (sz : Sizes) (b q size notify bs : Nat) (hb : b ≠ 0) (hbs : 0 < bs)
    (hr : ringBytes sz q + bs ≤ size) (hw : size < m.W) (hu : size - ringBytes sz q < m.U) :
    ∃ d d', driverInit m sz true true b q size notify bs = .made d ∧ driverInit m sz true true b q size notify bs = .made d' ∧
      ∃ p a a', alloc d.alloc bs = some (p, a) ∧ alloc d'.alloc bs = some (p, a') := by
  obtain ⟨d, hd⟩ := (driver_result m sz true true b q size notify bs hbs).2.2 rfl hb rfl
  refine ⟨d, d, hd, hd, ?_⟩
  obtain ⟨_, _, _, _, rfl⟩ := driverInit_made hd
  simp only [usable (by omega : ringBytes sz q ≤ size) hw, Nat.mod_eq_of_lt hu]
  have hn : 0 < (size - ringBytes sz q) / bs := Nat.div_pos (by omega) hbs
  have e : ∃ a, alloc (init (b + ringBytes sz q) (size - ringBytes sz q) bs) bs = some (b + ringBytes sz q, a) := by
    unfold alloc init
    simp only [gt_iff_lt, Nat.lt_irrefl, if_false, Nat.mul_zero, Nat.add_zero]
    rw [if_neg (by omega)]
    exact ⟨_, rfl⟩
  obtain ⟨a, ha⟩ := e
  exact ⟨_, a, a, ha, ha⟩

/-! ### Virtqueues by their number -/

theorem getChannel_some {max : Nat} {t : VqChan.Table} {role : VqChan.Role} {id : Nat} {c : VqChan.Channel} (hn : role ≠ .unassigned) :
    VqChan.getChannel max t role id = some c ↔ Offered max t id role c := by
  unfold VqChan.getChannel Offered
  constructor
  · intro h
    split at h
    · cases h
    · split at h
      · cases h
      · split at h
        · cases h
        · split at h
          · cases h
          · rename_i h1 h2 h3 h4
            injection h with h
            subst h
            exact ⟨by omega, rfl, by simpa using h4, h3⟩
  · rintro ⟨h1, rfl, h3, h4⟩
    rw [if_neg (by omega), if_neg (by rw [h3]; exact hn), if_neg h4, if_neg (by simpa using h3)]

/-- C129: the driver of a virtqueue is set up exactly from the channel that is registered with the number for a driver: its memory, queue
length and function, and the notification and badge are those registered, and written exactly where the caller asks for them. Otherwise
the result is -1 and the caller's object is not written. -/
theorem driver_by_id (m : Machine) (sz : Sizes) (bs max : Nat) (hbs : 0 < bs) (t : VqChan.Table) (heap driver wantsN wantsB : Bool) (id : Nat) :
    ∃ r, driverById m sz bs max t heap driver wantsN wantsB id = some r ∧
    (∀ c, driver = true → Offered max t id .driver c →
      r.notification = (if wantsN then some c.recvNotification else none) ∧ r.badge = (if wantsB then some c.recvBadge else none) ∧
      (heap = true → r.ret = 0 ∧ ∃ d, r.queue = some d ∧ driverInit m sz true true c.buffer c.queueLen c.size c.notify bs = .made d) ∧
      (heap = false → r.ret = -1 ∧ r.queue = none)) ∧
    ((driver = false ∨ ∀ c, ¬ Offered max t id .driver c) → r.ret = -1 ∧ r.queue = none ∧ r.notification = none ∧ r.badge = none) := by
  unfold driverById
  cases driver with
  | false => exact ⟨_, rfl, fun c h => (by cases h), fun _ => ⟨rfl, rfl, rfl, rfl⟩⟩
  | true =>
    simp only [Bool.true_eq_false, if_false, false_or]
    cases hg : VqChan.getChannel max t .driver id with
    | none =>
      refine ⟨_, rfl, fun c _ ho => ?_, fun _ => ⟨rfl, rfl, rfl, rfl⟩⟩
      rw [(getChannel_some (by simp)).2 ho] at hg
      cases hg
    | some c =>
      have ho := (getChannel_some (by simp)).1 hg
      have hd := driver_result m sz heap true c.buffer c.queueLen c.size c.notify bs hbs
      have hno : ¬ ∀ c', ¬ Offered max t id .driver c' := fun h => h c ho
      have huniq : ∀ c', Offered max t id .driver c' → c' = c := by
        intro c' h
        rw [← h.2.1, ← ho.2.1]
      cases heap with
      | false =>
        simp only [hd.2.1 rfl ho.2.2.2 rfl]
        refine ⟨_, rfl, fun c' _ h' => ?_, fun h => absurd h hno⟩
        rw [huniq c' h']
        exact ⟨rfl, rfl, fun h => (by cases h), fun _ => ⟨rfl, rfl⟩⟩
      | true =>
        obtain ⟨d, hd⟩ := hd.2.2 rfl ho.2.2.2 rfl
        simp only [hd]
        refine ⟨_, rfl, fun c' _ h' => ?_, fun h => absurd h hno⟩
        rw [huniq c' h']
        exact ⟨rfl, rfl, fun _ => ⟨rfl, d, rfl, hd⟩, fun h => (by cases h)⟩

/-- C129: the same for a device. -/
theorem device_by_id (sz : Sizes) (max : Nat) (t : VqChan.Table) (device wantsN wantsB : Bool) (id : Nat) :
    ∃ r, deviceById sz max t device wantsN wantsB id = some r ∧
    (∀ c, device = true → Offered max t id .device c →
      r.notification = (if wantsN then some c.recvNotification else none) ∧ r.badge = (if wantsB then some c.recvBadge else none) ∧
      r.ret = 0 ∧ ∃ v, r.queue = some v ∧ deviceInit sz true c.buffer c.queueLen c.notify = .made v) ∧
    ((device = false ∨ ∀ c, ¬ Offered max t id .device c) → r.ret = -1 ∧ r.queue = none ∧ r.notification = none ∧ r.badge = none) := by
  unfold deviceById
  cases device with
  | false => exact ⟨_, rfl, fun c h => (by cases h), fun _ => ⟨rfl, rfl, rfl, rfl⟩⟩
  | true =>
    simp only [Bool.true_eq_false, if_false, false_or]
    cases hg : VqChan.getChannel max t .device id with
    | none =>
      refine ⟨_, rfl, fun c _ ho => ?_, fun _ => ⟨rfl, rfl, rfl, rfl⟩⟩
      rw [(getChannel_some (by simp)).2 ho] at hg
      cases hg
    | some c =>
      have ho := (getChannel_some (by simp)).1 hg
      obtain ⟨v, hv⟩ := (device_result sz true c.buffer c.queueLen c.notify).2 rfl ho.2.2.2
      simp only [hv]
      refine ⟨_, rfl, fun c' _ h' => ?_, fun h => absurd ho (h c)⟩
      have : c' = c := by rw [← h'.2.1, ← ho.2.1]
      rw [this]
      exact ⟨rfl, rfl, rfl, v, rfl, hv⟩

/-! ### Message queues -/

theorem lookup_some {t : MsgQ.Table} {id : Int} {role : MsgQ.Role} {c : MsgQ.Channel} (h : Registered t id role c) :
    MsgQ.lookup t id role = (some c, .ok) := by
  obtain ⟨h1, h2, h3, h4⟩ := h
  unfold MsgQ.lookup MsgQ.maxId
  rw [if_neg (by omega), if_neg (by omega), h3]
  simp [h4]

theorem lookup_none {t : MsgQ.Table} {id : Int} {role : MsgQ.Role} (h0 : 0 ≤ id) (h : ∀ c, ¬ Registered t id role c) :
    MsgQ.lookup t id role = (none, .einval) := by
  unfold MsgQ.lookup MsgQ.maxId
  split
  · rfl
  · rename_i h1
    rw [if_neg (by omega)]
    split
    · rfl
    · rename_i c hc
      split
      · rfl
      · rename_i h3
        exact absurd ⟨h0, by omega, hc, by simpa using h3⟩ (h c)

theorem block_pos {ms : Nat} (h : 0 < ms) : 0 < MsgQ.blockSize ms := Nat.lt_of_lt_of_le h (MsgQ.le_blockSize ms)

/-- The sender is not connected. -/
def Loose (s : Sender) : Prop := s.initialised = false

/-- The sender is connected to this channel. -/
def Conn (m : Machine) (sz : Sizes) (c : MsgQ.Channel) (s : Sender) : Prop :=
  s.initialised = true ∧ s.messageSize = c.messageSize ∧ ∃ n d, n ≠ 0 ∧ c.funcs = [n] ∧ s.channel = some d ∧
    driverInit m sz true true c.buffer c.queueLen c.bufferSize n (MsgQ.blockSize c.messageSize) = .made d

theorem sstep_conn {m : Machine} {sz : Sizes} {c : MsgQ.Channel} {s : Sender} (h : Conn m sz c s) (o : SCall) :
    sstep m sz s o = (s, SConnected c o) := by
  obtain ⟨h1, h2, n, d, hn, hf, h3, h4⟩ := h
  cases o with
  | init heap t id => simp [sstep, senderInit, h1, SConnected]
  | send message size q =>
    simp only [sstep, send, h1, h2, h3]
    cases message with
    | false => rfl
    | true =>
      simp only [Bool.true_eq_false, if_false, gt_iff_lt, SConnected]
      by_cases hs : c.messageSize < size
      · rw [if_pos hs, if_pos hs]; rfl
      · rw [if_neg hs, if_neg hs]
        have hd : d.notify = n := (driver_laid_out _ _ _ _ _ _ _ _ _ _ h4).2.2.1
        cases q with
        | noBuffer => rfl
        | noRoom => rfl
        | put => simp only [hd, if_neg hn, hf]

theorem connect {m : Machine} {sz : Sizes} {s : Sender} (h : Loose s) {t : MsgQ.Table} {id : Int} {c : MsgQ.Channel}
    (hr : Registered t id .sender c) (hw : Whole t) :
    (senderInit m sz true t id s).2 = .returned 0 [] ∧ Conn m sz c (senderInit m sz true t id s).1 ∧
    senderInit m sz false t id s = (s, .returned 12 []) := by
  have hq := hw _ _ hr.2.2.1
  obtain ⟨hb, hms, hfn⟩ := hq
  rw [hr.2.2.2] at hfn
  obtain ⟨n, hn, hf⟩ := hfn
  have hd := fun heap => driver_result m sz heap true c.buffer c.queueLen c.bufferSize n (MsgQ.blockSize c.messageSize) (block_pos hms)
  obtain ⟨d, hd1⟩ := (hd true).2.2 rfl hb rfl
  have hd2 := (hd false).2.1 rfl hb rfl
  unfold senderInit
  rw [h, lookup_some hr]
  have hg : c.funcs.getD 0 0 = n := by rw [hf]; rfl
  simp only [Bool.false_eq_true, if_false, hg, hd1, hd2, true_and]
  exact ⟨⟨rfl, rfl, n, d, hn, hf, rfl, hd1⟩, trivial⟩

theorem sstep_loose {m : Machine} {sz : Sizes} {s : Sender} (h : Loose s) (o : SCall) (ho : SOrder o) :
    SLoose o (sstep m sz s o).2 ∧
    ((∃ t id c, o = .init true t id ∧ Registered t id .sender c) ∨ (sstep m sz s o).1 = s) := by
  cases o with
  | send message size q =>
    refine ⟨?_, .inr rfl⟩
    simp only [SLoose, sstep, send]
    rw [show s.initialised = false from h]
    cases message <;> rfl
  | init heap t id =>
    obtain ⟨h0, hw⟩ := ho
    by_cases hr : ∃ c, Registered t id .sender c
    · obtain ⟨c, hr⟩ := hr
      have hc := connect (m := m) (sz := sz) h hr hw
      cases heap with
      | true =>
        exact ⟨⟨fun c' _ => hc.1, fun hno => absurd hr (hno c)⟩, .inl ⟨t, id, c, rfl, hr⟩⟩
      | false =>
        refine ⟨⟨fun c' _ => by simp only [sstep, hc.2.2]; rfl, fun hno => absurd hr (hno c)⟩, .inr ?_⟩
        simp only [sstep, hc.2.2]
    · have hr' : ∀ c, ¬ Registered t id .sender c := fun c hc => hr ⟨c, hc⟩
      have e : senderInit m sz heap t id s = (s, .returned 22 []) := by
        unfold senderInit
        rw [h, lookup_none h0 hr']
        rfl
      exact ⟨⟨fun c hc => absurd hc (hr' c), fun _ => by simp only [sstep, e]⟩, .inr (by simp only [sstep, e])⟩

theorem srun_conn {m : Machine} {sz : Sizes} {c : MsgQ.Channel} : ∀ (cs : List SCall) {s : Sender}, Conn m sz c s → srun m sz s cs = s := by
  intro cs
  induction cs with
  | nil => intro s _; rfl
  | cons o cs ih =>
    intro s h
    simp only [srun, sstep_conn h]
    exact ih h

theorem srun_first {m : Machine} {sz : Sizes} {cs : List SCall} {c : MsgQ.Channel} (hf : SFirst cs c) :
    ∀ {s : Sender}, Loose s → (∀ o ∈ cs, SOrder o) → Conn m sz c (srun m sz s cs) := by
  induction hf with
  | @here t id c cs hr =>
    intro s h ho
    have hc := (connect (m := m) (sz := sz) h hr (ho _ (List.mem_cons_self ..)).2).2.1
    simp only [srun, sstep]
    rw [srun_conn cs hc]
    exact hc
  | @noMemory t id c cs hf ih =>
    intro s h ho
    have h2 := (sstep_loose (m := m) (sz := sz) h _ (ho _ (List.mem_cons_self ..))).2
    rcases h2 with ⟨t', id', c', he, _⟩ | h2
    · cases he
    · simp only [srun, h2]
      exact ih h fun o hm => ho o (List.mem_cons_of_mem _ hm)
  | @unknown heap t id c cs hno hf ih =>
    intro s h ho
    have h2 := (sstep_loose (m := m) (sz := sz) h _ (ho _ (List.mem_cons_self ..))).2
    rcases h2 with ⟨t', id', c', he, hr⟩ | h2
    · cases he
      exact absurd hr (hno c')
    · simp only [srun, h2]
      exact ih h fun o hm => ho o (List.mem_cons_of_mem _ hm)
  | @other message size q c cs hf ih =>
    intro s h ho
    simp only [srun, sstep]
    exact ih h fun o hm => ho o (List.mem_cons_of_mem _ hm)

theorem srun_none {m : Machine} {sz : Sizes} : ∀ (cs : List SCall) {s : Sender}, Loose s → (∀ o ∈ cs, SOrder o) →
    (∀ c, ¬ SFirst cs c) → srun m sz s cs = s := by
  intro cs
  induction cs with
  | nil => intro s _ _ _; rfl
  | cons o cs ih =>
    intro s h ho hno
    have h2 := (sstep_loose (m := m) (sz := sz) h o (ho _ (List.mem_cons_self ..))).2
    rcases h2 with ⟨t, id, c, rfl, hr⟩ | h2
    · exact absurd (.here hr) (hno c)
    · simp only [srun, h2]
      refine ih h (fun o hm => ho o (List.mem_cons_of_mem _ hm)) fun c hc => hno c ?_
      cases o with
      | send message size q => exact .other hc
      | init heap t id =>
        cases heap with
        | false => exact .noMemory hc
        | true =>
          by_cases hr : ∃ c', Registered t id .sender c'
          · obtain ⟨c', hr⟩ := hr
            exact absurd (.here hr) (hno c')
          · exact .unknown (fun c' h' => hr ⟨c', h'⟩) hc

/-- C129: after every history, a sender behaves as one that is connected to the channel of the first initialisation that succeeded: later
ones, with whatever numbers, change nothing; a message is refused if it is too long for the channel, and the function registered for the channel is
called exactly if the message was put in the queue. -/
theorem sender_connected (m : Machine) (sz : Sizes) (cs : List SCall) (c : MsgQ.Channel) (hf : SFirst cs c) (ho : ∀ o ∈ cs, SOrder o)
    (o : SCall) : (sstep m sz (srun m sz .zero cs) o).2 = SConnected c o := by
  rw [sstep_conn (srun_first hf (s := .zero) rfl ho)]

/-- C129: a sender that was never initialised with success sends nothing. -/
theorem sender_loose (m : Machine) (sz : Sizes) (cs : List SCall) (hf : ∀ c, ¬ SFirst cs c) (ho : ∀ o ∈ cs, SOrder o)
    (o : SCall) (ho' : SOrder o) : SLoose o (sstep m sz (srun m sz .zero cs) o).2 := by
  rw [srun_none cs (s := .zero) rfl ho hf]
  exact (sstep_loose (s := .zero) rfl o ho').1

/-- C129: a connected sender uses the memory of its channel, in blocks that a message fits in. -/
theorem sender_memory (m : Machine) (sz : Sizes) (cs : List SCall) (c : MsgQ.Channel) (hf : SFirst cs c) (ho : ∀ o ∈ cs, SOrder o) :
    ∃ d n bs, (srun m sz .zero cs).channel = some d ∧ c.funcs = [n] ∧ c.messageSize ≤ bs ∧
      driverInit m sz true true c.buffer c.queueLen c.bufferSize n bs = .made d := by
  obtain ⟨_, _, n, d, _, h1, h2, h3⟩ := srun_first (m := m) (sz := sz) hf (s := .zero) rfl ho
  exact ⟨d, n, _, h2, h1, MsgQ.le_blockSize _, h3⟩

/-- The receiver is connected to this channel. -/
def RConn (sz : Sizes) (c : MsgQ.Channel) (s : Receiver) : Prop :=
  s.initialised = true ∧ s.messageSize = c.messageSize ∧ c.funcs = [s.poll, s.wait] ∧ s.poll ≠ 0 ∧ s.wait ≠ 0 ∧
    ∃ v, s.channel = some v ∧ deviceInit sz true c.buffer c.queueLen 0 = .made v

theorem rstep_conn {sz : Sizes} {c : MsgQ.Channel} {s : Receiver} (h : RConn sz c s) (o : RCall) :
    (rstep sz s o).1 = s ∧ RConnected c o (rstep sz s o).2 := by
  obtain ⟨h1, h2, hf, hp, hw, _⟩ := h
  cases o with
  | init t id => simp [rstep, receiverInit, h1, RConnected]
  | poll answer =>
    refine ⟨rfl, s.poll, s.wait, hf, ?_⟩
    simp [rstep, poll, h1, hp]
  | wait =>
    refine ⟨rfl, s.poll, s.wait, hf, ?_⟩
    simp [rstep, wait, h1, hw]
  | get buffer size message =>
    refine ⟨rfl, ?_⟩
    cases buffer with
    | false => rfl
    | true =>
      simp only [RConnected, rstep, get, h1, h2, Bool.true_eq_false, if_false]
      refine ⟨fun h => by rw [if_pos h]; rfl, fun h => ?_⟩
      rw [if_neg (by omega)]
      refine ⟨fun hm => by rw [hm]; rfl, fun k hk hle => ?_⟩
      rw [hk]
      simp only
      rw [if_pos (by omega)]

theorem rconnect {sz : Sizes} {s : Receiver} (h : s.initialised = false) {t : MsgQ.Table} {id : Int} {c : MsgQ.Channel}
    (hr : Registered t id .receiver c) (hw : Whole t) :
    (receiverInit sz t id s).2 = .returned 0 [] ∧ RConn sz c (receiverInit sz t id s).1 := by
  obtain ⟨hb, hms, hfn⟩ := hw _ _ hr.2.2.1
  rw [hr.2.2.2] at hfn
  obtain ⟨p, w, hp, hww, hf⟩ := hfn
  obtain ⟨v, hv⟩ := (device_result sz true c.buffer c.queueLen 0).2 rfl hb
  unfold receiverInit
  rw [h, lookup_some hr]
  have hg : c.funcs.getD 0 0 = p := by rw [hf]; rfl
  have hg' : c.funcs.getD 1 0 = w := by rw [hf]; rfl
  simp only [Bool.false_eq_true, if_false, hg, hg', hv, true_and]
  exact ⟨rfl, rfl, hf, hp, hww, v, rfl, hv⟩

theorem rstep_loose {sz : Sizes} {s : Receiver} (h : s.initialised = false) (o : RCall) (ho : ROrder o) :
    RLoose o (rstep sz s o).2 ∧ ((∃ t id c, o = .init t id ∧ Registered t id .receiver c) ∨ (rstep sz s o).1 = s) := by
  cases o with
  | poll answer => exact ⟨by simp [RLoose, rstep, poll, h, EINVAL], .inr rfl⟩
  | wait => exact ⟨by simp [RLoose, rstep, wait, h, EINVAL], .inr rfl⟩
  | get buffer size message =>
    refine ⟨?_, .inr rfl⟩
    cases buffer <;> simp [RLoose, rstep, get, h, EINVAL]
  | init t id =>
    obtain ⟨h0, hw⟩ := ho
    by_cases hr : ∃ c, Registered t id .receiver c
    · obtain ⟨c, hr⟩ := hr
      have hc := rconnect (sz := sz) h hr hw
      exact ⟨⟨fun c' _ => hc.1, fun hno => absurd hr (hno c)⟩, .inl ⟨t, id, c, rfl, hr⟩⟩
    · have hr' : ∀ c, ¬ Registered t id .receiver c := fun c hc => hr ⟨c, hc⟩
      have e : receiverInit sz t id s = (s, .returned 22 []) := by
        unfold receiverInit
        rw [h, lookup_none h0 hr']
        rfl
      exact ⟨⟨fun c hc => absurd hc (hr' c), fun _ => by simp only [rstep, e]⟩, .inr (by simp only [rstep, e])⟩

theorem rrun_conn {sz : Sizes} {c : MsgQ.Channel} : ∀ (cs : List RCall) {s : Receiver}, RConn sz c s → rrun sz s cs = s := by
  intro cs
  induction cs with
  | nil => intro s _; rfl
  | cons o cs ih =>
    intro s h
    simp only [rrun, (rstep_conn h o).1]
    exact ih h

theorem rrun_first {sz : Sizes} {cs : List RCall} {c : MsgQ.Channel} (hf : RFirst cs c) :
    ∀ {s : Receiver}, s.initialised = false → (∀ o ∈ cs, ROrder o) → RConn sz c (rrun sz s cs) := by
  induction hf with
  | @here t id c cs hr =>
    intro s h ho
    have hc := (rconnect (sz := sz) h hr (ho _ (List.mem_cons_self ..)).2).2
    simp only [rrun, rstep]
    rw [rrun_conn cs hc]
    exact hc
  | @unknown t id c cs hno hf ih =>
    intro s h ho
    have h2 := (rstep_loose (sz := sz) h _ (ho _ (List.mem_cons_self ..))).2
    rcases h2 with ⟨t', id', c', he, hr⟩ | h2
    · cases he
      exact absurd hr (hno c')
    · simp only [rrun, h2]
      exact ih h fun o hm => ho o (List.mem_cons_of_mem _ hm)
  | @other o c cs hne hf ih =>
    intro s h ho
    have h2 := (rstep_loose (sz := sz) h _ (ho _ (List.mem_cons_self ..))).2
    rcases h2 with ⟨t', id', c', he, hr⟩ | h2
    · exact absurd he (hne t' id')
    · simp only [rrun, h2]
      exact ih h fun o hm => ho o (List.mem_cons_of_mem _ hm)

theorem rrun_none {sz : Sizes} : ∀ (cs : List RCall) {s : Receiver}, s.initialised = false → (∀ o ∈ cs, ROrder o) →
    (∀ c, ¬ RFirst cs c) → rrun sz s cs = s := by
  intro cs
  induction cs with
  | nil => intro s _ _ _; rfl
  | cons o cs ih =>
    intro s h ho hno
    have h2 := (rstep_loose (sz := sz) h o (ho _ (List.mem_cons_self ..))).2
    rcases h2 with ⟨t, id, c, rfl, hr⟩ | h2
    · exact absurd (.here hr) (hno c)
    · simp only [rrun, h2]
      refine ih h (fun o hm => ho o (List.mem_cons_of_mem _ hm)) fun c hc => hno c ?_
      by_cases hi : ∃ t id, o = .init t id
      · obtain ⟨t, id, rfl⟩ := hi
        by_cases hr : ∃ c', Registered t id .receiver c'
        · obtain ⟨c', hr⟩ := hr
          exact absurd (.here hr) (hno c')
        · exact .unknown (fun c' h' => hr ⟨c', h'⟩) hc
      · exact .other (fun t id he => hi ⟨t, id, he⟩) hc

/-- C129: after every history, a receiver behaves as one that is connected to the channel of the first initialisation that succeeded: `poll`
and `wait` call the functions registered for it, `poll` returning what its function returns, and `get` gives the next message, if there is one and the buffer
has room for any message of the channel. -/
theorem receiver_connected (sz : Sizes) (cs : List RCall) (c : MsgQ.Channel) (hf : RFirst cs c) (ho : ∀ o ∈ cs, ROrder o)
    (o : RCall) : RConnected c o (rstep sz (rrun sz .zero cs) o).2 :=
  (rstep_conn (rrun_first hf rfl ho) o).2

/-- C129: a receiver that was never initialised with success calls no function and receives nothing. -/
theorem receiver_loose (sz : Sizes) (cs : List RCall) (hf : ∀ c, ¬ RFirst cs c) (ho : ∀ o ∈ cs, ROrder o)
    (o : RCall) (ho' : ROrder o) : RLoose o (rstep sz (rrun sz .zero cs) o).2 := by
  rw [rrun_none cs rfl ho hf]
  exact (rstep_loose rfl o ho').1

/-- C129: a connected receiver uses the memory of its channel. -/
theorem receiver_memory (sz : Sizes) (cs : List RCall) (c : MsgQ.Channel) (hf : RFirst cs c) (ho : ∀ o ∈ cs, ROrder o) :
    ∃ v, (rrun sz .zero cs).channel = some v ∧ deviceInit sz true c.buffer c.queueLen 0 = .made v :=
  (rrun_first (sz := sz) hf (s := .zero) rfl ho).2.2.2.2.2

/-- C129: calls without an object are refused. -/
theorem null_refused (o : SCall) (o' : RCall) : snull o = .returned 22 [] ∧ rnull o' = .returned 22 [] := by
  cases o <;> cases o' <;> exact ⟨rfl, rfl⟩

/-- **Disagreement with C129.** The result of `poll` without a connection is the same as that of a connected one whose function answers
that messages are there. -/
theorem poll_ambiguous (sz : Sizes) (cs : List RCall) (c : MsgQ.Channel) (hf : RFirst cs c) (ho : ∀ o ∈ cs, ROrder o) :
    ∃ p, (rstep sz .zero (.poll fun _ => 22)).2 = .returned 22 [] ∧ (rstep sz (rrun sz .zero cs) (.poll fun _ => 22)).2 = .returned 22 [p] := by
  obtain ⟨p, w, _, h⟩ := receiver_connected sz cs c hf ho (.poll fun _ => 22)
  exact ⟨p, rfl, h⟩

/-! ### A concrete queue -/

/-- The sizes of libvirtqueue. -/
def realSizes : Sizes := ⟨4, 4, 8, 16, 2⟩

def machine : Machine := ⟨2 ^ 64, 2 ^ 32⟩

def sendChan : MsgQ.Channel := ⟨.sender, 0x10000, 16, 8192, 100, [7]⟩
def recvChan : MsgQ.Channel := ⟨.receiver, 0x40000, 16, 8192, 100, [8, 9]⟩

def sendTable : MsgQ.Table := fun i => if i = 1 then some sendChan else none
def recvTable : MsgQ.Table := fun i => if i = 1 then some recvChan else none

theorem sendTable_whole : Whole sendTable := by
  intro i c h
  unfold sendTable at h
  split at h
  · injection h with h
    subst h
    exact ⟨by decide, by decide, 7, by decide, rfl⟩
  · cases h

theorem recvTable_whole : Whole recvTable := by
  intro i c h
  unfold recvTable at h
  split at h
  · injection h with h
    subst h
    exact ⟨by decide, by decide, 8, 9, by decide, by decide, rfl⟩
  · cases h

theorem sendTable_only (id : Int) (c : MsgQ.Channel) (h : Registered sendTable id .sender c) : id = 1 := by
  obtain ⟨h1, _, h3, _⟩ := h
  unfold sendTable at h3
  split at h3
  · omega
  · cases h3

def demoCalls : List SCall := [.send true 3 .put, .init true sendTable 2, .init false sendTable 1, .init true sendTable 1, .init true sendTable 2]

theorem demo_order : ∀ o ∈ demoCalls, SOrder o := by
  intro o h
  simp only [demoCalls, List.mem_cons, List.not_mem_nil, or_false] at h
  rcases h with rfl | rfl | rfl | rfl | rfl <;> first | trivial | exact ⟨by decide, sendTable_whole⟩

theorem demo_first : SFirst demoCalls sendChan :=
  .other (.unknown (fun c h => by have := sendTable_only _ _ h; omega) (.noMemory (.here ⟨by decide, by decide, rfl, rfl⟩)))

/-- The hypotheses of `sender_connected` hold of some calls; the sender sends, and notifies. -/
theorem demo_sender : (sstep machine realSizes (srun machine realSizes .zero demoCalls) (.send true 3 .put)).2 = .returned 0 [7] ∧
    (sstep machine realSizes (srun machine realSizes .zero demoCalls) (.send true 101 .put)).2 = .returned 90 [] := by
  constructor <;> rw [sender_connected machine realSizes demoCalls sendChan demo_first demo_order] <;> rfl

theorem demo_rfirst : RFirst [.wait, .init recvTable 1] recvChan :=
  .other (fun _ _ h => by cases h) (.here ⟨by decide, by decide, rfl, rfl⟩)

theorem demo_rorder : ∀ o ∈ [RCall.wait, .init recvTable 1], ROrder o := by
  intro o h
  simp only [List.mem_cons, List.not_mem_nil, or_false] at h
  rcases h with rfl | rfl
  · trivial
  · exact ⟨by decide, recvTable_whole⟩

/-- Two ends of 8192 bytes at different addresses: the rings need 424 bytes, and there is room for 60 buffers of 128 bytes. The first one is
behind the rings at both ends. -/
theorem demo_ends : ∃ d v, driverInit machine realSizes true true 0x10000 16 8192 7 (MsgQ.blockSize 100) = .made d ∧
    deviceInit realSizes true 0x40000 16 0 = .made v ∧ ringBytes realSizes 16 = 424 ∧ MsgQ.blockSize 100 = 128 ∧ d.alloc.n = 60 ∧
    (alloc d.alloc 100).map (fun r => r.1) = some (0x10000 + 424) ∧ v.pointer (d.offset machine (0x10000 + 424)) = 0x40000 + 424 := by
  refine ⟨_, _, rfl, rfl, ?_⟩
  decide +kernel

/-- A queue of 256 elements in a page of 4096 bytes, both of which registration accepts, meets the hypotheses of `short_memory`. -/
theorem demo_short : 4096 < ringBytes realSizes 256 ∧ ringBytes realSizes 256 < machine.W ∧
    128 ≤ (4096 + machine.W - ringBytes realSizes 256) % machine.U ∧
    (MsgQ.register (fun _ => none) 1 ⟨.sender, 0x10000, 256, 4096, 128, [7]⟩).2 = .ok := by
  decide +kernel

/-- The hypotheses of `buffers_inside_partial` and `same_buffer_twice` about sizes hold of the two ends. -/
theorem demo_fits : ringBytes realSizes 16 + 128 ≤ 8192 ∧ 0x10000 + 8192 ≤ machine.W ∧ 8192 - ringBytes realSizes 16 < machine.U ∧
    2 * ((8192 - ringBytes realSizes 16) / 128) < machine.U := by
  decide +kernel

/-- A virtqueue that is registered for a driver with number 3 is offered to it and not to a device. -/
theorem demo_offered : let t : VqChan.Table := fun i => if i = 3 then ⟨none, 16, 8192, 0x10000, 7, 11, 12, .driver⟩ else VqChan.zero
    Offered 100 t 3 .driver ⟨none, 16, 8192, 0x10000, 7, 11, 12, .driver⟩ ∧ ∀ c, ¬ Offered 100 t 3 .device c := by
  refine ⟨⟨by decide, rfl, rfl, by decide⟩, fun c h => ?_⟩
  have h2 := h.2.1
  have h3 := h.2.2.1
  rw [← h2] at h3
  cases h3

end Verif.QueueEnds
