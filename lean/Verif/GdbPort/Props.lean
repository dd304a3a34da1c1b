import Verif.GdbPort.Steps

/-! # C121: the port is set up whatever it was before, and what is printed goes out -/

namespace Verif.GdbPort

/-! ## Setting up -/

theorem reason_le (u : Uart) : u.reason < 64 := by
  unfold Uart.reason
  split_ifs <;> decide

/-- The state in which the interrupts that are pending are cleared for the first time. -/
def first (s : S) : S := out8 4 15 (out8 3 3 (disableFifo (setInterrupt 0 (setDlab false s))))

/-- And the one for the second time. -/
def second (s : S) : S := setInterrupt 1 (enableFifo (resetState (setBaudRate s)))

theorem first_cfg (s : S) :
    (first s).u.cfg = ⟨3, s.u.dll, s.u.dlm, 0, 15, s.u.hasFifo, false⟩ := by
  simp only [first, disableFifo, setInterrupt, out8_cfg, setDlab_cfg, Cfg.write, Cfg.dlabSet, Bool.false_eq_true,
    if_false]
  have h : ¬ (if s.u.cfg.lcr / 128 % 2 = 1 then s.u.cfg.lcr - 128 else s.u.cfg.lcr) / 128 % 2 = 1 := by
    split <;> omega
  rw [if_neg h]
  simp [Uart.cfg]

theorem enableFifo_off (s : S) (h : s.u.fifo = false) : enableFifo s = { (in8 2 s).2 with depth := 1 } := by
  have : ¬ (in8 2 s).1 / 64 % 4 = 3 := by
    rw [iir_read, h]
    have := reason_le (tick s).u
    simp only [Bool.false_eq_true, if_false]
    omega
  simp only [enableFifo, if_neg this]

theorem latch_cfg (s : S) (h : s.u.lcr = 3) : (setBaudRate s).u.cfg = { s.u.cfg with dll := 1, dlm := 0 } := by
  have h' : s.u.cfg.lcr = 3 := h
  simp [setBaudRate, writeLatch, out8_cfg, setDlab_cfg, Cfg.write, Cfg.dlabSet, h']

theorem second_cfg (s : S) (h : s.u.lcr = 3) (hf : s.u.fifo = false) :
    (second s).u.cfg = { s.u.cfg with dll := 1, dlm := 0, ier := 1 } := by
  have hl := latch_cfg s h
  have hf' : (resetState (setBaudRate s)).u.fifo = false := (congrArg Cfg.fifo hl).trans hf
  have h3 : s.u.cfg.lcr = 3 := h
  simp only [second, setInterrupt, enableFifo_off _ hf', out8_cfg]
  rw [show ({ (in8 2 (resetState (setBaudRate s))).2 with depth := 1 } : S).u =
    (in8 2 (resetState (setBaudRate s))).2.u from rfl, in8_cfg]
  rw [show (resetState (setBaudRate s)).u = (setBaudRate s).u from rfl, hl]
  simp [Cfg.write, h3]

theorem second_vars (s : S) (h : s.u.lcr = 3) (hf : s.u.fifo = false) : (second s).depth = 1 ∧ (second s).used = 0 := by
  have hf' : (resetState (setBaudRate s)).u.fifo = false := (congrArg Cfg.fifo (latch_cfg s h)).trans hf
  simp only [second, setInterrupt, enableFifo_off _ hf', (out8_vars _ _ _).1, (out8_vars _ _ _).2.1, true_and]
  rw [(in8_vars _ _).2.1]
  rfl

theorem init_eq (fuel : Nat) (s : S) :
    init (fuel + 1) s =
      (clearIir (fuel + 1) (second (in8 2 (first s)).2)).map fun r => initialiseBuffer r.2 := by
  have h0 : (first s).u.ier = 0 := congrArg Cfg.ier (first_cfg s)
  have := clearIir_off fuel (first s) h0
  simp only [init]
  rw [show out8 4 15 (out8 3 3 (disableFifo (setInterrupt 0 (setDlab false s)))) = first s from rfl, this]
  show (match clearIir (fuel + 1) (second (in8 2 (first s)).2) with
    | none => none
    | some (_, s) => some (initialiseBuffer s)) = _
  cases clearIir (fuel + 1) (second (in8 2 (first s)).2) <;> rfl

theorem init_zero (s : S) : init 0 s = none := rfl

theorem mid (s : S) : (in8 2 (first s)).2.u.lcr = 3 ∧ (in8 2 (first s)).2.u.fifo = false := by
  have h := (in8_cfg 2 (first s)).trans (first_cfg s)
  exact ⟨congrArg Cfg.lcr h, congrArg Cfg.fifo h⟩

theorem init_result {fuel : Nat} {s t : S} (h : init fuel s = some t) :
    t.u.cfg = ⟨3, 1, 0, 1, 15, s.u.hasFifo, false⟩ ∧ t.depth = 1 ∧ t.used = 0 := by
  cases fuel with
  | zero => simp [init_zero] at h
  | succ n =>
    rw [init_eq] at h
    cases hc : clearIir (n + 1) (second (in8 2 (first s)).2) with
    | none => rw [hc] at h; simp at h
    | some r =>
      obtain ⟨b, r⟩ := r
      rw [hc] at h
      have ht : initialiseBuffer r = t := by simpa using h
      subst ht
      obtain ⟨m1, m2⟩ := mid s
      obtain ⟨k1, k2, k3⟩ := clearIir_cfg _ _ _ _ hc
      obtain ⟨v1, v2⟩ := second_vars _ m1 m2
      refine ⟨?_, k2.trans v1, k3.trans v2⟩
      show r.u.cfg = _
      rw [k1, second_cfg _ m1 m2, in8_cfg, first_cfg]

/-- C121, the setup: whatever state the port is in, and whatever it does in the meantime, after `serial_init`
it runs at 115200 baud with 8-n-1, with its outputs on, and interrupts when data arrives, and for nothing else. -/
theorem set_up {fuel : Nat} {s t : S} (h : init fuel s = some t) : Configured t.u := by
  obtain ⟨h1, -, -⟩ := init_result h
  refine ⟨congrArg Cfg.lcr h1, ?_, congrArg Cfg.mcr h1, congrArg Cfg.ier h1⟩
  have a : t.u.dlm = 0 := congrArg Cfg.dlm h1
  have b : t.u.dll = 1 := congrArg Cfg.dll h1
  omega

/-- C121, the setup ends: it does not wait for an event that may not come, and reads no register forever,
whatever the port does (only finitely many characters arrive during it). -/
theorem set_up_ends (s : S) : ∃ n, ∀ fuel ≥ n, ∃ t, init fuel s = some t := by
  refine ⟨2 * coming (second (in8 2 (first s)).2) + 2, fun fuel hf => ?_⟩
  obtain ⟨n, rfl⟩ : ∃ n, fuel = n + 1 := ⟨fuel - 1, by omega⟩
  obtain ⟨m1, m2⟩ := mid s
  have hc := second_cfg _ m1 m2
  have hd : (second (in8 2 (first s)).2).u.dlab = false := by
    have : (second (in8 2 (first s)).2).u.lcr = 3 := (congrArg Cfg.lcr hc).trans m1
    simp [Uart.dlab, this]
  obtain ⟨r, hr⟩ := clearIir_ends (n + 1) _ hd (congrArg Cfg.ier hc) hf
  exact ⟨_, by rw [init_eq, hr]; rfl⟩

/-- **Disagreement with C121.** The queue of the port is never used: it is switched off, and then switched on
only if it is on. -/
theorem fifo_never_used {fuel : Nat} {s t : S} (h : init fuel s = some t) : t.u.fifo = false ∧ t.depth = 1 := by
  obtain ⟨h1, h2, -⟩ := init_result h
  exact ⟨congrArg Cfg.fifo h1, h2⟩

/-- So the wish fails for every port that has a queue. -/
theorem uses_fifo_fails {fuel : Nat} {s t : S} (h : init fuel s = some t) (hs : s.u.hasFifo = true) :
    ¬ UsesFifo t := by
  obtain ⟨h1, h2, -⟩ := init_result h
  intro hu
  have := (hu ((congrArg Cfg.hasFifo h1).trans hs)).2
  omega

/-! ## Printing -/

/-- What was sent and what is to be sent. -/
def given (u : Uart) : List Nat := u.wire ++ u.tx

theorem step_out (u : Uart) (e : Ev) :
    given (u.step e) = given u ∧ (u.step e).lost = u.lost ∧ (u.step e).tx.length ≤ u.tx.length := by
  cases e with
  | sent =>
    simp only [Uart.step]
    split
    · exact ⟨rfl, rfl, Nat.le_refl _⟩
    · next c r h => simp [given, h]
  | received c => simp only [Uart.step]; split <;> exact ⟨rfl, rfl, Nat.le_refl _⟩
  | line => exact ⟨rfl, rfl, Nat.le_refl _⟩
  | modem => exact ⟨rfl, rfl, Nat.le_refl _⟩

theorem steps_out (evs : List Ev) (u : Uart) :
    given (evs.foldl Uart.step u) = given u ∧ (evs.foldl Uart.step u).lost = u.lost ∧
      (evs.foldl Uart.step u).tx.length ≤ u.tx.length := by
  induction evs generalizing u with
  | nil => exact ⟨rfl, rfl, Nat.le_refl _⟩
  | cons e evs ih =>
    obtain ⟨a, b, c⟩ := ih (u.step e)
    obtain ⟨a', b', c'⟩ := step_out u e
    exact ⟨a.trans a', b.trans b', Nat.le_trans c c'⟩

theorem tick_out (s : S) :
    given (tick s).u = given s.u ∧ (tick s).u.lost = s.u.lost ∧ (tick s).u.tx.length ≤ s.u.tx.length := by
  unfold tick
  split
  · exact ⟨rfl, rfl, Nat.le_refl _⟩
  · exact steps_out _ _

theorem read_out (u : Uart) (off : Nat) :
    (u.read off).2.wire = u.wire ∧ (u.read off).2.tx = u.tx ∧ (u.read off).2.lost = u.lost := by
  unfold Uart.read
  split <;> (try split_ifs) <;> exact ⟨rfl, rfl, rfl⟩

theorem in8_out (off : Nat) (s : S) :
    given (in8 off s).2.u = given s.u ∧ (in8 off s).2.u.lost = s.u.lost ∧
      (in8 off s).2.u.tx.length ≤ s.u.tx.length := by
  obtain ⟨a, b, c⟩ := tick_out s
  obtain ⟨x, y, z⟩ := read_out (tick s).u off
  have hg : given ((tick s).u.read off).2 = given (tick s).u := by unfold given; rw [x, y]
  exact ⟨hg.trans a, z.trans b, by show ((tick s).u.read off).2.tx.length ≤ _; rw [y]; exact c⟩

theorem room_cfg {u v : Uart} (h : u.cfg = v.cfg) : u.room = v.room := by
  have : u.fifo = v.fifo := congrArg Cfg.fifo h
  simp [Uart.room, this]

theorem lsr_empty (s : S) : (in8 5 s).1 / 32 % 4 ≠ 0 ↔ (in8 5 s).2.u.tx = [] := by
  show ((if (tick s).u.rx ≠ [] then 1 else 0) + (if (tick s).u.tx = [] then 96 else 0)) / 32 % 4 ≠ 0 ↔
    (tick s).u.tx = []
  split_ifs <;> simp_all

theorem wait_result (fuel : Nat) (s t : S) (h : waitForFifo fuel s = some t) :
    t.u.tx = [] ∧ t.used = 0 ∧ t.depth = s.depth ∧ t.u.cfg = s.u.cfg ∧ given t.u = given s.u ∧
      t.u.lost = s.u.lost := by
  induction fuel generalizing s with
  | zero => simp [waitForFifo] at h
  | succ n ih =>
    obtain ⟨a, b, -⟩ := in8_out 5 s
    simp only [waitForFifo] at h
    split at h
    · next hb =>
      cases Option.some.inj h
      exact ⟨(lsr_empty s).mp hb, rfl, (in8_vars 5 s).1, in8_cfg 5 s, a, b⟩
    · obtain ⟨h1, h2, h3, h4, h5, h6⟩ := ih _ h
      exact ⟨h1, h2, h3.trans (in8_vars _ _).1, h4.trans (in8_cfg _ _), h5.trans a, h6.trans b⟩

/-- Writing a byte when the program knows that there is room. -/
theorem write_byte (s : S) (c : Nat) (hr : Ready s) (hu : s.used < s.depth) :
    Ready { out8 0 c s with used := (out8 0 c s).used + 1 } ∧ given (out8 0 c s).u = given s.u ++ [c] ∧
      (out8 0 c s).u.lost = s.u.lost ∧ (out8 0 c s).u.cfg = s.u.cfg := by
  obtain ⟨a, b, l⟩ := tick_out s
  obtain ⟨v1, v2, -⟩ := tick_vars s
  have hd : (tick s).u.dlab = false := by rw [dlab_cfg (tick_cfg s)]; exact hr.config
  have hroom : (tick s).u.room = s.u.room := room_cfg (tick_cfg s)
  have hlt : (tick s).u.tx.length < (tick s).u.room := by
    have := hr.known; have := hr.room; omega
  have hw : (tick s).u.write 0 c = { (tick s).u with tx := (tick s).u.tx ++ [c], thr := false } := by
    simp only [Uart.write, hd, Bool.false_eq_true, if_false, hlt, if_true]
  have ho : (out8 0 c s).u = { (tick s).u with tx := (tick s).u.tx ++ [c], thr := false } := hw
  have hcfg : (out8 0 c s).u.cfg = s.u.cfg := by rw [ho]; exact tick_cfg s
  refine ⟨⟨?_, ?_, ?_, ?_, ?_⟩, ?_, ?_, hcfg⟩
  · rw [show ({ out8 0 c s with used := (out8 0 c s).used + 1 } : S).u.dlab = (out8 0 c s).u.dlab from rfl,
      dlab_cfg hcfg]
    exact hr.config
  · show (out8 0 c s).u.tx.length ≤ (tick s).used + 1
    rw [ho, v2]
    have := hr.known
    simp only [List.length_append, List.length_singleton]
    omega
  · show (tick s).used + 1 ≤ (tick s).depth
    omega
  · show 0 < (tick s).depth
    have := hr.deep
    omega
  · show (tick s).depth ≤ (out8 0 c s).u.room
    rw [room_cfg hcfg, v1]
    exact hr.room
  · rw [ho, ← a]
    simp [given]
  · rw [ho]; exact b

theorem outputByte_result (fuel c : Nat) (s t : S) (hr : Ready s) (h : outputByte fuel c s = some t) :
    Ready t ∧ given t.u = given s.u ++ [c] ∧ t.u.lost = s.u.lost ∧ t.u.cfg = s.u.cfg := by
  simp only [outputByte] at h
  by_cases he : s.used = s.depth
  · rw [if_pos he] at h
    cases hw : waitForFifo fuel s with
    | none => rw [hw] at h; simp at h
    | some r =>
      rw [hw] at h
      cases Option.some.inj h
      obtain ⟨h1, h2, h3, h4, h5, h6⟩ := wait_result _ _ _ hw
      have hdeep := hr.deep
      have hrd : Ready r := ⟨by rw [dlab_cfg h4]; exact hr.config, by rw [h1]; exact Nat.zero_le _,
        by omega, by omega, by rw [room_cfg h4, h3]; exact hr.room⟩
      obtain ⟨k1, k2, k3, k4⟩ := write_byte r c hrd (by omega)
      exact ⟨k1, by rw [← h5]; exact k2, k3.trans h6, k4.trans h4⟩
  · rw [if_neg he] at h
    cases Option.some.inj h
    have := hr.used
    exact write_byte s c hr (by omega)

theorem putchar_result (fuel c : Nat) (s t : S) (hr : Ready s) (hc : c < 256) (h : putchar fuel c s = some t) :
    Ready t ∧ given t.u = given s.u ++ onLine [c] ∧ t.u.lost = s.u.lost ∧ t.u.cfg = s.u.cfg := by
  simp only [putchar, Nat.mod_eq_of_lt hc] at h
  split at h
  · next e =>
    cases h1 : outputByte fuel 13 s with
    | none => rw [h1] at h; simp at h
    | some r =>
      rw [h1] at h
      obtain ⟨a, b, d, e1⟩ := outputByte_result _ _ _ _ hr h1
      obtain ⟨a', b', d', e2⟩ := outputByte_result _ _ _ _ a h
      exact ⟨a', by rw [b', b, e]; simp [onLine], d'.trans d, e2.trans e1⟩
  · next e =>
    obtain ⟨a, b, d, e1⟩ := outputByte_result _ _ _ _ hr h
    exact ⟨a, by rw [b]; simp [onLine, e], d, e1⟩

theorem onLine_cons (c : Nat) (cs : List Nat) : onLine (c :: cs) = onLine [c] ++ onLine cs := by
  simp only [onLine]
  split <;> simp

/-- C121, printing: whatever the port does in the meantime, all characters of a text are put on the line,
in their order, behind everything that was printed before, with a carriage return before each end of a line, and
none is lost. The port is as ready as before, so that this holds for each text that is printed. -/
theorem printed_partial (fuel : Nat) (text : List Nat) (s t : S) (hr : Ready s) (hc : ∀ c ∈ text, c < 256)
    (h : puts fuel text s = some t) :
    Ready t ∧ t.u.wire ++ t.u.tx = s.u.wire ++ s.u.tx ++ onLine text ∧ t.u.lost = s.u.lost ∧
      (Configured s.u → Configured t.u) := by
  suffices H : Ready t ∧ given t.u = given s.u ++ onLine text ∧ t.u.lost = s.u.lost ∧ t.u.cfg = s.u.cfg by
    obtain ⟨a, b, c, d⟩ := H
    refine ⟨a, b, c, fun k => ?_⟩
    have e1 : t.u.lcr = s.u.lcr := congrArg Cfg.lcr d
    have e2 : t.u.dlm = s.u.dlm := congrArg Cfg.dlm d
    have e3 : t.u.dll = s.u.dll := congrArg Cfg.dll d
    have e4 : t.u.mcr = s.u.mcr := congrArg Cfg.mcr d
    have e5 : t.u.ier = s.u.ier := congrArg Cfg.ier d
    exact ⟨e1.trans k.1, by rw [e2, e3]; exact k.2, e4.trans k.3, e5.trans k.4⟩
  induction text generalizing s with
  | nil =>
    cases Option.some.inj h
    exact ⟨hr, by simp [onLine], rfl, rfl⟩
  | cons c cs ih =>
    simp only [puts] at h
    cases h1 : putchar fuel c s with
    | none => rw [h1] at h; simp at h
    | some r =>
      rw [h1] at h
      obtain ⟨a, b, d, e1⟩ := putchar_result _ _ _ _ hr (hc c (by simp)) h1
      obtain ⟨a', b', d', e2⟩ := ih r a (fun x hx => hc x (by simp [hx])) h
      exact ⟨a', by rw [b', b, onLine_cons c cs, List.append_assoc], d'.trans d, e2.trans e1⟩

/-! ## Printing ends -/

theorem steps_sent (evs : List Ev) (u : Uart) (h : .sent ∈ evs) :
    (evs.foldl Uart.step u).tx.length ≤ u.tx.length - 1 := by
  induction evs generalizing u with
  | nil => simp at h
  | cons e evs ih =>
    rw [List.foldl_cons]
    have h1 := (step_out u e).2.2
    rcases List.mem_cons.mp h with rfl | h'
    · have h2 := (steps_out evs (u.step .sent)).2.2
      have h3 : (u.step .sent).tx.length = u.tx.length - 1 := by
        simp only [Uart.step]
        split <;> simp_all
      omega
    · have := ih (u.step e) h'
      omega

theorem tick_sched (s : S) : (tick s).sched = s.sched.drop 1 := by
  unfold tick
  split
  · next h => rw [h]; rfl
  · next h => rw [h]; rfl

theorem sends_drop {n : Nat} {l : List (List Ev)} (h : Sends (n + 1) l) : Sends n (l.drop 1) := by
  intro i hi
  obtain ⟨evs, h1, h2⟩ := h (i + 1) (by omega)
  exact ⟨evs, by rw [List.getElem?_drop, Nat.add_comm]; exact h1, h2⟩

theorem sends_mono {n m : Nat} {l : List (List Ev)} (h : Sends n l) (hm : m ≤ n) : Sends m l :=
  fun i hi => h i (by omega)

theorem tick_sent (s : S) (n : Nat) (h : Sends (n + 1) s.sched) : (tick s).u.tx.length ≤ s.u.tx.length - 1 := by
  obtain ⟨evs, h1, h2⟩ := h 0 (by omega)
  unfold tick
  split
  · next e => rw [e] at h1; simp at h1
  · next evs' r e =>
    rw [e] at h1
    have : evs' = evs := by simpa using h1
    subst this
    exact steps_sent _ _ h2

theorem wait_ends (k n fuel : Nat) (s : S) (hk : s.u.tx.length ≤ k + 1) (hs : Sends (n + k + 1) s.sched)
    (hf : k < fuel) : ∃ t, waitForFifo fuel s = some t ∧ Sends n t.sched := by
  induction k generalizing s fuel with
  | zero =>
    obtain ⟨m, rfl⟩ : ∃ m, fuel = m + 1 := ⟨fuel - 1, by omega⟩
    have h1 := tick_sent s n hs
    have h2 : (in8 5 s).2.u.tx = [] := by
      show (tick s).u.tx = []
      exact List.length_eq_zero_iff.mp (by omega)
    refine ⟨{ (in8 5 s).2 with used := 0 }, by simp only [waitForFifo, if_pos ((lsr_empty s).mpr h2)], ?_⟩
    show Sends n (tick s).sched
    rw [tick_sched]
    exact sends_drop hs
  | succ k ih =>
    obtain ⟨m, rfl⟩ : ∃ m, fuel = m + 1 := ⟨fuel - 1, by omega⟩
    have h1 := tick_sent s (n + k + 1) (sends_mono hs (by omega))
    have h3 : Sends (n + k + 1) (in8 5 s).2.sched := by
      show Sends _ (tick s).sched
      rw [tick_sched]
      exact sends_drop (sends_mono hs (by omega))
    by_cases h2 : (in8 5 s).2.u.tx = []
    · exact ⟨{ (in8 5 s).2 with used := 0 }, by simp only [waitForFifo, if_pos ((lsr_empty s).mpr h2)],
        sends_mono h3 (by omega)⟩
    · obtain ⟨t, e, ht⟩ := ih m (in8 5 s).2
        (by show (tick s).u.tx.length ≤ _; omega) h3 (by omega)
      exact ⟨t, by simp only [waitForFifo, if_neg (fun x => h2 ((lsr_empty s).mp x)), e], ht⟩

theorem outputByte_ends (n fuel c : Nat) (s : S) (hr : Ready s) (hs : Sends (n + 17) s.sched) (hf : 16 ≤ fuel) :
    ∃ t, outputByte fuel c s = some t ∧ Sends n t.sched := by
  have hroom : s.u.room ≤ 16 := by unfold Uart.room; split <;> decide
  have htx : s.u.tx.length ≤ 15 + 1 := by
    have := hr.known; have := hr.used; have := hr.room; omega
  simp only [outputByte]
  by_cases he : s.used = s.depth
  · rw [if_pos he]
    obtain ⟨r, e, h1⟩ := wait_ends 15 (n + 1) fuel s htx (sends_mono hs (by omega)) (by omega)
    rw [e]
    refine ⟨_, rfl, ?_⟩
    show Sends n (tick r).sched
    rw [tick_sched]
    exact sends_drop h1
  · rw [if_neg he]
    refine ⟨_, rfl, ?_⟩
    show Sends n (tick s).sched
    rw [tick_sched]
    exact sends_drop (sends_mono hs (by omega))

theorem putchar_ends (n fuel c : Nat) (s : S) (hr : Ready s) (hs : Sends (n + 34) s.sched) (hf : 16 ≤ fuel) :
    ∃ t, putchar fuel c s = some t ∧ Sends n t.sched := by
  simp only [putchar]
  split
  · obtain ⟨r, e, h1⟩ := outputByte_ends (n + 17) fuel 13 s hr hs hf
    rw [e]
    exact outputByte_ends n fuel _ r (outputByte_result _ _ _ _ hr e).1 h1 hf
  · exact outputByte_ends n fuel _ s hr (sends_mono hs (by omega)) hf

/-- C121, printing ends: as long as the port sends, each text is printed after at most 34 accesses for each
of its characters. -/
theorem printing_ends (fuel : Nat) (text : List Nat) (s : S) (hr : Ready s) (hc : ∀ c ∈ text, c < 256)
    (hs : Sends (34 * text.length) s.sched) (hf : 16 ≤ fuel) : ∃ t, puts fuel text s = some t := by
  induction text generalizing s with
  | nil => exact ⟨s, rfl⟩
  | cons c cs ih =>
    obtain ⟨r, e, h1⟩ := putchar_ends (34 * cs.length) fuel c s hr
      (sends_mono hs (by simp only [List.length_cons]; omega)) hf
    obtain ⟨t, ht⟩ := ih r (putchar_result _ _ _ _ hr (hc c (by simp)) e).1 (fun x hx => hc x (by simp [hx])) h1
    exact ⟨t, by simp only [puts, e, ht]⟩

/-! ## The port is ready after the setup -/

/-- Nothing is written to the line; at most something that was to be sent is forgotten. -/
def Quiet (s t : S) : Prop :=
  given t.u <+: given s.u ∧ t.u.lost = s.u.lost ∧ t.u.tx.length ≤ s.u.tx.length

theorem Quiet.trans {a b c : S} (h : Quiet a b) (k : Quiet b c) : Quiet a c :=
  ⟨k.1.trans h.1, k.2.1.trans h.2.1, Nat.le_trans k.2.2 h.2.2⟩

theorem quiet_in8 (off : Nat) (s : S) : Quiet s (in8 off s).2 := by
  obtain ⟨a, b, c⟩ := in8_out off s
  exact ⟨a ▸ List.prefix_refl _, b, c⟩

theorem write_out (u : Uart) (off v : Nat) (h : off ≠ 0 ∨ u.dlab = true) :
    (u.write off v).wire = u.wire ∧ (u.write off v).lost = u.lost ∧
      ((u.write off v).tx = u.tx ∨ (u.write off v).tx = []) := by
  match off with
  | 0 =>
    have hd : u.dlab = true := by simpa using h
    simp [Uart.write, hd]
  | 1 => simp only [Uart.write]; split <;> exact ⟨rfl, rfl, .inl rfl⟩
  | 2 =>
    simp only [Uart.write]
    split
    · exact ⟨rfl, rfl, .inr rfl⟩
    · split
      · refine ⟨rfl, rfl, ?_⟩
        show (if _ then _ else _) = _ ∨ (if _ then _ else _) = _
        split
        · exact .inr rfl
        · exact .inl rfl
      · exact ⟨rfl, rfl, .inl rfl⟩
  | 3 => exact ⟨rfl, rfl, .inl rfl⟩
  | 4 => exact ⟨rfl, rfl, .inl rfl⟩
  | n + 5 => exact ⟨rfl, rfl, .inl rfl⟩

theorem quiet_out8 (off v : Nat) (s : S) (h : off ≠ 0 ∨ s.u.dlab = true) : Quiet s (out8 off v s) := by
  obtain ⟨a, b, c⟩ := tick_out s
  have h' : off ≠ 0 ∨ (tick s).u.dlab = true := by rw [dlab_cfg (tick_cfg s)]; exact h
  obtain ⟨x, y, z⟩ := write_out (tick s).u off v h'
  refine ⟨?_, y.trans b, ?_⟩
  · rw [← a]
    show ((tick s).u.write off v).wire ++ ((tick s).u.write off v).tx <+: given (tick s).u
    rw [x]
    rcases z with z | z <;> rw [z]
    · exact List.prefix_refl _
    · rw [List.append_nil]; exact List.prefix_append _ _
  · show ((tick s).u.write off v).tx.length ≤ _
    rcases z with z | z <;> rw [z]
    · exact c
    · exact Nat.zero_le _

theorem quiet_setDlab (v : Bool) (s : S) : Quiet s (setDlab v s) := by
  cases v
  · exact (quiet_in8 3 s).trans (quiet_out8 _ _ _ (.inl (by decide)))
  · exact (quiet_in8 3 s).trans (quiet_out8 _ _ _ (.inl (by decide)))

theorem quiet_latch (v : Nat) (s : S) : Quiet s (writeLatch v s) := by
  refine (((quiet_setDlab true s).trans (quiet_out8 1 _ _ (.inl (by decide)))).trans
    (quiet_out8 0 _ _ (.inr ?_))).trans (quiet_setDlab false _)
  have h : (out8 1 (v / 256) (setDlab true s)).u.cfg.lcr = (s.u.cfg.dlabSet true).lcr := by
    rw [out8_cfg, setDlab_cfg]
    simp only [Cfg.write]
    split <;> rfl
  have h' : (out8 1 (v / 256) (setDlab true s)).u.lcr = if s.u.lcr / 128 % 2 = 1 then s.u.lcr else s.u.lcr + 128 := h
  have h'' : (if s.u.lcr / 128 % 2 = 1 then s.u.lcr else s.u.lcr + 128) / 128 % 2 = 1 := by split <;> omega
  simp only [Uart.dlab, h', h'', decide_true]

theorem quiet_drain (fuel : Nat) (s t : S) (b : Bool) (h : drain fuel s = some (b, t)) : Quiet s t := by
  induction fuel generalizing s with
  | zero => simp [drain] at h
  | succ n ih =>
    simp only [drain] at h
    have q : Quiet s { (in8 0 (in8 5 s).2).2 with
        buf := (Verif.GdbPacket.handleChar (in8 0 (in8 5 s).2).2.buf (in8 0 (in8 5 s).2).1).1 } :=
      (quiet_in8 5 s).trans (quiet_in8 0 _)
    split at h
    · split at h
      · obtain ⟨-, rfl⟩ := Prod.mk.inj (Option.some.inj h)
        exact q
      · exact q.trans (ih _ h)
    · obtain ⟨-, rfl⟩ := Prod.mk.inj (Option.some.inj h)
      exact quiet_in8 5 s

theorem quiet_clearIir (fuel : Nat) (s t : S) (b : Bool) (h : clearIir fuel s = some (b, t)) : Quiet s t := by
  induction fuel generalizing s with
  | zero => simp [clearIir] at h
  | succ n ih =>
    simp only [clearIir] at h
    split at h
    · obtain ⟨-, rfl⟩ := Prod.mk.inj (Option.some.inj h)
      exact quiet_in8 2 s
    · split at h
      · cases hd : drain n (in8 2 s).2 with
        | none => rw [hd] at h; simp at h
        | some r =>
          obtain ⟨b', t'⟩ := r
          have q := (quiet_in8 2 s).trans (quiet_drain _ _ _ _ hd)
          rw [hd] at h
          cases b' with
          | true =>
            obtain ⟨-, rfl⟩ := Prod.mk.inj (Option.some.inj h)
            exact q
          | false => exact q.trans (ih _ h)
      · exact (quiet_in8 2 s).trans (ih _ h)

theorem quiet_second (s : S) : Quiet s (second s) := by
  refine Quiet.trans (b := resetState (setBaudRate s)) (quiet_latch _ s) ?_
  refine Quiet.trans ?_ (quiet_out8 1 1 _ (.inl (by decide)))
  simp only [enableFifo]
  split
  · exact (quiet_in8 2 _).trans (quiet_out8 2 1 { (in8 2 (resetState (setBaudRate s))).2 with depth := 16 }
      (.inl (by decide)))
  · exact quiet_in8 2 _

/-- Switching a queue off that was on forgets what is in it. -/
theorem off_empties (s : S) (h : s.u.fifo = true) : (out8 2 6 s).u.tx = [] := by
  have h' : (tick s).u.fifo = true := (congrArg Cfg.fifo (tick_cfg s)).trans h
  show ((tick s).u.write 2 6).tx = []
  simp [Uart.write, h']

theorem quiet_first (s : S) : Quiet s (first s) ∧ (s.u.fifo = true → (first s).u.tx = []) := by
  have q0 : Quiet s (setInterrupt 0 (setDlab false s)) :=
    (quiet_setDlab false s).trans (quiet_out8 1 0 _ (.inl (by decide)))
  have q1 : Quiet (setInterrupt 0 (setDlab false s)) (out8 2 6 (setInterrupt 0 (setDlab false s))) :=
    quiet_out8 2 6 _ (.inl (by decide))
  have q2 : Quiet (out8 2 6 (setInterrupt 0 (setDlab false s))) (first s) :=
    ((quiet_out8 2 0 _ (.inl (by decide))).trans (quiet_out8 3 3 _ (.inl (by decide)))).trans
      (quiet_out8 4 15 _ (.inl (by decide)))
  refine ⟨(q0.trans q1).trans q2, fun hf => ?_⟩
  have hf' : (setInterrupt 0 (setDlab false s)).u.fifo = true := by
    have : (setInterrupt 0 (setDlab false s)).u.cfg.fifo = s.u.cfg.fifo := by
      simp only [setInterrupt, out8_cfg, setDlab_cfg, Cfg.write, Cfg.dlabSet, Bool.false_eq_true, if_false]
      split_ifs <;> rfl
    exact this.trans hf
  have := q2.2.2
  rw [off_empties _ hf'] at this
  exact List.length_eq_zero_iff.mp (Nat.le_zero.mp this)

/-- C121: the setup puts nothing on the line, and the port is ready for printing after it, if nothing was about to be
sent before, or if this was in the queue. -/
theorem ready_partial {fuel : Nat} {s t : S} (h : init fuel s = some t) (he : s.u.tx = [] ∨ s.u.fifo = true) :
    Ready t ∧ (t.u.wire ++ t.u.tx) <+: (s.u.wire ++ s.u.tx) ∧ t.u.lost = s.u.lost := by
  obtain ⟨h1, h2, h3⟩ := init_result h
  cases fuel with
  | zero => simp [init_zero] at h
  | succ n =>
    rw [init_eq] at h
    cases hc : clearIir (n + 1) (second (in8 2 (first s)).2) with
    | none => rw [hc] at h; simp at h
    | some r =>
      obtain ⟨b, r⟩ := r
      rw [hc] at h
      have ht : initialiseBuffer r = t := by simpa using h
      have q1 : Quiet (first s) t := by
        rw [← ht]
        have q : Quiet (first s) r := ((quiet_in8 2 _).trans (quiet_second _)).trans (quiet_clearIir _ _ _ _ hc)
        exact q
      obtain ⟨q0, hf⟩ := quiet_first s
      have htx : t.u.tx.length = 0 := by
        have a := q0.2.2
        have b := q1.2.2
        rcases he with he | he
        · rw [he, List.length_nil] at a; omega
        · rw [hf he, List.length_nil] at b; omega
      have hl : t.u.lcr = 3 := congrArg Cfg.lcr h1
      have hfi : t.u.fifo = false := congrArg Cfg.fifo h1
      refine ⟨⟨by simp [Uart.dlab, hl], by omega, by omega, by omega, by simp [Uart.room, hfi, h2]⟩,
        (q0.trans q1).1, (q0.trans q1).2.1⟩

/-! ## Disagreements -/

/-- A port as it may be found. -/
def found : Uart := ⟨0, 12, 0, 0, 0, true, false, [], [], [], [], false, false, false⟩

/-- **Disagreement with C121.** A byte that is about to be sent when the port is set up is not counted, and the first
byte that is printed may be lost. -/
theorem pending_lost :
    ((init 10 ⟨{ found with tx := [65] }, [], 1, 0, Verif.GdbPacket.initial⟩).bind (puts 10 [66])).map
      (fun t => (t.u.wire ++ t.u.tx, t.u.lost)) = some ([65], [66]) := by decide +kernel

/-- A `$` has been received and not been read. -/
def started : S := ⟨{ found with rx := [36] }, [], 1, 0, Verif.GdbPacket.initial⟩

theorem started_ends : (init 10 started).isSome = true := by decide +kernel

/-- **Disagreement with C121.** That a packet began before the port was set up is not forgotten: without the `$`,
`x#00` is no packet, and is answered all the same. -/
theorem start_not_forgotten : ∃ s t, s.buf = Verif.GdbPacket.initial ∧ init 10 s = some t ∧ ¬ Forgets s t := by
  refine ⟨started, (init 10 started).get started_ends, rfl, (Option.some_get started_ends).symm, fun hf => ?_⟩
  have h1 : (Verif.GdbPacket.run ((init 10 started).get started_ends).buf [120, 35, 48, 48]).2 =
      [.ack, .exec []] := by decide +kernel
  have h2 : (Verif.GdbPacket.run started.buf [120, 35, 48, 48]).2 = [] := by decide +kernel
  have := hf [120, 35, 48, 48]
  rw [h1, h2] at this
  exact absurd this (by decide)

/-- C121, what arrived before: the buffer is empty after the setup. -/
theorem buffer_emptied {fuel : Nat} {s t : S} (h : init fuel s = some t) :
    t.buf.length = 0 ∧ t.buf.count = 0 ∧ t.buf.index = 0 := by
  cases fuel with
  | zero => simp [init_zero] at h
  | succ n =>
    rw [init_eq] at h
    cases hc : clearIir (n + 1) (second (in8 2 (first s)).2) with
    | none => rw [hc] at h; simp at h
    | some r =>
      obtain ⟨b, r⟩ := r
      rw [hc] at h
      have ht : initialiseBuffer r = t := by simpa using h
      subst ht
      exact ⟨rfl, rfl, rfl⟩

/-! ## What is received -/

theorem Fed.nil (st : Verif.GdbPacket.State) : Fed st [] st false :=
  ⟨rfl, by simp, by intro a c r h; simp at h⟩

theorem Fed.one (st : Verif.GdbPacket.State) (c : Nat) :
    Fed st [c] (Verif.GdbPacket.handleChar st c).1 (Verif.GdbPacket.handleChar st c).2 := by
  refine ⟨rfl, by simp, ?_⟩
  intro a d r h
  cases a with
  | nil => simp at h; obtain ⟨rfl, rfl⟩ := h; simp
  | cons x a => simp at h

theorem Fed.append {a b c : Verif.GdbPacket.State} {cs ds : List Nat} {done : Bool} (h : Fed a cs b false)
    (k : Fed b ds c done) : Fed a (cs ++ ds) c done := by
  refine ⟨?_, ?_, ?_⟩
  · rw [List.foldl_append, ← h.state]; exact k.state
  · intro hd; simp [k.some hd]
  · intro x y r he
    rcases List.append_eq_append_iff.1 he with ⟨l, hl, hr⟩ | ⟨l, hl, hr⟩
    · rw [hl, List.foldl_append, ← h.state]
      exact k.flag l y r hr
    · cases l with
      | nil =>
        simp only [List.append_nil] at hl
        simp only [List.nil_append] at hr
        rw [← hl, ← h.state]
        exact k.flag [] y r (by simpa using hr.symm)
      | cons z l =>
        obtain ⟨rfl, rfl⟩ := List.cons.inj hr
        rw [h.flag x y l hl]
        cases ds with
        | nil =>
          have : done = false := by
            cases done with
            | false => rfl
            | true => exact absurd rfl (k.some rfl)
          simp [this]
        | cons d ds => simp

theorem tick_nil {s : S} (h : s.sched = []) : tick s = s := by simp [tick, h]

theorem in8_nil {s : S} (h : s.sched = []) (off : Nat) : (in8 off s).2.sched = [] := by
  simp [in8, tick_nil h, h]

theorem drain_fed (fuel : Nat) (s t : S) (b : Bool) (hd : s.u.dlab = false) (h : drain fuel s = some (b, t)) :
    ∃ cs, Fed s.buf cs t.buf b ∧ (s.sched = [] → cs ++ t.u.rx = s.u.rx ∧ t.sched = []) := by
  induction fuel generalizing s with
  | zero => simp [drain] at h
  | succ n ih =>
    simp only [drain] at h
    have hd1 : (in8 5 s).2.u.dlab = false := by rw [dlab_cfg (in8_cfg 5 s)]; exact hd
    have hb : (in8 0 (in8 5 s).2).2.buf = s.buf := by rw [(in8_vars _ _).2.2, (in8_vars _ _).2.2]
    have hf := Fed.one s.buf (in8 0 (in8 5 s).2).1
    have hrx : s.sched = [] → (in8 5 s).2.u.rx ≠ [] → (in8 0 (in8 5 s).2).1 :: (in8 0 (in8 5 s).2).2.u.rx = s.u.rx := by
      intro hs hne
      have e5 : (in8 5 s).2.u.rx = s.u.rx := by simp [in8, tick_nil hs, Uart.read]
      have hs5 := in8_nil hs 5
      have e0 : in8 0 (in8 5 s).2 = ((in8 5 s).2.u.rx.headD 0, { (in8 5 s).2 with
          u := { (in8 5 s).2.u with rx := (in8 5 s).2.u.rx.tail } }) := by
        conv_lhs => rw [in8]
        rw [tick_nil hs5]
        simp [Uart.read, hd1]
      rw [e0]
      show (in8 5 s).2.u.rx.headD 0 :: (in8 5 s).2.u.rx.tail = _
      rw [e5] at hne ⊢
      cases hx : s.u.rx with
      | nil => exact absurd hx hne
      | cons c r => rfl
    rw [hb] at h
    split at h
    · next hl =>
      have hne := (lsr_bit s).mp hl
      split at h
      · next hc =>
        obtain ⟨rfl, rfl⟩ := Prod.mk.inj (Option.some.inj h)
        rw [hc] at hf
        exact ⟨_, hf, fun hs => ⟨by simpa using hrx hs hne, in8_nil (in8_nil hs 5) 0⟩⟩
      · next hc =>
        obtain ⟨cs, k1, k2⟩ := ih { (in8 0 (in8 5 s).2).2 with
            buf := (Verif.GdbPacket.handleChar s.buf (in8 0 (in8 5 s).2).1).1 }
          (by rw [← hd1]; exact dlab_cfg (in8_cfg 0 _)) h
        have hc' : (Verif.GdbPacket.handleChar s.buf (in8 0 (in8 5 s).2).1).2 = false := by simpa using hc
        rw [hc'] at hf
        refine ⟨_, hf.append k1, fun hs => ?_⟩
        obtain ⟨e1, e2⟩ := k2 (in8_nil (in8_nil hs 5) 0)
        refine ⟨?_, e2⟩
        rw [List.append_assoc, e1]
        exact hrx hs hne
    · obtain ⟨rfl, rfl⟩ := Prod.mk.inj (Option.some.inj h)
      refine ⟨[], ?_, fun hs => ⟨by simp [in8, tick_nil hs, Uart.read], in8_nil hs 5⟩⟩
      rw [(in8_vars _ _).2.2]
      exact Fed.nil _

/-- C121, receiving: when the program looks after an interrupt of the port, it takes the characters out in order,
gives each to the packet code once, and stops as soon as one completes a packet, which it reports; otherwise it
leaves no character. (That the characters are those which were there is stated for the case that no further ones arrive
meanwhile.) -/
theorem received (fuel : Nat) (s t : S) (b : Bool) (hd : s.u.dlab = false) (hi : s.u.ier = 1)
    (h : clearIir fuel s = some (b, t)) :
    ∃ cs, Fed s.buf cs t.buf b ∧ (s.sched = [] → cs ++ t.u.rx = s.u.rx) ∧ (b = false → t.u.rx = []) := by
  have key : ∃ cs, Fed s.buf cs t.buf b ∧ (s.sched = [] → cs ++ t.u.rx = s.u.rx ∧ t.sched = []) ∧
      (b = false → t.u.rx = []) := by
    induction fuel generalizing s with
    | zero => simp [clearIir] at h
    | succ n ih =>
      have hi' : (tick s).u.ier = 1 := (congrArg Cfg.ier (tick_cfg s)).trans hi
      have hd1 : (in8 2 s).2.u.dlab = false := by rw [dlab_cfg (in8_cfg 2 s)]; exact hd
      have hr2 : (in8 2 s).2.u.rx = (tick s).u.rx := by
        show ((tick s).u.read 2).2.rx = _
        simp only [Uart.read]
        split <;> rfl
      have hb2 : (in8 2 s).2.buf = s.buf := (in8_vars _ _).2.2
      simp only [clearIir] at h
      split at h
      · next ho =>
        obtain ⟨rfl, rfl⟩ := Prod.mk.inj (Option.some.inj h)
        refine ⟨[], by rw [hb2]; exact Fed.nil _, fun hs => ⟨by rw [hr2, tick_nil hs]; rfl, in8_nil hs 2⟩, ?_⟩
        intro _
        rw [hr2]
        by_contra hne
        have h1 : (tick s).u.reason = 4 := by simp [Uart.reason, hi', hne]
        have hv : (in8 2 s).1 = 4 ∨ (in8 2 s).1 = 196 := by rw [iir_read, h1]; split <;> simp
        omega
      · split at h
        · cases hdr : drain n (in8 2 s).2 with
          | none => rw [hdr] at h; simp at h
          | some r =>
            obtain ⟨b', t'⟩ := r
            obtain ⟨cs, k1, k2⟩ := drain_fed _ _ _ _ hd1 hdr
            rw [hb2] at k1
            rw [hdr] at h
            cases b' with
            | true =>
              obtain ⟨rfl, rfl⟩ := Prod.mk.inj (Option.some.inj h)
              refine ⟨cs, k1, fun hs => ?_, by simp⟩
              obtain ⟨e1, e2⟩ := k2 (in8_nil hs 2)
              exact ⟨by rw [e1, hr2, tick_nil hs], e2⟩
            | false =>
              obtain ⟨c1, c2, c3⟩ := drain_cfg _ _ _ _ hdr
              have hc' : t'.u.cfg = s.u.cfg := c1.trans (in8_cfg 2 s)
              obtain ⟨ds, m1, m2, m3⟩ := ih t' (by rw [dlab_cfg hc']; exact hd)
                ((congrArg Cfg.ier hc').trans hi) h
              refine ⟨cs ++ ds, k1.append m1, fun hs => ?_, m3⟩
              obtain ⟨e1, e2⟩ := k2 (in8_nil hs 2)
              obtain ⟨e3, e4⟩ := m2 e2
              exact ⟨by rw [List.append_assoc, e3, e1, hr2, tick_nil hs], e4⟩
        · obtain ⟨ds, m1, m2, m3⟩ := ih _ hd1 ((congrArg Cfg.ier (in8_cfg 2 s)).trans hi) h
          rw [hb2] at m1
          refine ⟨ds, m1, fun hs => ?_, m3⟩
          obtain ⟨e3, e4⟩ := m2 (in8_nil hs 2)
          exact ⟨by rw [e3, hr2, tick_nil hs], e4⟩
  obtain ⟨cs, k1, k2, k3⟩ := key
  exact ⟨cs, k1, fun hs => (k2 hs).1, k3⟩

/-- A packet and the beginning of the next one: the program stops after the packet. -/
theorem demo_received : ((clearIir 20 ⟨{ found with lcr := 3, ier := 1, rx := [36, 63, 35, 51, 102, 36] }, [], 1, 0,
    Verif.GdbPacket.initial⟩).map fun r => (r.1, r.2.u.rx, r.2.buf.length)) = some (true, [36], 5) := by decide +kernel

/-! ## Examples -/

/-- A port in the middle of something else, which goes on receiving and sending. -/
def busy : S :=
  ⟨⟨159, 12, 1, 15, 0, true, true, [1, 2], [7, 8], [9], [], true, true, true⟩,
    [[.received 3], [.line], [.modem, .sent], [.received 36]], 16, 5, Verif.GdbPacket.initial⟩

theorem demo_init : ((init 20 busy).map fun t => (t.u.lcr, t.u.dlm * 256 + t.u.dll, t.u.ier, t.u.wire ++ t.u.tx)) =
    some (3, 1, 1, [9, 7]) := by decide +kernel

theorem demo_ready : ∃ t, init 20 busy = some t ∧ Ready t ∧ Configured t.u := by
  have hs : (init 20 busy).isSome = true := by decide +kernel
  have h := (Option.some_get hs).symm
  exact ⟨_, h, (ready_partial h (.inr rfl)).1, set_up h⟩

/-- Printing, with the port sending every other time. -/
theorem demo_print :
    ((init 20 { busy with sched := [] }).bind fun t =>
        puts 20 [79, 75, 10] { t with sched := List.replicate 6 [.received 3] ++ List.replicate 20 [.sent] }).map
      (fun t => (t.u.wire ++ t.u.tx, t.u.lost)) = some ([9, 79, 75, 13, 10], []) := by decide +kernel

theorem demo_sends : Sends (34 * 3) (List.replicate 200 [.sent, .line]) := by
  intro i hi
  exact ⟨_, List.getElem?_replicate_of_lt (by omega), by simp⟩

end Verif.GdbPort
