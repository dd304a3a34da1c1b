import Verif.GdbPort.Spec
import Mathlib.Tactic.SplitIfs
import Mathlib.Data.List.Basic

/-! # Steps of the port -/

namespace Verif.GdbPort

/-- What only the program changes. -/
structure Cfg where
  lcr : Nat
  dll : Nat
  dlm : Nat
  ier : Nat
  mcr : Nat
  hasFifo : Bool
  fifo : Bool

def Uart.cfg (u : Uart) : Cfg := ⟨u.lcr, u.dll, u.dlm, u.ier, u.mcr, u.hasFifo, u.fifo⟩

def Cfg.write (c : Cfg) (off v : Nat) : Cfg :=
  match off with
  | 0 => if c.lcr / 128 % 2 = 1 then { c with dll := v } else c
  | 1 => if c.lcr / 128 % 2 = 1 then { c with dlm := v } else { c with ier := v }
  | 2 => { c with fifo := c.hasFifo && v % 2 = 1 }
  | 3 => { c with lcr := v }
  | 4 => { c with mcr := v }
  | _ => c

theorem step_cfg (u : Uart) (e : Ev) : (u.step e).cfg = u.cfg := by
  cases e <;> simp only [Uart.step] <;> (try split) <;> rfl

theorem steps_cfg (evs : List Ev) (u : Uart) : (evs.foldl Uart.step u).cfg = u.cfg := by
  induction evs generalizing u with
  | nil => rfl
  | cons e evs ih => rw [List.foldl_cons, ih, step_cfg]

theorem tick_cfg (s : S) : (tick s).u.cfg = s.u.cfg := by
  unfold tick
  split
  · rfl
  · exact steps_cfg _ _

theorem tick_vars (s : S) : (tick s).depth = s.depth ∧ (tick s).used = s.used ∧ (tick s).buf = s.buf := by
  unfold tick
  split <;> exact ⟨rfl, rfl, rfl⟩

theorem write_cfg (u : Uart) (off v : Nat) : (u.write off v).cfg = u.cfg.write off v := by
  match off with
  | 0 =>
    show (if u.dlab then { u with dll := v } else _ : Uart).cfg = if u.lcr / 128 % 2 = 1 then _ else _
    by_cases h : u.lcr / 128 % 2 = 1
    · rw [if_pos h, if_pos (by simpa [Uart.dlab] using h)]; rfl
    · rw [if_neg h, if_neg (by simpa [Uart.dlab] using h)]; split <;> rfl
  | 1 =>
    show (if u.dlab then { u with dlm := v } else _ : Uart).cfg = if u.lcr / 128 % 2 = 1 then _ else _
    by_cases h : u.lcr / 128 % 2 = 1
    · rw [if_pos h, if_pos (by simpa [Uart.dlab] using h)]; rfl
    · rw [if_neg h, if_neg (by simpa [Uart.dlab] using h)]; rfl
  | 2 =>
    show (if (u.hasFifo && decide (v % 2 = 1)) ≠ u.fifo then _ else if _ then _ else _ : Uart).cfg =
      { u.cfg with fifo := (u.hasFifo && decide (v % 2 = 1)) }
    by_cases h : (u.hasFifo && decide (v % 2 = 1)) = u.fifo
    · rw [if_neg (not_not.mpr h), h]
      split <;> rfl
    · rw [if_pos h]; rfl
  | 3 => rfl
  | 4 => rfl
  | n + 5 => rfl

theorem read_cfg (u : Uart) (off : Nat) : (u.read off).2.cfg = u.cfg := by
  unfold Uart.read
  split <;> (try split_ifs) <;> rfl

theorem in8_cfg (off : Nat) (s : S) : (in8 off s).2.u.cfg = s.u.cfg := by
  show ((tick s).u.read off).2.cfg = _
  rw [read_cfg, tick_cfg]

theorem in8_vars (off : Nat) (s : S) :
    (in8 off s).2.depth = s.depth ∧ (in8 off s).2.used = s.used ∧ (in8 off s).2.buf = s.buf := tick_vars s

theorem out8_cfg (off v : Nat) (s : S) : (out8 off v s).u.cfg = s.u.cfg.write off v := by
  show ((tick s).u.write off v).cfg = _
  rw [write_cfg, tick_cfg]

theorem out8_vars (off v : Nat) (s : S) :
    (out8 off v s).depth = s.depth ∧ (out8 off v s).used = s.used ∧ (out8 off v s).buf = s.buf := tick_vars s

theorem in8_lcr (s : S) : (in8 3 s).1 = s.u.cfg.lcr := by
  show (tick s).u.lcr = _
  rw [← tick_cfg s]; rfl

def Cfg.dlabSet (c : Cfg) (v : Bool) : Cfg :=
  if v then { c with lcr := if c.lcr / 128 % 2 = 1 then c.lcr else c.lcr + 128 }
  else { c with lcr := if c.lcr / 128 % 2 = 1 then c.lcr - 128 else c.lcr }

theorem setDlab_cfg (v : Bool) (s : S) : (setDlab v s).u.cfg = s.u.cfg.dlabSet v := by
  cases v
  · simp only [setDlab, Bool.false_eq_true, if_false, out8_cfg, in8_cfg, in8_lcr, Cfg.write, Cfg.dlabSet]
  · simp only [setDlab, if_true, out8_cfg, in8_cfg, in8_lcr, Cfg.write, Cfg.dlabSet]

theorem setDlab_vars (v : Bool) (s : S) :
    (setDlab v s).depth = s.depth ∧ (setDlab v s).used = s.used ∧ (setDlab v s).buf = s.buf := by
  cases v <;>
  · simp only [setDlab, Bool.false_eq_true, if_false, if_true]
    refine ⟨?_, ?_, ?_⟩
    · rw [(out8_vars _ _ _).1, (in8_vars _ _).1]
    · rw [(out8_vars _ _ _).2.1, (in8_vars _ _).2.1]
    · rw [(out8_vars _ _ _).2.2, (in8_vars _ _).2.2]

theorem drain_cfg (fuel : Nat) (s t : S) (b : Bool) (h : drain fuel s = some (b, t)) :
    t.u.cfg = s.u.cfg ∧ t.depth = s.depth ∧ t.used = s.used := by
  induction fuel generalizing s with
  | zero => simp [drain] at h
  | succ n ih =>
    simp only [drain] at h
    split at h
    · split at h
      · obtain ⟨-, rfl⟩ := Prod.mk.inj (Option.some.inj h)
        exact ⟨by rw [in8_cfg, in8_cfg], by rw [(in8_vars _ _).1, (in8_vars _ _).1],
          by rw [(in8_vars _ _).2.1, (in8_vars _ _).2.1]⟩
      · obtain ⟨h1, h2, h3⟩ := ih _ h
        exact ⟨by rw [h1, in8_cfg, in8_cfg], by rw [h2, (in8_vars _ _).1, (in8_vars _ _).1],
          by rw [h3, (in8_vars _ _).2.1, (in8_vars _ _).2.1]⟩
    · obtain ⟨-, rfl⟩ := Prod.mk.inj (Option.some.inj h)
      exact ⟨in8_cfg _ _, (in8_vars _ _).1, (in8_vars _ _).2.1⟩

theorem clearIir_cfg (fuel : Nat) (s t : S) (b : Bool) (h : clearIir fuel s = some (b, t)) :
    t.u.cfg = s.u.cfg ∧ t.depth = s.depth ∧ t.used = s.used := by
  induction fuel generalizing s with
  | zero => simp [clearIir] at h
  | succ n ih =>
    simp only [clearIir] at h
    split at h
    · obtain ⟨-, rfl⟩ := Prod.mk.inj (Option.some.inj h)
      exact ⟨in8_cfg _ _, (in8_vars _ _).1, (in8_vars _ _).2.1⟩
    · split at h
      · cases hd : drain n (in8 2 s).2 with
        | none => rw [hd] at h; simp at h
        | some r =>
          obtain ⟨b', t'⟩ := r
          obtain ⟨h1, h2, h3⟩ := drain_cfg _ _ _ _ hd
          rw [in8_cfg] at h1
          rw [(in8_vars _ _).1] at h2
          rw [(in8_vars _ _).2.1] at h3
          rw [hd] at h
          cases b' with
          | true =>
            obtain ⟨-, rfl⟩ := Prod.mk.inj (Option.some.inj h)
            exact ⟨h1, h2, h3⟩
          | false =>
            obtain ⟨k1, k2, k3⟩ := ih _ h
            exact ⟨k1.trans h1, k2.trans h2, k3.trans h3⟩
      · obtain ⟨h1, h2, h3⟩ := ih _ h
        exact ⟨by rw [h1, in8_cfg], by rw [h2, (in8_vars _ _).1], by rw [h3, (in8_vars _ _).2.1]⟩

/-! ## What arrives -/

def Ev.arrives : Ev → Bool
  | .received _ => true
  | _ => false

/-- How many characters are or will be there. -/
def coming (s : S) : Nat := s.u.rx.length + (s.sched.map (·.countP Ev.arrives)).sum

theorem steps_rx (evs : List Ev) (u : Uart) :
    (evs.foldl Uart.step u).rx.length ≤ u.rx.length + evs.countP Ev.arrives := by
  induction evs generalizing u with
  | nil => simp
  | cons e evs ih =>
    rw [List.foldl_cons]
    refine Nat.le_trans (ih _) ?_
    rw [List.countP_cons]
    cases e with
    | sent =>
      have : (u.step .sent).rx = u.rx := by simp only [Uart.step]; split <;> rfl
      rw [this]; omega
    | received c =>
      have : (u.step (.received c)).rx.length ≤ u.rx.length + 1 := by
        simp only [Uart.step]; split <;> simp
      simp only [Ev.arrives, if_true]; omega
    | line => simp [Uart.step, Ev.arrives]
    | modem => simp [Uart.step, Ev.arrives]

theorem steps_rx_ne (evs : List Ev) (u : Uart) (h : u.rx ≠ []) : (evs.foldl Uart.step u).rx ≠ [] := by
  induction evs generalizing u with
  | nil => exact h
  | cons e evs ih =>
    rw [List.foldl_cons]
    apply ih
    cases e with
    | sent => simp only [Uart.step]; split <;> exact h
    | received c => simp only [Uart.step]; split <;> simp [h]
    | line => exact h
    | modem => exact h

theorem tick_coming (s : S) : coming (tick s) ≤ coming s := by
  unfold tick
  split
  · exact Nat.le_refl _
  · next evs r h =>
    have := steps_rx evs s.u
    simp only [coming, h, List.map_cons, List.sum_cons]
    omega

theorem tick_rx_ne (s : S) (h : s.u.rx ≠ []) : (tick s).u.rx ≠ [] := by
  unfold tick
  split
  · exact h
  · exact steps_rx_ne _ _ h

theorem in8_coming (off : Nat) (s : S) (ho : off ≠ 0) : coming (in8 off s).2 ≤ coming s := by
  refine Nat.le_trans ?_ (tick_coming s)
  have : ((tick s).u.read off).2.rx = (tick s).u.rx := by
    unfold Uart.read
    split
    · exact absurd rfl ho
    all_goals (try split_ifs) <;> rfl
  simp only [coming, in8, this]
  omega

theorem in8_rx (off : Nat) (s : S) (ho : off ≠ 0) (h : s.u.rx ≠ []) : (in8 off s).2.u.rx ≠ [] := by
  have : ((tick s).u.read off).2.rx = (tick s).u.rx := by
    unfold Uart.read
    split
    · exact absurd rfl ho
    all_goals (try split_ifs) <;> rfl
  show ((tick s).u.read off).2.rx ≠ []
  rw [this]
  exact tick_rx_ne s h

theorem in8_pop (s : S) (hd : s.u.dlab = false) (h : s.u.rx ≠ []) : coming (in8 0 s).2 + 1 ≤ coming s := by
  refine Nat.le_trans ?_ (tick_coming s)
  have hd' : (tick s).u.dlab = false := by
    have : (tick s).u.lcr = s.u.lcr := congrArg Cfg.lcr (tick_cfg s)
    simpa [Uart.dlab, this] using hd
  have hp : 0 < (tick s).u.rx.length := List.length_pos_iff.mpr (tick_rx_ne s h)
  simp only [coming, in8, Uart.read, hd', Bool.false_eq_true, if_false, List.length_tail]
  omega

theorem lsr_bit (s : S) : (in8 5 s).1 % 2 = 1 ↔ (in8 5 s).2.u.rx ≠ [] := by
  show ((if (tick s).u.rx ≠ [] then 1 else 0) + (if (tick s).u.tx = [] then 96 else 0)) % 2 = 1 ↔ (tick s).u.rx ≠ []
  split_ifs <;> simp_all

theorem dlab_cfg {s t : S} (h : t.u.cfg = s.u.cfg) : t.u.dlab = s.u.dlab := by
  have : t.u.lcr = s.u.lcr := congrArg Cfg.lcr h
  simp [Uart.dlab, this]

theorem drain_ends (fuel : Nat) (s : S) (hd : s.u.dlab = false) (hf : coming s < fuel) :
    ∃ b t, drain fuel s = some (b, t) ∧ coming t ≤ coming s ∧ (s.u.rx ≠ [] → coming t < coming s) := by
  induction fuel generalizing s with
  | zero => omega
  | succ n ih =>
    simp only [drain]
    split
    · next h =>
      have hr := (lsr_bit s).mp h
      have hd1 : (in8 5 s).2.u.dlab = false := by rw [dlab_cfg (in8_cfg 5 s)]; exact hd
      have h1 := in8_coming 5 s (by decide)
      have h2 := in8_pop (in8 5 s).2 hd1 hr
      split
      · exact ⟨true, _, rfl, by simp only [coming] at *; omega, fun _ => by simp only [coming] at *; omega⟩
      · obtain ⟨b, t, e, k1, k2⟩ := ih { (in8 0 (in8 5 s).2).2 with
            buf := (Verif.GdbPacket.handleChar (in8 0 (in8 5 s).2).2.buf (in8 0 (in8 5 s).2).1).1 }
          (by rw [← hd1]; exact dlab_cfg (in8_cfg 0 _)) (by simp only [coming] at *; omega)
        exact ⟨b, t, e, by simp only [coming] at *; omega, fun _ => by simp only [coming] at *; omega⟩
    · next h =>
      refine ⟨false, _, rfl, in8_coming 5 s (by decide), fun hr => ?_⟩
      exact absurd ((lsr_bit s).mpr (in8_rx 5 s (by decide) hr)) h

theorem iir_read (s : S) : (in8 2 s).1 = (if s.u.fifo then 192 else 0) + (tick s).u.reason := by
  have : (tick s).u.fifo = s.u.fifo := congrArg Cfg.fifo (tick_cfg s)
  show (if (tick s).u.fifo then 192 else 0) + (tick s).u.reason = _
  rw [this]

/-- With interrupts off nothing is pending. -/
theorem clearIir_off (fuel : Nat) (s : S) (hi : s.u.ier = 0) :
    clearIir (fuel + 1) s = some (false, (in8 2 s).2) := by
  have hi' : (tick s).u.ier = 0 := (congrArg Cfg.ier (tick_cfg s)).trans hi
  have hr : (tick s).u.reason = 1 := by simp [Uart.reason, hi']
  have : (in8 2 s).1 % 2 = 1 := by
    rw [iir_read, hr]; split <;> rfl
  simp only [clearIir, this, if_true]

theorem clearIir_ends (fuel : Nat) (s : S) (hd : s.u.dlab = false) (hi : s.u.ier = 1)
    (hf : 2 * coming s + 2 ≤ fuel) : ∃ r, clearIir fuel s = some r := by
  induction fuel generalizing s with
  | zero => omega
  | succ n ih =>
    have hi' : (tick s).u.ier = 1 := (congrArg Cfg.ier (tick_cfg s)).trans hi
    simp only [clearIir]
    by_cases hr : (tick s).u.rx = []
    · have h1 : (tick s).u.reason = 1 := by simp [Uart.reason, hi', hr]
      have : (in8 2 s).1 % 2 = 1 := by rw [iir_read, h1]; split <;> rfl
      exact ⟨_, by rw [if_pos this]⟩
    · have h1 : (tick s).u.reason = 4 := by simp [Uart.reason, hi', hr]
      have hv : (in8 2 s).1 = 4 ∨ (in8 2 s).1 = 196 := by rw [iir_read, h1]; split <;> simp
      have hodd : ¬ (in8 2 s).1 % 2 = 1 := by omega
      have hrda : (in8 2 s).1 / 2 % 8 * 2 = 4 ∨ (in8 2 s).1 / 2 % 8 * 2 = 12 := by omega
      rw [if_neg hodd, if_pos hrda]
      have hc := in8_coming 2 s (by decide)
      have hd1 : (in8 2 s).2.u.dlab = false := by rw [dlab_cfg (in8_cfg 2 s)]; exact hd
      have hne : (in8 2 s).2.u.rx ≠ [] := by
        show ((tick s).u.read 2).2.rx ≠ []
        simp only [Uart.read]
        split <;> exact hr
      have hpos : 0 < coming s := by
        have := List.length_pos_iff.mpr hne
        have : 0 < coming (in8 2 s).2 := by unfold coming; omega
        omega
      obtain ⟨b, t, e, k1, k2⟩ := drain_ends n (in8 2 s).2 hd1 (by omega)
      rw [e]
      cases b with
      | true => exact ⟨_, rfl⟩
      | false =>
        obtain ⟨c1, c2, c3⟩ := drain_cfg _ _ _ _ e
        have hc' : t.u.cfg = s.u.cfg := c1.trans (in8_cfg 2 s)
        have := k2 hne
        exact ih t (by rw [dlab_cfg hc']; exact hd) ((congrArg Cfg.ier hc').trans hi) (by omega)

end Verif.GdbPort
