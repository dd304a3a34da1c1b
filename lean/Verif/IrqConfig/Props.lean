import Verif.IrqConfig.Spec
import Mathlib.Tactic.Tauto

/-!
# Theorems: the settings of a hardware interrupt (C80)
-/

namespace Verif.IrqConfig

theorem required_ok (conf : String → Option Val) (s : String) (n : Int) :
    required conf s = .ok n ↔ conf s = some (.int n) := by
  unfold required
  split
  · rename_i h; simp [h]
  · rename_i m h; simp [h]
  · rename_i v h1 h2
    constructor
    · intro h; cases h
    · intro h; exact absurd (by rw [h] at h2; cases h2; rfl) (h1 n)

theorem key (i a b : String) (h : "_irq_" ++ a = b) : i ++ "_irq_" ++ a = i ++ b := by
  rw [String.append_assoc, h]

theorem hasType_iff (conf : String → Option Val) (i type : String) :
    HasType conf i type ↔ (conf (i ++ "_irq_type")).getD (.str "simple") = .str type := by
  unfold HasType
  cases h : conf (i ++ "_irq_type") with
  | none => simp [eq_comm]
  | some v => simp

theorem trigger_ok (conf : String → Option Val) (i : String) (t : Int) : triggerOf conf i = .ok t ↔ Trigger conf i t := by
  unfold triggerOf Trigger
  cases h : conf (i ++ "_irq_trigger") with
  | none => simp [eq_comm]
  | some v =>
    simp only [reduceCtorEq, false_or, Option.some.injEq]
    by_cases h1 : v = .str "level"
    · subst h1; simp [eq_comm]
    · by_cases h2 : v = .str "edge"
      · subst h2; simp [eq_comm]
      · simp [h1, h2]

theorem target_ok (conf : String → Option Val) (i : String) (c : Int) :
    targetOf conf i = .ok c ↔ SettingOr conf i "target" 0 c := by
  unfold targetOf SettingOr Setting
  rw [key i "target" "_irq_target" (by decide)]
  cases h : conf (i ++ "_irq_target") with
  | none => simp [eq_comm]
  | some v => cases v <;> simp

theorem required_cases (conf : String → Option Val) (s : String) :
    (∃ n, required conf s = .ok n ∧ conf s = some (.int n)) ∨
      (∃ e, required conf s = .error e ∧ ∀ n, conf s ≠ some (.int n)) := by
  cases h : required conf s with
  | ok n => exact .inl ⟨n, rfl, (required_ok conf s n).1 h⟩
  | error e =>
    refine .inr ⟨e, rfl, ?_⟩
    intro n hn
    rw [(required_ok conf s n).2 hn] at h
    cases h

theorem simple_ok (conf : String → Option Val) (i : String) (r : Handler × Entry) : simple conf i = .ok r ↔
    ∃ n, conf (i ++ "_irq_number") = some (.int n) ∧
      r = (let m := if conf (i ++ "_spi_number") = some (.int 0) then n + 32 else n; (.simple m, .interrupt m)) := by
  unfold simple
  rcases required_cases conf (i ++ "_irq_number") with ⟨n, h1, h2⟩ | ⟨e, h1, h2⟩ <;> simp [h1, h2, eq_comm]

theorem arm_ok (conf : String → Option Val) (i : String) (r : Handler × Entry) : arm conf i = .ok r ↔
    ∃ n t c, conf (i ++ "_irq_number") = some (.int n) ∧ Trigger conf i t ∧ SettingOr conf i "target" 0 c ∧
      r = (.arm n t c, .trigger t c n) := by
  unfold arm
  simp only [← trigger_ok, ← target_ok]
  cases ht : triggerOf conf i with
  | error e => simp
  | ok t =>
    rcases required_cases conf (i ++ "_irq_number") with ⟨n, h1, h2⟩ | ⟨e, h1, h2⟩
    · cases hc : targetOf conf i with
      | error e => simp [h1]
      | ok c => simp [h1, h2, eq_comm]
    · simp [h1, h2]

theorem levels_ok (conf : String → Option Val) (i type : String) (l p : Int) : levels conf i type = .ok (l, p) ↔
    (type = "isa" ∧ l = 0 ∧ p = 0) ∨ (type = "pci" ∧ l = 1 ∧ p = 1) ∨
      (type ≠ "isa" ∧ type ≠ "pci" ∧ conf (i ++ "_irq_level") = some (.int l) ∧
        conf (i ++ "_irq_polarity") = some (.int p)) := by
  unfold levels
  by_cases h1 : type = "isa"
  · subst h1; simp [eq_comm]
  · by_cases h2 : type = "pci"
    · subst h2; simp [eq_comm]
    · rcases required_cases conf (i ++ "_irq_level") with ⟨n, h3, h4⟩ | ⟨e, h3, h4⟩
      · rcases required_cases conf (i ++ "_irq_polarity") with ⟨m, h5, h6⟩ | ⟨e, h5, h6⟩ <;> simp [h1, h2, h3, h4, h5, h6]
      · simp [h1, h2, h3, h4]

theorem ioapic_ok (conf : String → Option Val) (i type : String) (r : Handler × Entry) : ioapic conf i type = .ok r ↔
    ∃ l p a n v, levels conf i type = .ok (l, p) ∧ conf (i ++ "_irq_ioapic") = some (.int a) ∧
      conf (i ++ "_irq_ioapic_pin") = some (.int n) ∧ conf (i ++ "_irq_vector") = some (.int v) ∧
      r = (.ioapic v a n l p, .ioapic a n l p v) := by
  unfold ioapic
  cases hl : levels conf i type with
  | error e => simp
  | ok lp =>
    obtain ⟨l, p⟩ := lp
    rcases required_cases conf (i ++ "_irq_ioapic") with ⟨a, h1, h2⟩ | ⟨e, h1, h2⟩
    · rcases required_cases conf (i ++ "_irq_ioapic_pin") with ⟨n, h3, h4⟩ | ⟨e, h3, h4⟩
      · rcases required_cases conf (i ++ "_irq_vector") with ⟨v, h5, h6⟩ | ⟨e, h5, h6⟩
        · simp only [h1, h2, h3, h4, h5, h6, Except.ok.injEq, Prod.mk.injEq, Option.some.injEq, Val.int.injEq]
          constructor
          · intro h; exact ⟨l, p, a, n, v, ⟨rfl, rfl⟩, rfl, rfl, rfl, h.symm⟩
          · rintro ⟨_, _, _, _, _, ⟨rfl, rfl⟩, rfl, rfl, rfl, h⟩; exact h.symm
        · simp [h1, h3, h5, h6]
      · simp [h1, h3, h4]
    · simp [h1, h2]

theorem msi_ok (conf : String → Option Val) (i : String) (r : Handler × Entry) : msi conf i = .ok r ↔
    ∃ h b d f v, conf (i ++ "_irq_handle") = some (.int h) ∧ conf (i ++ "_irq_pci_bus") = some (.int b) ∧
      conf (i ++ "_irq_pci_dev") = some (.int d) ∧ conf (i ++ "_irq_pci_fun") = some (.int f) ∧
      conf (i ++ "_irq_vector") = some (.int v) ∧ r = (.msi v h b d f, .msi b d f h v) := by
  unfold msi
  rcases required_cases conf (i ++ "_irq_handle") with ⟨a, h1, h2⟩ | ⟨e, h1, h2⟩
  · rcases required_cases conf (i ++ "_irq_pci_bus") with ⟨n, h3, h4⟩ | ⟨e, h3, h4⟩
    · rcases required_cases conf (i ++ "_irq_pci_dev") with ⟨v, h5, h6⟩ | ⟨e, h5, h6⟩
      · rcases required_cases conf (i ++ "_irq_pci_fun") with ⟨v, h7, h8⟩ | ⟨e, h7, h8⟩
        · rcases required_cases conf (i ++ "_irq_vector") with ⟨v, h9, h10⟩ | ⟨e, h9, h10⟩
          · simp [h1, h2, h3, h4, h5, h6, h7, h8, h9, h10, eq_comm]
          · simp [h1, h3, h5, h7, h9, h10]
        · simp [h1, h3, h5, h7, h8]
      · simp [h1, h3, h5, h6]
    · simp [h1, h3, h4]
  · simp [h1, h2]

/-- The tool accepts the settings exactly if they are complete, and then allocates the handler they say and makes the entry
for it. -/
theorem configured_iff (conf : String → Option Val) (i : String) (h : Handler) (e : Entry) :
    configure conf i = .ok (h, e) ↔ Says conf i h e := by
  have kn := key i "number" "_irq_number" (by decide)
  have ka := key i "ioapic" "_irq_ioapic" (by decide)
  have kp := key i "ioapic_pin" "_irq_ioapic_pin" (by decide)
  have kl := key i "level" "_irq_level" (by decide)
  have ko := key i "polarity" "_irq_polarity" (by decide)
  have kv := key i "vector" "_irq_vector" (by decide)
  have kh := key i "handle" "_irq_handle" (by decide)
  have kb := key i "pci_bus" "_irq_pci_bus" (by decide)
  have kd := key i "pci_dev" "_irq_pci_dev" (by decide)
  have kf := key i "pci_fun" "_irq_pci_fun" (by decide)
  constructor
  · intro hc
    unfold configure at hc
    split at hc
    · rename_i type ht
      have ht' := (hasType_iff conf i type).2 ht
      split at hc
      · rename_i h1
        subst h1
        obtain ⟨n, hn, hr⟩ := (simple_ok conf i _).1 hc
        cases hr
        by_cases hs : conf (i ++ "_spi_number") = some (.int 0)
        · rw [if_pos hs, Int.add_comm]
          exact .spi n ht' (by unfold Setting; rw [kn]; exact hn) hs
        · rw [if_neg hs]
          exact .simple n ht' (by unfold Setting; rw [kn]; exact hn) hs
      · split at hc
        · rename_i _ h1
          subst h1
          obtain ⟨n, t, c, hn, h2, h3, hr⟩ := (arm_ok conf i _).1 hc
          cases hr
          exact .arm n t c ht' (by unfold Setting; rw [kn]; exact hn) h2 h3
        · split at hc
          · rename_i h1
            obtain ⟨l, p, a, n, v, hl, h2, h3, h4, hr⟩ := (ioapic_ok conf i type _).1 hc
            cases hr
            have s1 : Setting conf i "ioapic" a := by unfold Setting; rw [ka]; exact h2
            have s2 : Setting conf i "ioapic_pin" n := by unfold Setting; rw [kp]; exact h3
            have s3 : Setting conf i "vector" v := by unfold Setting; rw [kv]; exact h4
            rcases (levels_ok conf i type l p).1 hl with ⟨rfl, rfl, rfl⟩ | ⟨rfl, rfl, rfl⟩ | ⟨n1, n2, h5, h6⟩
            · exact .isa a n v ht' s1 s2 s3
            · exact .pci a n v ht' s1 s2 s3
            · rcases h1 with rfl | h1 | h1
              · exact .ioapic a n l p v ht' s1 s2 (by unfold Setting; rw [kl]; exact h5)
                  (by unfold Setting; rw [ko]; exact h6) s3
              · exact absurd h1 n1
              · exact absurd h1 n2
          · split at hc
            · rename_i h1
              subst h1
              obtain ⟨h, b, d, f, v, h2, h3, h4, h5, h6, hr⟩ := (msi_ok conf i _).1 hc
              cases hr
              exact .msi h b d f v ht' (by unfold Setting; rw [kh]; exact h2) (by unfold Setting; rw [kb]; exact h3)
                (by unfold Setting; rw [kd]; exact h4) (by unfold Setting; rw [kf]; exact h5)
                (by unfold Setting; rw [kv]; exact h6)
            · cases hc
    · cases hc
  · intro hs
    unfold configure
    cases hs with
    | simple n ht h1 h2 =>
      rw [(hasType_iff conf i _).1 ht]
      simp only [if_true]
      unfold Setting at h1; rw [kn] at h1
      exact (simple_ok conf i _).2 ⟨n, h1, by simp [h2]⟩
    | spi n ht h1 h2 =>
      rw [(hasType_iff conf i _).1 ht]
      simp only [if_true]
      unfold Setting at h1; rw [kn] at h1
      exact (simple_ok conf i _).2 ⟨n, h1, by simp [h2, Int.add_comm]⟩
    | arm n t c ht h1 h2 h3 =>
      rw [(hasType_iff conf i _).1 ht]
      simp only [String.reduceEq, if_false, if_true]
      unfold Setting at h1; rw [kn] at h1
      exact (arm_ok conf i _).2 ⟨n, t, c, h1, h2, h3, rfl⟩
    | isa a n v ht h1 h2 h3 =>
      rw [(hasType_iff conf i _).1 ht]
      unfold Setting at h1 h2 h3; rw [ka] at h1; rw [kp] at h2; rw [kv] at h3
      simp only [String.reduceEq, if_false, if_true, or_true, true_or, false_or, or_false]
      exact (ioapic_ok conf i _ _).2 ⟨0, 0, a, n, v, (levels_ok conf i _ 0 0).2 (.inl ⟨rfl, rfl, rfl⟩), h1, h2, h3, rfl⟩
    | pci a n v ht h1 h2 h3 =>
      rw [(hasType_iff conf i _).1 ht]
      unfold Setting at h1 h2 h3; rw [ka] at h1; rw [kp] at h2; rw [kv] at h3
      simp only [String.reduceEq, if_false, if_true, or_true, true_or, false_or, or_false]
      exact (ioapic_ok conf i _ _).2 ⟨1, 1, a, n, v, (levels_ok conf i _ 1 1).2 (.inr (.inl ⟨rfl, rfl, rfl⟩)), h1, h2, h3,
        rfl⟩
    | ioapic a n l p v ht h1 h2 h3 h4 h5 =>
      rw [(hasType_iff conf i _).1 ht]
      unfold Setting at h1 h2 h3 h4 h5; rw [ka] at h1; rw [kp] at h2; rw [kl] at h3; rw [ko] at h4; rw [kv] at h5
      simp only [String.reduceEq, if_false, if_true, or_true, true_or, false_or, or_false]
      exact (ioapic_ok conf i _ _).2 ⟨l, p, a, n, v, (levels_ok conf i _ l p).2 (.inr (.inr ⟨by decide, by decide, h3, h4⟩)),
        h1, h2, h5, rfl⟩
    | msi h b d f v ht h1 h2 h3 h4 h5 =>
      rw [(hasType_iff conf i _).1 ht]
      unfold Setting at h1 h2 h3 h4 h5; rw [kh] at h1; rw [kb] at h2; rw [kd] at h3; rw [kf] at h4; rw [kv] at h5
      simp only [String.reduceEq, if_false, if_true, or_true, true_or, false_or, or_false]
      exact (msi_ok conf i _).2 ⟨h, b, d, f, v, h1, h2, h3, h4, h5, rfl⟩

/-- There is only one answer. -/
theorem says_unique (conf : String → Option Val) (i : String) (h h' : Handler) (e e' : Entry) (h1 : Says conf i h e)
    (h2 : Says conf i h' e') : h = h' ∧ e = e' := by
  have := ((configured_iff conf i h e).2 h1).symm.trans ((configured_iff conf i h' e').2 h2)
  cases this
  exact ⟨rfl, rfl⟩

/-- A driver that asks for the interrupt gets the handler that was allocated for it. -/
theorem driver_gets (conf : String → Option Val) (i : String) (h : Handler) (e : Entry) (slot cb : Nat)
    (hc : configure conf i = .ok (h, e)) :
    (Irq.register (fun _ => true) h.request cb [tableEntry slot e]).2 = .id slot := by
  have hs := (configured_iff conf i h e).1 hc
  cases hs <;> simp [Irq.register, tableEntry, Entry.irq, Handler.request, Irq.check, Irq.checkNormal]

theorem required_error (conf : String → Option Val) (i s : String) (e : Err) (h : required conf s = .error e) :
    True_ conf i e := by
  unfold required at h
  split at h
  · rename_i hn; cases h; exact hn
  · cases h
  · rename_i v hv hn
    cases h
    exact ⟨v, hn, fun n hx => hv n hx⟩

/-- **C80.** If the tool refuses the settings of an interrupt, what it says about them is true. -/
theorem error_right (conf : String → Option Val) (i : String) (e : Err) (h : configure conf i = .error e) : True_ conf i e := by
  unfold configure at h
  split at h
  · rename_i type htype
    have hht : HasType conf i type := (hasType_iff conf i type).2 htype
    split at h
    · unfold simple at h
      split at h
      · rename_i he; cases h; exact required_error conf i _ _ he
      · cases h
    split at h
    · rename_i _ harm
      subst harm
      unfold arm at h
      split at h
      · rename_i he
        cases h
        unfold triggerOf at he
        split at he
        · cases he
        · rename_i v hv
          split at he
          · cases he
          · split at he
            · cases he
            · rename_i h1 h2
              cases he
              refine ⟨hht, ?_⟩
              rintro ⟨t, ⟨_, hx | hx⟩ | ⟨_, hx⟩⟩ <;> rw [hv] at hx <;> cases hx
              · exact h1 rfl
              · exact h2 rfl
      · split at h
        · rename_i he; cases h; exact required_error conf i _ _ he
        · split at h
          · rename_i he
            cases h
            unfold targetOf at he
            split at he
            · cases he
            · cases he
            · rename_i v hv hn
              cases he
              exact ⟨v, hn, fun n hx => hv n hx⟩
          · cases h
    split at h
    · unfold ioapic at h
      split at h
      · rename_i he
        cases h
        unfold levels at he
        split at he
        · cases he
        split at he
        · cases he
        split at he
        · rename_i he'; cases he; exact required_error conf i _ _ he'
        split at he
        · rename_i he'; cases he; exact required_error conf i _ _ he'
        · cases he
      · split at h
        · rename_i he; cases h; exact required_error conf i _ _ he
        split at h
        · rename_i he; cases h; exact required_error conf i _ _ he
        split at h
        · rename_i he; cases h; exact required_error conf i _ _ he
        · cases h
    split at h
    · unfold msi at h
      split at h
      · rename_i he; cases h; exact required_error conf i _ _ he
      split at h
      · rename_i he; cases h; exact required_error conf i _ _ he
      split at h
      · rename_i he; cases h; exact required_error conf i _ _ he
      split at h
      · rename_i he; cases h; exact required_error conf i _ _ he
      split at h
      · rename_i he; cases h; exact required_error conf i _ _ he
      · cases h
    · rename_i h1 h2 h3 h4
      cases h
      rintro ⟨t, ht, hx⟩
      have : t = type := by
        have hx' := (hasType_iff conf i t).1 hx
        rw [htype] at hx'
        cases hx'; rfl
      subst this
      simp only [types, List.mem_cons, List.not_mem_nil, or_false] at ht
      rcases ht with h | h | h | h | h | h <;> simp_all
  · rename_i hno
    cases h
    rintro ⟨t, _, hx⟩
    exact hno t ((hasType_iff conf i t).1 hx)

/-- **Disagreement with C80.** A driver that asks for the interrupt of an ARM core other than 0, as it was configured, does not
find it; one that asks for that of core 0 gets the interrupt of the other core. -/
theorem core_forgotten (conf : String → Option Val) (i : String) (n t c : Int) (e : Entry) (slot cb : Nat)
    (hc : configure conf i = .ok (.arm n t c, e)) (h : 0 < c) :
    (Irq.register (fun _ => true) (.perCpu n.toNat t.toNat c.toNat) cb [tableEntry slot e]).2 = .notFound ∧
    (Irq.register (fun _ => true) (.perCpu n.toNat t.toNat 0) cb [tableEntry slot e]).2 = .id slot := by
  have hs := (configured_iff conf i _ e).1 hc
  cases hs
  have h1 : (0 == c.toNat) = false := by simp; omega
  simp [Irq.register, tableEntry, Entry.irq, Irq.check, Irq.checkNormal, h1]

/-! ## A timer and a network card -/

/-- The settings of a system. -/
def demo : String → Option Val
  | "timer_irq_number" => some (.int 87)
  | "timer_spi_number" => some (.int 0)
  | "eth_irq_type" => some (.str "arm")
  | "eth_irq_number" => some (.int 152)
  | "eth_irq_trigger" => some (.str "edge")
  | "eth_irq_target" => some (.int 1)
  | "com_irq_type" => some (.str "isa")
  | "com_irq_ioapic" => some (.int 0)
  | "com_irq_ioapic_pin" => some (.int 4)
  | _ => none

example : configure demo "timer" = .ok (.simple 119, .interrupt 119) ∧
    configure demo "eth" = .ok (.arm 152 1 1, .trigger 1 1 152) ∧
    configure demo "com" = .error (.missing "com_irq_vector") := by
  refine ⟨?_, ?_, ?_⟩ <;> rfl

end Verif.IrqConfig
