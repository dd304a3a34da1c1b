import Verif.SimpleEnv.Spec

/-!
# C138: a dynamic component is told the truth about its initial capabilities
-/

namespace Verif.SimpleEnv

theorem makes_last (ts : List Tls) (t : Tls) (d : Data) : makes (ts ++ [t]) d = ⟨t.tcb, t.sc⟩ := by
  induction ts generalizing d with
  | nil => rfl
  | cons u ts ih => exact ih (make u d)

/-- C138: a thread that has just made its interface, whoever made one before, is given its own initial capabilities, and
exactly those: for all others it gets nothing. -/
theorem init_caps_partial (f : Conf) (ts : List Tls) (t : Tls) (d : Data) (i : Init) :
    (∀ c, Own f t i c → Gives (initCap f (makes (ts ++ [t]) d) i) c) ∧
    ((¬ ∃ c, Own f t i c) → Nothing (initCap f (makes (ts ++ [t]) d) i)) := by
  rw [makes_last]
  constructor
  · intro c h
    cases h with
    | cnode => rfl
    | pd => rfl
    | tcb => rfl
    | sc h => unfold Gives initCap; rw [if_pos h]
  · intro h
    cases i with
    | cnode => exact absurd ⟨_, .cnode⟩ h
    | pd => exact absurd ⟨_, .pd⟩ h
    | tcb => exact absurd ⟨_, .tcb⟩ h
    | sc =>
      cases hr : f.realtime
      · cases ha : f.asserts <;> simp [initCap, hr, ha, Nothing]
      · exact absurd ⟨_, .sc hr⟩ h
    | other => cases ha : f.asserts <;> simp [initCap, ha, Nothing]

/-- **Disagreement with C138.** The data is shared: when a second thread makes its interface, the interface that the first
one has answers with the capabilities of the second. -/
theorem second_thread_disturbs (f : Conf) (t u : Tls) (h : t.tcb ≠ u.tcb) :
    Gives (initCap f (makes [t] zero) .tcb) t.tcb ∧ ¬ Gives (initCap f (makes [t, u] zero) .tcb) t.tcb := by
  refine ⟨rfl, ?_⟩
  intro hg
  simp only [Gives, initCap, makes, make, Res.cap.injEq] at hg
  exact h hg.symm

/-! ### I/O spaces -/

theorem ioCases_at (n : Nat) : ∀ (ss : List (Nat × Nat)) (i : Nat), ioCases ((i + n : Nat) : Int) i ss =
    .cap ((ss[n]?.map (·.2)).getD 0) := by
  induction n with
  | zero =>
    intro ss i
    cases ss with
    | nil => rfl
    | cons s ss => simp [ioCases]
  | succ n ih =>
    intro ss i
    cases ss with
    | nil => rfl
    | cons s ss =>
      unfold ioCases
      rw [if_neg (by omega)]
      have := ih ss (i + 1)
      rw [show i + 1 + n = i + (n + 1) from by omega] at this
      rw [this]
      simp

theorem ioCases_before (n : Int) : ∀ (ss : List (Nat × Nat)) (i : Nat), n < i → ioCases n i ss = .cap 0
  | [], _, _ => rfl
  | s :: ss, i, h => by
    unfold ioCases
    rw [if_neg (by omega)]
    exact ioCases_before n ss (i + 1) (by omega)

/-- C138: the I/O spaces are counted, and counting up to there gives each of their capabilities once, in the order of the
configuration. -/
theorem iospaces_all (f : Conf) : (iospaceCount f true).1 = some f.iospaces.length ∧
    (List.range f.iospaces.length).map (fun n : Nat => nthIospace f (n : Int)) = f.iospaces.map (fun s => Res.cap s.2) := by
  refine ⟨rfl, ?_⟩
  apply List.ext_getElem?
  intro k
  simp only [List.getElem?_map]
  by_cases hk : k < f.iospaces.length
  · rw [List.getElem?_range hk, List.getElem?_eq_getElem hk]
    simp only [Option.map_some, Option.some.injEq]
    unfold nthIospace
    rw [if_pos (by omega)]
    have := ioCases_at k f.iospaces 0
    rw [Nat.zero_add] at this
    rw [this, List.getElem?_eq_getElem hk]
    rfl
  · rw [List.getElem?_eq_none (by simp; omega), List.getElem?_eq_none (by omega)]
    rfl

/-- C138: any other number gives nothing. -/
theorem iospaces_only (f : Conf) (n : Int) (h : n < 0 ∨ (f.iospaces.length : Int) ≤ n) : nthIospace f n = .cap 0 := by
  unfold nthIospace
  split
  · rcases h with h | h
    · exact ioCases_before n _ 0 (by omega)
    · obtain ⟨k, rfl⟩ : ∃ k : Nat, n = k := ⟨n.toNat, by omega⟩
      have := ioCases_at k f.iospaces 0
      rw [Nat.zero_add] at this
      rw [this, List.getElem?_eq_none (by omega)]
      rfl
  · rfl

/-- C138: the count is not stored through a null pointer, and counting never fails. -/
theorem iospaces_null (f : Conf) : iospaceCount f false = (none, .error 0) := rfl

/-! ### Scheduling control and address spaces -/

/-- C138: scheduling control is given on real-time kernels for exactly the core that was configured. -/
theorem sched_iff (f : Conf) (core : Int) (cap : Nat) (h : cap ≠ 0) :
    Gives (schedCtrl f core) cap ↔ f.realtime = true ∧ f.sched = some (core, cap) := by
  unfold schedCtrl Gives
  cases hr : f.realtime
  · simp [Ne.symm h]
  · cases hs : f.sched with
    | none => simp [Ne.symm h]
    | some p =>
      obtain ⟨c, k⟩ := p
      by_cases hc : core = c
      · subst hc
        simp
      · simp only [if_true, if_neg hc, true_and, Option.some.injEq, Prod.mk.injEq, Res.cap.injEq]
        constructor
        · intro h0; exact absurd h0.symm h
        · rintro ⟨h1, _⟩; exact absurd h1.symm hc

/-- **Disagreement with C138.** A component is told the number of cores of the machine, but has scheduling control of one
of them at most: on a machine with two there is a core for which it gets nothing. -/
theorem cores_without_control (f : Conf) (h : 2 ≤ f.nodes) : ∃ core : Nat, core < coreCount f ∧ schedCtrl f core = .cap 0 := by
  unfold coreCount schedCtrl
  cases f.realtime
  · exact ⟨0, by omega, rfl⟩
  · cases f.sched with
    | none => exact ⟨0, by omega, rfl⟩
    | some p =>
      by_cases hp : p.1 = 0
      · exact ⟨1, by omega, by simp [hp]⟩
      · exact ⟨0, by omega, by simp; intro h; exact absurd h.symm hp⟩

/-- C138: assigning an identifier does what the kernel does with the component's pool, and is refused if it has none; on
x86 and ARM. -/
theorem asid_partial (f : Conf) (kernel : Nat → Nat → Nat) (vspace : Nat) (ha : f.arch ≠ .riscv) :
    (∀ pool, f.asidPool = some pool → setAsid f kernel vspace = .error (kernel pool vspace)) ∧
    (f.asidPool = none → ∃ e, e ≠ 0 ∧ setAsid f kernel vspace = .error e) := by
  have h2 : f.arch = .x86 ∨ f.arch = .arm := by
    cases h : f.arch
    · exact .inl rfl
    · exact .inr rfl
    · exact absurd h ha
  constructor
  · intro pool hp
    unfold setAsid
    rw [hp]
    simp only
    rw [if_pos h2]
  · intro hp
    unfold setAsid
    rw [hp]
    exact ⟨failedLookup, by decide, rfl⟩

/-- **Disagreement with C138.** On RISC-V a component with a pool calls a function that returns nothing: the result is
undefined and no identifier is assigned. -/
theorem asid_riscv (f : Conf) (kernel : Nat → Nat → Nat) (vspace pool : Nat) (ha : f.arch = .riscv) (hp : f.asidPool = some pool) :
    setAsid f kernel vspace = .undefined := by
  unfold setAsid
  rw [hp]
  simp [ha]

/-! ### Which functions there are -/

/-- C138: the functions for scheduling are there exactly on real-time kernels, those for I/O spaces by number on kernels
with the SMMU, by device with the IOMMU, those for ports on x86; the initial capabilities always. -/
theorem functions (f : Conf) (iommu : Bool) : has f iommu .initCap = true ∧ has f iommu .asidAssign = true ∧ has f iommu .irq = true ∧
    (has f iommu .schedCtrl = true ↔ f.mcs = true) ∧ (has f iommu .coreCount = true ↔ f.mcs = true) ∧
    (has f iommu .nthIospace = true ↔ f.smmu = true) ∧ (has f iommu .iospaceCount = true ↔ f.smmu = true) ∧
    (has f iommu .iospace = true ↔ iommu = true) ∧ (has f iommu .ioport = true ↔ f.arch = .x86) := by
  simp [has]

/-- **Disagreement with C138.** Frames cannot be asked about, and neither can the pages of the program: the functions are
null. -/
theorem no_frames (f : Conf) (iommu : Bool) : ∀ fn ∈ [Fn.frameInfo, .frameMapping, .userimageCount, .nthUserimage], has f iommu fn = false := by
  intro fn h
  simp only [List.mem_cons, List.not_mem_nil, or_false] at h
  rcases h with rfl | rfl | rfl | rfl <;> rfl

/-! ### A concrete case -/

def demo : Conf := ⟨3, 4, [(65, 10), (66, 11), (3, 12)], some (1, 20), some 21, true, true, true, true, .arm, 4⟩

theorem demo_answers : (initCap demo (makes [⟨7, 8⟩, ⟨5, 6⟩] zero) .tcb, initCap demo (makes [⟨7, 8⟩, ⟨5, 6⟩] zero) .sc,
      initCap demo zero .other, nthIospace demo 2, nthIospace demo 3, schedCtrl demo 1, schedCtrl demo 0) =
    (.cap 5, .cap 6, .died, .cap 12, .cap 0, .cap 20, .cap 0) := by decide +kernel

end Verif.SimpleEnv
