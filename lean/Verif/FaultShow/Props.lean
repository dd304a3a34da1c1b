import Verif.FaultShow.Spec
import Mathlib.Tactic.SplitIfs
import Mathlib.Data.List.Nodup

/-! # C120: reports of faults -/

namespace Verif.FaultShow

theorem toInt_small {n : Nat} (h : Small n) : toInt n = n := by
  unfold Small at h
  unfold toInt
  rw [Nat.mod_eq_of_lt (by omega), if_pos h]

theorem toUnsigned_small {n : Nat} (h : Small n) : toUnsigned n = n := by
  unfold Small at h
  unfold toUnsigned
  exact Nat.mod_eq_of_lt (by omega)

theorem labels_ne {k : Consts} (hk : Kernel k) : k.capFault ≠ k.vmFault ∧ k.capFault ≠ k.unknownSyscall ∧
    k.capFault ≠ k.userException ∧ k.vmFault ≠ k.unknownSyscall ∧ k.vmFault ≠ k.userException ∧
    k.unknownSyscall ≠ k.userException := by
  have := hk.labels
  simp at this
  obtain ⟨⟨a, b, c⟩, ⟨d, e⟩, f⟩ := this
  exact ⟨a, b, c, d, e, f⟩

theorem causes_ne {k : Consts} (hk : Kernel k) : k.invalidRoot ≠ k.missing ∧ k.invalidRoot ≠ k.depth ∧
    k.invalidRoot ≠ k.guard_ ∧ k.missing ≠ k.depth ∧ k.missing ≠ k.guard_ ∧ k.depth ≠ k.guard_ := by
  have := hk.causes
  simp at this
  obtain ⟨⟨a, b, c⟩, ⟨d, e⟩, f⟩ := this
  exact ⟨a, b, c, d, e, f⟩

theorem sayAll_out (after : List Line → Nat → Nat) : ∀ (ls : List Line) (st : St), (sayAll after st ls).out = st.out ++ ls
  | [], st => by simp [sayAll]
  | l :: ls, st => by rw [sayAll, sayAll_out after ls]; simp [say]

/-- The report of a fault of virtual memory: the fault, the registers or that they cannot be shown, and
the memory map if there is one. Whatever printing does to the message registers. -/
theorem vm_report {k : Consts} (hk : Kernel k) (arch : Arch) (word : Nat) (after : List Line → Nat → Nat) (inst : String) (id : Nat)
    (name : Option String) (tcb : Bool) (map : Option (List Verif.FaultMap.Region)) (ip addr : Nat) (pre : Bool) (fsr label : Nat)
    (mr : Nat → Nat) (h : Message k arch (.vm ip addr pre fsr) label mr) (lines : List Verif.FaultMap.Line)
    (hmap : ∀ m, map = some m → Verif.FaultMap.showFault word m addr = some lines) :
    showFault k arch word after inst label mr id name tcb map =
      some ([.vm pre inst (name.getD "<unknown>") id addr ip fsr, if tcb then .registers id else .noRegisters] ++
        if map.isSome then .mapHeading :: lines.map .map else []) := by
  obtain ⟨hl, hs, hw⟩ := h
  have hn := labels_ne hk
  have h0 := hw 0 _ rfl
  have h1 := hw 1 _ rfl
  have h2 := hw 2 _ rfl
  have h3 := hw 3 _ rfl
  have hp : decide (mr 2 = 1) = pre := by rw [h2]; cases pre <;> rfl
  unfold showFault
  simp only [toInt_small hs, hl]
  rw [if_neg (Ne.symm hn.1), if_pos trivial]
  unfold showVm
  simp only [h0, h1, h3, hp]
  cases map with
  | none => simp [say]
  | some m =>
    simp only [hmap m rfl, Option.map_some, Option.isSome_some, if_true, sayAll_out]
    simp [say]

/-- The registers are read from where the kernel puts them. -/
theorem table_ok (arch : Arch) : (table arch).2.1 = (layout arch).idxOf "pc" ∧ (table arch).2.1 < (layout arch).length ∧
    (table arch).2.2 = (layout arch).idxOf "syscall" ∧ (table arch).2.2 < (layout arch).length ∧
    ((table arch).1.map (·.1)).Nodup ∧
    (∀ p ∈ (table arch).1, (layout arch).idxOf p.1 = p.2 ∧ p.1 ∈ layout arch ∧ p.1 ≠ "pc" ∧ p.1 ≠ "syscall" ∧ p.2 < (layout arch).length) ∧
    ∀ r ∈ layout arch, r ≠ "pc" → r ≠ "syscall" → (r, (layout arch).idxOf r) ∈ (table arch).1 := by
  cases arch <;> decide +kernel

/-- C120: the first line of the report tells what happened: kind of the fault, instance, thread,
addresses and, for a fault of a capability, what the lookup found. It is the only line, except for
faults of virtual memory. Whatever printing does to the message registers. -/
theorem report_tells_partial {k : Consts} (hk : Kernel k) (arch : Arch) (word : Nat) (after : List Line → Nat → Nat) (inst name : String)
    (id : Nat) (hid : arch = .x64 ∨ arch = .aarch64 ∨ id < 2 ^ 32) (tcb : Bool) (map : Option (List Verif.FaultMap.Region)) (f : Fault) (label : Nat)
    (mr : Nat → Nat) (h : Message k arch f label mr)
    (hmap : ∀ ip addr pre fsr m, f = .vm ip addr pre fsr → map = some m → ∃ ls, Verif.FaultMap.showFault word m addr = some ls) :
    ∃ l rest, showFault k arch word after inst label mr id (some name) tcb map = some (l :: rest) ∧ Tells arch inst name id f l ∧
      ((∀ ip addr pre fsr, f ≠ .vm ip addr pre fsr) → rest = []) := by
  have hn := labels_ne hk
  have hc := causes_ne hk
  cases f with
  | cap ip addr recv why =>
    obtain ⟨hl, hs, ws, hcause, hw⟩ := h
    have h0 := hw 0 _ rfl
    have h1 := hw 1 _ rfl
    have h2 := hw 2 _ rfl
    have hp : decide (mr 2 = 1) = recv := by rw [h2]; cases recv <;> rfl
    unfold showFault
    simp only [toInt_small hs, hl]
    rw [if_pos trivial]
    suffices h : ∃ l, (showCap k after ⟨mr, []⟩ k.capFault inst name id).out = [l] ∧ Tells arch inst name id (.cap ip addr recv why) l by
      obtain ⟨l, h1, h2⟩ := h
      exact ⟨l, [], by rw [← h1]; rfl, h2, fun _ => rfl⟩
    unfold showCap
    simp only [h0, h1, hp]
    cases why with
    | invalidRoot =>
      obtain ⟨c, hc1, hc2, rfl⟩ := hcause
      have h3 := hw 3 _ rfl
      simp only [h3, toInt_small hc2, hc1]
      simp [say, Tells]
    | missing b =>
      obtain ⟨c, hc1, hc2, hb, rfl⟩ := hcause
      have h3 := hw 3 _ rfl
      have h4 := hw 4 _ rfl
      simp only [h3, h4, toInt_small hc2, hc1, toUnsigned_small hb]
      rw [if_neg (Ne.symm hc.1)]
      simp [say, Tells]
    | depth b g =>
      obtain ⟨c, hc1, hc2, hb, hg, rfl⟩ := hcause
      have h3 := hw 3 _ rfl
      have h4 := hw 4 _ rfl
      have h5 := hw 5 _ rfl
      simp only [h3, h4, h5, toInt_small hc2, hc1, toUnsigned_small hb, toUnsigned_small hg]
      rw [if_neg (Ne.symm hc.2.1), if_neg (Ne.symm hc.2.2.2.1)]
      simp [say, Tells]
    | guard_ b g n =>
      obtain ⟨c, hc1, hc2, hb, hg, rfl⟩ := hcause
      have h3 := hw 3 _ rfl
      have h4 := hw 4 _ rfl
      have h5 := hw 5 _ rfl
      have h6 := hw 6 _ rfl
      simp only [h3, h4, h5, h6, toInt_small hc2, hc1, toUnsigned_small hb, toUnsigned_small hg]
      rw [if_neg (Ne.symm hc.2.2.1), if_neg (Ne.symm hc.2.2.2.2.1), if_neg (Ne.symm hc.2.2.2.2.2)]
      simp [say, Tells]
  | vm ip addr pre fsr =>
    cases map with
    | none =>
      refine ⟨_, _, vm_report hk arch word after inst id (some name) tcb none ip addr pre fsr label mr h [] (by simp), rfl, ?_⟩
      intro hh
      exact absurd rfl (hh ip addr pre fsr)
    | some m =>
      obtain ⟨ls, hls⟩ := hmap ip addr pre fsr m rfl rfl
      refine ⟨_, _, vm_report hk arch word after inst id (some name) tcb (some m) ip addr pre fsr label mr h ls ?_, rfl, ?_⟩
      · intro m' hm'
        cases hm'
        exact hls
      · intro hh
        exact absurd rfl (hh ip addr pre fsr)
  | user ip sp flags no code =>
    obtain ⟨hl, hs, hno, hcode, hw⟩ := h
    have h0 := hw 0 _ rfl
    have h1 := hw 1 _ rfl
    have h2 := hw 2 _ rfl
    have h3 := hw 3 _ rfl
    have h4 := hw 4 _ rfl
    unfold showFault
    simp only [toInt_small hs, hl]
    rw [if_neg (Ne.symm hn.2.2.1), if_neg (Ne.symm hn.2.2.2.2.1), if_neg (Ne.symm hn.2.2.2.2.2), if_pos trivial]
    refine ⟨_, _, rfl, ?_⟩
    simp [h0, h1, h2, h3, h4, toInt_small hno, toInt_small hcode, Tells]
  | syscall regs =>
    obtain ⟨hl, hs, hlen, hw⟩ := h
    have hidd : shownId arch id = id := by
      cases arch <;> simp [shownId, toUnsigned] at hid ⊢ <;> omega
    have hval : ∀ i < (layout arch).length, mr i = regs.getD i 0 := by
      intro i hi
      rw [← hlen] at hi
      have := hw i regs[i] (List.getElem?_eq_getElem hi)
      rw [this, List.getD_eq_getElem?_getD, List.getElem?_eq_getElem hi]
      rfl
    unfold showFault
    simp only [toInt_small hs, hl]
    rw [if_neg (Ne.symm hn.2.1), if_neg (Ne.symm hn.2.2.2.1), if_pos trivial]
    unfold showSyscall
    refine ⟨_, _, rfl, ?_, fun _ => rfl⟩
    rw [hidd]
    obtain ⟨t1, t2, t3, t4, t5, t6, t7⟩ := table_ok arch
    refine ⟨toInt (mr (table arch).2.2), (table arch).1.map fun p => (p.1, mr p.2), ?_, ?_, ?_, ?_⟩
    · have : mr (table arch).2.1 = valueOf arch regs "pc" := by rw [valueOf, ← t1]; exact hval _ t2
      simp only [this]
    · rw [valueOf, ← t3, hval _ t4]
      exact toInt_small
    · rw [List.map_map]
      exact t5
    · intro r v
      rw [List.mem_map]
      constructor
      · rintro ⟨⟨n, i⟩, hm, he⟩
        obtain ⟨a, b, c, d, e⟩ := t6 _ hm
        simp only [Prod.mk.injEq] at he
        obtain ⟨rfl, rfl⟩ := he
        refine ⟨b, c, d, ?_⟩
        rw [hval _ e, valueOf, a]
      · rintro ⟨a, b, c, rfl⟩
        refine ⟨_, t7 r a b c, ?_⟩
        simp only [Prod.mk.injEq, true_and]
        rw [valueOf]
        exact hval _ (List.idxOf_lt_length_iff.2 a)

/-! ## What can be read back -/

/-- What a report cannot tell apart: whether the capability was looked up for receiving (except for an
invalid root), and numbers of system calls that do not fit into an `int`. -/
def Alike (arch : Arch) : Fault → Fault → Prop
  | .cap ip addr r .invalidRoot, g => g = .cap ip addr r .invalidRoot
  | .cap ip addr _ w, g => ∃ r, g = .cap ip addr r w
  | .syscall regs, g => ∃ regs', g = .syscall regs' ∧ (∀ r ∈ layout arch, r ≠ "syscall" → valueOf arch regs r = valueOf arch regs' r) ∧
      (Small (valueOf arch regs "syscall") → Small (valueOf arch regs' "syscall") →
        valueOf arch regs "syscall" = valueOf arch regs' "syscall")
  | f, g => g = f

/-- C120: the first line determines the fault, the instance and the thread, as far as it tells them. -/
theorem report_determines_partial (arch : Arch) (inst name inst' name' : String) (id id' : Nat) (f g : Fault) (l : Line)
    (hf : Tells arch inst name id f l) (hg : Tells arch inst' name' id' g l) :
    Alike arch f g ∧ name = name' ∧ id = id' ∧ ((∀ regs, f ≠ .syscall regs) → inst = inst') := by
  cases f with
  | cap ip addr r w =>
    cases w <;> simp only [Tells] at hf <;> subst hf <;> cases g with
    | cap ip' addr' r' w' => cases w' <;> simp [Tells, Alike] at hg ⊢ <;> simp [hg]
    | vm a b c d => simp [Tells] at hg
    | syscall regs => simp [Tells] at hg
    | user a b c d e => simp [Tells] at hg
  | vm a b c d =>
    simp only [Tells] at hf
    subst hf
    cases g with
    | cap ip' addr' r' w' => cases w' <;> simp [Tells] at hg
    | vm a b c d => simp [Tells, Alike] at hg ⊢; simp [hg]
    | syscall regs => simp [Tells] at hg
    | user a b c d e => simp [Tells] at hg
  | user a b c d e =>
    simp only [Tells] at hf
    subst hf
    cases g with
    | cap ip' addr' r' w' => cases w' <;> simp [Tells] at hg
    | vm a b c d => simp [Tells] at hg
    | syscall regs => simp [Tells] at hg
    | user a b c d e =>
      simp only [Tells, Line.user.injEq] at hg
      obtain ⟨h1, h2, rfl, rfl, rfl, rfl, rfl, rfl⟩ := hg
      have h1' := Int.ofNat_inj.1 h1
      have h2' := Int.ofNat_inj.1 h2
      subst h1'; subst h2'
      exact ⟨rfl, rfl, rfl, fun _ => rfl⟩
  | syscall regs =>
    obtain ⟨n, shown, rfl, hn, hd, hs⟩ := hf
    cases g with
    | cap ip' addr' r' w' => cases w' <;> simp [Tells] at hg
    | vm a b c d => simp [Tells] at hg
    | user a b c d e => simp [Tells] at hg
    | syscall regs' =>
      obtain ⟨n', shown', he, hn', hd', hs'⟩ := hg
      simp only [Line.syscall.injEq] at he
      obtain ⟨rfl, rfl, rfl, hpc, rfl⟩ := he
      refine ⟨⟨regs', rfl, ?_, fun a b => Int.ofNat_inj.1 ((hn a).symm.trans (hn' b))⟩, rfl, rfl, fun h => absurd rfl (h regs)⟩
      intro r hr hne
      by_cases hp : r = "pc"
      · rw [hp]; exact hpc
      · have h1 := (hs r _).2 ⟨hr, hp, hne, rfl⟩
        have h2 := ((hs' r _).1 h1).2.2.2
        exact h2

/-! ## Disagreements -/

/-- **Disagreement with C120.** If the kernel gives a cause that the code does not know, the report shows
the label of the message in its place. -/
theorem unknown_cause_not_shown {k : Consts} (arch : Arch) (word : Nat) (after : List Line → Nat → Nat) (inst name : String) (id : Nat)
    (tcb : Bool) (map : Option (List Verif.FaultMap.Region)) (label : Nat) (mr : Nat → Nat) (hl : toInt label = k.capFault)
    (hc : toInt (mr 3) ∉ [k.invalidRoot, k.missing, k.depth, k.guard_]) :
    showFault k arch word after inst label mr id (some name) tcb map =
      some [.unknownCause (toInt label) inst name id (mr 0) (mr 1)] := by
  simp only [List.mem_cons, List.not_mem_nil, or_false, not_or] at hc
  obtain ⟨c1, c2, c3, c4⟩ := hc
  unfold showFault
  simp only
  rw [if_pos hl]
  unfold showCap
  simp [c1, c2, c3, c4, say]

/-- **Disagreement with C120.** The report of an unknown system call does not say in which instance it
happened. -/
theorem instance_not_shown {k : Consts} (hk : Kernel k) (arch : Arch) (word : Nat) (after : List Line → Nat → Nat) (inst inst' : String)
    (name : Option String) (id : Nat) (tcb : Bool) (map : Option (List Verif.FaultMap.Region)) (label : Nat) (mr : Nat → Nat)
    (hl : toInt label = k.unknownSyscall) :
    showFault k arch word after inst label mr id name tcb map = showFault k arch word after inst' label mr id name tcb map := by
  have hn := labels_ne hk
  unfold showFault
  simp only [hl]
  rw [if_neg (Ne.symm hn.2.1), if_neg (Ne.symm hn.2.2.2.1), if_pos trivial, if_neg (Ne.symm hn.2.1), if_neg (Ne.symm hn.2.2.2.1), if_pos trivial]

/-- **Disagreement with C120.** For a thread without a name, an unknown system call ends the fault handler
itself; all other faults are reported. -/
theorem unnamed_syscall {k : Consts} (hk : Kernel k) (arch : Arch) (word : Nat) (after : List Line → Nat → Nat) (inst : String)
    (id : Nat) (tcb : Bool) (label : Nat) (mr : Nat → Nat) :
    showFault k arch word after inst label mr id none tcb none = none ↔ toInt label = k.unknownSyscall := by
  have hn := labels_ne hk
  unfold showFault
  simp only
  constructor
  · intro h
    split_ifs at h with h1 h2 h3 h4
    · simp [showVm] at h
    · exact h3
  · intro h
    rw [h, if_neg (Ne.symm hn.2.1), if_neg (Ne.symm hn.2.2.2.1), if_pos rfl]
    rfl

/-- **Disagreement with C120.** On riscv the report of an unknown system call shows the same number for
threads whose numbers differ by a multiple of 2^32. -/
theorem thread_number_cut (after : List Line → Nat → Nat) (st : St) (id n : Nat) (name : String) :
    (showSyscall .riscv after st (id + n * 2 ^ 32) (some name)).map St.out = (showSyscall .riscv after st id (some name)).map St.out := by
  simp [showSyscall, shownId, toUnsigned, say, Nat.add_mul_mod_self_right]

/-- **Disagreement with C120.** A missing capability is reported in the same way for sending and for
receiving. -/
theorem phase_not_shown (arch : Arch) (inst name : String) (id ip addr b : Nat) (l : Line)
    (h : Tells arch inst name id (.cap ip addr true (.missing b)) l) : Tells arch inst name id (.cap ip addr false (.missing b)) l := h

/-! ## Examples -/

/-- The kernel's numbers. -/
def seL4 : Consts := ⟨1, 5, 2, 3, 1, 2, 3, 4⟩

theorem demo_kernel : Kernel seL4 := ⟨by decide, by decide⟩

/-- A lookup that met a wrong guard; printing overwrites all message registers. -/
def demoMr (i : Nat) : Nat := [0x8000, 0x42, 1, 4, 20, 0xab, 8].getD i 0

theorem demo_message : Message seL4 .x64 (.cap 0x8000 0x42 true (.guard_ 20 0xab 8)) 1 demoMr := by
  refine ⟨rfl, by unfold Small; omega, [4, 20, 0xab, 8], ⟨4, rfl, by unfold Small; omega, by unfold Small; omega, by unfold Small; omega, rfl⟩, ?_⟩
  intro i w h
  have : demoMr i = ([0x8000, 0x42, 1, 4, 20, 0xab, 8] : List Nat).getD i 0 := rfl
  rw [this, List.getD_eq_getElem?_getD]
  simp at h
  rw [h]
  rfl

theorem demo_report : showFault seL4 .x64 (2 ^ 64) (fun _ _ => 0) "client" 1 demoMr 3 (some "control") true none =
    some [.guard_ 20 8 0xab "client" "control" 3 0x8000 0x42] := by
  decide +kernel

theorem demo_unknown : showFault seL4 .x64 (2 ^ 64) (fun _ _ => 0) "client" 1 (fun i => if i = 3 then 77 else 0) 3 (some "control") true none =
    some [.unknownCause 1 "client" "control" 3 0 0] := by
  decide +kernel

theorem demo_vm : showFault seL4 .ia32 (2 ^ 32) (fun _ _ => 0) "client" 5 (fun i => [0x8000, 0x1234, 0, 7].getD i 0) 3 (some "control") false
    (some [⟨0x1000, 0x1fff, "stack"⟩, ⟨0, 0, ""⟩]) =
    some [.vm false "client" "control" 3 0x1234 0x8000 7, .noRegisters, .mapHeading, .map (.address 0x1fff), .map (.name "stack"),
      .map (.fault 0x1234), .map (.address 0x1000)] := by
  decide +kernel

end Verif.FaultShow
