import Verif.FaultShow.Model

/-! # Faults, and the messages the kernel sends about them -/

namespace Verif.FaultShow

/-- Why a lookup failed (section 3.4 of the seL4 manual). -/
inductive Lookup
  | invalidRoot
  | missing (bitsLeft : Nat)
  | depth (bitsLeft bitsFound : Nat)
  | guard_ (bitsLeft guardFound guardBits : Nat)
  deriving DecidableEq, Repr

/-- A fault of a thread (section 6.2 of the seL4 manual). The registers of a system call are in the
order of the kernel's message. -/
inductive Fault
  | cap (ip addr : Nat) (receive : Bool) (why : Lookup)
  | vm (ip addr : Nat) (prefetch : Bool) (fsr : Nat)
  | syscall (regs : List Nat)
  | user (ip sp flags number code : Nat)
  deriving DecidableEq, Repr

/-- The registers in the kernel's message about an unknown system call. -/
def layout : Arch → List String
  | .ia32 => ["eax", "ebx", "ecx", "edx", "esi", "edi", "ebp", "pc", "esp", "eflags", "syscall"]
  | .x64 => ["rax", "rbx", "rcx", "rdx", "rsi", "rdi", "rbp", "r8", "r9", "r10", "r11", "r12", "r13", "r14", "r15", "pc",
      "rsp", "rflags", "syscall"]
  | .aarch32 => ["r0", "r1", "r2", "r3", "r4", "r5", "r6", "r7", "pc", "sp", "lr", "cpsr", "syscall"]
  | .aarch64 => ["x0", "x1", "x2", "x3", "x4", "x5", "x6", "x7", "pc", "sp", "lr", "spsr", "syscall"]
  | .riscv => ["pc", "sp", "lr", "a0", "a1", "a2", "a3", "a4", "a5", "a6", "syscall"]

/-- The kernel's numbers are small and distinct. -/
structure Kernel (k : Consts) : Prop where
  labels : [k.capFault, k.vmFault, k.unknownSyscall, k.userException].Nodup
  causes : [k.invalidRoot, k.missing, k.depth, k.guard_].Nodup

/-- A number that fits into an `int`. -/
def Small (n : Nat) : Prop := n < 2 ^ 31

/-- The words of a message from the first register on. -/
def Words (mr : Nat → Nat) (ws : List Nat) : Prop := ∀ i w, ws[i]? = some w → mr i = w

/-- The words that tell about a failed lookup. -/
def Cause (k : Consts) : Lookup → List Nat → Prop
  | .invalidRoot, ws => ∃ c : Nat, (c : Int) = k.invalidRoot ∧ Small c ∧ ws = [c]
  | .missing b, ws => ∃ c : Nat, (c : Int) = k.missing ∧ Small c ∧ Small b ∧ ws = [c, b]
  | .depth b f, ws => ∃ c : Nat, (c : Int) = k.depth ∧ Small c ∧ Small b ∧ Small f ∧ ws = [c, b, f]
  | .guard_ b g n, ws => ∃ c : Nat, (c : Int) = k.guard_ ∧ Small c ∧ Small b ∧ Small n ∧ ws = [c, b, g, n]

/-- The message about a fault: its label and its words. -/
def Message (k : Consts) (arch : Arch) : Fault → Nat → (Nat → Nat) → Prop
  | .cap ip addr recv why, label, mr => (label : Int) = k.capFault ∧ Small label ∧
      ∃ ws, Cause k why ws ∧ Words mr ([ip, addr, if recv then 1 else 0] ++ ws)
  | .vm ip addr pre fsr, label, mr => (label : Int) = k.vmFault ∧ Small label ∧
      Words mr [ip, addr, if pre then 1 else 0, fsr]
  | .syscall regs, label, mr => (label : Int) = k.unknownSyscall ∧ Small label ∧
      regs.length = (layout arch).length ∧ Words mr regs
  | .user ip sp flags no code, label, mr => (label : Int) = k.userException ∧ Small label ∧ Small no ∧ Small code ∧
      Words mr [ip, sp, flags, no, code]

/-- The value of a register in a message. -/
def valueOf (arch : Arch) (regs : List Nat) (name : String) : Nat := regs.getD ((layout arch).idxOf name) 0

/-- What the first line of the report should say about a fault of a thread of this instance. -/
def Tells (arch : Arch) (inst name : String) (id : Nat) : Fault → Line → Prop
  | .cap ip addr recv .invalidRoot, l => l = .invalidRoot recv inst name id ip addr
  | .cap ip addr _ (.missing b), l => l = .missing b inst name id ip addr
  | .cap ip addr _ (.depth b f), l => l = .depth b f inst name id ip addr
  | .cap ip addr _ (.guard_ b g n), l => l = .guard_ b n g inst name id ip addr
  | .vm ip addr pre fsr, l => l = .vm pre inst name id addr ip fsr
  | .user ip sp flags no code, l => l = .user no code inst name id ip sp flags
  | .syscall regs, l => ∃ (n : Int) (shown : List (String × Nat)), l = .syscall n name id (valueOf arch regs "pc") shown ∧
      (Small (valueOf arch regs "syscall") → n = valueOf arch regs "syscall") ∧ (shown.map (·.1)).Nodup ∧
      ∀ r v, (r, v) ∈ shown ↔ r ∈ layout arch ∧ r ≠ "pc" ∧ r ≠ "syscall" ∧ v = valueOf arch regs r

end Verif.FaultShow
