import Verif.IoPort.Spec

/-!
# C70: an access through an I/O port interface reaches the port of the device that it names

`in_right_partial` and `out_right_partial`, for regions that do not overlap and programs compiled with assertions.
`never_outside` holds in general: no access through an interface names a port outside its region. What goes wrong otherwise:
`release_dead`, `overlap_refused`, `error_reads_zero`, `ports_alias`.
-/

namespace Verif.IoPort

theorem find_some {rs : List Region} {p : Nat} {r : Region} (h : find rs p = some r) : r ∈ rs ∧ r.first ≤ p ∧ p ≤ r.last := by
  have h2 := List.find?_some h
  simp only [decide_eq_true_eq] at h2
  exact ⟨List.mem_of_find?_eq_some h, h2.1, h2.2⟩

theorem find_none {rs : List Region} {p : Nat} (h : find rs p = none) : ∀ r ∈ rs, ¬ (r.first ≤ p ∧ p ≤ r.last) := by
  intro r hr hh
  have := List.find?_eq_none.mp h r hr
  simp only [decide_eq_true_eq] at this
  exact this ⟨hh.1, hh.2⟩

theorem find_proper {rs : List Region} (hp : Proper rs) {r : Region} (hr : r ∈ rs) {p : Nat} (h1 : r.first ≤ p) (h2 : p ≤ r.last) : find rs p = some r := by
  cases h : find rs p with
  | none => exact absurd ⟨h1, h2⟩ (find_none h r hr)
  | some q =>
    obtain ⟨hq, h3, h4⟩ := find_some h
    rw [hp.apart r hr q hq p h1 h2 h3 h4]

/-- **C70, library.** For every port, also one that is not 16 bits wide, and every width: there is a system call exactly if
the width exists and the port (cut to 16 bits) is in a region; it is for a region with this port. -/
theorem library_call (e : Env) (port size value : Nat) :
    ((portIn e port size).1.isSome ↔ Width size ∧ ∃ r ∈ e.regions, r.first ≤ port % 2 ^ 16 ∧ port % 2 ^ 16 ≤ r.last) ∧
    (∀ s, (portIn e port size).1 = some s → s.port = port % 2 ^ 16 ∧ s.size = size ∧ s.value = none ∧ ∃ r ∈ e.regions, r.cap = s.cap ∧ r.first ≤ s.port ∧ s.port ≤ r.last) ∧
    ((portIn e port size).1 = none → (portIn e port size).2 = .failed) ∧
    ((portOut e port size value).1.isSome ↔ Width size ∧ ∃ r ∈ e.regions, r.first ≤ port % 2 ^ 16 ∧ port % 2 ^ 16 ≤ r.last) ∧
    (∀ s, (portOut e port size value).1 = some s → s.port = port % 2 ^ 16 ∧ s.size = size ∧ s.value = some (value % 2 ^ (8 * size)) ∧
      ∃ r ∈ e.regions, r.cap = s.cap ∧ r.first ≤ s.port ∧ s.port ≤ r.last) ∧
    ((portOut e port size value).1 = none → (portOut e port size value).2 = .failed) := by
  unfold portIn portOut Width
  generalize hp : port % 2 ^ 16 = p
  cases h : find e.regions p with
  | none =>
    have := find_none h
    simp only [Option.isSome_none, Bool.false_eq_true, false_iff, reduceCtorEq, false_imp_iff, implies_true, true_and, and_true, true_imp_iff]
    exact ⟨fun ⟨_, r, hr, hh⟩ => this r hr hh, fun ⟨_, r, hr, hh⟩ => this r hr hh⟩
  | some r =>
    obtain ⟨h1, h2, h3⟩ := find_some h
    by_cases hw : size = 1 ∨ size = 2 ∨ size = 4
    · simp only [if_pos hw, Option.isSome_some, true_iff, Option.some.injEq, reduceCtorEq, false_imp_iff, and_true]
      refine ⟨⟨hw, r, h1, h2, h3⟩, ?_, trivial, ⟨hw, r, h1, h2, h3⟩, ?_⟩
      · rintro s rfl
        exact ⟨rfl, rfl, rfl, r, h1, rfl, h2, h3⟩
      · rintro s rfl
        exact ⟨rfl, rfl, rfl, r, h1, rfl, h2, h3⟩
    · simp [hw]

/-- **C70, safety.** Whatever the offset is, an access through an interface is for a port of the region of the interface (or
there is no access), also if regions overlap. -/
theorem never_outside (e : Env) (hs : ∀ r ∈ e.regions, r.last < 2 ^ 16) (asserts : Bool) (r : Region) (hr : r ∈ e.regions) (size offset value : Nat) (s : Sys)
    (h : (inOffset e asserts r size offset).1 = some s ∨ (outOffset e asserts r size offset value).1 = some s) :
    s.port = r.first + offset ∧ s.port ≤ r.last ∧ s.size = size := by
  have hl := hs r hr
  unfold inOffset outOffset at h
  cases asserts with
  | false => simp at h
  | true =>
    simp only [if_true] at h
    by_cases hin : r.first + offset ≥ r.first ∧ r.first + offset ≤ r.last
    · rw [if_pos hin, if_pos hin] at h
      have hm : (r.first + offset) % 2 ^ 16 = r.first + offset := Nat.mod_eq_of_lt (by omega)
      obtain ⟨_, h1, _, _, h2, _⟩ := library_call e (r.first + offset) size value
      rw [hm] at h1 h2
      rcases h with h | h
      · obtain ⟨a, b, _⟩ := h1 s h; exact ⟨a, by omega, b⟩
      · obtain ⟨a, b, _⟩ := h2 s h; exact ⟨a, by omega, b⟩
    · rw [if_neg hin, if_neg hin] at h
      simp at h

/-- **C70, reading.** All ports of the access are in the region: the device is read there and its answer is returned. The
first port is outside the region: nothing is done and the thread stops. -/
theorem in_right_partial (e : Env) (hp : Proper e.regions) (device : Sys → Nat) (hk : Kernel e device) (r : Region) (hr : r ∈ e.regions) (size offset : Nat) (hw : Width size) :
    (r.first + offset + size ≤ r.last + 1 →
      inOffset e true r size offset = (some ⟨r.cap, r.first + offset, size, none⟩, some (device ⟨r.cap, r.first + offset, size, none⟩ % 2 ^ (8 * size)))) ∧
    (r.last < r.first + offset → inOffset e true r size offset = (none, none)) := by
  have hl := hp.small r hr
  unfold inOffset
  simp only [if_true]
  constructor
  · intro h
    have hsz : 0 < size := by rcases hw with h | h | h <;> omega
    rw [if_pos ⟨by omega, by omega⟩]
    have hm : (r.first + offset) % 2 ^ 16 = r.first + offset := Nat.mod_eq_of_lt (by omega)
    have hf := find_proper hp hr (p := r.first + offset) (by omega) (by omega)
    unfold portIn
    rw [hm, hf]
    simp only
    rw [if_pos (show size = 1 ∨ size = 2 ∨ size = 4 from hw)]
    simp only [perform]
    rw [hk.inside r hr _ rfl (by show r.first ≤ r.first + offset; omega) (by show r.first + offset + size ≤ r.last + 1; omega)]
  · intro h
    rw [if_neg (by omega)]

/-- **C70, writing.** In the same way; the device gets the low bits of the value. -/
theorem out_right_partial (e : Env) (hp : Proper e.regions) (device : Sys → Nat) (hk : Kernel e device) (r : Region) (hr : r ∈ e.regions) (size offset value : Nat) (hw : Width size) :
    (r.first + offset + size ≤ r.last + 1 → outOffset e true r size offset value = (some ⟨r.cap, r.first + offset, size, some (value % 2 ^ (8 * size))⟩, true) ∧
      e.kernel ⟨r.cap, r.first + offset, size, some (value % 2 ^ (8 * size))⟩ = some (device ⟨r.cap, r.first + offset, size, some (value % 2 ^ (8 * size))⟩)) ∧
    (r.last < r.first + offset → outOffset e true r size offset value = (none, false)) := by
  have hl := hp.small r hr
  unfold outOffset
  simp only [if_true]
  constructor
  · intro h
    have hsz : 0 < size := by rcases hw with h | h | h <;> omega
    have hker := hk.inside r hr ⟨r.cap, r.first + offset, size, some (value % 2 ^ (8 * size))⟩ rfl (by show r.first ≤ r.first + offset; omega) (by show r.first + offset + size ≤ r.last + 1; omega)
    rw [if_pos ⟨by omega, by omega⟩]
    have hm : (r.first + offset) % 2 ^ 16 = r.first + offset := Nat.mod_eq_of_lt (by omega)
    have hf := find_proper hp hr (p := r.first + offset) (by omega) (by omega)
    have hpo : portOut e (r.first + offset) size value = (some ⟨r.cap, r.first + offset, size, some (value % 2 ^ (8 * size))⟩,
        .ok (device ⟨r.cap, r.first + offset, size, some (value % 2 ^ (8 * size))⟩)) := by
      unfold portOut
      rw [hm, hf]
      simp only
      rw [if_pos (show size = 1 ∨ size = 2 ∨ size = 4 from hw)]
      simp only [perform, hker]
    rw [hpo]
    exact ⟨rfl, hker⟩
  · intro h
    rw [if_neg (by omega)]

/-! ## What is missing -/

/-- **Disagreement with C70.** An access that begins in the region and ends outside it is refused by the kernel; when the error
handler discards errors, the caller is told that the device answered 0. -/
theorem error_reads_zero (e : Env) (hp : Proper e.regions) (device : Sys → Nat) (hk : Kernel e device) (r : Region) (hr : r ∈ e.regions) (size offset : Nat) (hw : Width size)
    (h1 : r.first + offset ≤ r.last) (h2 : r.last + 1 < r.first + offset + size) (ha : e.action = .discard) : (inOffset e true r size offset).2 = some 0 := by
  have hl := hp.small r hr
  unfold inOffset
  simp only [if_true]
  rw [if_pos ⟨by omega, h1⟩]
  have hm : (r.first + offset) % 2 ^ 16 = r.first + offset := Nat.mod_eq_of_lt (by omega)
  have hf := find_proper hp hr (p := r.first + offset) (by omega) h1
  unfold portIn
  rw [hm, hf]
  simp only
  rw [if_pos (show size = 1 ∨ size = 2 ∨ size = 4 from hw)]
  simp only [perform]
  rw [hk.outside r hr _ rfl (by rintro ⟨_, h⟩; simp only at h; omega), ha]

/-- **Disagreement with C70.** In a program that is compiled without assertions no access ever reaches a device; reading gives
0, writing does nothing, and both return normally. -/
theorem release_dead (e : Env) (r : Region) (size offset value : Nat) : inOffset e false r size offset = (none, some 0) ∧ outOffset e false r size offset value = (none, true) := ⟨rfl, rfl⟩

/-- **Disagreement with C70.** Ports that differ by a multiple of 65536 are the same port. -/
theorem ports_alias (e : Env) (port size value : Nat) : portIn e (port + 2 ^ 16) size = portIn e port size ∧ portOut e (port + 2 ^ 16) size value = portOut e port size value := by
  unfold portIn portOut
  rw [Nat.add_mod_right]
  exact ⟨rfl, rfl⟩

/-- The kernel of a component with these regions. -/
def kernelOf (rs : List Region) (device : Sys → Nat) : Sys → Option Nat := fun s =>
  if rs.any (fun r => r.cap == s.cap && decide (r.first ≤ s.port) && decide (s.port + s.size ≤ r.last + 1)) then some (device s) else none

/-- **Disagreement with C70.** Two devices share a port. An access of two bytes through the interface of the second one, which
has both ports, is made with the capability of the first one and is refused. -/
theorem overlap_refused : let rs := [(⟨96, 96, 1⟩ : Region), ⟨96, 97, 2⟩]
    inOffset ⟨rs, kernelOf rs fun _ => 7, .discard, 0⟩ true ⟨96, 97, 2⟩ 2 0 = (some ⟨1, 96, 2, none⟩, some 0) := by decide

/-! ## The hypotheses can be met -/

/-- Two devices. -/
def demoRegions : List Region := [⟨96, 100, 1⟩, ⟨1016, 1023, 2⟩]

def demo : Env := ⟨demoRegions, kernelOf demoRegions fun s => s.port + 5, .discard, 0⟩

theorem demo_proper : Proper demo.regions := by
  refine ⟨by decide, ?_⟩
  intro r hr q hq p h1 h2 h3 h4
  simp only [demo, demoRegions, List.mem_cons, List.not_mem_nil, or_false] at hr hq
  rcases hr with rfl | rfl <;> rcases hq with rfl | rfl <;> simp only at h1 h2 h3 h4 <;> first | rfl | omega

theorem demo_kernel : Kernel demo fun s => s.port + 5 := by
  constructor
  · intro r hr s h1 h2 h3
    simp only [demo, kernelOf]
    rw [if_pos]
    rw [List.any_eq_true]
    exact ⟨r, hr, by simp [h1, h2, h3]⟩
  · intro r hr s h1 h2
    simp only [demo, kernelOf]
    rw [if_neg]
    rw [List.any_eq_true]
    rintro ⟨q, hq, hh⟩
    simp only [Bool.and_eq_true, decide_eq_true_eq, beq_iff_eq] at hh
    apply h2
    have hrq : r = q := by
      have hc : r.cap = q.cap := by rw [← h1, hh.1.1]
      simp only [demo, demoRegions, List.mem_cons, List.not_mem_nil, or_false] at hr hq
      rcases hr with rfl | rfl <;> rcases hq with rfl | rfl <;> simp at hc <;> rfl
    rw [hrq]
    exact ⟨hh.1.2, hh.2⟩

example : inOffset demo true ⟨1016, 1023, 2⟩ 2 6 = (some ⟨2, 1022, 2, none⟩, some 1027) := by decide
example : outOffset demo true ⟨1016, 1023, 2⟩ 1 7 300 = (some ⟨2, 1023, 1, some 44⟩, true) := by decide
/-- Two bytes at the last port, and a port after the last. -/
example : inOffset demo true ⟨1016, 1023, 2⟩ 2 7 = (some ⟨2, 1023, 2, none⟩, some 0) ∧ inOffset demo true ⟨1016, 1023, 2⟩ 1 8 = (none, none) := by decide

end Verif.IoPort
