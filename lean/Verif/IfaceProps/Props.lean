import Verif.IfaceProps.Spec
import Mathlib.Tactic.SplitIfs

/-! # C119: properties of registered interfaces -/

namespace Verif.IfaceProps

theorem countLoop_eq (word : Nat) : ∀ (d p num fuel : Nat), 0 < p → p < word → p + d = word → d < fuel →
    countLoop word fuel p num = some (num + d) := by
  intro d
  induction d with
  | zero => intro p num fuel hp hw hd hf; omega
  | succ d ih =>
    intro p num fuel hp hw hd hf
    obtain ⟨fuel, rfl⟩ : ∃ k, fuel = k + 1 := ⟨fuel - 1, by omega⟩
    rw [countLoop, if_neg (by omega)]
    rcases Nat.eq_zero_or_pos d with hz | hz
    · subst hz
      have : (p + 1) % word = 0 := by
        have : p + 1 = word := hd
        rw [this]; exact Nat.mod_self _
      rw [this]
      obtain ⟨fuel, rfl⟩ : ∃ k, fuel = k + 1 := ⟨fuel - 1, by omega⟩
      simp [countLoop]
    · rw [Nat.mod_eq_of_lt (by omega), ih (p + 1) (num + 1) fuel (by omega) (by omega) (by omega) (by omega)]
      congr 1
      omega

/-- What the loop that should count the properties counts: the addresses from the first string to the
end of memory. The number of properties does not matter. -/
theorem count_is_distance (word p : Nat) (rest : List Nat) (hp : 0 < p) (hw : p < word) :
    countLoop word (word + 1) (first (p :: rest)) 0 = some (word - p) := by
  have := countLoop_eq word (word - p) p 0 (word + 1) hp hw (by omega) (by omega)
  simpa [first] using this

theorem count_empty (word : Nat) : countLoop word (word + 1) (first []) 0 = some 0 := by
  simp [countLoop, first]

theorem copyLoop_fault (word : Nat) (a : Alloc) (num : Nat) (ha : ∀ i, a.string i = true) : ∀ (l : List String) (i : Nat)
    (copied : List String), i + l.length < num → (copyLoop word a num l i copied).1 = .fault := by
  intro l
  induction l with
  | nil =>
    intro i copied hi
    simp at hi
    simp [copyLoop, hi]
  | cons s l ih =>
    intro i copied hi
    simp at hi
    rw [copyLoop]
    rw [if_neg (by omega)]
    simp only [ha i, if_true]
    exact ih (i + 1) _ (by omega)

theorem copyLoop_not_ok (word : Nat) (a : Alloc) (num : Nat) : ∀ (l : List String) (i : Nat)
    (copied : List String), i + l.length < num → (copyLoop word a num l i copied).1 ≠ .ok := by
  intro l
  induction l with
  | nil =>
    intro i copied hi
    simp at hi
    simp [copyLoop, hi]
  | cons s l ih =>
    intro i copied hi
    simp at hi
    rw [copyLoop]
    rw [if_neg (by omega)]
    simp only
    split_ifs
    · exact ih (i + 1) _ (by omega)
    · simp
    · simp

/-- **Disagreement with C119.** However much memory there is, an interface with at least one property is
never registered. -/
theorem never_registered (word : Nat) (a : Alloc) (inst : Nat) (null : Bool) (c : Caller) (hc : Proper word c)
    (hne : c.strings ≠ []) : (register word a inst null (some c)).out ≠ .ok := by
  obtain ⟨addrs, strs⟩ := c
  cases addrs with
  | nil =>
    have := hc.same
    exact absurd (List.eq_nil_of_length_eq_zero this.symm) hne
  | cons p rest =>
    have hp := hc.nonnull p (by simp)
    have hr := hc.room p (by simp)
    have hs := hc.same
    simp only at hs hr
    have hcopy : (copyArray word a ⟨p :: rest, strs⟩).1 ≠ .ok := by
      unfold copyArray
      rw [count_is_distance word p rest hp (by omega)]
      simp only
      split_ifs
      · exact copyLoop_not_ok word a _ strs 0 [] (by omega)
      · simp
    unfold register
    split_ifs
    · simp
    · simp
    · simp
    · simp only
      split
      · rename_i h; exact absurd h hcopy
      · simp
      · rename_i h1 h2 h3 ; exact hcopy

/-- **Disagreement with C119.** With enough memory the call reads through a NULL pointer: the one that
ends the array. -/
theorem null_is_read (word : Nat) (a : Alloc) (ha : Plenty a) (inst : Nat) (hi : inst ≠ 0) (c : Caller) (hc : Proper word c)
    (hne : c.strings ≠ []) : (register word a inst false (some c)).out = .fault := by
  obtain ⟨h1, h2, h3, h4⟩ := ha
  obtain ⟨addrs, strs⟩ := c
  cases addrs with
  | nil =>
    have := hc.same
    exact absurd (List.eq_nil_of_length_eq_zero this.symm) hne
  | cons p rest =>
    have hp := hc.nonnull p (by simp)
    have hr := hc.room p (by simp)
    have hs := hc.same
    simp only at hs hr
    have hcopy : (copyArray word a ⟨p :: rest, strs⟩).1 = .fault := by
      unfold copyArray
      rw [count_is_distance word p rest hp (by omega)]
      simp only [h3, if_true]
      exact copyLoop_fault word a _ h4 strs 0 [] (by omega)
    simp [register, h1, h2, hi, hcopy]

/-- **Disagreement with C119.** No search is ever given the properties of an interface: where the
registration succeeds, it is given NULL. -/
theorem properties_not_given (word : Nat) (a : Alloc) (inst : Nat) (null : Bool) (props : Option Caller) :
    (register word a inst null props).given = none := by
  unfold register
  split_ifs
  · rfl
  · rfl
  · rfl
  · cases props with
    | none => rfl
    | some c =>
      simp only
      split <;> rfl

/-- **Disagreement with C119.** So no interface is registered as it should be. -/
theorem registers_fails (word : Nat) (a : Alloc) (inst : Nat) (c : Caller) : ¬ Registers word a inst c := by
  rintro ⟨-, h⟩
  rw [properties_not_given] at h
  cases h

theorem copyLoop_fails_at (word : Nat) (a : Alloc) (hp : Placed word a) (num : Nat) (k : Nat) (hk : a.string (k + 1) = false)
    (hall : ∀ j ≤ k, a.string j = true) : ∀ (d : Nat) (l : List String) (i : Nat) (copied : List String), i + d = k + 1 → d < l.length →
    k + 1 < num → (copyLoop word a num l i copied).1 = .badFree := by
  intro d
  induction d with
  | zero =>
    intro l i copied hd hl hn
    cases l with
    | nil => simp at hl
    | cons s l =>
      have hi : i = k + 1 := by omega
      subst hi
      rw [copyLoop, if_neg (by omega)]
      simp only [hk, Bool.false_eq_true, if_false]
      have hfirst : first ((List.range (k + 1)).map a.addr) = a.addr 0 := by
        simp [first, List.range_succ_eq_map]
      have h0 := hp.nonnull 0
      have hr := hp.room 0
      obtain ⟨w, rfl⟩ : ∃ w, word = w + 1 := ⟨word - 1, by omega⟩
      have hin : a.addr 0 ∈ (List.range (k + 1)).map a.addr := List.mem_map.2 ⟨0, by simp, rfl⟩
      have hout : a.addr 0 + 1 ∉ (List.range (k + 1)).map a.addr := by
        intro h
        obtain ⟨j, -, hj⟩ := List.mem_map.1 h
        exact hp.apart 0 j hj.symm
      have : (destroyLoop (w + 1) ((List.range (k + 1)).map a.addr) (w + 1 + 1) (a.addr 0) []).2 = true := by
        rw [destroyLoop, if_neg (by omega), if_pos ⟨hin, by simp⟩, Nat.mod_eq_of_lt (by omega), destroyLoop,
          if_neg (by omega), if_neg (fun h => hout h.1)]
      rw [hfirst, this]
      rfl
  | succ d ih =>
    intro l i copied hd hl hn
    cases l with
    | nil => simp at hl
    | cons s l =>
      rw [copyLoop, if_neg (by omega)]
      simp only [hall i (by omega), if_true]
      exact ih l (i + 1) _ (by omega) (by simpa using hl) hn

/-- **Disagreement with C119.** If memory runs out after at least one property has been copied, the call
frees memory that was not allocated. -/
theorem bad_free (word : Nat) (a : Alloc) (hp : Placed word a) (h1 : a.outer = true) (h2 : a.node = true) (h3 : a.array = true)
    (k : Nat) (hk : a.string (k + 1) = false) (hall : ∀ j ≤ k, a.string j = true) (inst : Nat) (hi : inst ≠ 0) (c : Caller)
    (hc : Proper word c) (hlen : k + 1 < c.strings.length) : (register word a inst false (some c)).out = .badFree := by
  obtain ⟨addrs, strs⟩ := c
  cases addrs with
  | nil =>
    have := hc.same
    simp at this hlen
    rw [← this] at hlen
    omega
  | cons p rest =>
    have hpp := hc.nonnull p (by simp)
    have hr := hc.room p (by simp)
    have hs := hc.same
    simp only at hs hr hlen
    have hcopy : (copyArray word a ⟨p :: rest, strs⟩).1 = .badFree := by
      unfold copyArray
      rw [count_is_distance word p rest hpp (by omega)]
      simp only [h3, if_true]
      exact copyLoop_fails_at word a hp _ k hk hall (k + 1) strs 0 [] (by omega) hlen (by omega)
    simp [register, h1, h2, hi, hcopy]

/-- **Disagreement with C119.** If there is no memory for the first copy, the registration is refused and
the array of copies stays allocated. -/
theorem array_lost (word : Nat) (a : Alloc) (h1 : a.outer = true) (h2 : a.node = true) (h3 : a.array = true)
    (h4 : a.string 0 = false) (inst : Nat) (hi : inst ≠ 0) (c : Caller) (hc : Proper word c) (hne : c.strings ≠ []) :
    register word a inst false (some c) = ⟨.noMemory, none, [.array]⟩ := by
  obtain ⟨addrs, strs⟩ := c
  cases addrs with
  | nil =>
    have := hc.same
    exact absurd (List.eq_nil_of_length_eq_zero this.symm) hne
  | cons p rest =>
    have hpp := hc.nonnull p (by simp)
    have hr := hc.room p (by simp)
    cases strs with
    | nil => simp at hne
    | cons s strs =>
      have hcopy : copyArray word a ⟨p :: rest, s :: strs⟩ = (.noMemory, [], true, []) := by
        unfold copyArray
        rw [count_is_distance word p rest hpp (by omega)]
        simp only [h3, if_true]
        rw [copyLoop, if_neg (by omega)]
        simp [h4, first, destroyLoop]
      simp [register, h1, h2, hi, hcopy, strings]

/-- C119 without properties: with memory the interface is registered, with its two nodes allocated. -/
theorem registers_partial (word : Nat) (a : Alloc) (inst : Nat) (null : Bool) (hi : inst ≠ 0 ∨ null = true) :
    (register word a inst null none).out = .ok ↔ a.outer = true ∧ a.node = true := by
  have hn : ¬ (inst = 0 ∧ null = false) := by
    rintro ⟨rfl, rfl⟩
    simp at hi
  unfold register
  rw [if_neg hn]
  cases a.outer <;> cases a.node <;> simp

/-- C119, cleaning up: nothing stays allocated if the registration is refused before the first property
is copied, or if there are none. -/
theorem cleans_up_partial (word : Nat) (a : Alloc) (inst : Nat) (null : Bool) (props : Option Caller)
    (h : props = none ∨ a.outer = false ∨ a.node = false ∨ a.array = false)
    (hw : ∀ c, props = some c → first c.addrs < word) :
    CleansUp (register word a inst null props) := by
  intro hne
  unfold register at hne ⊢
  split_ifs at hne ⊢ with c1 c2 c3
  · rfl
  · rfl
  · rfl
  · cases props with
    | none => simp at hne
    | some c =>
      have harr : a.array = false := by
        rcases h with h | h | h | h
        · cases h
        · exact absurd h c2
        · exact absurd h c3
        · exact h
      have hcopy : copyArray word a c = (.noMemory, [], false, []) := by
        have hlt := hw c rfl
        unfold copyArray
        rcases Nat.eq_zero_or_pos (first c.addrs) with h0 | h0
        · rw [h0]
          simp [countLoop, harr]
        · rw [countLoop_eq word (word - first c.addrs) (first c.addrs) 0 (word + 1) h0 hlt (by omega) (by omega)]
          simp [harr]
      simp [hcopy, strings]

/-- An interface without an instance is refused, and nothing is allocated. -/
theorem no_instance (word : Nat) (a : Alloc) (props : Option Caller) :
    register word a 0 false props = ⟨.invalid, none, []⟩ := by
  simp [register]

/-! ## Examples -/

def plenty : Alloc := ⟨true, true, true, fun _ => true, fun i => 64 * (i + 1)⟩

theorem demo_plenty : Plenty plenty := ⟨rfl, rfl, rfl, fun _ => rfl⟩

/-- Two strings at 100 and 108, in a memory of 256 bytes. -/
def demoCaller : Caller := ⟨[100, 108], ["compatible", "a-timer"]⟩

theorem demo_proper : Proper 256 demoCaller := by
  refine ⟨rfl, ?_, ?_⟩ <;> simp [demoCaller]

theorem demo_fault : (register 256 plenty 7 false (some demoCaller)).out = .fault :=
  null_is_read 256 plenty demo_plenty 7 (by decide) demoCaller demo_proper (by simp [demoCaller])

/-- Copies at two addresses, and no memory for the second one. -/
def scarce : Alloc := ⟨true, true, true, fun i => i == 0, fun i => if i = 0 then 64 else 128⟩

theorem demo_placed : Placed 256 scarce := by
  refine ⟨fun i => ?_, fun i => ?_, fun i j => ?_⟩
  · simp only [scarce]; split_ifs <;> omega
  · simp only [scarce]; split_ifs <;> omega
  · simp only [scarce]; split_ifs <;> omega

theorem demo_bad_free : (register 256 scarce 7 false (some demoCaller)).out = .badFree :=
  bad_free 256 scarce demo_placed rfl rfl rfl 0 rfl (by intro j hj; have : j = 0 := by omega
                                                        subst this; rfl) 7 (by decide) demoCaller demo_proper (by decide)

theorem demo_lost : ¬ CleansUp (register 256 { plenty with string := fun _ => false } 7 false (some demoCaller)) := by
  rw [array_lost 256 { plenty with string := fun _ => false } rfl rfl rfl rfl 7 (by decide) demoCaller demo_proper (by simp [demoCaller])]
  intro h
  exact absurd (h (by simp)) (by simp)

/-- Without strings in the array the registration succeeds; the array of copies is lost. -/
theorem demo_empty : register 256 plenty 7 false (some ⟨[], []⟩) = ⟨.ok, none, [.outer, .node, .array]⟩ := by
  decide +kernel

end Verif.IfaceProps
