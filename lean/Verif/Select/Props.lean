import Verif.Select.Spec

/-!
# C67: `select` waits for the sockets of the descriptors that it is given, and reports those that are ready
-/

namespace Verif.Select

theorem userFds_succ (first n : Nat) : userFds first (first + (n + 1)) = userFds first (first + n) ++ [first + n] := by
  unfold userFds
  rw [show first + (n + 1) - first = n + 1 by omega, show first + n - first = n by omega, List.range'_concat, Nat.one_mul]

theorem toSock_succ (sock : Nat → Option Nat) (first n : Nat) (fds : FdSet) :
    toSock sock first (first + (n + 1)) fds = toSockStep sock (toSock sock first (first + n) fds) (first + n) := by
  unfold toSock
  rw [userFds_succ, List.foldl_append]
  rfl

theorem toFd_succ (sock : Nat → Option Nat) (first n : Nat) (fds : FdSet) :
    toFd sock first (first + (n + 1)) fds = toFdStep sock (toFd sock first (first + n) fds) (first + n) := by
  unfold toFd
  rw [userFds_succ, List.foldl_append]
  rfl

theorem toSock_zero (sock : Nat → Option Nat) (first nfds : Nat) (h : nfds ≤ first) (fds : FdSet) : toSock sock first nfds fds = fds := by
  unfold toSock userFds
  rw [show nfds - first = 0 by omega]
  rfl

theorem toFd_zero (sock : Nat → Option Nat) (first nfds : Nat) (h : nfds ≤ first) (fds : FdSet) : toFd sock first nfds fds = fds := by
  unfold toFd userFds
  rw [show nfds - first = 0 by omega]
  rfl

theorem toSock_part {sock : Nat → Option Nat} {first nfds : Nat} (hs : Separate sock first nfds) (fds : FdSet) : ∀ n, first + n ≤ nfds → ∀ x,
    (first ≤ x ∧ x < nfds → (toSock sock first (first + n) fds x = true ↔ fds x = true ∧ ¬ (x < first + n ∧ sock x ≠ none))) ∧
    (¬ (first ≤ x ∧ x < nfds) → (toSock sock first (first + n) fds x = true ↔ fds x = true ∨ ∃ i, first ≤ i ∧ i < first + n ∧ fds i = true ∧ sock i = some x)) := by
  intro n
  induction n with
  | zero =>
    intro _ x
    rw [toSock_zero _ _ _ (by omega)]
    refine ⟨fun h => ⟨fun h1 => ⟨h1, by omega⟩, fun h1 => h1.1⟩, fun _ => ⟨fun h1 => .inl h1, ?_⟩⟩
    rintro (h1 | ⟨i, h1, h2, _⟩)
    · exact h1
    · omega
  | succ n ih =>
    intro hn x
    have ihn := ih (by omega)
    rw [toSock_succ]
    have hcur := (ihn (first + n)).1 ⟨by omega, by omega⟩
    have hcur' : toSock sock first (first + n) fds (first + n) = true ↔ fds (first + n) = true := by
      rw [hcur]
      exact ⟨fun h => h.1, fun h => ⟨h, by omega⟩⟩
    unfold toSockStep
    cases hk : sock (first + n) with
    | none =>
      simp only
      constructor
      · intro hx
        rw [(ihn x).1 hx]
        refine and_congr_right fun _ => not_congr ⟨fun h => ⟨by omega, h.2⟩, fun h => ⟨?_, h.2⟩⟩
        have : x ≠ first + n := by rintro rfl; exact h.2 hk
        omega
      · intro hx
        rw [(ihn x).2 hx]
        refine or_congr_right ⟨?_, ?_⟩
        · rintro ⟨i, h1, h2, h3⟩; exact ⟨i, h1, by omega, h3⟩
        · rintro ⟨i, h1, h2, h3, h4⟩
          have : i ≠ first + n := by rintro rfl; rw [hk] at h4; cases h4
          exact ⟨i, h1, by omega, h3, h4⟩
    | some s =>
      simp only
      have hso := hs.outside _ _ (by omega) (by omega) hk
      by_cases hf : toSock sock first (first + n) fds (first + n) = true
      · rw [if_pos hf]
        rw [hcur'] at hf
        constructor
        · intro hx
          have hxs : x ≠ s := by omega
          simp only [FdSet.add, FdSet.del, if_neg hxs]
          by_cases hxk : x = first + n
          · subst hxk
            simp only [if_true, Bool.false_eq_true, false_iff]
            exact fun h => h.2 ⟨by omega, by rw [hk]; simp⟩
          · rw [if_neg hxk, (ihn x).1 hx]
            refine and_congr_right fun _ => not_congr ⟨fun h => ⟨by omega, h.2⟩, fun h => ⟨by omega, h.2⟩⟩
        · intro hx
          by_cases hxs : x = s
          · subst hxs
            simp only [FdSet.add, if_true, true_iff]
            exact .inr ⟨first + n, by omega, by omega, hf, hk⟩
          · simp only [FdSet.add, FdSet.del, if_neg hxs]
            have hxk : x ≠ first + n := by omega
            rw [if_neg hxk, (ihn x).2 hx]
            refine or_congr_right ⟨?_, ?_⟩
            · rintro ⟨i, h1, h2, h3⟩; exact ⟨i, h1, by omega, h3⟩
            · rintro ⟨i, h1, h2, h3, h4⟩
              have : i ≠ first + n := by rintro rfl; rw [hk] at h4; exact hxs (Option.some.inj h4).symm
              exact ⟨i, h1, by omega, h3, h4⟩
      · rw [if_neg hf]
        rw [hcur'] at hf
        constructor
        · intro hx
          rw [(ihn x).1 hx]
          refine and_congr_right fun hfx => not_congr ⟨fun h => ⟨by omega, h.2⟩, fun h => ⟨?_, h.2⟩⟩
          have : x ≠ first + n := by rintro rfl; exact hf hfx
          omega
        · intro hx
          rw [(ihn x).2 hx]
          refine or_congr_right ⟨?_, ?_⟩
          · rintro ⟨i, h1, h2, h3⟩; exact ⟨i, h1, by omega, h3⟩
          · rintro ⟨i, h1, h2, h3, h4⟩
            have : i ≠ first + n := by rintro rfl; exact hf h3
            exact ⟨i, h1, by omega, h3, h4⟩

theorem toFd_part {sock : Nat → Option Nat} {first nfds : Nat} (hs : Separate sock first nfds) (fds : FdSet) : ∀ n, first + n ≤ nfds → ∀ x,
    (first ≤ x ∧ x < nfds → (toFd sock first (first + n) fds x = true ↔ fds x = true ∨ (x < first + n ∧ ∃ s, sock x = some s ∧ fds s = true))) ∧
    (¬ (first ≤ x ∧ x < nfds) → (toFd sock first (first + n) fds x = true ↔ fds x = true ∧ ¬ ∃ i, first ≤ i ∧ i < first + n ∧ sock i = some x)) := by
  intro n
  induction n with
  | zero =>
    intro _ x
    rw [toFd_zero _ _ _ (by omega)]
    refine ⟨fun h => ⟨fun h1 => .inl h1, ?_⟩, fun _ => ⟨fun h1 => ⟨h1, ?_⟩, fun h => h.1⟩⟩
    · rintro (h1 | ⟨h1, _⟩)
      · exact h1
      · omega
    · rintro ⟨i, h1, h2, _⟩; omega
  | succ n ih =>
    intro hn x
    have ihn := ih (by omega)
    rw [toFd_succ]
    unfold toFdStep
    cases hk : sock (first + n) with
    | none =>
      simp only
      constructor
      · intro hx
        rw [(ihn x).1 hx]
        refine or_congr_right ⟨fun h => ⟨by omega, h.2⟩, fun h => ⟨?_, h.2⟩⟩
        obtain ⟨s, h1, _⟩ := h.2
        have : x ≠ first + n := by rintro rfl; rw [hk] at h1; cases h1
        omega
      · intro hx
        rw [(ihn x).2 hx]
        refine and_congr_right fun _ => not_congr ⟨?_, ?_⟩
        · rintro ⟨i, h1, h2, h3⟩; exact ⟨i, h1, by omega, h3⟩
        · rintro ⟨i, h1, h2, h4⟩
          have : i ≠ first + n := by rintro rfl; rw [hk] at h4; cases h4
          exact ⟨i, h1, by omega, h4⟩
    | some s =>
      simp only
      have hso := hs.outside _ _ (by omega) (by omega) hk
      have hcur : toFd sock first (first + n) fds s = true ↔ fds s = true := by
        rw [(ihn s).2 (by omega)]
        refine ⟨fun h => h.1, fun h => ⟨h, ?_⟩⟩
        rintro ⟨i, h1, h2, h3⟩
        have := hs.inj i (first + n) s h1 (by omega) (by omega) (by omega) h3 hk
        omega
      by_cases hf : toFd sock first (first + n) fds s = true
      · rw [if_pos hf]
        rw [hcur] at hf
        constructor
        · intro hx
          by_cases hxk : x = first + n
          · subst hxk
            simp only [FdSet.add, if_true, true_iff]
            exact .inr ⟨by omega, s, hk, hf⟩
          · have hxs : x ≠ s := by omega
            simp only [FdSet.add, FdSet.del, if_neg hxk, if_neg hxs]
            rw [(ihn x).1 hx]
            exact or_congr_right ⟨fun h => ⟨by omega, h.2⟩, fun h => ⟨by omega, h.2⟩⟩
        · intro hx
          have hxk : x ≠ first + n := by omega
          by_cases hxs : x = s
          · subst hxs
            simp only [FdSet.add, FdSet.del, if_neg hxk, if_true, Bool.false_eq_true, false_iff, not_and, not_not]
            intro _
            exact ⟨first + n, by omega, by omega, hk⟩
          · simp only [FdSet.add, FdSet.del, if_neg hxk, if_neg hxs]
            rw [(ihn x).2 hx]
            refine and_congr_right fun _ => not_congr ⟨?_, ?_⟩
            · rintro ⟨i, h1, h2, h3⟩; exact ⟨i, h1, by omega, h3⟩
            · rintro ⟨i, h1, h2, h4⟩
              have : i ≠ first + n := by rintro rfl; rw [hk] at h4; exact hxs (Option.some.inj h4).symm
              exact ⟨i, h1, by omega, h4⟩
      · rw [if_neg hf]
        rw [hcur] at hf
        constructor
        · intro hx
          rw [(ihn x).1 hx]
          refine or_congr_right ⟨fun h => ⟨by omega, h.2⟩, fun h => ⟨?_, h.2⟩⟩
          obtain ⟨s', h1, h2⟩ := h.2
          have : x ≠ first + n := by rintro rfl; rw [hk] at h1; cases h1; exact hf h2
          omega
        · intro hx
          rw [(ihn x).2 hx]
          refine and_congr_right fun hfx => not_congr ⟨?_, ?_⟩
          · rintro ⟨i, h1, h2, h3⟩; exact ⟨i, h1, by omega, h3⟩
          · rintro ⟨i, h1, h2, h4⟩
            have : i ≠ first + n := by rintro rfl; rw [hk] at h4; cases h4; exact hf hfx
            exact ⟨i, h1, by omega, h4⟩

/-- The sockets that are asked for are those of the descriptors. -/
theorem toSock_exact {sock : Nat → Option Nat} {first nfds : Nat} (hs : Separate sock first nfds) (fds : FdSet) (ha : Asks sock first nfds fds) (s : Nat) :
    toSock sock first nfds fds s = true ↔ Sockets sock fds s := by
  by_cases hz : nfds ≤ first
  · rw [toSock_zero _ _ _ hz]
    constructor
    · intro h; have := ha s h; omega
    · rintro ⟨i, h1, _⟩; have := ha i h1; omega
  · have he : first + (nfds - first) = nfds := by omega
    have := toSock_part hs fds (nfds - first) (by omega) s
    rw [he] at this
    by_cases hr : first ≤ s ∧ s < nfds
    · rw [this.1 hr]
      constructor
      · rintro ⟨h1, h2⟩; exact absurd ⟨hr.2, (ha s h1).2.2⟩ h2
      · rintro ⟨i, h1, h2⟩
        have h3 := ha i h1
        have := hs.outside i s h3.1 h3.2.1 h2
        omega
    · rw [this.2 hr]
      constructor
      · rintro (h1 | ⟨i, _, _, h1, h2⟩)
        · have := ha s h1; exact absurd ⟨this.1, this.2.1⟩ hr
        · exact ⟨i, h1, h2⟩
      · rintro ⟨i, h1, h2⟩
        have h3 := ha i h1
        exact .inr ⟨i, h3.1, h3.2.1, h1, h2⟩

/-- The descriptors that are reported are those of the sockets in the answer. -/
theorem toFd_exact {sock : Nat → Option Nat} {first nfds : Nat} (hs : Separate sock first nfds) (fds : FdSet) (ha : Asks sock first nfds fds) (ans : FdSet)
    (hw : Within ans (toSock sock first nfds fds)) (i : Nat) :
    toFd sock first nfds ans i = true ↔ fds i = true ∧ ∃ s, sock i = some s ∧ ans s = true := by
  have hin : ∀ s, ans s = true → Sockets sock fds s := fun s h => (toSock_exact hs fds ha s).mp (hw s h)
  have hrange : ∀ s, ans s = true → ¬ (first ≤ s ∧ s < nfds) := by
    intro s h
    obtain ⟨j, h1, h2⟩ := hin s h
    have h3 := ha j h1
    have := hs.outside j s h3.1 h3.2.1 h2
    omega
  have hback : ∀ i s, first ≤ i → i < nfds → sock i = some s → ans s = true → fds i = true := by
    intro i s h1 h2 h3 h4
    obtain ⟨j, h5, h6⟩ := hin s h4
    have h7 := ha j h5
    rw [hs.inj i j s h1 h2 h7.1 h7.2.1 h3 h6]
    exact h5
  by_cases hz : nfds ≤ first
  · rw [toFd_zero _ _ _ hz]
    constructor
    · intro h
      obtain ⟨j, h1, _⟩ := hin i h
      have := ha j h1; omega
    · rintro ⟨h1, _⟩; have := ha i h1; omega
  · have he : first + (nfds - first) = nfds := by omega
    have := toFd_part hs ans (nfds - first) (by omega) i
    rw [he] at this
    by_cases hr : first ≤ i ∧ i < nfds
    · rw [this.1 hr]
      constructor
      · rintro (h | ⟨_, s, h1, h2⟩)
        · exact absurd hr (hrange i h)
        · exact ⟨hback i s hr.1 hr.2 h1 h2, s, h1, h2⟩
      · rintro ⟨_, s, h1, h2⟩
        exact .inr ⟨hr.2, s, h1, h2⟩
    · rw [this.2 hr]
      constructor
      · rintro ⟨h1, h2⟩
        obtain ⟨j, h3, h4⟩ := hin i h1
        have h5 := ha j h3
        exact absurd ⟨j, h5.1, h5.2.1, h4⟩ h2
      · rintro ⟨h1, _⟩
        have := ha i h1
        exact absurd ⟨this.1, this.2.1⟩ hr

theorem findMax_le (sock : Nat → Option Nat) (first : Nat) : ∀ (n : Nat) (i s : Nat), first ≤ i → i < first + n → sock i = some s → s ≤ findMax sock first (first + n) := by
  intro n
  induction n with
  | zero => intro i s h1 h2; omega
  | succ n ih =>
    intro i s h1 h2 h3
    have hstep : findMax sock first (first + (n + 1)) = match sock (first + n) with | some s => if s > findMax sock first (first + n) then s else findMax sock first (first + n) | none => findMax sock first (first + n) := by
      unfold findMax
      rw [userFds_succ, List.foldl_append]
      rfl
    rw [hstep]
    by_cases he : i = first + n
    · subst he
      rw [h3]
      simp only
      split <;> omega
    · have := ih i s h1 (by omega) h3
      cases sock (first + n) with
      | none => exact this
      | some s' =>
        simp only
        split <;> omega

/-- One of the three sets. -/
structure Slot where
  arg : Args → Option FdSet
  shared : Shared → FdSet

/-- The three sets. -/
def slots : List Slot := [⟨Args.read, Shared.read⟩, ⟨Args.write, Shared.write⟩, ⟨Args.except, Shared.except⟩]

/-- **C67, the question.** For each set that is given, the other component is asked exactly about the sockets of the
descriptors in it, and the number that it is given is above all of them. -/
theorem asks_right_partial (sock : Nat → Option Nat) (first nfds : Nat) (hs : Separate sock first nfds) (a : Args) (old : Shared) (k : Slot) (hk : k ∈ slots) (fds : FdSet)
    (hf : k.arg a = some fds) (ha : Asks sock first nfds fds) (s : Nat) :
    (k.shared (request sock first nfds a old).2 s = true ↔ Sockets sock fds s) ∧ (Sockets sock fds s → s < (request sock first nfds a old).1) := by
  refine ⟨?_, ?_⟩
  · rw [← toSock_exact hs fds ha s]
    simp only [slots, List.mem_cons, List.not_mem_nil, or_false] at hk
    rcases hk with rfl | rfl | rfl <;> simp only at hf <;> simp only [request, hf]
  · rintro ⟨i, h1, h2⟩
    have h3 := ha i h1
    have := findMax_le sock first (nfds - first) i s h3.1 (by omega) h2
    rw [show first + (nfds - first) = nfds by omega] at this
    show s < findMax sock first nfds + 1
    omega

/-- **C67, the answer.** The result is that of the other component; each set that was given afterwards holds exactly
the descriptors that were in it and whose sockets are in the answer, and a set that was not given stays so. -/
theorem reports_right_partial (sock : Nat → Option Nat) (first nfds : Nat) (hs : Separate sock first nfds) (server : Nat → Shared → Int × Shared) (a : Args) (old : Shared)
    (k : Slot) (hk : k ∈ slots) :
    let q := request sock first nfds a old
    let r := server q.1 q.2
    let out := select sock first server old nfds a
    out.1 = r.1 ∧ (k.arg a = none → k.arg out.2 = none) ∧
    (∀ fds, k.arg a = some fds → Asks sock first nfds fds → Within (k.shared r.2) (k.shared q.2) →
      ∃ fds', k.arg out.2 = some fds' ∧ ∀ i, fds' i = true ↔ fds i = true ∧ ∃ s, sock i = some s ∧ k.shared r.2 s = true) := by
  intro q r out
  refine ⟨rfl, ?_, ?_⟩
  · intro h
    simp only [slots, List.mem_cons, List.not_mem_nil, or_false] at hk
    rcases hk with rfl | rfl | rfl <;> simp only at h <;> simp only [out, select, h, Option.map_none]
  · intro fds hf ha hw
    simp only [slots, List.mem_cons, List.not_mem_nil, or_false] at hk
    rcases hk with rfl | rfl | rfl <;> simp only at hf hw <;> simp only [out, select, hf, Option.map_some] <;>
      refine ⟨_, rfl, fun i => toFd_exact hs fds ha _ ?_ i⟩ <;> simp only [q, request, hf] at hw <;> exact hw

/-- The timeout is passed on and the rest of it comes back. -/
theorem timeout_passed (sock : Nat → Option Nat) (first nfds : Nat) (server : Nat → Shared → Int × Shared) (a : Args) (old : Shared) (t : Nat) (ht : a.timeout = some t) :
    (request sock first nfds a old).2.timeout = t ∧
    (select sock first server old nfds a).2.timeout = some (server (request sock first nfds a old).1 (request sock first nfds a old).2).2.timeout := by
  simp [request, select, ht]

/-! ## What is missing -/

/-- Four sockets with the numbers 0 to 3, for the descriptors 3 to 6. -/
def four : Nat → Option Nat := fun i => if 3 ≤ i ∧ i ≤ 6 then some (i - 3) else none

/-- A set from a list. -/
def ofList (l : List Nat) : FdSet := fun i => decide (i ∈ l)

/-- A server for which everything is ready. -/
def ready (_ : Nat) (s : Shared) : Int × Shared := (1, s)

def nothing : Shared := ⟨fun _ => false, fun _ => false, fun _ => false, 0⟩

/-- **Disagreement with C67.** A component with four sockets asks about the first one, which is ready; it is told that
the fourth one is ready. -/
theorem wrong_descriptor : Asks four 3 7 (ofList [3]) ∧ ∃ out, (select four 3 ready nothing 7 ⟨some (ofList [3]), none, none, none⟩).2.read = some out ∧ out 3 = false ∧ out 6 = true := by
  refine ⟨?_, _, rfl, by decide, by decide⟩
  intro i h
  simp only [ofList, List.mem_singleton, decide_eq_true_eq] at h
  subst h
  exact ⟨by decide, by decide, by decide⟩

/-- **Disagreement with C67.** A component asks about its standard input only; the other component is asked about
socket 0 and the component is told that descriptor 3, which it has not asked about, is ready. -/
theorem stdin_confused : (request four 3 4 ⟨some (ofList [0]), none, none, none⟩ nothing).2.read 0 = true ∧
    ∃ out, (select four 3 ready nothing 4 ⟨some (ofList [0]), none, none, none⟩).2.read = some out ∧ out 0 = false ∧ out 3 = true :=
  ⟨by decide, _, rfl, by decide, by decide⟩

/-- **Disagreement with C67.** For a set that is not given, the other component is asked about whatever the shared
memory held before. -/
theorem stale_sets (sock : Nat → Option Nat) (first nfds : Nat) (a : Args) (old : Shared) :
    (a.read = none → (request sock first nfds a old).2.read = old.read) ∧ (a.write = none → (request sock first nfds a old).2.write = old.write) ∧
    (a.except = none → (request sock first nfds a old).2.except = old.except) ∧ (a.timeout = none → (request sock first nfds a old).2.timeout = old.timeout) := by
  refine ⟨?_, ?_, ?_, ?_⟩ <;> intro h <;> simp [request, h]

/-! ## The hypotheses can be met -/

/-- Three sockets with the numbers 0 to 2. -/
def three : Nat → Option Nat := fun i => if 3 ≤ i ∧ i ≤ 5 then some (5 - i) else none

example : Separate three 3 6 := by
  constructor
  · intro i s h1 h2 h3
    unfold three at h3
    split at h3
    · cases h3; omega
    · cases h3
  · intro i j s h1 h2 h3 h4 h5 h6
    unfold three at h5 h6
    rw [if_pos (by omega)] at h5 h6
    cases h5
    have := Option.some.inj h6
    omega

example : Asks three 3 6 (ofList [3, 5]) := by
  intro i h
  simp only [ofList, List.mem_cons, List.not_mem_nil, or_false, decide_eq_true_eq] at h
  rcases h with rfl | rfl <;> exact ⟨by decide, by decide, by decide⟩

/-- The server says that socket 0 is ready, which is descriptor 5. -/
example : ∃ out, (select three 3 (fun _ s => (1, { s with read := ofList [0] })) nothing 6 ⟨some (ofList [3, 5]), none, none, none⟩).2.read = some out ∧
    (List.range 8).filter out = [5] := ⟨_, rfl, by decide⟩

end Verif.Select
