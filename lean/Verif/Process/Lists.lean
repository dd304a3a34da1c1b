import Verif.Process.Lemmas

/-!
# Lemmas on printing and names
-/

namespace Verif.Process

theorem seen_char (signed : Bool) (b : Nat) (hb : b < 256) : (charOf signed b % 256).toNat = b := by
  unfold charOf
  split_ifs with h
  · omega
  · omega

/-- What is still to come of a call. -/
def pending (s : Con) (j : Nat) : List Seen :=
  match s.calls j with
  | none => []
  | some c => c.rest.map .byte ++ [.ret c.count]

/-- What thread `j` knows. -/
def view (j : Nat) (log : List Ev) : List Seen := log.filterMap (seenBy j)

theorem view_append (j : Nat) (l : List Ev) (e : Ev) : view j (l ++ [e]) = view j l ++ (seenBy j e).toList := by
  unfold view
  rw [List.filterMap_append]
  cases h : seenBy j e <;> simp [h]

theorem promised_append : ∀ (a b : List (List Nat)), promised (a ++ b) = promised a ++ promised b
  | [], _ => rfl
  | x :: a, b => by
    simp only [List.cons_append, promised]
    rw [promised_append a b]
    simp

/-- All calls hold bytes. -/
def BytesIn (s : Con) : Prop := ∀ j c, s.calls j = some c → ∀ b ∈ c.rest, b < 256

theorem advance_pending {s : Con} {k : Nat} {c : Call} {b : Nat} {r : List Nat} (hc : s.calls k = some c) (hr : c.rest = b :: r) (e : Ev) (j : Nat)
    (he : ∀ i, seenBy i e = if k = i then some (.byte b) else none) :
    view j (advance s k c r e).log ++ pending (advance s k c r e) j = view j s.log ++ pending s j := by
  unfold advance
  simp only [pending]
  rw [view_append, he j]
  by_cases hj : k = j
  · subst hj
    rw [upd_same, hc]
    simp [hr]
  · rw [if_neg hj, upd_other _ _ _ _ (Ne.symm hj)]
    simp

theorem bytesIn_upd {s : Con} (hb : BytesIn s) {k : Nat} {c : Option Call} (hc : ∀ d, c = some d → ∀ b ∈ d.rest, b < 256) :
    ∀ j d, upd s.calls k c j = some d → ∀ b ∈ d.rest, b < 256 := by
  intro j d hd
  by_cases hj : j = k
  · subst hj; rw [upd_same] at hd; exact hc d hd
  · rw [upd_other _ _ _ _ hj] at hd; exact hb j d hd

/-! The cases of a step. -/

section
variable {printing signed : Bool} {s : Con} {k : Nat} {c : Call} {b h : Nat} {r buf : List Nat}

theorem step_busy (hc : s.calls k = some c) : conStep printing signed s (.write k buf) = s := by
  simp only [conStep, hc]

theorem step_begin (hc : s.calls k = none) : conStep printing signed s (.write k buf) =
    { s with calls := upd s.calls k (some { count := buf.length, i := 0, rest := buf, tested := false }) } := by
  simp only [conStep, hc]

theorem step_idle (hc : s.calls k = none) : conStep printing signed s (.go k) = s := by
  simp only [conStep, hc]

theorem step_ret (hc : s.calls k = some c) (hr : c.rest = []) : conStep printing signed s (.go k) =
    { s with log := s.log ++ [.ret k c.count], calls := upd s.calls k none } := by
  simp only [conStep, hc, hr]

theorem step_crash (hc : s.calls k = some c) (hr : c.rest = b :: r) (ht : c.tested = true) (hp : s.ptr = none) :
    conStep printing signed s (.go k) = { s with crashed := true } := by
  simp only [conStep, hc, hr, ht, hp, if_true]

theorem step_call (hc : s.calls k = some c) (hr : c.rest = b :: r) (ht : c.tested = true) (hp : s.ptr = some h) :
    conStep printing signed s (.go k) = advance s k c r (.handler k h (charOf signed b)) := by
  simp only [conStep, hc, hr, ht, hp, if_true]

theorem step_test (hc : s.calls k = some c) (hr : c.rest = b :: r) (ht : ¬ c.tested = true) (hp : s.ptr = some h) :
    conStep printing signed s (.go k) = { s with calls := upd s.calls k (some { c with tested := true }) } := by
  simp only [conStep, hc, hr, hp, if_neg ht]

theorem step_debug (hc : s.calls k = some c) (hr : c.rest = b :: r) (ht : ¬ c.tested = true) (hp : s.ptr = none) :
    conStep printing signed s (.go k) = advance s k c r (if printing then .debug k (charOf signed b) else .lost k (charOf signed b)) := by
  simp only [conStep, hc, hr, hp, if_neg ht]

end

/-- One step adds to what is promised exactly what is written. -/
theorem con_view {printing signed : Bool} {s : Con} (hb : BytesIn s) (j : Nat) (e : CStep)
    (hq : ∀ buf, e = .write j buf → s.calls j = none) (hbe : ∀ k buf, e = .write k buf → ∀ b ∈ buf, b < 256) :
    view j (conStep printing signed s e).log ++ pending (conStep printing signed s e) j =
      view j s.log ++ pending s j ++ promised (writes j [e]) ∧ BytesIn (conStep printing signed s e) := by
  cases e with
  | set p => simp [conStep, writes, promised, pending, BytesIn]; exact hb
  | write k buf =>
    cases hc : s.calls k with
    | some c =>
      rw [step_busy hc]
      have hk : k ≠ j := by
        intro hk
        subst hk
        rw [hq buf rfl] at hc
        simp at hc
      refine ⟨?_, hb⟩
      simp [writes, hk, promised]
    | none =>
      rw [step_begin hc]
      refine ⟨?_, bytesIn_upd hb (fun d hd => ?_)⟩
      · by_cases hk : k = j
        · subst hk
          simp [pending, writes, promised, upd_same, hc]
        · simp [pending, writes, promised, hk, upd_other _ _ _ _ (Ne.symm hk)]
      · obtain rfl := Option.some.inj hd
        exact hbe k buf rfl
  | go k =>
    have hw : promised (writes j [.go k]) = [] := rfl
    rw [hw, List.append_nil]
    cases hc : s.calls k with
    | none => rw [step_idle hc]; exact ⟨rfl, hb⟩
    | some c =>
      cases hr : c.rest with
      | nil =>
        rw [step_ret hc hr]
        refine ⟨?_, bytesIn_upd hb (fun d hd => by simp at hd)⟩
        rw [view_append]
        by_cases hk : k = j
        · subst hk
          simp [pending, upd_same, hc, hr, seenBy]
        · simp [pending, seenBy, hk, upd_other _ _ _ _ (Ne.symm hk)]
      | cons b r =>
        have hcb := hb k c hc
        rw [hr] at hcb
        have hb1 : b < 256 := hcb b (by simp)
        have hsc := seen_char signed b hb1
        have hadv : ∀ ev, BytesIn (advance s k c r ev) := fun ev =>
          bytesIn_upd hb (fun d hd => by
            obtain rfl := Option.some.inj hd
            exact fun x hx => hcb x (by simp [hx]))
        by_cases ht : c.tested = true
        · cases hp : s.ptr with
          | none => rw [step_crash hc hr ht hp]; exact ⟨rfl, hb⟩
          | some h =>
            rw [step_call hc hr ht hp]
            exact ⟨advance_pending hc hr _ j (fun i => by simp only [seenBy, hsc]), hadv _⟩
        · cases hp : s.ptr with
          | none =>
            rw [step_debug hc hr ht hp]
            refine ⟨advance_pending hc hr _ j (fun i => ?_), hadv _⟩
            cases printing <;> simp [seenBy, hsc]
          | some h =>
            rw [step_test hc hr ht hp]
            refine ⟨?_, bytesIn_upd hb (fun d hd => ?_)⟩
            · by_cases hk : k = j
              · subst hk
                simp [pending, upd_same, hc]
              · simp [pending, upd_other _ _ _ _ (Ne.symm hk)]
            · obtain rfl := Option.some.inj hd
              exact fun x hx => hb k c hc x hx

theorem writes_cons (j : Nat) (e : CStep) (es : List CStep) : writes j (e :: es) = writes j [e] ++ writes j es := by
  cases e with
  | set p => rfl
  | go k => rfl
  | write k b =>
    simp only [writes]
    split_ifs <;> rfl

theorem conRun_cons (printing signed : Bool) (s : Con) (e : CStep) (es : List CStep) :
    conRun printing signed s (e :: es) = if s.crashed || s.undefined then s else conRun printing signed (conStep printing signed s e) es := rfl

/-- All steps. -/
theorem con_run {printing signed : Bool} (j : Nat) : ∀ (es : List CStep) (s : Con), BytesIn s → Bytes es → Sequential printing signed j s es →
    (view j (conRun printing signed s es).log <+: view j s.log ++ pending s j ++ promised (writes j es)) ∧
    ((conRun printing signed s es).crashed = false → (conRun printing signed s es).undefined = false →
      view j (conRun printing signed s es).log ++ pending (conRun printing signed s es) j =
        view j s.log ++ pending s j ++ promised (writes j es))
  | [], s, _, _, _ => by
    simp only [conRun, writes, promised, List.append_nil]
    exact ⟨⟨_, rfl⟩, by simp⟩
  | e :: es, s, hb, hby, hsq => by
    rw [conRun_cons]
    by_cases hst : (s.crashed || s.undefined) = true
    · rw [if_pos hst]
      refine ⟨⟨pending s j ++ promised (writes j (e :: es)), by simp⟩, fun h1 h2 => ?_⟩
      rw [h1, h2] at hst
      simp at hst
    · rw [if_neg hst]
      have h1 := con_view (printing := printing) (signed := signed) hb j e hsq.1
        (fun k buf hk => hby k buf (by rw [hk]; simp))
      have ih := con_run j es _ h1.2 (fun k buf hk => hby k buf (by simp [hk])) hsq.2
      rw [writes_cons, promised_append, ← List.append_assoc, ← h1.1]
      exact ih

/-- The pointer is not taken away between the test and the call. -/
theorem con_safe {printing signed : Bool} : ∀ (es : List CStep) (s : Con), s.crashed = false → (∀ j c, s.calls j = some c → c.tested = true → s.ptr ≠ none) →
    CStep.set none ∉ es → (conRun printing signed s es).crashed = false
  | [], s, h, _, _ => h
  | e :: es, s, h, hi, hn => by
    rw [conRun_cons]
    by_cases hst : (s.crashed || s.undefined) = true
    · rw [if_pos hst]; exact h
    · rw [if_neg hst]
      simp at hn
      have hupd : ∀ (k : Nat) (c' : Option Call) (p : Option Nat), (∀ d, c' = some d → d.tested = true → p ≠ none) → (p = s.ptr) →
          ∀ j c, upd s.calls k c' j = some c → c.tested = true → p ≠ none := by
        intro k c' p h1 h2 j c hc ht
        by_cases hj : j = k
        · subst hj; rw [upd_same] at hc; exact h1 c hc ht
        · rw [upd_other _ _ _ _ hj] at hc; rw [h2]; exact hi j c hc ht
      cases e with
      | set p =>
        refine con_safe es _ h (fun j c hc ht => ?_) hn.2
        show p ≠ none
        intro hp
        exact hn.1 (by rw [hp])
      | write k buf =>
            cases hc : s.calls k with
        | some c => rw [step_busy hc]; exact con_safe es s h hi hn.2
        | none =>
          rw [step_begin hc]
          refine con_safe es _ h (hupd k _ s.ptr (fun d hd ht => ?_) rfl) hn.2
          obtain rfl := Option.some.inj hd
          simp at ht
      | go k =>
            cases hc : s.calls k with
        | none => rw [step_idle hc]; exact con_safe es s h hi hn.2
        | some c =>
          cases hr : c.rest with
          | nil => rw [step_ret hc hr]; exact con_safe es _ h (hupd k _ s.ptr (fun d hd ht => by simp at hd) rfl) hn.2
          | cons b r =>
            by_cases ht : c.tested = true
            · cases hp : s.ptr with
              | none => exact absurd hp (hi k c hc ht)
              | some g =>
                rw [step_call hc hr ht hp]
                refine con_safe es _ h (hupd k _ s.ptr (fun d hd htd => ?_) rfl) hn.2
                obtain rfl := Option.some.inj hd
                simp at htd
            · cases hp : s.ptr with
              | none =>
                rw [step_debug hc hr ht hp]
                refine con_safe es _ h (hupd k _ s.ptr (fun d hd htd => ?_) rfl) hn.2
                obtain rfl := Option.some.inj hd
                simp at htd
              | some g =>
                rw [step_test hc hr ht hp]
                refine con_safe es _ h (hupd k _ s.ptr (fun d hd htd => by rw [hp]; simp) rfl) hn.2

/-- The loop variable stays within the buffer. -/
theorem con_defined {printing signed : Bool} : ∀ (es : List CStep) (s : Con), s.undefined = false →
    (∀ j c, s.calls j = some c → c.i + c.rest.length < 2 ^ 31) → (∀ j buf, CStep.write j buf ∈ es → buf.length < 2 ^ 31) →
    (conRun printing signed s es).undefined = false
  | [], s, h, _, _ => h
  | e :: es, s, h, hi, hn => by
    rw [conRun_cons]
    by_cases hst : (s.crashed || s.undefined) = true
    · rw [if_pos hst]; exact h
    · rw [if_neg hst]
      have hn' : ∀ j buf, CStep.write j buf ∈ es → buf.length < 2 ^ 31 := fun j buf hm => hn j buf (by simp [hm])
      have hupd : ∀ (k : Nat) (c' : Option Call), (∀ d, c' = some d → d.i + d.rest.length < 2 ^ 31) →
          ∀ j c, upd s.calls k c' j = some c → c.i + c.rest.length < 2 ^ 31 := by
        intro k c' h1 j c hc
        by_cases hj : j = k
        · subst hj; rw [upd_same] at hc; exact h1 c hc
        · rw [upd_other _ _ _ _ hj] at hc; exact hi j c hc
      have hadv : ∀ (k : Nat) (c : Call) (b : Nat) (r : List Nat) (ev : Ev), s.calls k = some c → c.rest = b :: r →
          (conRun printing signed (advance s k c r ev) es).undefined = false := by
        intro k c b r ev hc hr
        have hl := hi k c hc
        rw [hr, List.length_cons] at hl
        refine con_defined es _ ?_ (hupd k _ (fun d hd => ?_)) hn'
        · show (s.undefined || decide (2 ^ 31 ≤ c.i + 1)) = false
          rw [h]
          simp only [Bool.false_or, decide_eq_false_iff_not]
          omega
        · obtain rfl := Option.some.inj hd
          show c.i + 1 + r.length < 2 ^ 31
          omega
      cases e with
      | set p => exact con_defined es _ h hi hn'
      | write k buf =>
            cases hc : s.calls k with
        | some c => rw [step_busy hc]; exact con_defined es s h hi hn'
        | none =>
          rw [step_begin hc]
          refine con_defined es _ h (hupd k _ (fun d hd => ?_)) hn'
          obtain rfl := Option.some.inj hd
          have := hn k buf (by simp)
          show 0 + buf.length < 2 ^ 31
          omega
      | go k =>
            cases hc : s.calls k with
        | none => rw [step_idle hc]; exact con_defined es s h hi hn'
        | some c =>
          cases hr : c.rest with
          | nil => rw [step_ret hc hr]; exact con_defined es _ h (hupd k _ (fun d hd => by simp at hd)) hn'
          | cons b r =>
            by_cases ht : c.tested = true
            · cases hp : s.ptr with
              | none => rw [step_crash hc hr ht hp]; exact con_defined es _ h hi hn'
              | some g => rw [step_call hc hr ht hp]; exact hadv k c b r _ hc hr
            · cases hp : s.ptr with
              | none => rw [step_debug hc hr ht hp]; exact hadv k c b r _ hc hr
              | some g =>
                rw [step_test hc hr ht hp]
                refine con_defined es _ h (hupd k _ (fun d hd => ?_)) hn'
                obtain rfl := Option.some.inj hd
                exact hi k c hc

/-- A thread alone at the debug console gets to the end of what an `int` counts. -/
theorem con_overflow {printing signed : Bool} (j : Nat) : ∀ (n : Nat) (s : Con) (c : Call), s.ptr = none → s.calls j = some c → c.tested = false →
    s.crashed = false → c.i < 2 ^ 31 → c.i + n = 2 ^ 31 → n ≤ c.rest.length →
    (conRun printing signed s (List.replicate n (.go j))).undefined = true
  | 0, s, c, _, _, _, _, h1, h2, _ => by omega
  | n + 1, s, c, hp, hc, ht, hcr, h1, h2, h3 => by
    rw [List.replicate_succ, conRun_cons]
    by_cases hu : s.undefined = true
    · rw [if_pos (by rw [hu]; simp)]; exact hu
    · rw [if_neg (by simp [hcr, hu])]
      cases hr : c.rest with
      | nil => rw [hr] at h3; simp at h3
      | cons b r =>
        have hs : conStep printing signed s (.go j) =
            advance s j c r (if printing then .debug j (charOf signed b) else .lost j (charOf signed b)) :=
          step_debug hc hr (by rw [ht]; simp) hp
        rw [hs]
        rw [hr, List.length_cons] at h3
        by_cases hl : c.i + 1 < 2 ^ 31
        · exact con_overflow j n _ { c with i := c.i + 1, rest := r, tested := false } hp (upd_same ..) rfl hcr hl (by show c.i + 1 + n = _; omega)
            (by show n ≤ r.length; omega)
        · have hn : n = 0 := by omega
          subst hn
          show (s.undefined || decide (2 ^ 31 ≤ c.i + 1)) = true
          simp only [Bool.or_eq_true, decide_eq_true_eq]
          right; omega

/-! ## Names -/

theorem setName_new (d : List (Nat × String)) (k : Nat) (v : String) (h : ∀ e ∈ d, e.1 ≠ k) : setName d k v = d ++ [(k, v)] := by
  unfold setName
  rw [if_neg]
  intro ha
  rw [List.any_eq_true] at ha
  obtain ⟨e, he, h2⟩ := ha
  exact h e he (by simpa using h2)

theorem nameLoop_cons (faults first : Bool) (d : List (Nat × String)) (t : Thread) (ts : List Thread) :
    nameLoop faults first d (t :: ts) = nameLoop faults false
      (setName d t.tcb (if first then "control" else if faults && ts.isEmpty then "fault_handler" else t.iface)) ts := rfl

/-- The names behind the first. -/
def restNames (faults : Bool) : List Thread → List (Nat × String)
  | [] => []
  | t :: ts => (t.tcb, if faults && ts.isEmpty then "fault_handler" else t.iface) :: restNames faults ts

theorem nameLoop_rest (faults : Bool) : ∀ (ts : List Thread) (d : List (Nat × String)),
    (ts.map Thread.tcb).Nodup → (∀ e ∈ d, ∀ t ∈ ts, e.1 ≠ t.tcb) → nameLoop faults false d ts = d ++ restNames faults ts
  | [], d, _, _ => by simp [nameLoop, restNames]
  | t :: ts, d, hn, hd => by
    rw [nameLoop_cons, setName_new _ _ _ (fun e he => hd e he t (by simp))]
    rw [List.map_cons, List.nodup_cons] at hn
    rw [nameLoop_rest faults ts _ hn.2]
    · simp [restNames]
    · intro e he u hu
      rcases List.mem_append.mp he with he | he
      · exact hd e he u (by simp [hu])
      · simp at he
        subst he
        intro heq
        exact hn.1 (by rw [List.mem_map]; exact ⟨u, hu, heq.symm⟩)

theorem restNames_find (faults : Bool) : ∀ (ts : List Thread) (j : Nat) (t : Thread), (ts.map Thread.tcb).Nodup → ts[j]? = some t →
    (restNames faults ts).find? (·.1 == t.tcb) = some (t.tcb, if faults && decide (j + 1 = ts.length) then "fault_handler" else t.iface)
  | [], j, t, _, h => by simp at h
  | u :: us, 0, t, _, h => by
    have hut : u = t := by simpa using h
    subst hut
    simp only [restNames]
    rw [List.find?_cons_of_pos (by simp)]
    cases us <;> simp
  | u :: us, j + 1, t, hn, h => by
    rw [List.map_cons, List.nodup_cons] at hn
    have h' : us[j]? = some t := by simpa using h
    simp only [restNames]
    rw [List.find?_cons_of_neg, restNames_find faults us j t hn.2 h']
    · simp
    · simp only [beq_iff_eq]
      intro he
      exact hn.1 (by rw [List.mem_map]; exact ⟨t, List.mem_of_getElem? h', he.symm⟩)

theorem restNames_keys (faults : Bool) : ∀ (ts : List Thread) (e : Nat × String), e ∈ restNames faults ts → ∃ t ∈ ts, t.tcb = e.1
  | [], e, h => by simp [restNames] at h
  | t :: ts, e, h => by
    simp only [restNames, List.mem_cons] at h
    rcases h with h | h
    · exact ⟨t, by simp, by rw [h]⟩
    · obtain ⟨u, hu, he⟩ := restNames_keys faults ts e h
      exact ⟨u, by simp [hu], he⟩

theorem nameLoop_eq (faults : Bool) (t : Thread) (ts : List Thread) (hn : ((t :: ts).map Thread.tcb).Nodup) :
    nameLoop faults true [] (t :: ts) = (t.tcb, "control") :: restNames faults ts := by
  rw [List.map_cons, List.nodup_cons] at hn
  rw [nameLoop_cons, setName_new _ _ _ (by simp), nameLoop_rest faults ts _ hn.2]
  · simp
  · intro e he u hu
    simp at he
    subst he
    intro heq
    exact hn.1 (by rw [List.mem_map]; exact ⟨u, hu, heq.symm⟩)

end Verif.Process
