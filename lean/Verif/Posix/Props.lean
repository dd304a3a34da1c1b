import Verif.Posix.Spec

/-!
# Properties: system information, the clock and the table of system calls (C98, C99)
-/

namespace Verif.Posix

/-! ### Names -/

theorem text_append_zero {s : List Byte} (hs : (0 : Byte) ∉ s) (r : List Byte) : text (s ++ 0 :: r) = s := by
  induction s with
  | nil => simp [text]
  | cons b s ih =>
    simp only [List.mem_cons, not_or] at hs
    simp only [List.cons_append, text]
    rw [if_neg (fun h => hs.1 h.symm), ih hs.2]

theorem strncpy_of_terminated {n : Nat} {s : List Byte} (hs : (0 : Byte) ∉ s) (hn : s.length < n) (rest : List Byte) :
    strncpy n (s ++ 0 :: rest) = some (s ++ List.replicate (n - s.length) 0) := by
  induction s generalizing n with
  | nil =>
    obtain ⟨k, rfl⟩ : ∃ k, n = k + 1 := ⟨n - 1, by simp at hn; omega⟩
    simp [strncpy]
  | cons b s ih =>
    simp only [List.mem_cons, not_or] at hs
    simp only [List.length_cons] at hn
    obtain ⟨k, rfl⟩ : ∃ k, n = k + 1 := ⟨n - 1, by omega⟩
    simp only [List.cons_append, strncpy]
    rw [if_neg (fun h => hs.1 h.symm), ih hs.2 (by omega)]
    simp

theorem strncpy_length {n : Nat} {mem f : List Byte} (h : strncpy n mem = some f) : f.length = n := by
  induction n generalizing mem f with
  | zero => simp only [strncpy, Option.some.injEq] at h; subst h; rfl
  | succ n ih =>
    cases mem with
    | nil => cases h
    | cons b bs =>
      simp only [strncpy] at h
      split at h
      · simp only [Option.some.injEq] at h; subst h; simp
      · simp only [Option.map_eq_some_iff] at h
        obtain ⟨f', hf', rfl⟩ := h
        simp [ih hf']

/-- What a proper call stores. -/
theorem setName_proper {mem : List Byte} {len : Nat} (hl : len ≤ 64) (hp : Proper (some mem) len) :
    setName (some mem) len = some (.ok, some (mem.take len ++ List.replicate (65 - len) 0)) ∧ (0 : Byte) ∉ mem.take len ∧
      (mem.take len).length = len := by
  obtain ⟨s, rest, rfl, hlen, hs⟩ := hp mem rfl hl
  have ht : (s ++ 0 :: rest).take len = s := List.take_left' hlen
  rw [ht]
  refine ⟨?_, hs, hlen⟩
  unfold setName
  simp only [fieldSize]
  rw [if_neg (by omega), strncpy_of_terminated hs (by omega)]
  simp only [Option.map_some, Option.some.injEq, Prod.mk.injEq, true_and]
  rw [List.take_append, List.take_of_length_le (by omega), List.append_assoc, hlen, List.take_replicate]
  congr 1
  rw [show (65 - len) = (64 - len) + 1 by omega, List.replicate_succ']
  simp only [Nat.reduceSub]
  rw [Nat.min_eq_left (by omega)]

/-- Invariant of the variables. -/
def Holds (f name : List Byte) : Prop := (0 : Byte) ∉ name ∧ name.length ≤ 64 ∧ f = name ++ List.replicate (65 - name.length) 0

theorem holds_field {f name : List Byte} (h : Holds f name) : Field f ∧ text f = name := by
  obtain ⟨h0, hl, rfl⟩ := h
  rw [show 65 - name.length = (64 - name.length) + 1 by omega, List.replicate_succ]
  refine ⟨⟨?_, by simp⟩, text_append_zero h0 _⟩
  simp
  omega

theorem runCalls_holds (cs : List Call) (hp : ∀ c ∈ cs, c.Proper) (st : Names) (h d : List Byte) (hh : Holds st.node h)
    (hd : Holds st.domain d) : ∃ st', runCalls st cs = some st' ∧
      Holds st'.node (cs.foldl (fun old c => match c with
        | .setHost (some mem) len => if len ≤ 64 then mem.take len else old
        | _ => old) h) ∧
      Holds st'.domain (cs.foldl (fun old c => match c with
        | .setDomain (some mem) len => if len ≤ 64 then mem.take len else old
        | _ => old) d) := by
  induction cs generalizing st h d with
  | nil => exact ⟨st, rfl, hh, hd⟩
  | cons c cs ih =>
    have hpc := hp c (by simp)
    have hpr : ∀ c ∈ cs, c.Proper := fun x hx => hp x (by simp [hx])
    simp only [runCalls, List.foldl_cons]
    cases c with
    | setHost name len =>
      cases name with
      | none =>
        simp only [call, setName, Option.map_some, Option.bind_some, Option.getD_none]
        exact ih hpr _ _ _ hh hd
      | some mem =>
        by_cases hl : len ≤ 64
        · obtain ⟨h1, h2, h3⟩ := setName_proper hl hpc
          simp only [call, h1, Option.map_some, Option.bind_some, Option.getD_some, if_pos hl]
          refine ih hpr _ _ _ ⟨h2, by omega, ?_⟩ hd
          simp only [h3]
        · have : setName (some mem) len = some (.invalid, none) := by
            simp only [setName, fieldSize]
            rw [if_pos (by omega)]
          simp only [call, this, Option.map_some, Option.bind_some, Option.getD_none, if_neg hl]
          exact ih hpr _ _ _ hh hd
    | setDomain name len =>
      cases name with
      | none =>
        simp only [call, setName, Option.map_some, Option.bind_some, Option.getD_none]
        exact ih hpr _ _ _ hh hd
      | some mem =>
        by_cases hl : len ≤ 64
        · obtain ⟨h1, h2, h3⟩ := setName_proper hl hpc
          simp only [call, h1, Option.map_some, Option.bind_some, Option.getD_some, if_pos hl]
          refine ih hpr _ _ _ hh ⟨h2, by omega, ?_⟩
          simp only [h3]
        · have : setName (some mem) len = some (.invalid, none) := by
            simp only [setName, fieldSize]
            rw [if_pos (by omega)]
          simp only [call, this, Option.map_some, Option.bind_some, Option.getD_none, if_neg hl]
          exact ih hpr _ _ _ hh hd

/-- C98: after any history of calls with strings and their lengths, `uname` succeeds; it gives the names that were set last, and
the constant parts; each of the two names has a terminator. -/
theorem names_partial (cs : List Call) (hp : ∀ c ∈ cs, c.Proper) (plat arch ver : List Byte) (old : Info) :
    ∃ st, runCalls .start cs = some st ∧ ∃ i, uname plat arch ver st (some old) = (.ok, some i) ∧
      Field i.nodename ∧ text i.nodename = host cs ∧ Field i.domainname ∧ text i.domainname = domain cs ∧
      text i.sysname = [67, 65, 109, 107, 69, 83, 47, 115, 101, 76, 52] ∧ Field i.sysname ∧ text i.release = [] ∧ text i.version = [] := by
  obtain ⟨st, h1, h2, h3⟩ := runCalls_holds cs hp .start [] [] ⟨by simp, by simp, rfl⟩ ⟨by simp, by simp, rfl⟩
  refine ⟨st, h1, _, rfl, (holds_field h2).1, (holds_field h2).2, (holds_field h3).1, (holds_field h3).2, ?_, ⟨?_, ?_⟩, ?_, ?_⟩
  · show text (constField sysname) = _; decide
  · show (constField sysname).length = _; decide
  · show (0 : Byte) ∈ constField sysname; decide
  · simp [text]
  · simp [text]

/-- C98: a description of the machine that is too long is cut, and the structure is not overrun. -/
theorem machine_spec (plat arch ver : List Byte) (h0 : (0 : Byte) ∉ plat ++ arch ++ ver) (st : Names) (old : Info) (hold : old.machine.length = 65) :
    ∃ i, uname plat arch ver st (some old) = (.ok, some i) ∧ Field i.machine ∧
      text i.machine = (plat ++ [32, 40] ++ arch ++ ver ++ [41]).take 64 := by
  refine ⟨_, rfl, ⟨?_, ?_⟩, ?_⟩
  · simp only [snprintfField, fieldSize, List.length_append, List.length_take, List.length_drop, hold, List.length_cons, List.length_nil]
    omega
  · simp [snprintfField]
  · simp only [snprintfField, fieldSize]
    rw [List.append_assoc _ [0], List.singleton_append]
    apply text_append_zero
    intro h
    have := List.mem_of_mem_take h
    simp only [List.mem_append, not_or] at h0 this
    simp only [List.mem_cons, List.not_mem_nil, or_false, h0, false_or] at this
    revert this
    decide

/-- C98: every call on its own: what is returned; a call that is refused changes nothing, and the two names are independent. -/
theorem call_results (st : Names) (c : Call) (r : Ret) (st' : Names) (h : call st c = some (r, st')) :
    r = result c ∧ (r ≠ .ok → st' = st) ∧
    (∀ name len, c = .setHost name len → st'.domain = st.domain) ∧ (∀ name len, c = .setDomain name len → st'.node = st.node) := by
  cases c with
  | setHost name len =>
    cases name with
    | none => simp [call, setName] at h; obtain ⟨rfl, rfl⟩ := h; exact ⟨rfl, fun _ => rfl, fun _ _ _ => rfl, fun _ _ _ => rfl⟩
    | some mem =>
      simp only [call, setName, fieldSize, Nat.add_one_sub_one] at h
      by_cases hl : 64 < len
      · simp [if_pos hl] at h; obtain ⟨rfl, rfl⟩ := h; simp [result, hl]
      · rw [if_neg hl] at h
        simp only [Option.map_map, Option.map_eq_some_iff, Function.comp, Prod.mk.injEq] at h
        obtain ⟨f, _, rfl, rfl⟩ := h
        simp [result, hl]
  | setDomain name len =>
    cases name with
    | none => simp [call, setName] at h; obtain ⟨rfl, rfl⟩ := h; exact ⟨rfl, fun _ => rfl, fun _ _ _ => rfl, fun _ _ _ => rfl⟩
    | some mem =>
      simp only [call, setName, fieldSize, Nat.add_one_sub_one] at h
      by_cases hl : 64 < len
      · simp [if_pos hl] at h; obtain ⟨rfl, rfl⟩ := h; simp [result, hl]
      · rw [if_neg hl] at h
        simp only [Option.map_map, Option.map_eq_some_iff, Function.comp, Prod.mk.injEq] at h
        obtain ⟨f, _, rfl, rfl⟩ := h
        simp [result, hl]

/-- C98: the comment in the code: whatever is passed, the variables stay strings with a terminator. -/
theorem always_terminated (cs : List Call) (st : Names) (h : runCalls .start cs = some st) : Field st.node ∧ Field st.domain := by
  have key : ∀ (cs : List Call) (s0 : Names), Field s0.node → Field s0.domain → ∀ st, runCalls s0 cs = some st → Field st.node ∧ Field st.domain := by
    intro cs
    induction cs with
    | nil => intro s0 h1 h2 st h; simp only [runCalls, Option.some.injEq] at h; subst h; exact ⟨h1, h2⟩
    | cons c cs ih =>
      intro s0 h1 h2 st h
      simp only [runCalls, Option.bind_eq_some_iff] at h
      obtain ⟨⟨r, s1⟩, hc, hr⟩ := h
      have hset : ∀ name len v old, setName name len = some v → Field old → Field (v.2.getD old) := by
        intro name len v old hv hold
        cases name with
        | none => simp only [setName, Option.some.injEq] at hv; subst hv; exact hold
        | some mem =>
          simp only [setName] at hv
          split at hv
          · simp only [Option.some.injEq] at hv; subst hv; exact hold
          · simp only [Option.map_eq_some_iff] at hv
            obtain ⟨f, hf, rfl⟩ := hv
            have := strncpy_length hf
            constructor
            · simp [fieldSize] at this ⊢; omega
            · simp
      refine ih s1 ?_ ?_ st hr
      all_goals
        cases c with
        | setHost name len =>
          simp only [call, Option.map_eq_some_iff, Prod.mk.injEq] at hc
          obtain ⟨v, hv, _, rfl⟩ := hc
          first | exact hset _ _ _ _ hv h1 | exact h2
        | setDomain name len =>
          simp only [call, Option.map_eq_some_iff, Prod.mk.injEq] at hc
          obtain ⟨v, hv, _, rfl⟩ := hc
          first | exact hset _ _ _ _ hv h2 | exact h1
  exact key cs .start ⟨by decide, by decide⟩ ⟨by decide, by decide⟩ st h

/-- C98: `uname` refuses a null pointer. -/
theorem uname_null (plat arch ver : List Byte) (st : Names) : uname plat arch ver st none = (.fault, none) := rfl

/-- **Disagreement with C98.** The length that is passed is only checked: the name is read up to its terminator. Here the first
of two letters is to be the name. -/
theorem length_ignored : ∃ st, runCalls .start [.setHost (some [97, 98, 0]) 1] = some st ∧ text st.node = [97, 98] ∧
    host [.setHost (some [97, 98, 0]) 1] = [97] := by
  refine ⟨⟨[97, 98] ++ List.replicate 63 0, List.replicate 65 0⟩, by decide, by decide, by decide⟩

/-- **Disagreement with C98.** A name does not need a terminator, but without one the code reads beyond it. -/
theorem reads_beyond (st : Names) (s : List Byte) (hs : (0 : Byte) ∉ s) (hl : s.length ≤ 64) : call st (.setHost (some s) s.length) = none := by
  have : ∀ n, s.length < n → strncpy n s = none := by
    induction s with
    | nil => intro n hn; obtain ⟨k, rfl⟩ : ∃ k, n = k + 1 := ⟨n - 1, by simp at hn; omega⟩; rfl
    | cons b s ih =>
      intro n hn
      simp only [List.mem_cons, not_or] at hs
      simp only [List.length_cons] at hn hl
      obtain ⟨k, rfl⟩ : ∃ k, n = k + 1 := ⟨n - 1, by omega⟩
      simp only [strncpy]
      rw [if_neg (fun h => hs.1 h.symm), ih hs.2 (by omega) k (by omega)]
      rfl
  simp only [call, setName, fieldSize]
  rw [if_neg (by omega), this 65 (by omega)]
  rfl

/-! ### The clock -/

/-- C99: the time is the counter of milliseconds, as long as that is less than 2^32, in seconds and nanoseconds. -/
theorem clock_partial (ms : Nat) (h : ms < 2 ^ 32) : ∃ s ns, clockGettime (some (asInt ms)) true true = (.ok, some (s, ns)) ∧
    s * 1000000000 + ns = ms * 1000000 ∧ ns < 1000000000 := by
  refine ⟨ms / 1000, ms % 1000 * 1000000, ?_, by omega, by omega⟩
  have : (asInt ms % 2 ^ 32).toNat = ms := by
    unfold asInt
    split <;> omega
  simp only [clockGettime, this, Bool.and_self, if_true]

/-- C99: everything else is refused. -/
theorem clock_refused (clk : Option Int) (realtime ptr : Bool) (h : clk = none ∨ realtime = false ∨ ptr = false) :
    clockGettime clk realtime ptr = (.nosys, none) := by
  rcases h with rfl | rfl | rfl
  · rfl
  · cases clk <;> rfl
  · cases clk <;> cases realtime <;> rfl

/-- **Disagreement with C99.** After 2^32 milliseconds, about 50 days, the clock begins again. -/
theorem clock_wraps (ms : Nat) : clockGettime (some (asInt (ms + 2 ^ 32))) true true = clockGettime (some (asInt ms)) true true := by
  unfold asInt
  rw [Nat.add_mod_right]

/-! ### The table -/

theorem foldl_orig (l : List Entry) (c : Calls) :
    (l.foldl (fun c e => ({ c with tbl := setCall c.tbl e.1 (some e.2) } : Calls)) c).orig = c.orig := by
  induction l generalizing c with
  | nil => rfl
  | cons e l ih => rw [List.foldl_cons, ih]

theorem foldl_other (l : List Entry) (c : Calls) (n : String) (h : ∀ e ∈ l, e.1 ≠ n) :
    (l.foldl (fun c e => ({ c with tbl := setCall c.tbl e.1 (some e.2) } : Calls)) c).tbl n = c.tbl n := by
  induction l generalizing c with
  | nil => rfl
  | cons e l ih =>
    rw [List.foldl_cons, ih _ (fun e' he' => h e' (by simp [he']))]
    simp only [setCall]
    rw [if_neg (fun hn => h e (by simp) hn.symm)]

theorem foldl_mem (l : List Entry) (c : Calls) (n : String) (i : Impl) (hm : (n, i) ∈ l) (hu : ∀ j, (n, j) ∈ l → j = i) :
    (l.foldl (fun c e => ({ c with tbl := setCall c.tbl e.1 (some e.2) } : Calls)) c).tbl n = some i := by
  induction l generalizing c with
  | nil => cases hm
  | cons e l ih =>
    rw [List.foldl_cons]
    by_cases hl : (n, i) ∈ l
    · exact ih _ hl (fun j hj => hu j (by simp [hj]))
    · by_cases hk : ∃ j, (n, j) ∈ l
      · obtain ⟨j, hj⟩ := hk
        have := hu j (by simp [hj])
        subst this
        exact absurd hj hl
      · rw [foldl_other]
        · rcases List.mem_cons.1 hm with h | h
          · subst h
            simp [setCall]
          · exact absurd h hl
        · intro e' he' hn
          exact hk ⟨e'.2, by rw [← hn]; exact he'⟩

/-- Names and implementations in the table belong together. -/
theorem table_mem (m : Macros) (e : Entry) (h : e ∈ table m) :
    e.2 = .camkes (if e.1 = "clock_gettime64" then "clock_gettime" else e.1) ∧
      (if e.1 = "clock_gettime64" then "clock_gettime" else e.1) ∈ implemented ∧ (e.1 = "clock_gettime" → m.nr "clock_gettime64" = false) := by
  simp only [table, List.mem_append, List.mem_map, List.mem_cons, List.not_mem_nil, or_false] at h
  rcases h with (((((((h | h) | h) | h) | h) | h) | h) | h) | h
  · obtain ⟨n, hn, rfl⟩ := h
    rcases hn with rfl | rfl | rfl | rfl | rfl | rfl | rfl | rfl | rfl | rfl | rfl | rfl | rfl <;> simp [implemented]
  · split at h
    · rw [List.mem_singleton] at h; subst h; simp [implemented]
    · cases h
  · split at h
    · rw [List.mem_singleton] at h; subst h; simp [implemented]
    · rename_i hc
      rw [List.mem_singleton] at h; subst h
      simp [implemented, hc]
  · split at h
    · rw [List.mem_singleton] at h; subst h; simp [implemented]
    · cases h
  · split at h
    · rw [List.mem_singleton] at h; subst h; simp [implemented]
    · cases h
  · rcases h with rfl | rfl <;> simp [implemented]
  · split at h
    · simp only [List.mem_cons, List.not_mem_nil, or_false] at h
      rcases h with rfl | rfl <;> simp [implemented]
    · cases h
  · split at h
    · cases h
    · simp only [List.mem_map, List.mem_cons, List.not_mem_nil, or_false] at h
      obtain ⟨n, hn, rfl⟩ := h
      rcases hn with rfl | rfl | rfl | rfl | rfl | rfl <;> simp [implemented]
  · subst h; simp [implemented]

/-- The table after the installation, for the calls of the list. -/
theorem install_mem (m : Macros) (c : Calls) (n : String) (i : Impl) (h : (n, i) ∈ table m) : (install m c).tbl n = some i := by
  apply foldl_mem _ _ _ _ h
  intro j hj
  have h1 := (table_mem m _ h).1
  have h2 := (table_mem m _ hj).1
  simp only at h1 h2
  rw [h1, h2]

/-- C99: after the installation the calls that every platform has go to the functions of the library, and the others to theirs
where they are switched on. -/
theorem installed_partial (m : Macros) (c : Calls) :
    (∀ n ∈ ["set_tid_address", "sched_yield", "exit", "gettid", "getpid", "getppid", "tgkill", "mlock", "munlock", "mlockall",
      "munlockall", "madvise", "mincore", "rt_sigaction", "uname", "tkill"], (install m c).tbl n = some (.camkes n)) ∧
    (∀ n ∈ ["pause", "_newselect"], m.nr n = true → (install m c).tbl n = some (.camkes n)) ∧
    (m.ia32 = false → ∀ n ∈ ["socket", "bind", "connect", "listen", "accept", "setsockopt"], (install m c).tbl n = some (.camkes n)) ∧
    (m.bsd = true → ∀ n ∈ ["sethostname", "setdomainname"], (install m c).tbl n = some (.camkes n)) ∧
    (install m c).tbl (if m.nr "clock_gettime64" then "clock_gettime64" else "clock_gettime") = some (.camkes "clock_gettime") := by
  refine ⟨?_, ?_, ?_, ?_, ?_⟩
  · intro n hn
    apply install_mem
    simp only [List.mem_cons, List.not_mem_nil, or_false] at hn
    rcases hn with rfl | rfl | rfl | rfl | rfl | rfl | rfl | rfl | rfl | rfl | rfl | rfl | rfl | rfl | rfl | rfl <;> simp [table]
  · intro n hn hm
    apply install_mem
    simp only [List.mem_cons, List.not_mem_nil, or_false] at hn
    rcases hn with rfl | rfl <;> simp [table, hm]
  · intro hi n hn
    apply install_mem
    simp only [List.mem_cons, List.not_mem_nil, or_false] at hn
    rcases hn with rfl | rfl | rfl | rfl | rfl | rfl <;> simp [table, hi]
  · intro hi n hn
    apply install_mem
    simp only [List.mem_cons, List.not_mem_nil, or_false] at hn
    rcases hn with rfl | rfl <;> simp [table, hi]
  · apply install_mem
    by_cases hc : m.nr "clock_gettime64" = true
    · simp [table, hc]
    · simp [table, hc]

theorem installIo_orig (m : Macros) (c : Calls) (n : String) (hn : n = "close" ∨ n = "read" ∨ n = "write") :
    (installIo m c).orig n = c.tbl n ∧ (installIo m c).tbl n = some (.camkes n) := by
  unfold installIo
  simp only
  split <;> rcases hn with rfl | rfl | rfl <;> simp [wrap, setCall]

theorem table_no_io (m : Macros) (n : String) (hn : n ∉ implemented) (h64 : n ≠ "clock_gettime64") : ∀ e ∈ table m, e.1 ≠ n := by
  intro e he h
  obtain ⟨_, h2, _⟩ := table_mem m e he
  rw [h, if_neg h64] at h2
  exact hn h2

/-- C99: after the installation `close`, `read` and `write` of a file that is not a socket are done by the C library. -/
theorem files_reach_library (m : Macros) (c : Calls) (n : String) (hn : n = "close" ∨ n = "read" ∨ n = "write") (no : String)
    (hc : c.tbl n = some (.library no)) :
    (install m c).tbl n = some (.camkes n) ∧ resolve (install m c) 2 (.camkes n) = some (.library no) := by
  have h1 : (install m c).tbl n = some (.camkes n) := by
    unfold install
    rw [foldl_other _ _ _ (table_no_io m n (by rcases hn with rfl | rfl | rfl <;> decide) (by rcases hn with rfl | rfl | rfl <;> decide))]
    exact (installIo_orig m c n hn).2
  refine ⟨h1, ?_⟩
  have h2 : (install m c).orig n = some (.library no) := by
    unfold install
    rw [foldl_orig, (installIo_orig m c n hn).1, hc]
  unfold resolve
  rw [if_pos hn, h2]
  rfl

/-- C99: the installation leaves the other system calls alone. -/
theorem others_untouched (m : Macros) (c : Calls) (n : String)
    (hn : n ∉ implemented ++ ["clock_gettime64", "fcntl64", "close", "read", "write"]) : (install m c).tbl n = c.tbl n := by
  simp only [List.mem_append, List.mem_cons, List.not_mem_nil, or_false, not_or] at hn
  obtain ⟨h1, h2, h3, h4, h5, h6⟩ := hn
  unfold install
  rw [foldl_other _ _ _ (table_no_io m n h1 h2)]
  unfold installIo
  simp only
  split <;> simp [wrap, setCall, h3, h4, h5, h6]

/-- **Disagreement with C99.** The function for `sigaction` is never installed, because of a misspelled macro (no platform has
a number `__NR_sigcation`), although the platform has this call. -/
theorem sigaction_missing (m : Macros) (hm : m.nr "sigcation" = false) (c : Calls) : (install m c).tbl "sigaction" = c.tbl "sigaction" := by
  unfold install
  rw [foldl_other]
  · unfold installIo
    simp only
    split <;> simp [wrap, setCall]
  · intro e he h
    simp only [table, List.mem_append, List.mem_map, List.mem_cons, List.not_mem_nil, or_false, hm] at he
    rcases he with (((((((he | he) | he) | he) | he) | he) | he) | he) | he
    · obtain ⟨n, hn, rfl⟩ := he
      simp only at h
      subst h
      revert hn
      decide
    · split at he
      · rw [List.mem_singleton] at he; subst he; revert h; decide
      · cases he
    · split at he <;> (rw [List.mem_singleton] at he; subst he; revert h; decide)
    · split at he
      · rw [List.mem_singleton] at he; subst he; revert h; decide
      · cases he
    · simp at he
    · rcases he with rfl | rfl <;> (revert h; decide)
    · split at he
      · simp only [List.mem_cons, List.not_mem_nil, or_false] at he
        rcases he with rfl | rfl <;> (revert h; decide)
      · cases he
    · split at he
      · cases he
      · simp only [List.mem_map, List.mem_cons, List.not_mem_nil, or_false] at he
        obtain ⟨n, hn, rfl⟩ := he
        simp only at h
        subst h
        revert hn
        decide
    · subst he; revert h; decide

/-- **Disagreement with C99.** Setting the names is switched off when the component is compiled for a recent standard, even though
the platform has the calls. -/
theorem sethostname_missing (m : Macros) (hb : m.bsd = false) (hx : ∀ v, m.xopen = some v → 500 ≤ v) (c : Calls) :
    (install m c).tbl "sethostname" = c.tbl "sethostname" := by
  have key : ("sethostname", Impl.camkes "sethostname") ∉ table m := by
    have hx' : m.xopen.elim false (fun v => decide (v < 500)) = false := by
      cases h : m.xopen with
      | none => rfl
      | some v => simp; exact hx v h
    simp only [table, hb, hx', Bool.or_self, Bool.false_eq_true, if_false, List.append_nil]
    intro he
    simp only [List.mem_append, List.mem_map, List.mem_cons, List.not_mem_nil, or_false] at he
    rcases he with ((((((he | he) | he) | he) | he) | he) | he) | he
    · revert he; simp
    · split at he
      · simp at he
      · cases he
    · split at he <;> simp at he
    · split at he
      · simp at he
      · cases he
    · split at he
      · simp at he
      · cases he
    · simp at he
    · split at he
      · cases he
      · simp at he
    · simp at he
  unfold install
  rw [foldl_other]
  · unfold installIo
    simp only
    split <;> simp [wrap, setCall]
  · intro e he h
    have h2 := (table_mem m e he).1
    rw [h, if_neg (by decide)] at h2
    obtain ⟨n, i⟩ := e
    simp only at h h2
    rw [h, h2] at he
    exact key he

/-- Why the installation must be done once only (component.common.c does it in one constructor): after a second one the function
for `close` calls itself, for ever. -/
theorem twice_loops (m : Macros) (c : Calls) (fuel : Nat) : resolve (install m (install m c)) fuel (.camkes "close") = none := by
  have h1 : (install m (install m c)).orig "close" = some (.camkes "close") := by
    show (List.foldl _ (installIo m (install m c)) (table m)).orig "close" = _
    rw [foldl_orig, (installIo_orig m (install m c) "close" (.inl rfl)).1]
    unfold install
    rw [foldl_other _ _ _ (table_no_io m "close" (by decide) (by decide))]
    exact (installIo_orig m c "close" (.inl rfl)).2
  induction fuel with
  | zero => rfl
  | succ fuel ih =>
    simp only [resolve]
    rw [if_pos (.inl trivial), h1]
    exact ih

/-! ### Examples -/

/-- A host name is set, then a domain name, then a host name that is too long, then another host name. -/
def demoCalls : List Call :=
  [.setHost (some [97, 98, 0, 5]) 2, .setDomain (some [99, 0]) 1, .setHost (some (List.replicate 70 1)) 65, .setHost (some [100, 0]) 1]

example : (∀ c ∈ demoCalls, c.Proper) ∧ host demoCalls = [100] ∧ domain demoCalls = [99] := by
  refine ⟨?_, by decide, by decide⟩
  intro c hc
  simp only [demoCalls, List.mem_cons, List.not_mem_nil, or_false] at hc
  rcases hc with rfl | rfl | rfl | rfl
  · intro mem h _; simp only [Option.some.injEq] at h; subst h; exact ⟨[97, 98], [5], rfl, rfl, by decide⟩
  · intro mem h _; simp only [Option.some.injEq] at h; subst h; exact ⟨[99], [], rfl, rfl, by decide⟩
  · intro mem h hl; exact absurd hl (by decide)
  · intro mem h _; simp only [Option.some.injEq] at h; subst h; exact ⟨[100], [], rfl, rfl, by decide⟩

example : clockGettime (some (asInt 4294967295)) true true = (.ok, some (4294967, 295000000)) := by decide

/-- A platform. -/
def demoMacros : Macros := ⟨fun n => n ≠ "clock_gettime64" && n ≠ "sigcation", true, none, false⟩

def demoLib : Calls := ⟨fun n => some (.library n), fun _ => none⟩

example : (install demoMacros demoLib).tbl "uname" = some (.camkes "uname") ∧ (install demoMacros demoLib).tbl "open" = some (.library "open") ∧
    (install demoMacros demoLib).tbl "sigaction" = some (.library "sigaction") := by
  decide

end Verif.Posix
