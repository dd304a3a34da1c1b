import Verif.Process.Lists

/-!
# C134: to the program that it runs, an instance is a process with threads of its own
-/

namespace Verif.Process

/-! ## Numbers of processes -/

/-- **C134**, processes. Every instance of the composition has a number, and only those; two instances have two numbers. -/
theorem pid_iff (is : List Nat) (me : Nat) : (∃ p, camkesPid is me = some p) ↔ me ∈ is := by
  constructor
  · intro ⟨p, h⟩
    induction is generalizing p with
    | nil => simp [camkesPid] at h
    | cons i is ih =>
      rw [camkesPid_cons] at h
      by_cases hi : i = me
      · simp [hi]
      · rw [if_neg hi] at h
        cases hq : camkesPid is me with
        | none => rw [hq] at h; simp at h
        | some q => exact List.mem_cons_of_mem _ (ih q hq)
  · exact camkesPid_mem is me

theorem pid_distinct (is : List Nat) (a b p q : Nat) (hab : a ≠ b) (ha : camkesPid is a = some p) (hb : camkesPid is b = some q) : p ≠ q :=
  fun h => hab (camkesPid_inj is a b p ha (h ▸ hb))

/-- The parent of an instance is no instance. -/
theorem pid_not_parent (is : List Nat) (me p : Nat) (h : camkesPid is me = some p) : p ≠ getppid ∧ p ≠ 0 := by
  have := camkesPid_ge is me p h
  unfold getppid
  omega

/-- The instances are numbered in their order, from 2 on. -/
theorem pid_order (is : List Nat) (n me : Nat) (h : is[n]? = some me) (hf : ∀ k, k < n → is[k]? ≠ some me) :
    camkesPid is me = some (n + 2) := by
  induction is generalizing n with
  | nil => simp at h
  | cons i is ih =>
    rw [camkesPid_cons]
    cases n with
    | zero =>
      have : i = me := by simpa using h
      rw [if_pos this]
    | succ n =>
      have hi : i ≠ me := by
        have := hf 0 (by omega)
        simpa using this
      rw [if_neg hi, ih n (by simpa using h) (fun k hk => by
        have := hf (k + 1) (by omega)
        simpa using this)]
      rfl

example : camkesPid [17, 23, 5] 23 = some 3 := by decide
example : camkesPid [17, 23, 5] 4 = none := by decide

/-! ## Numbers of threads and what they store -/

/-- **C134**, threads. In every schedule, a thread that is past its initialisation, and did not itself store over its number, has its own number:
its place among the threads, from 1 on. -/
theorem gettid_is_own (cfg : Cfg) (hs : Sound cfg) (es : List Step) (j : Nat) (hi : (run cfg (boot cfg) es).inited j = true)
    (hn : ∀ v, Step.store j cfg.indexOff v ∉ es) : gettid cfg (run cfg (boot cfg) es) j = j + 1 := by
  have key : ∀ (es : List Step) (s : St), Inv cfg s → (s.inited j = true → s.get j cfg.indexOff = j + 1) →
      (∀ v, Step.store j cfg.indexOff v ∉ es) → (run cfg s es).inited j = true → (run cfg s es).get j cfg.indexOff = j + 1 := by
    intro es
    induction es with
    | nil => intro s _ h _ hi; exact h hi
    | cons e es ih =>
      intro s hv h hn hi
      refine ih (step cfg s e) (inv_step hs hv e) (fun hi' => ?_) (fun v hm => hn v (by simp [hm])) hi
      cases hj : s.inited j with
      | true =>
        rw [get_keep hs hv e j _ hj hs.index (fun v he => hn v (by simp [he]))]
        exact h hj
      | false =>
        obtain ⟨t, _, h1, _⟩ := get_new hs hv e j hj hi'
        exact h1
  exact key es _ (inv_boot cfg) (by simp [boot]) hn hi

/-- Two threads of a component have two numbers. -/
theorem gettid_distinct (cfg : Cfg) (hs : Sound cfg) (es : List Step) (i j : Nat) (hij : i ≠ j) (hi : (run cfg (boot cfg) es).inited i = true)
    (hj : (run cfg (boot cfg) es).inited j = true) (hn : ∀ k v, Step.store k cfg.indexOff v ∉ es) :
    gettid cfg (run cfg (boot cfg) es) i ≠ gettid cfg (run cfg (boot cfg) es) j := by
  rw [gettid_is_own cfg hs es i hi (hn i), gettid_is_own cfg hs es j hj (hn j)]
  omega

/-- **C134**, storage. Whatever another thread does (also when it starts, or ends), a thread's own variables keep their values. -/
theorem undisturbed (cfg : Cfg) (hs : Sound cfg) (s : St) (hr : Reachable cfg s) (e : Step) (j off : Nat) (hi : s.inited j = true)
    (hw : e.who ≠ j) (ho : off < cfg.size) : (step cfg s e).get j off = s.get j off :=
  get_other hs (inv_reachable hs hr) e j off hi hw ho

/-- A value that a thread stores is there, and its other variables keep theirs. -/
theorem store_kept (cfg : Cfg) (s : St) (j off v : Nat) (hi : s.inited j = true) (hd : s.dead = false) (hrun : s.runs j = true)
    (ho : off < cfg.size) :
    (step cfg s (.store j off v)).get j off = v ∧ ∀ off', off' ≠ off → (step cfg s (.store j off v)).get j off' = s.get j off' := by
  have h : step cfg s (.store j off v) = { s with mem := upd s.mem (s.base j + off) v } := by
    unfold step
    rw [if_neg (by simp [hd, Step.who, hrun])]
    simp [hi, ho]
  rw [h]
  exact ⟨upd_same .., fun off' hne => upd_other _ _ _ _ (by show s.base j + off' ≠ s.base j + off; omega)⟩

/-- A thread starts with the initial values of its variables; with the number of the thread and the slot of its own TCB in two of them. -/
theorem start_values (cfg : Cfg) (hs : Sound cfg) (s : St) (hr : Reachable cfg s) (e : Step) (j : Nat) (hj : j ≠ 0) (hn : s.inited j = false)
    (h : (step cfg s e).inited j = true) :
    ∃ t, cfg.threads[j]? = some t ∧ (step cfg s e).get j cfg.indexOff = j + 1 ∧ (step cfg s e).get j cfg.tcbOff = t.tcb ∧
      ∀ off, off < cfg.size → off ≠ cfg.indexOff → off ≠ cfg.tcbOff → (step cfg s e).get j off = cfg.image off := by
  obtain ⟨t, h1, h2, h3, h4⟩ := get_new hs (inv_reachable hs hr) e j hn h
  exact ⟨t, h1, h2, h3, h4 hj⟩

/-- The same for the control thread, whose storage the runtime has made before. -/
theorem control_values (cfg : Cfg) (hs : Sound cfg) (es : List Step) (hi : (run cfg (boot cfg) es).inited 0 = true) (off : Nat) (ho : off < cfg.size)
    (h1 : off ≠ cfg.indexOff) (h2 : off ≠ cfg.tcbOff) (hn : ∀ v, Step.store 0 off v ∉ es) :
    (run cfg (boot cfg) es).get 0 off = cfg.image off := by
  have key : ∀ (es : List Step) (s : St), Inv cfg s → s.get 0 off = cfg.image off → (∀ v, Step.store 0 off v ∉ es) →
      (run cfg s es).get 0 off = cfg.image off ∨ (run cfg s es).inited 0 = false := by
    intro es
    induction es with
    | nil => intro s _ h _; exact Or.inl h
    | cons e es ih =>
      intro s hv h hn
      cases hd : (step cfg s e).dead && !s.inited 0 with
      | true =>
        right
        simp at hd
        have hst : ∀ (es : List Step) (s' : St), s'.dead = true → run cfg s' es = s' := by
          intro es
          induction es with
          | nil => intro s' _; rfl
          | cons e es ih =>
            intro s' h'
            have : step cfg s' e = s' := by unfold step; rw [if_pos (by simp [h'])]
            show run cfg (step cfg s' e) es = s'
            rw [this]
            exact ih s' h'
        show (run cfg (step cfg s e) es).inited 0 = false
        rw [hst es _ hd.1]
        have hm := moves hs hv e
        generalize hq : step cfg s e = s' at hm hd
        cases hm with
        | stay => exact hd.2
        | dies => exact hd.2
        | control t r _ h0 ht he hr =>
          exfalso
          have hsd : s.dead = true := hd.1
          have : step cfg s e = s := by unfold step; rw [if_pos (by simp [hsd])]
          rw [this] at hq
          have hi0 := congrArg (fun s => St.inited s 0) hq
          simp only [upd_same] at hi0
          rw [hd.2] at hi0
          simp at hi0
        | other k t _ hk h0 _ _ => rw [hd.2] at h0; simp at h0
        | store => exact hd.2
        | quit => exact hd.2
      | false =>
        refine ih (step cfg s e) (inv_step hs hv e) ?_ (fun v hm => hn v (by simp [hm]))
        have hm := moves hs hv e
        have hb := hv.base0
        have hb' := (inv_step hs hv e).base0
        unfold St.get at h ⊢
        rw [hb] at h
        rw [hb']
        cases hj : s.inited 0 with
        | true =>
          have := get_keep hs hv e 0 off hj ho (fun v he => hn v (by simp [he]))
          unfold St.get at this
          rw [hb, hb'] at this
          rw [this, h]
        | false =>
          generalize step cfg s e = s' at hm hd
          cases hm with
          | stay => exact h
          | dies => simp [hj] at hd
          | control t r _ h0 ht he hr =>
            show upd (upd s.mem (s.base 0 + cfg.tcbOff) t.tcb) (s.base 0 + cfg.indexOff) 1 (cfg.initial + off) = _
            rw [hb, upd_other _ _ _ _ (by omega), upd_other _ _ _ _ (by omega), h]
          | other k t _ hk h0 _ _ => rw [hj] at h0; simp at h0
          | store k o v _ hk _ => rw [hv.zero k hk] at hj; simp at hj
          | quit => exact h
  rcases key es _ (inv_boot cfg) (by simp [St.get, boot, upd, ho]) hn with h | h
  · exact h
  · rw [h] at hi; simp at hi

/-- The component fails an assertion here only if memory for a thread's storage was not to be had. -/
theorem dead_only_without_memory (cfg : Cfg) (hs : Sound cfg) (es : List Step) (hd : (run cfg (boot cfg) es).dead = true) :
    cfg.static_ ≤ cfg.size ∧ ∃ k, k < cfg.threads.length - 1 ∧ cfg.malloc k = 0 := by
  have key : ∀ (es : List Step) (s : St), Inv cfg s → (s.dead = true → cfg.static_ ≤ cfg.size ∧ ∃ k, k < cfg.threads.length - 1 ∧ cfg.malloc k = 0) →
      (run cfg s es).dead = true → cfg.static_ ≤ cfg.size ∧ ∃ k, k < cfg.threads.length - 1 ∧ cfg.malloc k = 0 := by
    intro es
    induction es with
    | nil => intro s _ h hd; exact h hd
    | cons e es ih =>
      intro s hv h hd
      refine ih (step cfg s e) (inv_step hs hv e) (fun hd' => ?_) hd
      have hm := moves hs hv e
      generalize step cfg s e = s' at hm hd'
      cases hm with
      | stay => exact h hd'
      | dies m k _ h1 h2 h3 => exact ⟨h1, k, h2, h3⟩
      | control => exact h hd'
      | other => exact h hd'
      | store => exact h hd'
      | quit => exact h hd'
  exact key es _ (inv_boot cfg) (by simp [boot]) hd

/-- Behind the control thread, every thread gets through its initialisation when it runs. -/
theorem start_works (cfg : Cfg) (hs : Sound cfg) (s : St) (hr : Reachable cfg s) (h0 : s.inited 0 = true) (hd : s.dead = false) (j : Nat)
    (hj : j < cfg.threads.length) (hrun : s.runs j = true) : (step cfg s (.start j)).inited j = true := by
  have hv := inv_reachable hs hr
  cases hn : s.inited j with
  | true => exact (inited_step hs hv _ j hn).1
  | false =>
    have hj0 : j ≠ 0 := by intro h; rw [h, h0] at hn; simp at hn
    have h : step cfg s (.start j) = doStart cfg s j := by
      unfold step
      rw [if_neg (by simp [hd, Step.who, hrun])]
    rw [h, doStart_pos hs hv h0 hj0 cfg.threads[j] (by simp [hj]) hn]
    exact upd_same ..

/-- The control thread gets there if there is memory. -/
theorem control_starts (cfg : Cfg) (hs : Sound cfg) (hl : 0 < cfg.threads.length)
    (hm : cfg.size < cfg.static_ ∨ ∀ k, k < cfg.threads.length - 1 → cfg.malloc k ≠ 0) : (step cfg (boot cfg) (.start 0)).inited 0 = true := by
  have h : step cfg (boot cfg) (.start 0) = doStart cfg (boot cfg) 0 := by
    unfold step
    rw [if_neg (by simp [boot])]
  rw [h, doStart_zero hs (boot cfg) cfg.threads[0] (by simp [hl]) rfl]
  cases hr : regionLoop cfg (cfg.threads.length - 1) (boot cfg).regions with
  | none =>
    exfalso
    obtain ⟨h1, k, h2, h3⟩ := regionLoop_none _ _ _ hr
    rcases hm with hm | hm
    · omega
    · exact hm k h2 h3
  | some r =>
    exact upd_same (boot cfg).inited 0 true

/-- **C134**, `exit`. A thread that calls `exit` (and did not store over the slot of its TCB) stops itself and no other thread. -/
theorem exit_stops_caller_partial (cfg : Cfg) (hs : Sound cfg) (es : List Step) (j : Nat) (hi : (run cfg (boot cfg) es).inited j = true)
    (hn : ∀ v, Step.store j cfg.tcbOff v ∉ es) :
    ((run cfg (boot cfg) es).dead = false → (step cfg (run cfg (boot cfg) es) (.quit j)).runs j = false) ∧
    ∀ i, i ≠ j → (step cfg (run cfg (boot cfg) es) (.quit j)).runs i = (run cfg (boot cfg) es).runs i := by
  have key : ∀ (es : List Step) (s : St), Inv cfg s → (s.inited j = true → ∃ t, cfg.threads[j]? = some t ∧ s.get j cfg.tcbOff = t.tcb) →
      (∀ v, Step.store j cfg.tcbOff v ∉ es) → (run cfg s es).inited j = true →
      ∃ t, cfg.threads[j]? = some t ∧ (run cfg s es).get j cfg.tcbOff = t.tcb := by
    intro es
    induction es with
    | nil => intro s _ h _ hi; exact h hi
    | cons e es ih =>
      intro s hv h hn hi
      refine ih (step cfg s e) (inv_step hs hv e) (fun hi' => ?_) (fun v hm => hn v (by simp [hm])) hi
      cases hj : s.inited j with
      | true =>
        rw [get_keep hs hv e j _ hj hs.tcb (fun v he => hn v (by simp [he]))]
        exact h hj
      | false =>
        obtain ⟨t, h1, _, h2, _⟩ := get_new hs hv e j hj hi'
        exact ⟨t, h1, h2⟩
  obtain ⟨t, ht, hg⟩ := key es _ (inv_boot cfg) (by simp [boot]) hn hi
  generalize run cfg (boot cfg) es = s at *
  unfold step
  by_cases hd : (s.dead || !s.runs (Step.quit j).who) = true
  · rw [if_pos hd]
    refine ⟨fun h => ?_, fun _ _ => rfl⟩
    rw [h] at hd
    simpa [Step.who] using hd
  · rw [if_neg hd]
    simp only [hi, if_true]
    have hc : s.mem (s.base j + cfg.tcbOff) = t.tcb := hg
    rw [hc, suspend_get cfg.threads 0 j t.tcb s.runs t ht rfl (fun i u hu he => hs.tcbs i j u t hu ht he), Nat.zero_add]
    exact ⟨fun _ => upd_same .., fun i hij => upd_other _ _ _ _ hij⟩

/-! ### A component with three threads -/

/-- Control thread, an interface and the handler of faults; sixteen bytes of thread-local storage in an array of twenty each. -/
def demoCfg : Cfg where
  threads := [⟨7, ""⟩, ⟨9, "a"⟩, ⟨4, ""⟩]
  static_ := 20
  size := 16
  image := fun x => x * 3
  initial := 1000
  staticBase := 2000
  malloc := fun _ => 0
  indexOff := 8
  tcbOff := 0

theorem demo_sound : Sound demoCfg where
  tcbs := by
    intro i j ti tj hi hj he
    have h3 : ∀ (k : Nat) (t : Thread), demoCfg.threads[k]? = some t → (k = 0 ∧ t.tcb = 7) ∨ (k = 1 ∧ t.tcb = 9) ∨ (k = 2 ∧ t.tcb = 4) := by
      intro k t h
      match k, h with
      | 0, h => left; simp [demoCfg] at h; exact ⟨rfl, by rw [← h]⟩
      | 1, h => right; left; simp [demoCfg] at h; exact ⟨rfl, by rw [← h]⟩
      | 2, h => right; right; simp [demoCfg] at h; exact ⟨rfl, by rw [← h]⟩
      | k + 3, h => simp [demoCfg] at h
    have := h3 i ti hi
    have := h3 j tj hj
    omega
  index := by decide
  tcb := by decide
  differ := by decide
  array := by decide
  arrayApart := Or.inl (by decide)
  blocks := by intro i j _ _ h; exact absurd rfl h
  blocksApart := by intro i _ h; exact absurd rfl h

/-- The control thread starts, an interface thread starts and stores, the handler starts, and the control thread calls `exit`. -/
def demoSteps : List Step := [.start 1, .start 0, .start 1, .store 1 4 99, .start 2, .store 2 4 55, .quit 0, .store 0 4 1]

example : let s := run demoCfg (boot demoCfg) demoSteps
    (gettid demoCfg s 0, gettid demoCfg s 1, gettid demoCfg s 2, s.get 1 4, s.get 2 4, s.get 0 4, s.dead) = (1, 2, 3, 99, 55, 12, false) := by
  decide +kernel

/-- **Disagreement with C134.** `exit` does not end the process: the other threads go on. -/
theorem exit_leaves_others : let s := run demoCfg (boot demoCfg) demoSteps
    s.runs 0 = false ∧ s.runs 1 = true ∧ s.runs 2 = true ∧ (step demoCfg s (.store 1 4 100)).get 1 4 = 100 := by
  decide +kernel

/-! ## Names -/

/-- **C134**, names. The name of a thread is "control", "fault_handler" or that of its interface. -/
theorem thread_names (faults : Bool) (ts : List Thread) (hn : (ts.map Thread.tcb).Nodup) (j : Nat) (t : Thread) (ht : ts[j]? = some t) :
    ThreadName faults ts.length j t.iface (getThreadName faults ts t.tcb) := by
  cases ts with
  | nil => simp at ht
  | cons u us =>
    unfold getThreadName
    rw [nameLoop_eq faults u us hn]
    rw [List.map_cons, List.nodup_cons] at hn
    cases j with
    | zero =>
      have hut : u = t := by simpa using ht
      subst hut
      rw [List.find?_cons_of_pos (by simp)]
      exact ⟨fun _ => rfl, fun h => absurd rfl h, fun h => absurd rfl h⟩
    | succ j =>
      have ht' : us[j]? = some t := by simpa using ht
      rw [List.find?_cons_of_neg, restNames_find faults us j t hn.2 ht']
      · refine ⟨fun h => by omega, fun _ hf hl => ?_, fun _ hf => ?_⟩
        · simp at hl
          simp [hf, hl]
        · rcases hf with hf | hf
          · simp [hf]
          · simp at hf
            simp [hf]
      · simp only [beq_iff_eq]
        intro he
        exact hn.1 (by rw [List.mem_map]; exact ⟨t, List.mem_of_getElem? ht', he.symm⟩)

/-- Something that is no thread of the component has no name. -/
theorem unknown_name (faults : Bool) (ts : List Thread) (hn : (ts.map Thread.tcb).Nodup) (id : Nat) (h : ∀ t ∈ ts, t.tcb ≠ id) :
    getThreadName faults ts id = "(unknown)" := by
  unfold getThreadName
  cases ts with
  | nil => rfl
  | cons u us =>
    rw [nameLoop_eq faults u us hn, List.find?_cons_of_neg (by simp [h u (by simp)])]
    rw [List.find?_eq_none.mpr]
    intro e he
    obtain ⟨t, ht, hte⟩ := restNames_keys faults us e he
    simp only [beq_iff_eq]
    rw [← hte]
    exact h t (by simp [ht])

/-- What the kernel is told begins with the name of the instance, and is all of both names if there is room. -/
theorem debug_name (cap : Nat) (i t : String) :
    debugName cap i t <+: i.toList ++ ':' :: t.toList ∧ (debugName cap i t).length ≤ cap - 1 ∧
    ((i.toList ++ ':' :: t.toList).length < cap → debugName cap i t = i.toList ++ ':' :: t.toList) := by
  unfold debugName
  refine ⟨List.take_prefix _ _, by simp, fun h => List.take_of_length_le (by omega)⟩

/-- **Disagreement with C134.** Two threads of one interface have the same name, and so has the thread of an interface with the name "control". -/
theorem names_shared : getThreadName false [⟨7, ""⟩, ⟨9, "a"⟩, ⟨4, "a"⟩, ⟨5, "control"⟩] 9 = getThreadName false [⟨7, ""⟩, ⟨9, "a"⟩, ⟨4, "a"⟩, ⟨5, "control"⟩] 4 ∧
    getThreadName false [⟨7, ""⟩, ⟨9, "a"⟩, ⟨4, "a"⟩, ⟨5, "control"⟩] 5 = getThreadName false [⟨7, ""⟩, ⟨9, "a"⟩, ⟨4, "a"⟩, ⟨5, "control"⟩] 7 := by
  decide +kernel

/-! ## Printing -/

/-- **C134**, printing. In every schedule of threads that print and change the function for output, a thread's bytes are taken in order, none
twice and none left out, and each call answers with the number of its bytes behind them. -/
theorem printed_in_order (printing signed : Bool) (es : List CStep) (hb : Bytes es) (j : Nat) (hs : Sequential printing signed j con0 es) :
    (conRun printing signed con0 es).log.filterMap (seenBy j) <+: promised (writes j es) ∧
    ((conRun printing signed con0 es).crashed = false → (conRun printing signed con0 es).undefined = false →
      (conRun printing signed con0 es).calls j = none →
      (conRun printing signed con0 es).log.filterMap (seenBy j) = promised (writes j es)) := by
  have h := con_run (printing := printing) (signed := signed) j es con0 (fun k c hc => by simp [con0] at hc) hb hs
  have h0 : view j con0.log ++ pending con0 j = [] := rfl
  rw [h0, List.nil_append] at h
  refine ⟨h.1, fun h1 h2 h3 => ?_⟩
  have := h.2 h1 h2
  unfold pending at this
  rw [h3, List.append_nil] at this
  exact this

/-- A byte goes to the function that is set when it is called; without one to the debug console, or nowhere if the kernel has none. -/
theorem goes_to_current (printing signed : Bool) (s : Con) (j : Nat) (e : Ev) (h : (conStep printing signed s (.go j)).log = s.log ++ [e]) :
    match e with
    | .handler k f c => k = j ∧ s.ptr = some f ∧ ∃ b, c = charOf signed b
    | .debug k c => k = j ∧ s.ptr = none ∧ printing = true ∧ ∃ b, c = charOf signed b
    | .lost k c => k = j ∧ s.ptr = none ∧ printing = false ∧ ∃ b, c = charOf signed b
    | .ret k _ => k = j := by
  have hne : s.log ≠ s.log ++ [e] := by simp
  have hin : ∀ x, s.log ++ [x] = s.log ++ [e] → x = e := fun x hx => by simpa using hx
  cases hc : s.calls j with
  | none => rw [step_idle hc] at h; exact absurd h hne
  | some c =>
    cases hr : c.rest with
    | nil => rw [step_ret hc hr] at h; obtain rfl := hin _ h; exact rfl
    | cons b r =>
      by_cases ht : c.tested = true
      · cases hp : s.ptr with
        | none => rw [step_crash hc hr ht hp] at h; exact absurd h hne
        | some f => rw [step_call hc hr ht hp] at h; obtain rfl := hin _ h; exact ⟨rfl, rfl, b, rfl⟩
      · cases hp : s.ptr with
        | none =>
          rw [step_debug hc hr ht hp] at h
          cases printing with
          | true => obtain rfl := hin _ h; exact ⟨rfl, rfl, rfl, b, rfl⟩
          | false => obtain rfl := hin _ h; exact ⟨rfl, rfl, rfl, b, rfl⟩
        | some f => rw [step_test hc hr ht hp] at h; exact absurd h hne

/-- Setting a function takes effect. -/
theorem set_takes_effect (printing signed : Bool) (s : Con) (p : Option Nat) : (conStep printing signed s (.set p)).ptr = p := rfl

/-- As long as nobody takes the function away again, no null pointer is called; and buffers of less than 2 GiB are counted right. -/
theorem no_crash_partial (printing signed : Bool) (es : List CStep) (hn : CStep.set none ∉ es) :
    (conRun printing signed con0 es).crashed = false :=
  con_safe es con0 rfl (fun j c hc => by simp [con0] at hc) hn

theorem no_overflow_partial (printing signed : Bool) (es : List CStep) (hn : ∀ j buf, CStep.write j buf ∈ es → buf.length < 2 ^ 31) :
    (conRun printing signed con0 es).undefined = false :=
  con_defined es con0 rfl (fun j c hc => by simp [con0] at hc) hn

/-- Two threads print, and the function for output is set in between. -/
def demoPrint : List CStep := [.write 1 [104, 200], .go 1, .write 2 [33], .set (some 5), .go 2, .go 2, .go 1, .go 1, .go 1, .go 2]

example : (conRun true true con0 demoPrint).log = [.debug 1 104, .handler 2 5 33, .handler 1 5 (-56), .ret 1 2, .ret 2 1] := by decide +kernel

theorem demo_print : Bytes demoPrint ∧ Sequential true true 1 con0 demoPrint ∧ writes 1 demoPrint = [[104, 200]] ∧
    (conRun true true con0 demoPrint).crashed = false ∧ (conRun true true con0 demoPrint).undefined = false ∧
    ((conRun true true con0 demoPrint).calls 1).isNone = true := by
  refine ⟨?_, ?_, by decide, by decide +kernel, by decide +kernel, by decide +kernel⟩
  · intro j buf h b hb
    simp [demoPrint] at h
    rcases h with ⟨rfl, rfl⟩ | ⟨rfl, rfl⟩ <;> simp at hb <;> omega
  · simp [Sequential, demoPrint, con0]

/-- **Disagreement with C134.** A function for output that is taken away while another thread prints: a null pointer is called. -/
theorem null_is_called : (conRun true true con0 [.set (some 5), .write 1 [104], .go 1, .set none, .go 1]).crashed = true := by decide +kernel

/-- **Disagreement with C134.** Without a debug console and before a function is set, `write` answers that all is written. -/
theorem lost_but_counted : (conRun false true con0 [.write 1 [104, 105], .go 1, .go 1, .go 1]).log = [.lost 1 104, .lost 1 105, .ret 1 2] := by
  decide +kernel

/-- **Disagreement with C134.** Where `char` is signed, the function gets numbers that are no bytes. -/
theorem negative_characters (b : Nat) (h : 128 ≤ b) (hb : b < 256) : charOf true b < 0 ∧ charOf false b = b := by
  unfold charOf
  simp [h]
  omega

/-- C134: a character below 128 is passed as itself, whether `char` is signed or not. -/
theorem plain_characters (signed : Bool) (b : Nat) (h : b < 128) : charOf signed b = b := by
  unfold charOf
  rw [if_neg (by simp; intro; omega)]

/-- **Disagreement with C134.** For a buffer of 2 GiB or more the loop variable overflows. -/
theorem large_buffer_overflows (printing signed : Bool) (buf : List Nat) (h : 2 ^ 31 ≤ buf.length) :
    (conRun printing signed con0 (.write 0 buf :: List.replicate (2 ^ 31) (.go 0))).undefined = true := by
  rw [conRun_cons, if_neg (by simp [con0]), step_begin (by rfl)]
  exact con_overflow 0 (2 ^ 31) _ { count := buf.length, i := 0, rest := buf, tested := false } rfl
    (upd_same con0.calls 0 _) rfl rfl (by show 0 < 2 ^ 31; decide) (by show 0 + 2 ^ 31 = 2 ^ 31; decide) h

/-! ## The start -/

/-- **C134**, start. The identifier of the control thread comes through its arguments, for every `int` and words of 32 and 64 bits. -/
theorem identifier_passed (w : Nat) (hw : w = 32 ∨ w = 64) (id : Int) (h1 : -2 ^ 31 ≤ id) (h2 : id < 2 ^ 31) : idOf (argOf w id) = id := by
  unfold idOf argOf
  rcases hw with rfl | rfl
  · split_ifs with h <;> omega
  · split_ifs with h <;> omega

/-- Thread-local storage is the initialised part and the zeroed part behind it. -/
theorem tls_header (w a b c : Nat) (h1 : a ≤ b) (h2 : b ≤ c) :
    (tlsHeader w a b c).vaddr = a ∧ (tlsHeader w a b c).vaddr + (tlsHeader w a b c).filesz = b ∧
    (tlsHeader w a b c).vaddr + (tlsHeader w a b c).memsz = c ∧ (tlsHeader w a b c).filesz ≤ (tlsHeader w a b c).memsz := by
  simp only [tlsHeader]
  exact ⟨trivial, by omega, by omega, by omega⟩

/-- The size of a program header in the ELF format for words of `w` bits. -/
def elfPhdrSize (w : Nat) : Nat := if w = 64 then 56 else 32

/-- **Disagreement with C134.** The size of a program header that the runtime is told is wrong on machines with words of 64 bits; and variables that
must be aligned to more than a word are promised no such alignment. -/
theorem wrong_header_size : phent = elfPhdrSize 32 ∧ phent ≠ elfPhdrSize 64 ∧ ∀ a b c, (tlsHeader 64 a b c).align < 16 := by
  refine ⟨by decide, by decide, fun a b c => by simp [tlsHeader]⟩

end Verif.Process
