import Verif.Drivers.Lemmas

/-!
# C65: every device that has a driver is initialised, drivers that defer are called again

`call_exact_partial` is the exact behaviour where memory does not run out: rounds over a list, without linked lists
and without a memory fault. `settled_once_partial`, `settled_is_final_partial`, `finishes_partial` and `never_ends` are about
what the drivers see. `lost_device`, `no_memory_aborts` and `second_call_faults` are what is missing: a device is lost
silently where there is no memory for the list, the program aborts where there is none for the token, and a second
call uses memory that has been freed.
-/

namespace Verif.Drivers

theorem holds_init : Holds init.heap init.head [] [] := ⟨.nil, by simp, by simp, by simp, rfl⟩

theorem devices_length (e : Env) (paths : List Nat) : (devices e paths).length ≤ paths.length := List.length_filterMap_le _ _

/-- **C65, what happens.** The devices get their drivers in the order of the paths; each round calls once every
driver that has deferred, in this order, until none defers. No freed memory is used. -/
theorem call_exact_partial (e : Env) (hm : Enough e) (paths : List Nat) (fuel k : Nat) (hf : paths.length ≤ fuel) :
    (∀ tr, rounds e (k + 1) (devices e paths) [] = some tr → ∃ s, call e fuel k paths init = .ok s ∧ s.trace = tr) ∧
    (rounds e (k + 1) (devices e paths) [] = none → call e fuel k paths init = .more) := by
  obtain ⟨s, ids, h1, h2, h3⟩ := findAll_ok e hm paths init [] [] holds_init
  have hr : rounds e (k + 1) (devices e paths) [] = rounds e k (round e (devices e paths) []).1 (round e (devices e paths) []).2 := by
    cases devices e paths with
    | nil => cases k <;> rfl
    | cons t ts => rfl
  have hl := devices_length e paths
  have hl2 := round_length e (devices e paths) []
  obtain ⟨g1, g2⟩ := outer_exact e fuel k s.heap s.head _ ids s.trace h2 (by simp only [List.nil_append]; change (round e (devices e paths) []).1.length ≤ fuel; omega)
  rw [hr]
  simp only [List.nil_append, h3] at g1 g2
  change (∀ tr', rounds e k (round e (devices e paths) []).1 (round e (devices e paths) []).2 = some tr' → _) at g1
  change rounds e k (round e (devices e paths) []).1 (round e (devices e paths) []).2 = none → _ at g2
  rw [call, h1]
  simp only
  rw [h3]
  refine ⟨fun tr ht => ?_, fun ht => ?_⟩
  · obtain ⟨h', q1, _⟩ := g1 tr ht
    rw [q1]
    exact ⟨_, rfl, rfl⟩
  · rw [g2 ht]

/-- A call that returns is a sequence of rounds. -/
theorem ok_rounds (e : Env) (hm : Enough e) (paths : List Nat) (fuel k : Nat) (hf : paths.length ≤ fuel) (s : State) (hs : call e fuel k paths init = .ok s) :
    rounds e (k + 1) (devices e paths) [] = some s.trace := by
  obtain ⟨h1, h2⟩ := call_exact_partial e hm paths fuel k hf
  cases hr : rounds e (k + 1) (devices e paths) [] with
  | none => rw [h2 hr] at hs; cases hs
  | some tr =>
    obtain ⟨s', q1, q2⟩ := h1 tr hr
    rw [q1] at hs
    cases hs
    rw [q2]

theorem round_answers (e : Env) (t : Token) : ∀ (ts : List Token) (tr : Trace),
    answers e (round e ts tr).2 t + (round e ts tr).1.count t = answers e tr t + ts.count t := by
  intro ts
  induction ts with
  | nil => intro tr; rfl
  | cons a ts ih =>
    intro tr
    have := ih (⟨a, e.ret tr a⟩ :: tr)
    simp only [round]
    have hstep : answers e (⟨a, e.ret tr a⟩ :: tr) t = answers e tr t + if a = t ∧ e.ret tr a ≠ e.DEFER then 1 else 0 := by
      unfold answers
      rw [List.countP_cons]
      simp
    rw [hstep] at this
    by_cases hr : e.ret tr a = e.DEFER
    · simp only [hr, if_true] at this ⊢
      rw [List.count_cons, List.count_cons]
      simp at this
      omega
    · simp only [hr, if_false] at this ⊢
      rw [List.count_cons]
      by_cases hat : a = t
      · subst hat
        simp [hr] at this ⊢
        omega
      · simp [hat] at this ⊢
        omega

theorem rounds_answers (e : Env) (t : Token) : ∀ (k : Nat) (ts : List Token) (tr tr' : Trace), rounds e k ts tr = some tr' →
    answers e tr' t = answers e tr t + ts.count t := by
  intro k
  induction k with
  | zero =>
    intro ts tr tr' h
    cases ts with
    | nil => cases h; rfl
    | cons a ts => cases h
  | succ k ih =>
    intro ts tr tr' h
    cases ts with
    | nil => cases h; rfl
    | cons a ts =>
      have h' : rounds e k (round e (a :: ts) tr).1 (round e (a :: ts) tr).2 = some tr' := h
      rw [ih _ _ _ h', round_answers]

/-- **C65, once.** When the call returns, each device has got exactly one answer that is not "later" from the driver
that was chosen for it, and no other driver has answered. -/
theorem settled_once_partial (e : Env) (hm : Enough e) (paths : List Nat) (fuel k : Nat) (hf : paths.length ≤ fuel) (s : State)
    (hs : call e fuel k paths init = .ok s) (t : Token) : answers e s.trace t = (devices e paths).count t := by
  rw [rounds_answers e t _ _ _ _ (ok_rounds e hm paths fuel k hf s hs)]
  simp [answers]

theorem round_mem (e : Env) : ∀ (ts : List Token) (tr : Trace), (∀ x ∈ (round e ts tr).2, x ∈ tr ∨ x.token ∈ ts) ∧ (∀ t ∈ (round e ts tr).1, t ∈ ts) := by
  intro ts
  induction ts with
  | nil => intro tr; exact ⟨fun x hx => .inl hx, by simp [round]⟩
  | cons a ts ih =>
    intro tr
    obtain ⟨h1, h2⟩ := ih (⟨a, e.ret tr a⟩ :: tr)
    simp only [round]
    refine ⟨fun x hx => ?_, fun t ht => ?_⟩
    · rcases h1 x hx with h | h
      · rcases List.mem_cons.mp h with rfl | h
        · exact .inr (by simp)
        · exact .inl h
      · exact .inr (List.mem_cons_of_mem _ h)
    · by_cases hr : e.ret tr a = e.DEFER
      · rw [if_pos hr] at ht
        rcases List.mem_cons.mp ht with rfl | ht
        · simp
        · exact List.mem_cons_of_mem _ (h2 t ht)
      · rw [if_neg hr] at ht
        exact List.mem_cons_of_mem _ (h2 t ht)

theorem rounds_mem (e : Env) : ∀ (k : Nat) (ts : List Token) (tr tr' : Trace), rounds e k ts tr = some tr' → ∀ x ∈ tr', x ∈ tr ∨ x.token ∈ ts := by
  intro k
  induction k with
  | zero =>
    intro ts tr tr' h
    cases ts with
    | nil => cases h; exact fun x hx => .inl hx
    | cons a ts => cases h
  | succ k ih =>
    intro ts tr tr' h x hx
    cases ts with
    | nil => cases h; exact .inl hx
    | cons a ts =>
      have h' : rounds e k (round e (a :: ts) tr).1 (round e (a :: ts) tr).2 = some tr' := h
      rcases ih _ _ _ h' x hx with h1 | h1
      · exact (round_mem e (a :: ts) tr).1 x h1
      · exact .inr ((round_mem e (a :: ts) tr).2 _ h1)

/-- **C65, nothing else.** Only the chosen drivers are called. -/
theorem only_chosen_partial (e : Env) (hm : Enough e) (paths : List Nat) (fuel k : Nat) (hf : paths.length ≤ fuel) (s : State)
    (hs : call e fuel k paths init = .ok s) (x : Event) (hx : x ∈ s.trace) : x.token.path ∈ paths ∧ e.known x.token.path = true ∧ chosen e x.token.path = some x.token.mod := by
  rcases rounds_mem e _ _ _ _ (ok_rounds e hm paths fuel k hf s hs) x hx with h | h
  · cases h
  · unfold devices at h
    rw [List.mem_filterMap] at h
    obtain ⟨p, hp, h⟩ := h
    split at h
    · rename_i hk
      cases hc : chosen e p with
      | none => rw [hc] at h; cases h
      | some m =>
        rw [hc] at h
        simp at h
        rw [← h]
        exact ⟨hp, hk, hc⟩
    · cases h

/-- After the event `x` nothing about the same device. -/
def Final (e : Env) (tr : Trace) : Prop := ∀ post x pre, tr = post ++ x :: pre → x.ret ≠ e.DEFER → ∀ y ∈ post, y.token ≠ x.token

theorem final_cons (e : Env) (tr : Trace) (h : Final e tr) (y : Event) (hy : ∀ x ∈ tr, x.ret ≠ e.DEFER → y.token ≠ x.token) : Final e (y :: tr) := by
  intro post x pre he hr z hz
  cases post with
  | nil => cases hz
  | cons a post =>
    rw [List.cons_append] at he
    injection he with h1 h2
    subst h1
    rcases List.mem_cons.mp hz with rfl | hz
    · exact hy x (by rw [h2]; simp) hr
    · exact h post x pre h2 hr z hz

theorem round_final (e : Env) : ∀ (ts : List Token) (tr : Trace), ts.Nodup → Final e tr → (∀ t ∈ ts, ∀ x ∈ tr, x.ret ≠ e.DEFER → t ≠ x.token) →
    Final e (round e ts tr).2 ∧ (round e ts tr).1.Nodup ∧ (∀ t ∈ (round e ts tr).1, ∀ x ∈ (round e ts tr).2, x.ret ≠ e.DEFER → t ≠ x.token) := by
  intro ts
  induction ts with
  | nil => intro tr _ hf _; exact ⟨hf, by simp [round], by simp [round]⟩
  | cons a ts ih =>
    intro tr hn hf hc
    rw [List.nodup_cons] at hn
    have hf' : Final e (⟨a, e.ret tr a⟩ :: tr) := final_cons e tr hf _ fun x hx hr => hc a (by simp) x hx hr
    have hc' : ∀ t ∈ ts, ∀ x ∈ (⟨a, e.ret tr a⟩ :: tr : Trace), x.ret ≠ e.DEFER → t ≠ x.token := by
      intro t ht x hx hr
      rcases List.mem_cons.mp hx with rfl | hx
      · rintro rfl; exact hn.1 ht
      · exact hc t (List.mem_cons_of_mem _ ht) x hx hr
    obtain ⟨h1, h2, h3⟩ := ih _ hn.2 hf' hc'
    simp only [round]
    refine ⟨h1, ?_, ?_⟩
    · split
      · rw [List.nodup_cons]
        exact ⟨fun h => hn.1 ((round_mem e ts _).2 a h), h2⟩
      · exact h2
    · split
      · rename_i hr
        intro t ht x hx hxr
        rcases List.mem_cons.mp ht with rfl | ht
        · rcases (round_mem e ts _).1 x hx with h | h
          · rcases List.mem_cons.mp h with rfl | h
            · exact absurd hr hxr
            · exact hc t (by simp) x h hxr
          · rintro rfl; exact hn.1 h
        · exact h3 t ht x hx hxr
      · exact h3

theorem rounds_final (e : Env) : ∀ (k : Nat) (ts : List Token) (tr tr' : Trace), rounds e k ts tr = some tr' → ts.Nodup → Final e tr →
    (∀ t ∈ ts, ∀ x ∈ tr, x.ret ≠ e.DEFER → t ≠ x.token) → Final e tr' := by
  intro k
  induction k with
  | zero =>
    intro ts tr tr' h _ hf _
    cases ts with
    | nil => cases h; exact hf
    | cons a ts => cases h
  | succ k ih =>
    intro ts tr tr' h hn hf hc
    cases ts with
    | nil => cases h; exact hf
    | cons a ts =>
      have h' : rounds e k (round e (a :: ts) tr).1 (round e (a :: ts) tr).2 = some tr' := h
      obtain ⟨h1, h2, h3⟩ := round_final e (a :: ts) tr hn hf hc
      exact ih _ _ _ h' h2 h1 h3

/-- **C65, an answer is final.** A driver that has answered for a device (success or error) is not called for it
again, if no path is listed twice. -/
theorem settled_is_final_partial (e : Env) (hm : Enough e) (paths : List Nat) (hd : paths.Nodup) (fuel k : Nat) (hf : paths.length ≤ fuel) (s : State)
    (hs : call e fuel k paths init = .ok s) (post : Trace) (x : Event) (pre : Trace) (hsp : s.trace = post ++ x :: pre) (hr : x.ret ≠ e.DEFER) :
    ∀ y ∈ post, y.token ≠ x.token := by
  refine rounds_final e _ _ _ _ (ok_rounds e hm paths fuel k hf s hs) ?_ ?_ (by simp) post x pre hsp hr
  · unfold devices
    refine List.Nodup.filterMap ?_ hd
    intro p q t hp hq
    simp only [Option.mem_def] at hp hq
    split at hp
    · split at hq
      · simp only [Option.map_eq_some_iff] at hp hq
        obtain ⟨_, _, rfl⟩ := hp
        obtain ⟨_, _, h⟩ := hq
        exact (congrArg Token.path h).symm
      · cases hq
    · cases hp
  · intro post x pre h
    cases post <;> cases h

/-! ## Termination -/

theorem answers_mono (e : Env) (t : Token) (x : Event) (tr : Trace) : answers e tr t ≤ answers e (x :: tr) t := by
  unfold answers
  rw [List.countP_cons]
  omega

theorem round_progress (e : Env) : ∀ (ts : List Token) (tr : Trace) (a : Token) (_ : a ∈ ts), (∀ post, e.ret (post ++ tr) a ≠ e.DEFER) →
    (round e ts tr).1.length < ts.length := by
  intro ts
  induction ts with
  | nil => intro tr a ha; cases ha
  | cons b ts ih =>
    intro tr a ha hn
    simp only [round]
    by_cases hab : b = a
    · subst hab
      have h0 : e.ret tr b ≠ e.DEFER := hn []
      rw [if_neg h0]
      have := round_length e ts (⟨b, e.ret tr b⟩ :: tr)
      simp only [List.length_cons]
      omega
    · have ha' : a ∈ ts := by
        rcases List.mem_cons.mp ha with h | h
        · exact absurd h.symm hab
        · exact h
      have := ih (⟨b, e.ret tr b⟩ :: tr) a ha' fun post => by
        have := hn (post ++ [⟨b, e.ret tr b⟩])
        rwa [List.append_assoc] at this
      split <;> simp only [List.length_cons] <;> omega

/-- A member of least rank. -/
theorem exists_least (rank : Token → Nat) : ∀ (ts : List Token), ts ≠ [] → ∃ a ∈ ts, ∀ b ∈ ts, rank a ≤ rank b := by
  intro ts
  induction ts with
  | nil => intro h; exact absurd rfl h
  | cons t ts ih =>
    intro _
    cases hts : ts with
    | nil => exact ⟨t, by simp, by simp⟩
    | cons u us =>
      obtain ⟨a, ha, hb⟩ := ih (by rw [hts]; simp)
      rw [hts] at ha hb
      by_cases h : rank t ≤ rank a
      · refine ⟨t, by simp, fun b hb' => ?_⟩
        rcases List.mem_cons.mp hb' with rfl | hb'
        · omega
        · have := hb b hb'; omega
      · refine ⟨a, List.mem_cons_of_mem _ ha, fun b hb' => ?_⟩
        rcases List.mem_cons.mp hb' with rfl | hb'
        · omega
        · exact hb b hb'

/-- A driver defers only while some device before it in the order `rank` has not got its answer. -/
def Ordered (e : Env) (devs : List Token) (rank : Token → Nat) : Prop :=
  ∀ tr t, e.ret tr t = e.DEFER → ∃ u ∈ devs, rank u < rank t ∧ answers e tr u < devs.count u

theorem rounds_finish (e : Env) (devs : List Token) (rank : Token → Nat) (ho : Ordered e devs rank) : ∀ (k : Nat) (ts : List Token) (tr : Trace),
    ts.length ≤ k → (∀ t, answers e tr t + ts.count t = devs.count t) → ∃ tr', rounds e k ts tr = some tr' := by
  intro k
  induction k with
  | zero =>
    intro ts tr hl _
    cases ts with
    | nil => exact ⟨tr, rfl⟩
    | cons a ts => simp at hl
  | succ k ih =>
    intro ts tr hl hinv
    cases hts : ts with
    | nil => exact ⟨tr, rfl⟩
    | cons b bs =>
      obtain ⟨a, ha, hleast⟩ := exists_least rank ts (by rw [hts]; simp)
      have hprog : (round e ts tr).1.length < ts.length := by
        refine round_progress e ts tr a ha fun post hd => ?_
        obtain ⟨u, _, hr, hu⟩ := ho _ _ hd
        have hnot : u ∉ ts := fun h => by have := hleast u h; omega
        have h0 := hinv u
        rw [List.count_eq_zero_of_not_mem hnot] at h0
        have hmono : answers e tr u ≤ answers e (post ++ tr) u := by
          clear hd hu
          induction post with
          | nil => exact Nat.le_refl _
          | cons x post ihp => exact Nat.le_trans ihp (answers_mono e u x _)
        omega
      have h2 : rounds e (k + 1) (b :: bs) tr = rounds e k (round e ts tr).1 (round e ts tr).2 := by rw [hts]; rfl
      rw [h2]
      exact ih _ _ (by omega) fun t => by rw [round_answers]; exact hinv t

/-- **C65, it ends.** If the drivers wait for each other in some order, without a cycle, then the call returns, after
at most as many rounds as there are devices. -/
theorem finishes_partial (e : Env) (hm : Enough e) (paths : List Nat) (fuel k : Nat) (hf : paths.length ≤ fuel) (hk : (devices e paths).length ≤ k + 1)
    (rank : Token → Nat) (ho : Ordered e (devices e paths) rank) : ∃ s, call e fuel k paths init = .ok s := by
  obtain ⟨tr, htr⟩ := rounds_finish e (devices e paths) rank ho (k + 1) (devices e paths) [] hk (by intro t; simp [answers])
  obtain ⟨s, h, _⟩ := (call_exact_partial e hm paths fuel k hf).1 tr htr
  exact ⟨s, h⟩

/-- **C65, a driver that always defers.** The call never returns. -/
theorem never_ends (e : Env) (hm : Enough e) (paths : List Nat) (fuel k : Nat) (hf : paths.length ≤ fuel) (t : Token) (ht : t ∈ devices e paths)
    (hd : ∀ tr, e.ret tr t = e.DEFER) : call e fuel k paths init = .more := by
  apply (call_exact_partial e hm paths fuel k hf).2
  cases hr : rounds e (k + 1) (devices e paths) [] with
  | none => rfl
  | some tr =>
    exfalso
    have h1 := rounds_answers e t _ _ _ _ hr
    have h2 : answers e tr t = 0 := by
      have : ∀ (k : Nat) (ts : List Token) (tr tr' : Trace), rounds e k ts tr = some tr' → answers e tr t = 0 → answers e tr' t = 0 := by
        have hround : ∀ (ts : List Token) (tr : Trace), answers e tr t = 0 → answers e (round e ts tr).2 t = 0 := by
          intro ts
          induction ts with
          | nil => intro tr h; exact h
          | cons a ts ih =>
            intro tr h
            simp only [round]
            apply ih
            unfold answers at h ⊢
            rw [List.countP_cons, h]
            by_cases hat : a = t
            · subst hat; simp [hd]
            · simp [hat]
        intro k
        induction k with
        | zero =>
          intro ts tr tr' h h0
          cases ts with
          | nil => cases h; exact h0
          | cons a ts => cases h
        | succ k ih =>
          intro ts tr tr' h h0
          cases ts with
          | nil => cases h; exact h0
          | cons a ts =>
            have h' : rounds e k (round e (a :: ts) tr).1 (round e (a :: ts) tr).2 = some tr' := h
            exact ih _ _ _ h' (hround _ _ h0)
      exact this _ _ _ _ hr rfl
    have h3 : 0 < (devices e paths).count t := List.count_pos_iff.mpr ht
    rw [h2] at h1
    omega

/-! ## What is missing -/

/-- A small world: drivers 1 and 2 for the devices 1 and 2, driver 1 waits for device 2. -/
def world : Env where
  DEFER := 1
  mods := [⟨1, ["x", "a"]⟩, ⟨2, ["b"]⟩]
  known := fun p => p ≠ 9
  check := fun p s => if (p = 1 ∧ s = "a") ∨ (p = 2 ∧ s = "b") then 0 else 1
  ret := fun tr t => if t.mod = 1 ∧ tr.all (fun x => x.token.mod ≠ 2) then 1 else 0
  token := fun _ => true
  node := fun _ => true

/-- **Disagreement with C65.** Where the list cannot be extended, the call returns without an error, and the device
has never got an answer. -/
theorem lost_device : ∃ e : Env, (∀ tr, e.token tr = true) ∧ ∃ paths s, call e 2 2 paths init = .ok s ∧ ∃ t ∈ devices e paths, answers e s.trace t = 0 :=
  ⟨{ world with node := fun _ => false }, fun _ => rfl, [1, 2], _, rfl, ⟨1, 1⟩, by decide, by decide⟩

/-- **Disagreement with C65.** Where there is no memory for a token, the program stops when the first driver defers. -/
theorem no_memory_aborts (e : Env) (fuel k : Nat) (p : Nat) (ps : List Nat) (hk : e.known p = true) (m : Nat) (hc : chosen e p = some m) (hr : e.ret [] ⟨p, m⟩ = e.DEFER)
    (ht : ∀ tr, e.token tr = false) : call e fuel k (p :: ps) init = .abort := by
  have h := matchMods_chosen e p
  rw [hc] at h
  cases hmm : matchMods e p e.mods with
  | none => rw [hmm] at h; cases h
  | some mm =>
    rw [hmm] at h
    simp at h
    have hr' : e.ret init.trace ⟨p, mm.id⟩ = e.DEFER := by rw [h]; exact hr
    rw [call, findAll, if_pos hk, find, hmm]
    simp only [hr', if_true, defer, ht]
    rfl

theorem walk_dead (h : Heap) (n fuel : Nat) (hd : h.live n = false) : walk h (fuel + 1) n = .fault := by
  rw [walk, hd]; rfl

theorem findAll_dead (e : Env) (n : Nat) : ∀ (paths : List Nat) (s : State), s.head = some n → s.heap.live n = false → n < s.heap.top →
    findAll e s paths = .fault ∨ findAll e s paths = .abort ∨ ∃ s', findAll e s paths = .ok s' ∧ s'.head = some n ∧ s'.heap.live n = false := by
  intro paths
  induction paths with
  | nil => intro s h1 h2 _; exact .inr (.inr ⟨s, rfl, h1, h2⟩)
  | cons p ps ih =>
    intro s h1 h2 h3
    rw [findAll]
    by_cases hk : e.known p = true
    · rw [if_pos hk, find]
      cases hmm : matchMods e p e.mods with
      | none => exact ih s h1 h2 h3
      | some m =>
        simp only
        by_cases hr : e.ret s.trace ⟨p, m.id⟩ = e.DEFER
        · rw [if_pos hr, defer]
          by_cases ht : e.token (⟨⟨p, m.id⟩, e.ret s.trace ⟨p, m.id⟩⟩ :: s.trace) = true
          · rw [if_pos ht]
            by_cases hn : e.node (⟨⟨p, m.id⟩, e.ret s.trace ⟨p, m.id⟩⟩ :: s.trace) = true
            · rw [if_pos hn]
              unfold append
              simp only [h1]
              rw [walk_dead _ _ _ (by
                have : n ≠ s.heap.top := by omega
                simp [this, h2])]
              exact .inl rfl
            · rw [if_neg hn]
              exact ih _ h1 h2 h3
          · rw [if_neg ht]
            exact .inr (.inl rfl)
        · rw [if_neg hr]
          exact ih _ h1 h2 h3
    · rw [if_neg hk]
      exact ih s h1 h2 h3

theorem top_inner (e : Env) : ∀ (fuel : Nat) (h : Heap) (cur set tail : Option Nat) (tr : Trace) (h' : Heap) (set' : Option Nat) (tr' : Trace),
    inner e fuel h cur set tail tr = .ok (h', set', tr') → h'.top = h.top := by
  intro fuel
  induction fuel with
  | zero =>
    intro h cur set tail tr h' set' tr' hi
    cases cur with
    | none => rw [inner] at hi; cases hi; rfl
    | some n => rw [inner] at hi; cases hi
  | succ fuel ih =>
    intro h cur set tail tr h' set' tr' hi
    cases cur with
    | none => rw [inner] at hi; cases hi; rfl
    | some n =>
      rw [inner_succ] at hi
      split at hi
      · split at hi
        · rw [ih _ _ _ _ _ _ _ _ hi]
          cases tail <;> rfl
        · rw [ih _ _ _ _ _ _ _ _ hi]
      · cases hi

theorem top_stays (e : Env) (fuel : Nat) : ∀ (k : Nat) (h : Heap) (head : Option Nat) (tr : Trace) (h' : Heap) (tr' : Trace),
    outer e fuel k h head tr = .ok (h', tr') → h'.top = h.top := by
  intro k
  induction k with
  | zero =>
    intro h head tr h' tr' ho
    cases head with
    | none => rw [outer] at ho; cases ho; rfl
    | some n => rw [outer] at ho; cases ho
  | succ k ih =>
    intro h head tr h' tr' ho
    cases head with
    | none => rw [outer] at ho; cases ho; rfl
    | some n =>
      rw [outer] at ho
      cases hi : inner e fuel h (some n) none none tr with
      | ok x =>
        rw [hi] at ho
        obtain ⟨h2, set2, tr2⟩ := x
        rw [ih _ _ _ _ _ ho, top_inner e _ _ _ _ _ _ _ _ _ hi]
      | fault => rw [hi] at ho; cases ho
      | abort => rw [hi] at ho; cases ho
      | more => rw [hi] at ho; cases ho

/-- **Disagreement with C65.** If a driver has deferred in a first call, then a second call never returns: it uses
memory that the first one has freed (or aborts before). -/
theorem second_call_faults (e : Env) (hm : Enough e) (paths : List Nat) (fuel k : Nat) (hf : paths.length ≤ fuel) (s : State)
    (hs : call e fuel k paths init = .ok s) (hd : (round e (devices e paths) []).1 ≠ []) (e' : Env) (paths' : List Nat) (fuel' k' : Nat) :
    call e' (fuel' + 1) (k' + 1) paths' s = .fault ∨ call e' (fuel' + 1) (k' + 1) paths' s = .abort := by
  obtain ⟨s1, ids, h1, h2, h3⟩ := findAll_ok e hm paths init [] [] holds_init
  have hl := devices_length e paths
  have hl2 := round_length e (devices e paths) []
  obtain ⟨g1, g2⟩ := outer_exact e fuel k s1.heap s1.head _ ids s1.trace h2 (by simp only [List.nil_append]; change (round e (devices e paths) []).1.length ≤ fuel; omega)
  have hhead : ∃ n, s1.head = some n ∧ n ∈ ids := by
    have := h2.chain.head
    cases hi : ids with
    | nil =>
      have hdat := h2.data
      rw [hi] at hdat
      simp at hdat
      exact absurd hdat hd
    | cons n l => rw [hi] at this; exact ⟨n, this, by simp⟩
  obtain ⟨n, hn, hni⟩ := hhead
  rw [call, h1] at hs
  simp only at hs
  have hdead : s.head = some n ∧ s.heap.live n = false ∧ n < s.heap.top := by
    cases hr : rounds e k ([] ++ (round e (devices e paths) init.trace).1) s1.trace with
    | none => rw [g2 hr] at hs; cases hs
    | some tr =>
      obtain ⟨h', q1, q2⟩ := g1 tr hr
      rw [q1] at hs
      cases hs
      refine ⟨hn, q2 n hni, ?_⟩
      have htop := top_stays e fuel k _ _ _ _ _ q1
      have := h2.below n hni
      show n < h'.top
      omega
  rw [call]
  rcases findAll_dead e' n paths' s hdead.1 hdead.2.1 hdead.2.2 with h | h | ⟨s', h, h4, h5⟩
  · rw [h]; exact .inl rfl
  · rw [h]; exact .inr rfl
  · rw [h]
    left
    simp only
    rw [h4, outer, inner_succ, h5]
    rfl

/-! ## The hypotheses can be met -/

/-- Device 1 is first called too early, and again after device 2; device 9 is not in the tree, 3 has no driver. -/
example : ∃ s, call world 4 3 [9, 1, 2, 3] init = .ok s ∧ s.trace = [⟨⟨1, 1⟩, 0⟩, ⟨⟨2, 2⟩, 0⟩, ⟨⟨1, 1⟩, 1⟩] := ⟨_, rfl, rfl⟩

example : Enough world := fun _ => ⟨rfl, rfl⟩

example : devices world [9, 1, 2, 3] = [⟨1, 1⟩, ⟨2, 2⟩] := by decide

example : (round world (devices world [9, 1, 2, 3]) []).1 ≠ [] := by decide

example : Ordered world (devices world [9, 1, 2, 3]) (fun t => if t.mod = 1 then 1 else 0) := by
  intro tr t h
  have hdev : devices world [9, 1, 2, 3] = [⟨1, 1⟩, ⟨2, 2⟩] := by decide
  simp only [world] at h
  split at h
  · rename_i hc
    refine ⟨⟨2, 2⟩, by rw [hdev]; simp, by simp [hc.1], ?_⟩
    rw [hdev]
    have : answers world tr ⟨2, 2⟩ = 0 := by
      unfold answers
      rw [List.countP_eq_zero]
      intro x hx
      have := List.all_eq_true.mp hc.2 x hx
      simp at this
      simp only [decide_eq_true_eq, not_and_or]
      left
      intro hh
      rw [hh] at this
      exact this rfl
    rw [this]
    decide
  · cases h

end Verif.Drivers
