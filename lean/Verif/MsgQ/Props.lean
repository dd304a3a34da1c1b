import Verif.MsgQ.Spec
import Verif.VqMsg.Props

/-!
# C73: messages of a queue arrive once, in order and unchanged

`queue_right` for every interleaving of the bytes of the sender and the receiver; `fifo` says it in one line.
-/

namespace Verif.MsgQ

open Verif.VqAlloc Verif.VqMsg

/-! ### Memory -/

theorem readAt_succ (mem : Nat → Nat) (o i : Nat) : readAt mem o (i + 1) = readAt mem o i ++ [mem (o + i)] := by
  unfold readAt
  rw [List.range_succ, List.map_append]
  rfl

theorem byte_same (mem : Nat → Nat) (o i b : Nat) : readAt (write mem (o + i) [b]) o (i + 1) = readAt mem o i ++ [b] := by
  rw [readAt_succ]
  congr 1
  · apply List.map_congr_left
    intro x hx
    rw [List.mem_range] at hx
    rw [write, if_neg (by omega)]
  · simp [write]

theorem byte_other (mem : Nat → Nat) {bs i j k x : Nat} (b : Nat) (hij : i ≠ j) (hx : x < bs) (hk : k ≤ bs) :
    readAt (write mem (bs * i + x) [b]) (bs * j) k = readAt mem (bs * j) k := by
  apply List.map_congr_left
  intro y hy
  rw [List.mem_range] at hy
  rw [write, if_neg]
  rintro ⟨h1, h2⟩
  simp only [List.length_singleton] at h2
  exact blocks_apart (bs := bs) (x := bs * j + y) hij (by omega) (by omega) (by omega) (by omega)

/-! ### The invariant -/

/-- The message in a block. -/
def msgAt (mem : Nat → Nat) (bs : Nat) (x : Nat × Nat) : List Nat := readAt mem (bs * x.1) x.2

/-- The sender and its block. -/
def SndOk (base bs ms : Nat) (mem : Nat → Nat) (s : Snd) (es : List Event) (total q : Nat) (si : List Nat) : Prop :=
  match s with
  | .idle => si = [] ∧ pending es = none
  | .copying p data i => ∃ j before, si = [j] ∧ p = base + bs * j ∧ data.length ≤ ms ∧ i ≤ data.length ∧ readAt mem (bs * j) i = data.take i ∧
      pending es = some (data, before) ∧ (total < q ∨ underWay before total)

/-- The receiver and its block; `cur` is the message that it is copying. -/
def RcvOk (bs : Nat) (mem : Nat → Nat) (r : Rcv) (ri : List Nat) (cur : List (List Nat)) : Prop :=
  match r with
  | .idle => ri = [] ∧ cur = []
  | .copying o k i bytes => ∃ j, ri = [j] ∧ o = bs * j ∧ k ≤ bs ∧ i ≤ k ∧ bytes = readAt mem (bs * j) i ∧ cur = [readAt mem (bs * j) k]

structure Inv (m : Machine) (c : Cfg) (base bs n : Nat) (s : Sys) (es : List Event) (si ri : List Nat) (cur : List (List Nat)) (av us : List (Nat × Nat)) : Prop where
  base_eq : s.a.base = base
  bs_eq : s.a.bs = bs
  n_eq : s.a.n = n
  fitW : ∀ i, i < n → base + bs * i < m.W
  fitU : 2 * n < m.U
  ms_le : c.ms ≤ bs
  mr_ge : c.ms ≤ c.mr
  state : State s.a (si ++ (ri ++ (av.map (·.1) ++ us.map (·.1))))
  avail_eq : s.avail = av.map fun x => (bs * x.1, x.2)
  used_eq : s.used = us.map fun x => (bs * x.1, x.2)
  avail_le : ∀ x ∈ av, x.2 ≤ c.ms
  snd_ok : SndOk base bs c.ms s.mem s.snd es (av.length + us.length + ri.length) c.q si
  rcv_ok : RcvOk bs s.mem s.rcv ri cur
  room : av.length + us.length + ri.length ≤ c.q
  msgs : sentMsgs es = gotMsgs es ++ cur ++ av.map (msgAt s.mem bs)
  right : Right c.ms c.mr n c.q es

theorem held_eq {bs : Nat} {mem : Nat → Nat} {r : Rcv} {ri : List Nat} {cur : List (List Nat)} (h : RcvOk bs mem r ri cur) : r.held = ri.length := by
  cases r with
  | idle => rw [h.1]; rfl
  | copying o k i bytes => obtain ⟨j, h1, _⟩ := h; rw [h1]; rfl

theorem cur_length {bs : Nat} {mem : Nat → Nat} {r : Rcv} {ri : List Nat} {cur : List (List Nat)} (h : RcvOk bs mem r ri cur) : cur.length = ri.length := by
  cases r with
  | idle => rw [h.1, h.2]; rfl
  | copying o k i bytes => obtain ⟨j, h1, _, _, _, _, h2⟩ := h; rw [h1, h2]; rfl

/-- The receiver and the messages do not notice changes in the block of the sender. -/
theorem others_same {bs ms : Nat} {mem mem' : Nat → Nat} {j : Nat} {ri : List Nat} {av us : List (Nat × Nat)} {r : Rcv} {cur : List (List Nat)}
    (hms : ms ≤ bs) (hle : ∀ x ∈ av, x.2 ≤ ms)
    (hnd : ([j] ++ (ri ++ (av.map (·.1) ++ us.map (·.1)))).Nodup) (hsame : ∀ i k, j ≠ i → k ≤ bs → readAt mem' (bs * i) k = readAt mem (bs * i) k) (hr : RcvOk bs mem r ri cur) :
    RcvOk bs mem' r ri cur ∧ av.map (msgAt mem' bs) = av.map (msgAt mem bs) := by
  have hj : j ∉ ri ++ (av.map (·.1) ++ us.map (·.1)) := (List.nodup_cons.mp hnd).1
  constructor
  · cases r with
    | idle => exact hr
    | copying o k i bytes =>
      obtain ⟨b, h1, h2, h3, h4, h5, h6⟩ := hr
      have hne : j ≠ b := by rintro rfl; exact hj (by rw [h1]; simp)
      exact ⟨b, h1, h2, h3, h4, by rw [hsame b i hne (by omega)]; exact h5, by rw [hsame b k hne h3]; exact h6⟩
  · apply List.map_congr_left
    intro x hx
    have hne : j ≠ x.1 := by
      rintro rfl
      exact hj (List.mem_append_right _ (List.mem_append_left _ (List.mem_map_of_mem hx)))
    exact hsame x.1 x.2 hne (by have := hle x hx; omega)

theorem step_inv {m : Machine} {c : Cfg} {base bs n : Nat} {s : Sys} {es : List Event} {si ri : List Nat} {cur : List (List Nat)} {av us : List (Nat × Nat)}
    (h : Inv m c base bs n s es si ri cur av us) (x : Act) :
    ∃ si ri cur av us, Inv m c base bs n (step m c s x).1 ((step m c s x).2 ++ es) si ri cur av us := by
  have hnd := state_nodup h.state
  have hmsgs := h.msgs
  have hcur := cur_length h.rcv_ok
  cases x with
  | send data =>
    cases hs : s.snd with
    | copying p d i => simp only [step, hs]; exact ⟨si, ri, cur, av, us, by simpa [hs] using h⟩
    | idle =>
      have hsnd := h.snd_ok
      rw [hs] at hsnd
      obtain ⟨hsi, hpend⟩ := hsnd
      subst hsi
      simp only [step, hs]
      by_cases hlong : data.length > c.ms
      · rw [if_pos hlong]
        refine ⟨[], ri, cur, av, us, { h with snd_ok := ?_, msgs := hmsgs, right := ⟨hlong, h.right⟩ }⟩
        rw [hs]; exact ⟨rfl, hpend⟩
      · rw [if_neg hlong]
        have hbegun : Right c.ms c.mr n c.q (.begun data :: es) := ⟨⟨hpend, by omega⟩, h.right⟩
        cases us with
        | cons u us =>
          have hu : s.used = (bs * u.1, u.2) :: us.map fun x => (bs * x.1, x.2) := h.used_eq
          simp only [hu]
          refine ⟨[u.1], ri, cur, av, us, { h with state := ?_, used_eq := rfl, snd_ok := ?_, room := ?_, msgs := hmsgs, right := hbegun }⟩
          · refine state_perm h.state ?_
            simp only [List.map_cons, List.nil_append]
            rw [← List.append_assoc]
            refine List.perm_middle.trans ?_
            simp
          · refine ⟨u.1, es, rfl, by rw [h.base_eq], by omega, by omega, by simp [readAt], rfl, .inl ?_⟩
            have := h.room
            simp only [List.length_cons] at this
            omega
          · have := h.room
            simp only [List.length_cons] at this
            omega
        | nil =>
          have hu : s.used = [] := h.used_eq
          simp only [hu]
          have hunder : ∀ k, av.length + ri.length = k → underWay es k := by
            intro k hk
            unfold underWay
            rw [hmsgs, List.length_append, List.length_append, List.length_map, hcur]
            omega
          rcases state_alloc h.state c.ms with ⟨ha, hb⟩ | ⟨i, h1, h2, h3, h4, h5, h6⟩
          · simp only [ha]
            refine ⟨[], ri, cur, av, [], { h with snd_ok := ?_, msgs := hmsgs, right := ⟨⟨rfl, ?_⟩, hbegun⟩ }⟩
            · rw [hs]; exact ⟨rfl, rfl⟩
            · apply hunder
              rcases hb with hb | hb
              · have := h.ms_le
                rw [h.bs_eq] at hb
                omega
              · rw [h.n_eq] at hb
                simp only [List.nil_append, List.map_nil, List.append_nil, List.length_append, List.length_map] at hb
                omega
          · simp only [h5]
            refine ⟨[i], ri, cur, av, [], { h with state := by simpa using h6, used_eq := rfl, snd_ok := ?_, msgs := hmsgs, right := hbegun }⟩
            exact ⟨i, es, rfl, by rw [h.base_eq, h.bs_eq], by omega, by omega, by simp [readAt], rfl, .inr (hunder _ (by simp))⟩
  | sendStep =>
    cases hs : s.snd with
    | idle => simp only [step, hs]; exact ⟨si, ri, cur, av, us, by simpa [hs] using h⟩
    | copying p data i =>
      have hsnd := h.snd_ok
      rw [hs] at hsnd
      obtain ⟨j, before, hsi, hp, hd, hi, hread, hpend, htot⟩ := hsnd
      subst hsi
      have hoff : p - s.a.base = bs * j := by rw [hp, h.base_eq]; omega
      simp only [step, hs, hoff]
      by_cases hlt : i < data.length
      · rw [if_pos hlt]
        have hbyte : i < bs := by have := h.ms_le; omega
        obtain ⟨hr', hm'⟩ := others_same h.ms_le h.avail_le hnd (fun b k hne hk => byte_other s.mem (data.getD i 0) hne hbyte hk) h.rcv_ok
        refine ⟨[j], ri, cur, av, us, { h with snd_ok := ?_, rcv_ok := hr', msgs := ?_, right := h.right }⟩
        · refine ⟨j, before, rfl, hp, hd, hlt, ?_, hpend, htot⟩
          rw [byte_same, hread, List.take_add_one, List.getD_eq_getElem?_getD, List.getElem?_eq_getElem hlt]
          rfl
        · rw [hm']; exact hmsgs
      · rw [if_neg hlt]
        have hi' : i = data.length := by omega
        rw [held_eq h.rcv_ok]
        have e1 : s.avail.length = av.length := by rw [h.avail_eq, List.length_map]
        have e2 : s.used.length = us.length := by rw [h.used_eq, List.length_map]
        rw [e1, e2]
        by_cases hroom : av.length + us.length + ri.length < c.q
        · rw [if_pos hroom]
          refine ⟨[], ri, cur, av ++ [(j, data.length)], us,
            { h with state := ?_, avail_eq := ?_, avail_le := ?_, snd_ok := ?_, room := ?_, msgs := ?_, right := ⟨⟨before, hpend⟩, h.right⟩ }⟩
          · refine state_perm h.state ?_
            simp only [List.map_append, List.map_cons, List.map_nil, List.nil_append, List.singleton_append, List.append_assoc]
            rw [← List.append_assoc ri, ← List.append_assoc ri]
            exact List.perm_middle.symm
          · rw [h.avail_eq]; simp
          · intro x hx
            rcases List.mem_append.mp hx with hx | hx
            · exact h.avail_le x hx
            · rw [List.mem_singleton.mp hx]; exact hd
          · exact ⟨rfl, rfl⟩
          · rw [List.length_append]; simp only [List.length_singleton]; omega
          · show sentMsgs es ++ [data] = gotMsgs es ++ cur ++ _
            rw [hmsgs, List.map_append, ← List.append_assoc]
            congr 1
            simp only [List.map_cons, List.map_nil, msgAt]
            rw [← hi', hread, hi', List.take_length]
        · rw [if_neg hroom]
          have hfull : av.length + us.length + ri.length = c.q := by have := h.room; omega
          have hdb : data.length ≤ bs := by have := h.ms_le; omega
          obtain ⟨hr', hm'⟩ := others_same h.ms_le h.avail_le hnd
            (fun b k hne hk => readAt_write_other s.mem (List.replicate data.length 0) hne (by simpa using hdb) hk) h.rcv_ok
          obtain ⟨f1, f2⟩ := state_free (m := m) h.state (i := j) (by simp) (by rw [h.n_eq, h.base_eq, h.bs_eq]; exact h.fitW) (by rw [h.n_eq]; exact h.fitU)
          have hpa : p = s.a.base + s.a.bs * j := by rw [h.base_eq, h.bs_eq]; exact hp
          have hfree := f1
          rw [← hpa] at hfree
          obtain ⟨g1, g2, g3⟩ := free_fixed m s.a p
          have hstate : State (free m s.a p) ([] ++ (ri ++ (av.map (·.1) ++ us.map (·.1)))) := by
            rw [hfree]; simpa using f2
          refine ⟨[], ri, cur, av, us, { h with base_eq := g1.trans h.base_eq, bs_eq := g2.trans h.bs_eq, n_eq := g3.trans h.n_eq, state := hstate, snd_ok := ⟨rfl, rfl⟩, rcv_ok := hr', msgs := ?_, right := ⟨⟨data, before, hpend, ?_⟩, h.right⟩ }⟩
          · rw [hm']; exact hmsgs
          · rcases htot with htot | htot
            · omega
            · rw [hfull] at htot; exact htot
  | get size =>
    cases hr : s.rcv with
    | copying o k i bytes => simp only [step, hr]; exact ⟨si, ri, cur, av, us, by simpa [hr] using h⟩
    | idle =>
      have hrcv := h.rcv_ok
      rw [hr] at hrcv
      obtain ⟨hri, hcu⟩ := hrcv
      subst hri hcu
      have hsndmono : ∀ e, (∀ es, pending (e :: es) = pending es) → SndOk base bs c.ms s.mem s.snd (e :: es) (av.length + us.length + ([] : List Nat).length) c.q si := by
        intro e he
        have := h.snd_ok
        cases hs : s.snd with
        | idle => rw [hs] at this; exact ⟨this.1, by rw [he]; exact this.2⟩
        | copying p d i =>
          rw [hs] at this
          obtain ⟨j, before, a1, a2, a3, a4, a5, a6, a7⟩ := this
          exact ⟨j, before, a1, a2, a3, a4, a5, by rw [he]; exact a6, a7⟩
      simp only [step, hr]
      by_cases hsm : size < c.mr
      · rw [if_pos hsm]
        refine ⟨si, [], [], av, us, { h with snd_ok := hsndmono _ fun _ => rfl, rcv_ok := by rw [hr]; exact ⟨rfl, rfl⟩, msgs := hmsgs, right := ⟨hsm, h.right⟩ }⟩
      · rw [if_neg hsm]
        cases av with
        | nil =>
          have ha : s.avail = [] := h.avail_eq
          simp only [ha]
          refine ⟨si, [], [], [], us, { h with avail_eq := by rw [ha]; rfl, snd_ok := hsndmono _ fun _ => rfl, rcv_ok := by rw [hr]; exact ⟨rfl, rfl⟩, msgs := hmsgs, right := ⟨by simpa using hmsgs, h.right⟩ }⟩
        | cons b av =>
          have ha : s.avail = (bs * b.1, b.2) :: av.map fun x => (bs * x.1, x.2) := h.avail_eq
          have hb := h.avail_le b (by simp)
          have hmr := h.mr_ge
          simp only [ha]
          rw [if_pos (by omega)]
          refine ⟨si, [b.1], [msgAt s.mem bs b], av, us, { h with state := ?_, avail_eq := rfl, avail_le := fun x hx => h.avail_le x (by simp [hx]), snd_ok := ?_, rcv_ok := ?_, room := ?_, msgs := ?_, right := h.right }⟩
          · simpa using h.state
          · have hl : av.length + us.length + [b.1].length = (b :: av).length + us.length + ([] : List Nat).length := by simp; omega
            rw [hl]
            exact h.snd_ok
          · exact ⟨b.1, rfl, rfl, by have := h.ms_le; omega, by omega, by simp [readAt], rfl⟩
          · have := h.room
            simp only [List.length_cons, List.length_nil] at this ⊢
            omega
          · rw [List.nil_append, hmsgs]; simp
  | getStep =>
    cases hr : s.rcv with
    | idle => simp only [step, hr]; exact ⟨si, ri, cur, av, us, by simpa [hr] using h⟩
    | copying o k i bytes =>
      have hrcv := h.rcv_ok
      rw [hr] at hrcv
      obtain ⟨j, hri, ho, hk, hi, hbytes, hcu⟩ := hrcv
      subst hri hcu
      simp only [step, hr]
      by_cases hlt : i < k
      · rw [if_pos hlt]
        refine ⟨si, [j], [readAt s.mem (bs * j) k], av, us, { h with rcv_ok := ?_, msgs := hmsgs, right := h.right }⟩
        exact ⟨j, rfl, ho, hk, hlt, by rw [readAt_succ, hbytes, ho], rfl⟩
      · rw [if_neg hlt]
        have hik : i = k := by omega
        rw [hik] at hbytes
        refine ⟨si, [], [], av, us ++ [(j, k)], { h with state := ?_, used_eq := ?_, snd_ok := ?_, rcv_ok := ⟨rfl, rfl⟩, room := ?_, msgs := ?_, right := ⟨?_, h.right⟩ }⟩
        · refine state_perm h.state ?_
          apply List.Perm.append_left
          simp only [List.map_append, List.map_cons, List.map_nil, List.nil_append, List.singleton_append]
          rw [← List.append_assoc]
          exact (List.perm_append_singleton _ _).symm
        · rw [h.used_eq, ho]; simp
        · have hl : av.length + (us ++ [(j, k)]).length + ([] : List Nat).length = av.length + us.length + [j].length := by simp; omega
          rw [hl]
          have := h.snd_ok
          cases hs : s.snd with
          | idle => rw [hs] at this; exact this
          | copying p d i' => rw [hs] at this; exact this
        · have := h.room
          simp only [List.length_append, List.length_cons, List.length_nil] at this ⊢
          omega
        · show sentMsgs es = gotMsgs es ++ [bytes] ++ [] ++ _
          rw [hmsgs, hbytes]; simp
        · exact ⟨av.map (msgAt s.mem bs), by show sentMsgs es = gotMsgs es ++ _; rw [hmsgs, hbytes]; simp⟩

theorem run_inv {m : Machine} {c : Cfg} {base bs n : Nat} : ∀ (as : List Act) (s : Sys) (es : List Event) (si ri : List Nat) (cur : List (List Nat)) (av us : List (Nat × Nat)),
    Inv m c base bs n s es si ri cur av us → ∃ si ri cur av us, Inv m c base bs n (run m c s es as).1 (run m c s es as).2 si ri cur av us := by
  intro as
  induction as with
  | nil => intro s es si ri cur av us h; exact ⟨si, ri, cur, av, us, h⟩
  | cons x as ih =>
    intro s es si ri cur av us h
    obtain ⟨si', ri', cur', av', us', h'⟩ := step_inv h x
    exact ih _ _ _ _ _ _ _ h'

theorem le_blockSize (ms : Nat) : ms ≤ blockSize ms := by
  unfold blockSize
  split
  · exact Nat.le_refl _
  · exact Nat.le_of_lt Nat.lt_log2_self

theorem start_inv {m : Machine} {c : Cfg} {base len : Nat} (hf : Fits m base len (blockSize c.ms)) (hm : c.ms ≤ c.mr) (mem : Nat → Nat) :
    Inv m c base (blockSize c.ms) (len / blockSize c.ms) (start (init base len (blockSize c.ms)) mem) [] [] [] [] [] [] := by
  obtain ⟨h1, h2, h3⟩ := hf
  refine ⟨rfl, rfl, rfl, ?_, h3, le_blockSize _, hm, (by show State (init base len (blockSize c.ms)) ([] ++ ([] ++ ([] ++ []))); exact state_init base len _ h1), rfl, rfl, by simp, ⟨rfl, rfl⟩, ⟨rfl, rfl⟩, by simp, rfl, trivial⟩
  intro i hi
  have := block_bound hi
  omega

/-- **C73.** For every interleaving of the steps of a sender and a receiver, everything that `send` and `get` return is
right. -/
theorem queue_right (m : Machine) (c : Cfg) (base len : Nat) (a : Alloc) (ha : initSender base len c.ms = some a) (hf : Fits m base len (blockSize c.ms)) (hm : c.ms ≤ c.mr)
    (mem : Nat → Nat) (as : List Act) : Right c.ms c.mr (len / blockSize c.ms) c.q (run m c (start a mem) [] as).2 := by
  have ha' : a = init base len (blockSize c.ms) := by
    unfold initSender at ha
    split at ha
    · cases ha
    · exact (Option.some.inj ha).symm
  subst ha'
  obtain ⟨_, _, _, _, _, h⟩ := run_inv as _ _ _ _ _ _ _ (start_inv hf hm mem)
  exact h.right

/-- **C73, in one line.** What the receiver got is a beginning of what was sent: the same messages in the same order. -/
theorem fifo (ms mr n q : Nat) : ∀ es, Right ms mr n q es → gotMsgs es <+: sentMsgs es := by
  intro es
  induction es with
  | nil => intro _; exact List.prefix_refl _
  | cons e es ih =>
    intro h
    cases e with
    | begun d => exact ih h.2
    | sent d => exact (ih h.2).trans (List.prefix_append _ _)
    | noRing => exact ih h.2
    | noMem => exact ih h.2
    | tooLong d => exact ih h.2
    | got d =>
      obtain ⟨⟨rest, hr⟩, _⟩ := h
      refine ⟨rest, ?_⟩
      show gotMsgs es ++ [d] ++ rest = sentMsgs es
      rw [hr]; simp
    | noMsg => exact ih h.2
    | tooSmall size => exact ih h.2
    | aborted => exact h.elim

/-! ### Calls end -/

/-- The number of steps of its own that a sender needs. -/
def Snd.left : Snd → Nat
  | .idle => 0
  | .copying _ data i => data.length - i + 1

def Rcv.left : Rcv → Nat
  | .idle => 0
  | .copying _ k i _ => k - i + 1

def isSendStep : Act → Bool
  | .sendStep => true
  | _ => false

def isGetStep : Act → Bool
  | .getStep => true
  | _ => false

theorem run_append (m : Machine) (c : Cfg) : ∀ (as bs : List Act) (s : Sys) (es : List Event), run m c s es (as ++ bs) = run m c (run m c s es as).1 (run m c s es as).2 bs := by
  intro as
  induction as with
  | nil => intro bs s es; rfl
  | cons x as ih => intro bs s es; exact ih _ _ _

theorem send_left (m : Machine) (c : Cfg) : ∀ (as : List Act) (s : Sys) (es : List Event), (∀ d, Act.send d ∉ as) →
    (run m c s es as).1.snd.left + as.countP isSendStep ≤ max s.snd.left (as.countP isSendStep) := by
  intro as
  induction as with
  | nil => intro s es _; simp [run]
  | cons x as ih =>
    intro s es h
    have h' : ∀ d, Act.send d ∉ as := fun d hd => h d (by simp [hd])
    have hi := ih (step m c s x).1 ((step m c s x).2 ++ es) h'
    have hrun : run m c s es (x :: as) = run m c (step m c s x).1 ((step m c s x).2 ++ es) as := rfl
    rw [hrun, List.countP_cons]
    cases x with
    | send d => exact absurd (by simp) (h d)
    | sendStep =>
      have hl : (step m c s .sendStep).1.snd.left ≤ s.snd.left - 1 := by
        unfold step
        cases hs : s.snd with
        | idle => simp [hs, Snd.left]
        | copying p data i =>
          simp only
          split
          · simp only [Snd.left]; omega
          · split <;> simp [Snd.left]
      simp only [isSendStep, if_true]
      omega
    | get size =>
      have hl : (step m c s (.get size)).1.snd = s.snd := by
        unfold step
        cases s.rcv <;> simp only
        split
        · rfl
        · split
          · rfl
          · split <;> rfl
      rw [hl] at hi
      simpa [isSendStep] using hi
    | getStep =>
      have hl : (step m c s .getStep).1.snd = s.snd := by
        unfold step
        cases s.rcv <;> simp only
        split <;> rfl
      rw [hl] at hi
      simpa [isSendStep] using hi

theorem get_left (m : Machine) (c : Cfg) : ∀ (as : List Act) (s : Sys) (es : List Event), (∀ d, Act.get d ∉ as) →
    (run m c s es as).1.rcv.left + as.countP isGetStep ≤ max s.rcv.left (as.countP isGetStep) ∧
    (run m c s es as).1.rcv.held + (gotMsgs (run m c s es as).2).length = s.rcv.held + (gotMsgs es).length := by
  intro as
  induction as with
  | nil => intro s es _; simp [run]
  | cons x as ih =>
    intro s es h
    have h' : ∀ d, Act.get d ∉ as := fun d hd => h d (by simp [hd])
    have hi := ih (step m c s x).1 ((step m c s x).2 ++ es) h'
    have hrun : run m c s es (x :: as) = run m c (step m c s x).1 ((step m c s x).2 ++ es) as := rfl
    rw [hrun, List.countP_cons]
    cases x with
    | get d => exact absurd (by simp) (h d)
    | getStep =>
      have hl : (step m c s .getStep).1.rcv.left ≤ s.rcv.left - 1 ∧ (step m c s .getStep).1.rcv.held + (gotMsgs ((step m c s .getStep).2 ++ es)).length = s.rcv.held + (gotMsgs es).length := by
        unfold step
        cases hs : s.rcv with
        | idle => simp [hs, Rcv.left]
        | copying o k i bytes =>
          simp only
          split
          · exact ⟨by simp only [Rcv.left]; omega, rfl⟩
          · simp [Rcv.left, Rcv.held, gotMsgs]; omega
      simp only [isGetStep, if_true]
      omega
    | send d =>
      have hl : (step m c s (.send d)).1.rcv = s.rcv ∧ gotMsgs ((step m c s (.send d)).2 ++ es) = gotMsgs es := by
        unfold step
        cases s.snd <;> simp only
        · split
          · exact ⟨rfl, rfl⟩
          · split
            · exact ⟨rfl, rfl⟩
            · split <;> exact ⟨rfl, rfl⟩
        · exact ⟨trivial, rfl⟩
      rw [hl.1, hl.2] at hi
      simpa [isGetStep] using hi
    | sendStep =>
      have hl : (step m c s .sendStep).1.rcv = s.rcv ∧ gotMsgs ((step m c s .sendStep).2 ++ es) = gotMsgs es := by
        unfold step
        cases s.snd <;> simp only
        · exact ⟨trivial, rfl⟩
        · split
          · exact ⟨rfl, rfl⟩
          · split <;> exact ⟨rfl, rfl⟩
      rw [hl.1, hl.2] at hi
      simpa [isGetStep] using hi

theorem step_begun (m : Machine) (c : Cfg) (s : Sys) (x : Act) (hx : ∀ d, x ≠ .send d) : ∀ d, Event.begun d ∉ (step m c s x).2 := by
  intro d
  cases x with
  | send d' => exact absurd rfl (hx d')
  | sendStep =>
    unfold step
    cases s.snd <;> simp only
    · simp
    · split
      · simp
      · split <;> simp
  | get size =>
    unfold step
    cases s.rcv <;> simp only
    · split
      · simp
      · split
        · simp
        · split <;> simp
    · simp
  | getStep =>
    unfold step
    cases s.rcv <;> simp only
    · simp
    · split <;> simp

theorem run_new (m : Machine) (c : Cfg) : ∀ (as : List Act) (s : Sys) (es : List Event),
    ∃ new, (run m c s es as).2 = new ++ es ∧ ((∀ d, Act.send d ∉ as) → ∀ d, Event.begun d ∉ new) := by
  intro as
  induction as with
  | nil => intro s es; exact ⟨[], rfl, by simp⟩
  | cons x as ih =>
    intro s es
    obtain ⟨new, h1, h2⟩ := ih (step m c s x).1 ((step m c s x).2 ++ es)
    refine ⟨new ++ (step m c s x).2, by rw [List.append_assoc]; exact h1, ?_⟩
    intro hns d hd
    rcases List.mem_append.mp hd with hd | hd
    · exact h2 (fun d hd => hns d (by simp [hd])) d hd
    · exact step_begun m c s x (fun d' e => hns d' (by simp [e])) d hd

theorem sent_prefix : ∀ (new es : List Event), sentMsgs es <+: sentMsgs (new ++ es) := by
  intro new es
  induction new with
  | nil => exact List.prefix_refl _
  | cons e new ih =>
    cases e with
    | sent d => exact ih.trans (List.prefix_append _ _)
    | _ => exact ih

theorem got_prefix : ∀ (new es : List Event), gotMsgs es <+: gotMsgs (new ++ es) := by
  intro new es
  induction new with
  | nil => exact List.prefix_refl _
  | cons e new ih =>
    cases e with
    | got d => exact ih.trans (List.prefix_append _ _)
    | _ => exact ih

theorem right_tail {ms mr n q : Nat} : ∀ (new es : List Event), Right ms mr n q (new ++ es) → Right ms mr n q es := by
  intro new es
  induction new with
  | nil => exact id
  | cons e new ih =>
    cases e with
    | aborted => intro h; exact h.elim
    | _ => intro h; exact ih h.2

/-- From the events alone: a call of `send` that has returned while there was room has sent its message. -/
theorem returned_sent {ms mr n q : Nat} (d : List Nat) (es : List Event) (hn : (sentMsgs es).length < (gotMsgs es).length + n) (hq : (sentMsgs es).length < (gotMsgs es).length + q) :
    ∀ new, (∀ d, Event.begun d ∉ new) → Right ms mr n q (new ++ .begun d :: es) →
    (pending (new ++ .begun d :: es) = some (d, es) ∧ sentMsgs (new ++ .begun d :: es) = sentMsgs es) ∨
    (pending (new ++ .begun d :: es) = none ∧ sentMsgs (new ++ .begun d :: es) = sentMsgs es ++ [d]) := by
  intro new
  induction new with
  | nil => intro _ _; exact .inl ⟨rfl, rfl⟩
  | cons e new ih =>
    intro hb hr
    have hb' : ∀ d, Event.begun d ∉ new := fun d hd => hb d (by simp [hd])
    have hi := ih hb' (right_tail [e] _ hr)
    cases e with
    | begun d' => exact absurd (by simp) (hb d')
    | sent d' =>
      obtain ⟨⟨before, h1⟩, _⟩ := hr
      change pending (new ++ .begun d :: es) = _ at h1
      rcases hi with ⟨h2, h3⟩ | ⟨h2, h3⟩
      · rw [h2] at h1
        simp only [Option.some.injEq, Prod.mk.injEq] at h1
        refine .inr ⟨rfl, ?_⟩
        show sentMsgs (new ++ .begun d :: es) ++ [d'] = _
        rw [h3, h1.1]
      · rw [h2] at h1; cases h1
    | noRing =>
      obtain ⟨⟨d', before, h1, h4⟩, _⟩ := hr
      change pending (new ++ .begun d :: es) = _ at h1
      rcases hi with ⟨h2, h3⟩ | ⟨h2, h3⟩
      · rw [h2] at h1
        simp only [Option.some.injEq, Prod.mk.injEq] at h1
        rw [← h1.2] at h4
        unfold underWay at h4
        omega
      · rw [h2] at h1; cases h1
    | noMem =>
      obtain ⟨⟨h1, h4⟩, _⟩ := hr
      rcases hi with ⟨h2, h3⟩ | ⟨h2, h3⟩
      · change underWay (new ++ .begun d :: es) n at h4
        unfold underWay at h4
        rw [h3] at h4
        have := (got_prefix (new ++ [.begun d]) es).length_le
        rw [List.append_assoc] at this
        simp only [List.singleton_append] at this
        omega
      · have h1' : (pending (new ++ .begun d :: es)).isSome = true := h1
        rw [h2] at h1'; cases h1'
    | aborted => exact hr.elim
    | tooLong d' => exact hi
    | got d' => exact hi
    | noMsg => exact hi
    | tooSmall size => exact hi

/-- **C73, `send` succeeds when there is room.** After any history, a call of `send` with a message that is not too long, at a time
when fewer messages are under way than there are blocks and than there are places in the rings, sends its message, whatever the
receiver does in between, after one step of the sender for each byte and one more. -/
theorem send_succeeds (m : Machine) (c : Cfg) (base len : Nat) (a : Alloc) (ha : initSender base len c.ms = some a) (hf : Fits m base len (blockSize c.ms)) (hm : c.ms ≤ c.mr)
    (mem : Nat → Nat) (before : List Act) (d : List Nat) (after : List Act) (es : List Event) (hes : (run m c (start a mem) [] before).2 = es)
    (hp : pending es = none) (hd : d.length ≤ c.ms) (hn : (sentMsgs es).length < (gotMsgs es).length + len / blockSize c.ms) (hq : (sentMsgs es).length < (gotMsgs es).length + c.q)
    (hns : ∀ d, Act.send d ∉ after) (hsteps : d.length + 1 ≤ after.countP isSendStep) :
    sentMsgs (run m c (start a mem) [] (before ++ .send d :: after)).2 = sentMsgs es ++ [d] := by
  have hright := queue_right m c base len a ha hf hm mem (before ++ .send d :: after)
  have ha' : a = init base len (blockSize c.ms) := by
    unfold initSender at ha
    split at ha
    · cases ha
    · exact (Option.some.inj ha).symm
  subst ha'
  obtain ⟨si, ri, cur, av, us, h⟩ := run_inv before _ _ _ _ _ _ _ (start_inv hf hm mem)
  obtain ⟨_, _, _, _, _, hfin⟩ := run_inv (before ++ .send d :: after) _ _ _ _ _ _ _ (start_inv hf hm mem)
  rw [run_append] at hright hfin ⊢
  rw [hes] at h hright hfin ⊢
  generalize hs : (run m c (start (init base len (blockSize c.ms)) mem) [] before).1 = s at h hright hfin ⊢
  have hidle : s.snd = .idle := by
    have := h.snd_ok
    cases hsn : s.snd with
    | idle => rfl
    | copying p d' i =>
      rw [hsn] at this
      obtain ⟨_, _, _, _, _, _, _, h6, _⟩ := this
      rw [hp] at h6
      cases h6
  have hrun : run m c s es (.send d :: after) = run m c (step m c s (.send d)).1 ((step m c s (.send d)).2 ++ es) after := rfl
  rw [hrun] at hright hfin ⊢
  have hstep : ∃ extra, (step m c s (.send d)).2 = extra ++ [.begun d] ∧ (∀ d, Event.begun d ∉ extra) ∧ (step m c s (.send d)).1.snd.left ≤ d.length + 1 := by
    simp only [step, hidle]
    rw [if_neg (by omega)]
    split
    · exact ⟨[], rfl, by simp, by simp [Snd.left]⟩
    · split
      · exact ⟨[.noMem], rfl, by simp, by simp [hidle, Snd.left]⟩
      · exact ⟨[], rfl, by simp, by simp [Snd.left]⟩
  obtain ⟨extra, he, hb, hl⟩ := hstep
  obtain ⟨new, h1, h2⟩ := run_new m c after (step m c s (.send d)).1 ((step m c s (.send d)).2 ++ es)
  have hleft := send_left m c after (step m c s (.send d)).1 ((step m c s (.send d)).2 ++ es) hns
  have hidle' : (run m c (step m c s (.send d)).1 ((step m c s (.send d)).2 ++ es) after).1.snd = .idle := by
    cases hsn : (run m c (step m c s (.send d)).1 ((step m c s (.send d)).2 ++ es) after).1.snd with
    | idle => rfl
    | copying p d' i =>
      rw [hsn] at hleft
      have : (Snd.copying p d' i).left = d'.length - i + 1 := rfl
      omega
  have hpend := hfin.snd_ok
  rw [hidle'] at hpend
  have hpend := hpend.2
  have heq : new ++ ((step m c s (.send d)).2 ++ es) = (new ++ extra) ++ .begun d :: es := by rw [he]; simp
  rw [h1, heq] at hright hpend ⊢
  rcases returned_sent d es hn hq (new ++ extra) (fun d' hd' => by
      rcases List.mem_append.mp hd' with x | x
      · exact h2 hns d' x
      · exact hb d' x) hright with ⟨h3, _⟩ | ⟨_, h3⟩
  · rw [h3] at hpend; cases hpend
  · exact h3

/-- **C73, `get` delivers.** After any history, if a message has been sent that the receiver has not got, a call of `get` with a large enough
buffer returns the oldest one, whatever the sender does in between, after one step of the receiver for each byte and one more. -/
theorem get_delivers (m : Machine) (c : Cfg) (base len : Nat) (a : Alloc) (ha : initSender base len c.ms = some a) (hf : Fits m base len (blockSize c.ms)) (hm : c.ms ≤ c.mr)
    (mem : Nat → Nat) (before : List Act) (size : Nat) (after : List Act) (es : List Event) (hes : (run m c (start a mem) [] before).2 = es)
    (hp : (run m c (start a mem) [] before).1.rcv = .idle) (hsize : c.mr ≤ size) (d : List Nat) (rest : List (List Nat)) (hmsg : sentMsgs es = gotMsgs es ++ d :: rest)
    (hns : ∀ x, Act.get x ∉ after) (hsteps : d.length + 1 ≤ after.countP isGetStep) :
    gotMsgs (run m c (start a mem) [] (before ++ .get size :: after)).2 = gotMsgs es ++ [d] := by
  have hright := queue_right m c base len a ha hf hm mem (before ++ .get size :: after)
  have ha' : a = init base len (blockSize c.ms) := by
    unfold initSender at ha
    split at ha
    · cases ha
    · exact (Option.some.inj ha).symm
  subst ha'
  obtain ⟨si, ri, cur, av, us, h⟩ := run_inv before _ _ _ _ _ _ _ (start_inv hf hm mem)
  rw [run_append] at hright ⊢
  rw [hes] at h hright ⊢
  generalize hs : (run m c (start (init base len (blockSize c.ms)) mem) [] before).1 = s at h hright hp ⊢
  have hrun : run m c s es (.get size :: after) = run m c (step m c s (.get size)).1 ((step m c s (.get size)).2 ++ es) after := rfl
  rw [hrun] at hright ⊢
  have hrcv := h.rcv_ok
  rw [hp] at hrcv
  have hm' := h.msgs
  rw [hrcv.2, hmsg, List.append_nil] at hm'
  have hm'' := List.append_cancel_left hm'
  cases hav : av with
  | nil => rw [hav] at hm''; cases hm''
  | cons b av' =>
    rw [hav] at hm''
    simp only [List.map_cons, List.cons.injEq] at hm''
    have hlen : d.length = b.2 := by rw [hm''.1]; simp [msgAt, readAt]
    have havail : s.avail = (blockSize c.ms * b.1, b.2) :: av'.map fun x => (blockSize c.ms * x.1, x.2) := by rw [h.avail_eq, hav]; rfl
    have hb2 := h.avail_le b (by rw [hav]; simp)
    have hstep : (step m c s (.get size)).1.rcv.left = d.length + 1 ∧ (step m c s (.get size)).1.rcv.held = 1 ∧ (step m c s (.get size)).2 = [] := by
      simp only [step, hp, havail]
      rw [if_neg (by omega), if_pos (by omega)]
      simp [Rcv.left, Rcv.held, hlen]
    obtain ⟨s1, s2, s3⟩ := hstep
    obtain ⟨g1, g2⟩ := get_left m c after (step m c s (.get size)).1 ((step m c s (.get size)).2 ++ es) hns
    obtain ⟨new, n1, _⟩ := run_new m c after (step m c s (.get size)).1 ((step m c s (.get size)).2 ++ es)
    generalize hfin : run m c (step m c s (.get size)).1 ((step m c s (.get size)).2 ++ es) after = fin at *
    have hheld : fin.1.rcv.held = 0 := by
      cases hr : fin.1.rcv with
      | idle => rfl
      | copying o k i bytes =>
        rw [hr] at g1
        have : (Rcv.copying o k i bytes).left = k - i + 1 := rfl
        omega
    rw [hheld, s2, s3, List.nil_append] at g2
    rw [s3, List.nil_append] at n1
    have p1 := fifo _ _ _ _ _ hright
    have p2 : gotMsgs es ++ [d] <+: sentMsgs fin.2 := by
      rw [n1]
      refine List.IsPrefix.trans ?_ (sent_prefix new es)
      exact ⟨rest, by rw [hmsg]; simp⟩
    have := List.prefix_of_prefix_length_le p1 p2 (by simp; omega)
    exact this.eq_of_length (by simp; omega)

/-! ### Registration -/

theorem register_char (t : Table) (id : Int) (c : Channel) : (Acceptable id c ∧ t id.toNat = none ∧ register t id c = (fun x => if x = id.toNat then some c else t x, .ok)) ∨
    (¬ (Acceptable id c ∧ t id.toNat = none) ∧ (register t id c).1 = t ∧ (register t id c).2 ≠ .ok) := by
  unfold register Acceptable maxId
  by_cases h1 : id ≥ (100 : Nat)
  · rw [if_pos h1]; exact .inr ⟨by omega, rfl, by simp⟩
  rw [if_neg h1]
  by_cases h2 : id < 0
  · rw [if_pos h2]; exact .inr ⟨by omega, rfl, by simp⟩
  rw [if_neg h2]
  cases h3 : t id.toNat with
  | some x => exact .inr ⟨by simp, by simp, by simp⟩
  | none =>
    simp only [Option.isSome_none, Bool.false_eq_true, if_false]
    by_cases h4 : c.buffer = 0
    · rw [if_pos h4]; exact .inr ⟨by simp [h4], rfl, by simp⟩
    rw [if_neg h4]
    by_cases h5 : c.messageSize ≥ c.bufferSize
    · rw [if_pos h5]; exact .inr ⟨by omega, rfl, by simp⟩
    rw [if_neg h5]
    by_cases h6 : 0 ∈ c.funcs
    · rw [if_pos h6]; exact .inr ⟨by simp [h6], rfl, by simp⟩
    rw [if_neg h6]
    exact .inl ⟨⟨by omega, by omega, h4, by omega, h6⟩, trivial, rfl⟩

theorem table_channelOf : ∀ (rs : List (Int × Channel)) (id : Int), 0 ≤ id → ∀ r, channelOf id rs r ↔ table rs id.toNat = r := by
  intro rs id hid
  induction rs with
  | nil => intro r; simp [channelOf, table, eq_comm]
  | cons x rs ih =>
    intro r
    obtain ⟨i, c⟩ := x
    simp only [channelOf, ih]
    rcases register_char (table rs) i c with ⟨h1, h2, h3⟩ | ⟨h1, h2, h3⟩
    · have ht : table ((i, c) :: rs) = fun x => if x = i.toNat then some c else table rs x := by show (register (table rs) i c).1 = _; rw [h3]
      rw [ht]
      by_cases hi : i = id
      · subst hi
        simp [h2, h1, eq_comm]
      · have hne : ¬ id.toNat = i.toNat := by have := h1.1; omega
        simp only [hne, if_false]
        cases hx : table rs id.toNat with
        | some old => simp [eq_comm]
        | none => simp [hi, eq_comm]
    · have ht : table ((i, c) :: rs) = table rs := h2
      rw [ht]
      cases hx : table rs id.toNat with
      | some old => simp [eq_comm]
      | none =>
        have : ¬ (i = id ∧ Acceptable i c) := by
          rintro ⟨rfl, ha⟩
          exact h1 ⟨ha, hx⟩
        simp only [this, not_false_eq_true, true_and]
        constructor
        · rintro (⟨o, h, _⟩ | (⟨h4, h5, _⟩ | h))
          · cases h
          · exact absurd ⟨h4, h5⟩ this
          · exact h.symm
        · rintro rfl; exact .inr (.inr rfl)

/-- **C73, channels.** For a number from 0 to 99, what `camkes_msgqueue_channel_get` returns after any registrations is the first acceptable one of
that number, if it has the role that is asked for, and an error otherwise. -/
theorem lookup_right_partial (rs : List (Int × Channel)) (id : Int) (h0 : 0 ≤ id) (h1 : id < 100) (role : Role) :
    (∀ c, lookup (table rs) id role = (some c, .ok) ↔ channelOf id rs (some c) ∧ c.role = role) ∧
    ((∀ c, ¬ (channelOf id rs (some c) ∧ c.role = role)) → lookup (table rs) id role = (none, .einval)) := by
  have hl : lookup (table rs) id role = match table rs id.toNat with
      | none => (none, .einval)
      | some c => if c.role ≠ role then (none, .einval) else (some c, .ok) := by
    unfold lookup maxId
    rw [if_neg (by omega), if_neg (by omega)]
    all_goals rfl
  rw [hl]
  simp only [table_channelOf rs id h0]
  cases ht : table rs id.toNat with
  | none => simp
  | some x =>
    by_cases hr : x.role = role
    · refine ⟨fun c => ?_, fun h => absurd ⟨rfl, hr⟩ (h x)⟩
      simp only [hr, ne_eq, not_true_eq_false, if_false, Prod.mk.injEq, Option.some.injEq, and_true]
      exact ⟨fun e => ⟨e, e ▸ hr⟩, fun e => e.1⟩
    · refine ⟨fun c => ?_, fun _ => by simp [hr]⟩
      simp only [ne_eq, hr, not_false_eq_true, if_true, Prod.mk.injEq, Option.some.injEq]
      exact ⟨fun e => (by cases e.1), fun e => absurd (e.1 ▸ e.2) hr⟩

/-! ### What goes wrong -/

/-- **Disagreement with C73.** A number below zero is not refused: memory before the table is used. -/
theorem negative_number_faults (t : Table) (id : Int) (h : id < 0) (c : Channel) (role : Role) : (register t id c).2 = .fault ∧ (lookup t id role).2 = .fault := by
  have h1 : ¬ id ≥ (100 : Nat) := by omega
  constructor
  · unfold register maxId; rw [if_neg h1, if_pos h]
  · unfold lookup maxId; rw [if_neg h1, if_pos h]

/-- **Disagreement with C73.** A channel with messages of no bytes is accepted, and initialising its sender divides by zero. -/
theorem empty_messages_fault : (∃ c : Channel, c.messageSize = 0 ∧ (register (table []) 0 c).2 = .ok) ∧ ∀ base len, initSender base len 0 = none :=
  ⟨⟨⟨.sender, 1, 1, 1, 0, [1]⟩, rfl, by decide⟩, fun _ _ => rfl⟩

/-- **Disagreement with C73.** A channel whose messages are shorter than the memory, but whose blocks are not, is accepted; then the memory
has no blocks and every message is refused. -/
theorem no_blocks : ∃ (c : Channel) (a : Alloc), (register (table []) 0 c).2 = .ok ∧ initSender 0 c.bufferSize c.messageSize = some a ∧
    ∀ (m : Machine) (cfg : Cfg) (mem : Nat → Nat) (d : List Nat), cfg.ms = c.messageSize → d.length ≤ cfg.ms → (run m cfg (start a mem) [] [.send d]).2 = [.noMem, .begun d] := by
  refine ⟨⟨.sender, 1, 1, 6, 5, [1]⟩, init 0 6 8, by decide, ?_, ?_⟩
  · have : blockSize 5 = 8 := by decide
    simp [initSender, this]
  intro m cfg mem d h1 h2
  have hz : alloc (init 0 6 8) cfg.ms = none := by
    simp [alloc, init]
  simp only [run, step, start]
  rw [if_neg (by omega)]
  simp [hz]

/-- **Disagreement with C73.** If the receiver was registered with a shorter message size than the sender, its assertion fails on a
longer message. -/
theorem sizes_differ : ∃ (m : Machine) (c : Cfg) (mem : Nat → Nat), Fits m 0 8 (blockSize c.ms) ∧ .aborted ∈ (run m c (start (init 0 8 (blockSize c.ms)) mem) [] [.send [1, 2], .sendStep, .sendStep, .sendStep, .get 1]).2 := by
  refine ⟨⟨1000, 1000⟩, ⟨2, 1, 4⟩, fun _ => 0, ⟨by decide, by decide, by decide⟩, by decide⟩

/-- **Disagreement with C73.** `send` may report that the rings are full although a message has been received since and there is room: here one place,
and the receiver is done before the failing call puts its message in. -/
theorem ring_full_late : ∃ (m : Machine) (c : Cfg) (mem : Nat → Nat), Fits m 0 8 (blockSize c.ms) ∧ c.ms ≤ c.mr ∧
    (run m c (start (init 0 8 (blockSize c.ms)) mem) [] [.send [7], .sendStep, .sendStep, .send [8], .get 2, .getStep, .getStep, .sendStep, .sendStep]).2 = [.noRing, .got [7], .begun [8], .sent [7], .begun [7]] := by
  refine ⟨⟨1000, 1000⟩, ⟨2, 2, 1⟩, fun _ => 0, ⟨by decide, by decide, by decide⟩, by decide, by decide⟩

/-! ### A concrete case -/

/-- Two messages, the second one sent while the first one is being received. -/
example : (run ⟨1000, 1000⟩ ⟨2, 2, 4⟩ (start (init 16 8 2) fun _ => 0) []
    [.send [1, 2], .sendStep, .sendStep, .sendStep, .send [3], .get 5, .getStep, .sendStep, .getStep, .sendStep, .getStep, .get 5, .getStep, .getStep, .get 5]).2
    = [.noMsg, .got [3], .got [1, 2], .sent [3], .begun [3], .sent [1, 2], .begun [1, 2]] := by decide

example : Fits ⟨1000, 1000⟩ 16 8 (blockSize 2) := ⟨by decide, by decide, by decide⟩

end Verif.MsgQ
