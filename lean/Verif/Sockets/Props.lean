import Verif.Sockets.Spec

/-!
# C68: system calls on a descriptor reach its socket, with the data of the caller
-/

namespace Verif.Sockets

/-- The table is what the history says. -/
theorem table_holder (e : Env) (cs : List Call) (fd : Nat) (s : Int) : (run e cs).1 fd = some (.socket s) ↔ holder fd (run e cs).2 = some s := by
  induction cs with
  | nil =>
    simp only [run, start, holder]
    split <;> simp
  | cons c cs ih =>
    simp only [run]
    generalize (run e cs).1 = t at ih ⊢
    generalize (run e cs).2 = tr at ih ⊢
    cases c with
    | socket ans =>
      simp only [step, holder, Table.set]
      by_cases h : fd = e.fresh t
      · subst h; simp
      · have : (e.fresh t : Int) ≠ fd := by omega
        simp only [if_neg h, if_neg this]
        exact ih
    | accept f ans =>
      simp only [step]
      cases hf : t f with
      | none => exact ih
      | some en =>
        cases en with
        | file => exact ih
        | socket n =>
          by_cases ha : ans = -1
          · simp only [if_pos ha, holder]
            rw [if_neg (by tauto)]
            exact ih
          · simp only [if_neg ha, holder, Table.set]
            by_cases h : fd = e.fresh t
            · subst h; simp [ha]
            · have : ¬ (ans ≠ -1 ∧ (e.fresh t : Int) = fd) := by omega
              simp only [if_neg h, if_neg this]
              exact ih
    | close f =>
      simp only [step]
      cases hf : t f with
      | none =>
        simp only [holder]
        by_cases h : f = fd
        · subst h; simp [hf]
        · rw [if_neg h]; exact ih
      | some en =>
        cases en with
        | file =>
          simp only [holder, Table.set]
          by_cases h : f = fd
          · subst h; simp
          · rw [if_neg h, if_neg (fun hh => h hh.symm)]; exact ih
        | socket n =>
          simp only [holder, Table.set]
          by_cases h : f = fd
          · subst h; simp
          · rw [if_neg h, if_neg (fun hh => h hh.symm)]; exact ih
    | listen f b ans =>
      simp only [step]
      cases t f with
      | none => exact ih
      | some en => cases en <;> exact ih
    | send k f data ans =>
      simp only [step]
      cases t f with
      | none => exact ih
      | some en =>
        cases en with
        | file => exact ih
        | socket n =>
          simp only
          split <;> exact ih
    | write f data ans =>
      simp only [step]
      cases t f with
      | none => exact ih
      | some en => cases en <;> exact ih
    | read f count ans filled =>
      simp only [step]
      cases t f with
      | none => exact ih
      | some en => cases en <;> exact ih
    | openFile =>
      simp only [step, holder, Table.set]
      by_cases h : fd = e.fresh t
      · subst h; simp
      · have : (e.fresh t : Int) ≠ fd := by omega
        simp only [if_neg h, if_neg this]
        exact ih

/-- The server is called about a socket only for the descriptor that stands for it. -/
theorem only_own_socket (e : Env) (cs : List Call) (c : Call) (q : Asked) (hq : (step e (run e cs).1 c).2.1 = some q) :
    (q.op = .socket ∧ q.sock = none ∧ c.fd = none) ∨ ∃ fd s, c.fd = some fd ∧ q.sock = some s ∧ holder fd (run e cs).2 = some s := by
  have key : ∀ fd s, (run e cs).1 fd = some (.socket s) → holder fd (run e cs).2 = some s := fun fd s => (table_holder e cs fd s).mp
  cases c with
  | socket ans => simp only [step] at hq; cases hq; exact .inl ⟨rfl, rfl, rfl⟩
  | openFile => simp only [step] at hq; cases hq
  | accept f ans =>
    right
    simp only [step] at hq
    cases hf : (run e cs).1 f with
    | none => rw [hf] at hq; cases hq
    | some en =>
      rw [hf] at hq
      cases en with
      | file => cases hq
      | socket n =>
        refine ⟨f, n, rfl, ?_, key f n hf⟩
        simp only at hq
        split at hq <;> cases hq <;> rfl
  | close f =>
    right
    simp only [step] at hq
    cases hf : (run e cs).1 f with
    | none => rw [hf] at hq; cases hq
    | some en =>
      rw [hf] at hq
      cases en with
      | file => cases hq
      | socket n => cases hq; exact ⟨f, n, rfl, rfl, key f n hf⟩
  | listen f b ans =>
    right
    simp only [step] at hq
    cases hf : (run e cs).1 f with
    | none => rw [hf] at hq; cases hq
    | some en =>
      rw [hf] at hq
      cases en with
      | file => cases hq
      | socket n => cases hq; exact ⟨f, n, rfl, rfl, key f n hf⟩
  | send k f data ans =>
    right
    simp only [step] at hq
    cases hf : (run e cs).1 f with
    | none => rw [hf] at hq; cases hq
    | some en =>
      rw [hf] at hq
      cases en with
      | file => cases hq
      | socket n =>
        refine ⟨f, n, rfl, ?_, key f n hf⟩
        simp only at hq
        split at hq <;> cases hq
        rfl
  | write f data ans =>
    right
    simp only [step] at hq
    cases hf : (run e cs).1 f with
    | none => rw [hf] at hq; cases hq
    | some en =>
      rw [hf] at hq
      cases en with
      | file => cases hq
      | socket n => cases hq; exact ⟨f, n, rfl, rfl, key f n hf⟩
  | read f count ans filled =>
    right
    simp only [step] at hq
    cases hf : (run e cs).1 f with
    | none => rw [hf] at hq; cases hq
    | some en =>
      rw [hf] at hq
      cases en with
      | file => cases hq
      | socket n => cases hq; exact ⟨f, n, rfl, rfl, key f n hf⟩

/-- **C68, every call reaches the socket.** After any history, for a descriptor that stands for socket `s`, each
call asks the server about `s`: with the data of the caller (at most a page of it for `write`), and the caller gets
the answer, for `read` with the bytes that the server provided. -/
theorem reaches_socket_partial (e : Env) (cs : List Call) (fd : Nat) (s : Int) (h : holder fd (run e cs).2 = some s) :
    let t := (run e cs).1
    (∀ ans, (step e t (.accept fd ans)).2.1 = some ⟨.accept, some s, 0, []⟩) ∧
    (step e t (.close fd)).2 = (some ⟨.close, some s, 0, []⟩, .ret 0) ∧
    (∀ b ans, (step e t (.listen fd b ans)).2 = (some ⟨.listen, some s, b, []⟩, .ret ans)) ∧
    (∀ k data ans, data.length ≤ e.cap → (step e t (.send k fd data ans)).2 = (some ⟨.send k, some s, data.length, data⟩, .ret ans)) ∧
    (∀ data ans, ∃ n, (step e t (.write fd data ans)).2 = (some ⟨.write, some s, n, data.take n⟩, .ret ans) ∧ n ≤ data.length ∧ n ≤ e.page ∧ (data.length ≤ e.page → n = data.length) ∧ (data.length > e.page → n = e.page)) ∧
    (∀ (count : Nat) (ans : Int) filled, 0 ≤ ans → ans ≤ count → ∃ n, (step e t (.read fd count ans filled)).2 = (some ⟨.read, some s, n, []⟩, .got ans (filled.take ans.toNat)) ∧ n ≤ count ∧ n ≤ e.page ∧ (count ≤ e.page → n = count) ∧ (count > e.page → n = e.page)) := by
  intro t
  have ht : t fd = some (.socket s) := (table_holder e cs fd s).mpr h
  refine ⟨?_, ?_, ?_, ?_, ?_, ?_⟩
  · intro ans
    simp only [step, ht]
    split <;> rfl
  · simp only [step, ht]
  · intro b ans
    simp only [step, ht]
  · intro k data ans hl
    simp only [step, ht, if_pos hl]
  · intro data ans
    simp only [step, ht]
    refine ⟨_, rfl, ?_⟩
    split <;> omega
  · intro count ans filled h1 h2
    have hn : ¬ (ans < 0 ∨ ans > (count : Int)) := by omega
    simp only [step, ht]
    rw [if_neg hn]
    refine ⟨_, rfl, ?_⟩
    split <;> omega

/-- There is always a descriptor that is not in use. -/
theorem free (e : Env) (cs : List Call) : ∃ n, (run e cs).1 n = none := by
  suffices h : ∃ N, ∀ n, N ≤ n → (run e cs).1 n = none by
    obtain ⟨N, hN⟩ := h
    exact ⟨N, hN N (Nat.le_refl _)⟩
  induction cs with
  | nil => exact ⟨3, fun n hn => by simp [run, start]; omega⟩
  | cons c cs ih =>
    obtain ⟨N, hN⟩ := ih
    have hset : ∀ fd en, ∃ N', ∀ n, N' ≤ n → ((run e cs).1.set fd en) n = none := fun fd en =>
      ⟨max N (fd + 1), fun n hn => by
        have h1 : n ≠ fd := by omega
        simp only [Table.set, if_neg h1]
        exact hN n (by omega)⟩
    have hsame : ∃ N', ∀ n, N' ≤ n → (run e cs).1 n = none := ⟨N, hN⟩
    simp only [run]
    cases c with
    | socket ans => exact hset _ _
    | openFile => exact hset _ _
    | accept f ans =>
      simp only [step]
      split
      · split
        · exact hsame
        · exact hset _ _
      · exact hsame
    | close f =>
      simp only [step]
      split
      · exact hset _ _
      · exact hset _ _
      · exact hsame
    | listen f b ans => simp only [step]; split <;> exact hsame
    | send k f data ans =>
      simp only [step]
      split
      · split <;> exact hsame
      · exact hsame
    | write f data ans => simp only [step]; split <;> exact hsame
    | read f count ans filled => simp only [step]; split <;> exact hsame

/-- **C68, new descriptors.** `socket` and `accept` return a descriptor that stood for nothing, and that now stands
for the socket that the server made; all other descriptors stand for what they did. -/
theorem opens_new (e : Env) (hf : e.Fresh) (cs : List Call) (c : Call) (ans : Int) (hc : c = .socket ans ∨ ∃ fd s, c = .accept fd ans ∧ ans ≠ -1 ∧ holder fd (run e cs).2 = some s) :
    ∃ n : Nat, (step e (run e cs).1 c).2.2 = .ret n ∧ (run e cs).1 n = none ∧ holder n (run e (c :: cs)).2 = some ans ∧
      ∀ fd, fd ≠ n → holder fd (run e (c :: cs)).2 = holder fd (run e cs).2 := by
  have hhold : ∀ (c' : Call), (step e (run e cs).1 c').1 = (run e cs).1.set (e.fresh (run e cs).1) (some (.socket ans)) →
      holder (e.fresh (run e cs).1) (run e (c' :: cs)).2 = some ans ∧ ∀ fd, fd ≠ e.fresh (run e cs).1 → holder fd (run e (c' :: cs)).2 = holder fd (run e cs).2 := by
    intro c' hst
    have htab : (run e (c' :: cs)).1 = (run e cs).1.set (e.fresh (run e cs).1) (some (.socket ans)) := hst
    refine ⟨(table_holder e (c' :: cs) _ ans).mp (by rw [htab]; simp [Table.set]), fun fd hne => ?_⟩
    apply Option.ext
    intro s
    rw [← table_holder e (c' :: cs) fd s, ← table_holder e cs fd s, htab]
    simp [Table.set, hne]
  rcases hc with rfl | ⟨fd, s, rfl, ha, hh⟩
  · exact ⟨e.fresh (run e cs).1, rfl, hf _ (free e cs), hhold _ rfl⟩
  · have ht := (table_holder e cs fd s).mpr hh
    refine ⟨e.fresh (run e cs).1, ?_, hf _ (free e cs), hhold _ ?_⟩
    · simp only [step, ht, if_neg ha]
    · simp only [step, ht, if_neg ha]

/-- **C68, after close.** The descriptor stands for nothing, the others for what they did. -/
theorem closes (e : Env) (cs : List Call) (fd : Nat) : holder fd (run e (.close fd :: cs)).2 = none ∧
    ∀ fd', fd' ≠ fd → holder fd' (run e (.close fd :: cs)).2 = holder fd' (run e cs).2 := by
  refine ⟨by simp [run, holder], fun fd' hne => ?_⟩
  simp only [run, holder]
  rw [if_neg (fun h => hne h.symm)]

/-! ## What is missing -/

/-- **Disagreement with C68.** A `read` that fails in the server makes the component copy a huge number of bytes. -/
theorem read_error_faults (e : Env) (cs : List Call) (fd : Nat) (s : Int) (h : holder fd (run e cs).2 = some s) (count : Nat) (ans : Int) (ha : ans < 0) (filled : List Nat) :
    (step e (run e cs).1 (.read fd count ans filled)).2.2 = .fault := by
  have ht := (table_holder e cs fd s).mpr h
  simp only [step, ht]
  rw [if_pos (.inl ha)]

/-- **Disagreement with C68.** When the server cannot make a socket, the caller still gets a descriptor; it stands
for the error code. -/
theorem socket_error_hidden (e : Env) (cs : List Call) (err : Int) : ∃ n : Nat, (step e (run e cs).1 (.socket err)).2.2 = .ret n ∧ holder n (run e (.socket err :: cs)).2 = some err :=
  ⟨_, rfl, by simp [run, step, holder]⟩

/-- **Disagreement with C68.** An address that is longer than the shared memory is written beyond it. -/
theorem long_address_faults (e : Env) (cs : List Call) (fd : Nat) (s : Int) (h : holder fd (run e cs).2 = some s) (k : Kind) (data : List Nat) (hl : e.cap < data.length) (ans : Int) :
    (step e (run e cs).1 (.send k fd data ans)).2.2 = .fault := by
  have ht := (table_holder e cs fd s).mpr h
  simp only [step, ht]
  rw [if_neg (by omega)]

/-- **Disagreement with C68.** `bind`, `connect`, `setsockopt`, `listen` and `accept` on a descriptor that is not a
socket use memory that is not a socket number. -/
theorem not_socket_faults (e : Env) (cs : List Call) (fd : Nat) (h : holder fd (run e cs).2 = none) (k : Kind) (data : List Nat) (b : Nat) (ans : Int) :
    (step e (run e cs).1 (.send k fd data ans)).2.2 = .fault ∧ (step e (run e cs).1 (.listen fd b ans)).2.2 = .fault ∧ (step e (run e cs).1 (.accept fd ans)).2.2 = .fault := by
  have ht : ∀ s, (run e cs).1 fd ≠ some (.socket s) := fun s hh => by rw [(table_holder e cs fd s).mp hh] at h; cases h
  simp only [step]
  cases hf : (run e cs).1 fd with
  | none => simp
  | some en =>
    cases en with
    | file => simp
    | socket n => exact absurd hf (ht n)

/-- **Disagreement with C68.** Without an original `write`, an error is returned as a positive number, that is, as a
number of bytes that have been written. -/
theorem write_error_positive (errno : Int) (h : 0 < errno) : 0 < writeFile none (-1) errno := h

/-! ## The hypotheses can be met -/

/-- Descriptors from 3 on, below 100 as many as are needed. -/
def demo : Env := ⟨4096, 4096, fun t => (((List.range 100).filter fun i => decide (3 ≤ i) && (t i).isNone).head?).getD 200⟩

/-- Two sockets, one is closed and its descriptor used again. -/
def history : List Call := [.socket 17, .close 3, .socket 8, .socket 7]

example : holder 3 (run demo history).2 = some 17 ∧ holder 4 (run demo history).2 = some 8 ∧ holder 5 (run demo history).2 = none := by decide

example : (step demo (run demo history).1 (.send .bind 3 [1, 2] 0)).2 = (some ⟨.send .bind, some 17, 2, [1, 2]⟩, .ret 0) := by decide

example : (step demo (run demo history).1 (.read 4 10 2 [5, 6, 7])).2 = (some ⟨.read, some 8, 10, []⟩, .got 2 [5, 6]) := by decide

/-- There is a choice of descriptors that is always fresh. -/
example : ∃ e : Env, e.Fresh := by
  classical
  exact ⟨⟨4096, 4096, fun t => if h : ∃ n, t n = none then h.choose else 0⟩, fun t h => by simp only [dif_pos h]; exact h.choose_spec⟩

end Verif.Sockets
