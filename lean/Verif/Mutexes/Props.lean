import Verif.Mutexes.Spec
import Verif.CapAlloc.Props

/-!
# C72: every mutex has a notification of its own

`own_notification`, `new_exact`, `failed_harmless` and `free_ok`, after every history in which no capability is provided
twice.
-/

namespace Verif.Mutexes

open Verif.CapAlloc

theorem capRun_append : ∀ (cs ds : List CapAlloc.Call) (pool : List Node) (es : List CapAlloc.Event) (p' : List Node) (e' : List CapAlloc.Event), run pool es cs = some (p', e') →
    run pool es (cs ++ ds) = run p' e' ds := by
  intro cs
  induction cs with
  | nil => intro ds pool es p' e' h; simp only [run, Option.some.injEq, Prod.mk.injEq] at h; rw [← h.1, ← h.2]; rfl
  | cons c cs ih =>
    intro ds pool es p' e' h
    simp only [run, List.cons_append] at h ⊢
    cases hs : CapAlloc.step pool c with
    | none => rw [hs] at h; cases h
    | some r => rw [hs] at h; exact ih ds _ _ _ _ h

/-- The pool is what the allocator makes of its calls. -/
def PoolOk (s : Sys) (es : List Event) : Prop := ∃ cs, run [] [] cs = some (s.pool, capEvents es)

/-- The invariant of the mutexes, given that capabilities are provided once. -/
structure LiveOk (s : Sys) (es : List Event) : Prop where
  has : ∀ a k, (a, k) ∈ s.live ↔ HasMutex es a k
  addrs : (s.live.map (·.1)).Nodup
  caps : (s.live.map (·.2)).Nodup
  out : ∀ x ∈ s.live, HandedOut (capEvents es) x.2

theorem pool_snoc {s : Sys} {es : List Event} (h : PoolOk s es) (c : CapAlloc.Call) {pool : List Node} {e : CapAlloc.Event} (hs : CapAlloc.step s.pool c = some (pool, e)) :
    ∃ cs, run [] [] cs = some (pool, e :: capEvents es) := by
  obtain ⟨cs, h⟩ := h
  refine ⟨cs ++ [c], ?_⟩
  rw [capRun_append cs [c] [] [] _ _ h]
  simp [run, hs]

theorem step_free {pool pool' : List Node} {p : Nat} (h : free pool p = some pool') : CapAlloc.step pool (.free p) = some (pool', .freed p) := by
  simp [CapAlloc.step, h]

theorem step_alloc (pool : List Node) (t z f : Nat) : CapAlloc.step pool (.alloc t z f) = some ((alloc pool t z f).1, .allocated t z f (alloc pool t z f).2) := rfl

/-- The cases of `newMutex`. -/
theorem new_cases {ntfn rw : Nat} {s s' : Sys} {mem : Option Nat} {good : Bool} {new : List Event} (h : newMutex ntfn rw s mem good = some (s', new)) :
    ((alloc s.pool ntfn 0 rw).2 = 0 ∧ s' = { s with pool := (alloc s.pool ntfn 0 rw).1 } ∧ new = [.failed, .cap (.allocated ntfn 0 rw 0)]) ∨
    ((alloc s.pool ntfn 0 rw).2 ≠ 0 ∧ (mem = none ∨ good = false) ∧ ∃ pool, free (alloc s.pool ntfn 0 rw).1 (alloc s.pool ntfn 0 rw).2 = some pool ∧ s' = { s with pool := pool } ∧
      new = [.failed, .cap (.freed (alloc s.pool ntfn 0 rw).2), .cap (.allocated ntfn 0 rw (alloc s.pool ntfn 0 rw).2)]) ∨
    (∃ a, (alloc s.pool ntfn 0 rw).2 ≠ 0 ∧ mem = some a ∧ good = true ∧ s' = ⟨(alloc s.pool ntfn 0 rw).1, (a, (alloc s.pool ntfn 0 rw).2) :: s.live⟩ ∧
      new = [.made a (alloc s.pool ntfn 0 rw).2, .cap (.allocated ntfn 0 rw (alloc s.pool ntfn 0 rw).2)]) := by
  unfold newMutex at h
  simp only at h
  by_cases h0 : (alloc s.pool ntfn 0 rw).2 = 0
  · rw [if_pos h0] at h
    simp only [Option.some.injEq, Prod.mk.injEq] at h
    exact .inl ⟨h0, h.1.symm, h.2.symm⟩
  · rw [if_neg h0] at h
    refine .inr ?_
    cases mem with
    | none =>
      simp only [Option.map_eq_some_iff, Prod.mk.injEq] at h
      obtain ⟨pool, h1, h2, h3⟩ := h
      exact .inl ⟨h0, .inl rfl, pool, h1, h2.symm, h3.symm⟩
    | some a =>
      cases good with
      | true =>
        simp only [if_true, Option.some.injEq, Prod.mk.injEq] at h
        exact .inr ⟨a, h0, rfl, rfl, h.1.symm, h.2.symm⟩
      | false =>
        simp only [Bool.false_eq_true, if_false, Option.map_eq_some_iff, Prod.mk.injEq] at h
        obtain ⟨pool, h1, h2, h3⟩ := h
        exact .inl ⟨h0, .inr rfl, pool, h1, h2.symm, h3.symm⟩

theorem find_addr {l : List (Nat × Nat)} {a : Nat} {x : Nat × Nat} (h : l.find? (fun y => y.1 = a) = some x) : x ∈ l ∧ x.1 = a :=
  ⟨List.mem_of_find?_eq_some h, by simpa using List.find?_some h⟩

theorem addr_unique {l : List (Nat × Nat)} (h : (l.map (·.1)).Nodup) {x y : Nat × Nat} (hx : x ∈ l) (hy : y ∈ l) (e : x.1 = y.1) : x = y := by
  induction l with
  | nil => cases hx
  | cons z l ih =>
    simp only [List.map_cons, List.nodup_cons, List.mem_map, not_exists, not_and] at h
    simp only [List.mem_cons] at hx hy
    rcases hx with rfl | hx <;> rcases hy with rfl | hy
    · rfl
    · exact absurd e.symm (h.1 y hy)
    · exact absurd e (h.1 x hx)
    · exact ih h.2 hx hy

theorem cap_unique {l : List (Nat × Nat)} (h : (l.map (·.2)).Nodup) {x y : Nat × Nat} (hx : x ∈ l) (hy : y ∈ l) (e : x.2 = y.2) : x = y := by
  induction l with
  | nil => cases hx
  | cons z l ih =>
    simp only [List.map_cons, List.nodup_cons, List.mem_map, not_exists, not_and] at h
    simp only [List.mem_cons] at hx hy
    rcases hx with rfl | hx <;> rcases hy with rfl | hy
    · rfl
    · exact absurd e.symm (h.1 y hy)
    · exact absurd e (h.1 x hx)
    · exact ih h.2 hx hy

theorem reach_pool {ntfn rw : Nat} {s : Sys} {es : List Event} (h : Reach ntfn rw s es) : PoolOk s es := by
  induction h with
  | start => exact ⟨[], rfl⟩
  | @call s es c s' new hr hl hs ih =>
    cases c with
    | other c =>
      simp only [step, Option.map_eq_some_iff, Prod.mk.injEq] at hs
      obtain ⟨r, h1, rfl, rfl⟩ := hs
      exact pool_snoc ih c h1
    | newMutex mem good =>
      rcases new_cases hs with ⟨h0, rfl, rfl⟩ | ⟨h0, _, pool, h1, rfl, rfl⟩ | ⟨a, h0, _, _, rfl, rfl⟩
      · have := pool_snoc ih (.alloc ntfn 0 rw) (step_alloc _ _ _ _)
        rw [h0] at this
        exact this
      · obtain ⟨cs, h2⟩ := pool_snoc ih (.alloc ntfn 0 rw) (step_alloc _ _ _ _)
        exact pool_snoc (s := ⟨(alloc s.pool ntfn 0 rw).1, []⟩) (es := .cap (.allocated ntfn 0 rw (alloc s.pool ntfn 0 rw).2) :: es) ⟨cs, h2⟩ (.free _) (step_free h1)
      · exact pool_snoc ih (.alloc ntfn 0 rw) (step_alloc _ _ _ _)
    | freeMutex addr =>
      simp only [step, freeMutex] at hs
      split at hs
      · cases hs
      · simp only [Option.map_eq_some_iff, Prod.mk.injEq] at hs
        obtain ⟨pool, h1, rfl, rfl⟩ := hs
        exact pool_snoc ih (.free _) (step_free h1)

theorem once_cap {e : CapAlloc.Event} {es : List CapAlloc.Event} (h : ProvidedOnce (e :: es)) : ProvidedOnce es := once_tail h

theorem handed_other {es : List CapAlloc.Event} {p : Nat} (c : CapAlloc.Call) {pool pool' : List Node} {e : CapAlloc.Event} (hs : CapAlloc.step pool c = some (pool', e))
    (hp : ∀ q, c = .free q → q ≠ p) (h : HandedOut es p) : HandedOut (e :: es) p := by
  cases c with
  | provide memory t q z a =>
    simp only [CapAlloc.step, Option.some.injEq, Prod.mk.injEq] at hs
    rw [← hs.2]
    split <;> exact h
  | alloc t z f =>
    simp only [CapAlloc.step, Option.some.injEq, Prod.mk.injEq] at hs
    rw [← hs.2]
    exact .inr h
  | free q =>
    simp only [CapAlloc.step, Option.map_eq_some_iff, Prod.mk.injEq] at hs
    obtain ⟨_, _, _, rfl⟩ := hs
    exact ⟨hp q rfl, h⟩

theorem reach_live {ntfn rw : Nat} {s : Sys} {es : List Event} (h : Reach ntfn rw s es) : ProvidedOnce (capEvents es) → LiveOk s es := by
  induction h with
  | start => intro _; exact ⟨by simp [HasMutex], by simp, by simp, by simp⟩
  | @call s es c s' new hr hl hs ih =>
    intro hone
    obtain ⟨cs, hcs⟩ := reach_pool hr
    cases c with
    | other c =>
      simp only [step, Option.map_eq_some_iff, Prod.mk.injEq] at hs
      obtain ⟨r, h1, rfl, rfl⟩ := hs
      have hi := ih (once_tail hone)
      refine ⟨hi.has, hi.addrs, hi.caps, fun x hx => ?_⟩
      refine handed_other c (e := r.2) h1 ?_ (hi.out x hx)
      rintro q rfl
      exact fun e => hl x hx e.symm
    | newMutex mem good =>
      rcases new_cases hs with ⟨h0, rfl, rfl⟩ | ⟨h0, _, pool, h1, rfl, rfl⟩ | ⟨a, h0, hm, _, rfl, rfl⟩
      · have hi := ih (once_tail hone)
        exact ⟨hi.has, hi.addrs, hi.caps, fun x hx => .inr (hi.out x hx)⟩
      · have hi := ih (once_tail (once_tail hone))
        have hfresh := ((alloc_correct cs s.pool _ hcs (once_tail (once_tail hone)) ntfn 0 rw).1 h0).2
        refine ⟨hi.has, hi.addrs, hi.caps, fun x hx => ⟨?_, .inr (hi.out x hx)⟩⟩
        intro e
        exact hfresh (e ▸ hi.out x hx)
      · have hi := ih (once_tail hone)
        have hfresh := ((alloc_correct cs s.pool _ hcs (once_tail hone) ntfn 0 rw).1 h0).2
        refine ⟨?_, ?_, ?_, ?_⟩
        · intro b k
          show (b, k) ∈ (a, (alloc s.pool ntfn 0 rw).2) :: s.live ↔ (a = b ∧ _ = k) ∨ HasMutex es b k
          rw [List.mem_cons, hi.has, Prod.mk.injEq]
          exact or_congr_left ⟨fun h => ⟨h.1.symm, h.2.symm⟩, fun h => ⟨h.1.symm, h.2.symm⟩⟩
        · simp only [List.map_cons, List.nodup_cons, List.mem_map, not_exists, not_and]
          exact ⟨fun x hx e => hl a (by rw [hm]; rfl) x hx e, hi.addrs⟩
        · simp only [List.map_cons, List.nodup_cons, List.mem_map, not_exists, not_and]
          exact ⟨fun x hx e => hfresh (e ▸ hi.out x hx), hi.caps⟩
        · intro x hx
          rcases List.mem_cons.mp hx with rfl | hx
          · exact .inl ⟨rfl, h0⟩
          · exact .inr (hi.out x hx)
    | freeMutex addr =>
      simp only [step, freeMutex] at hs
      split at hs
      · cases hs
      · rename_i x hx
        simp only [Option.map_eq_some_iff, Prod.mk.injEq] at hs
        obtain ⟨pool, h1, rfl, rfl⟩ := hs
        obtain ⟨hxl, hxa⟩ := find_addr hx
        have hi := ih (once_tail hone)
        refine ⟨?_, ?_, ?_, ?_⟩
        · intro b k
          show (b, k) ∈ s.live.filter _ ↔ ¬ (addr = b ∧ x.2 = k) ∧ HasMutex es b k
          rw [List.mem_filter, hi.has, and_comm]
          refine and_congr_left fun hb => ?_
          rw [← hi.has] at hb
          simp only [Bool.not_eq_eq_eq_not, Bool.not_true, decide_eq_false_iff_not]
          constructor
          · rintro hne ⟨rfl, _⟩; exact hne rfl
          · rintro hne rfl
            have := addr_unique hi.addrs hxl hb hxa
            exact hne ⟨rfl, by rw [this]⟩
        · exact hi.addrs.sublist ((List.filter_sublist).map _)
        · exact hi.caps.sublist ((List.filter_sublist).map _)
        · intro y hy
          obtain ⟨hyl, hya⟩ := List.mem_filter.mp hy
          refine ⟨?_, hi.out y hyl⟩
          intro e
          have := cap_unique hi.caps hxl hyl e
          rw [← this, hxa] at hya
          simp at hya

/-- **C72.** After every history, two mutexes that exist at different addresses have different notifications, and each of these is
handed out, so that nobody else gets it from the allocator. -/
theorem own_notification {ntfn rw : Nat} {s : Sys} {es : List Event} (h : Reach ntfn rw s es) (hone : ProvidedOnce (capEvents es)) :
    (∀ a b k, HasMutex es a k → HasMutex es b k → a = b) ∧ (∀ a k, HasMutex es a k → HandedOut (capEvents es) k) ∧
    (∀ a k l, HasMutex es a k → HasMutex es a l → k = l) := by
  have hi := reach_live h hone
  refine ⟨fun a b k h1 h2 => ?_, fun a k h1 => hi.out (a, k) ((hi.has a k).mpr h1), fun a k l h1 h2 => ?_⟩
  · have := cap_unique hi.caps ((hi.has a k).mpr h1) ((hi.has b k).mpr h2) rfl
    exact congrArg Prod.fst this
  · have := addr_unique hi.addrs ((hi.has a k).mpr h1) ((hi.has a l).mpr h2) rfl
    exact congrArg Prod.snd this

/-- Taking a capability and giving it back changes nothing. -/
theorem alloc_free {pool : List Node} (hnd : (pool.map (·.ptr)).Nodup) (t z f : Nat) (h0 : (alloc pool t z f).2 ≠ 0) :
    free (alloc pool t z f).1 (alloc pool t z f).2 = some pool := by
  rcases alloc_spec pool t z f with ⟨_, h⟩ | ⟨a, n, b, hp, hsuit, hfirst, h⟩
  · rw [h] at h0; exact absurd rfl h0
  · rw [h]
    have hn : ∀ x ∈ a, x.ptr ≠ n.ptr := by
      intro x hx e
      rw [hp, List.map_append, List.nodup_append] at hnd
      exact hnd.2.2 _ (List.mem_map_of_mem hx) _ (by simp) e
    rcases free_spec (a ++ { n with used := true } :: b) n.ptr with ⟨hno, _⟩ | ⟨a', n', b', hp', hn', ha', hf⟩
    · exact absurd rfl (hno { n with used := true } (by simp))
    · have hsplit : a' = a ∧ n' = { n with used := true } ∧ b' = b := by
        clear hf h h0 hp hnd hfirst
        induction a generalizing a' with
        | nil =>
          cases a' with
          | nil =>
            simp only [List.nil_append, List.cons.injEq] at hp'
            exact ⟨rfl, hp'.1.symm, hp'.2.symm⟩
          | cons y a' =>
            simp only [List.nil_append, List.cons_append, List.cons.injEq] at hp'
            exact absurd (by rw [← hp'.1]) (ha' y (by simp))
        | cons x a iha =>
          cases a' with
          | nil =>
            simp only [List.nil_append, List.cons_append, List.cons.injEq] at hp'
            exact absurd (by rw [hp'.1]; exact hn') (hn x (by simp))
          | cons y a' =>
            simp only [List.cons_append, List.cons.injEq] at hp'
            obtain ⟨e1, e2, e3⟩ := iha (fun m hm => hn m (by simp [hm])) a' hp'.2 (fun m hm => ha' m (by simp [hm]))
            exact ⟨by rw [e1, hp'.1], e2, e3⟩
      obtain ⟨rfl, rfl, rfl⟩ := hsplit
      rw [hf, if_pos rfl, hp]
      have hu : n.used = false := hsuit.2.1
      congr 3
      cases n
      simp_all

/-- **C72, success.** Making a mutex never aborts; it succeeds exactly if `calloc` and `sync_mutex_init` do and there is a notification with these rights that
nobody has; then the mutex has such a notification. -/
theorem new_exact {ntfn rw : Nat} {s : Sys} {es : List Event} (h : Reach ntfn rw s es) (hone : ProvidedOnce (capEvents es)) (mem : Option Nat) (good : Bool) :
    ∃ s' new, step ntfn rw s (.newMutex mem good) = some (s', new) ∧
      ((∃ a k, Event.made a k ∈ new) ↔ mem.isSome ∧ good = true ∧ ∃ p, Fits (capEvents es) p ntfn 0 rw ∧ ¬ HandedOut (capEvents es) p) ∧
      (∀ a k, Event.made a k ∈ new → mem = some a ∧ Fits (capEvents es) k ntfn 0 rw ∧ ¬ HandedOut (capEvents es) k) ∧
      (Event.failed ∈ new ↔ ¬ ∃ a k, Event.made a k ∈ new) := by
  obtain ⟨cs, hcs⟩ := reach_pool h
  obtain ⟨c1, c2⟩ := alloc_correct cs s.pool _ hcs hone ntfn 0 rw
  have hag := run_agrees cs [] s.pool [] _ agrees_nil hcs hone
  have hnd : (s.pool.map (·.ptr)).Nodup := by rw [hag.1]; exact hone.1
  have hok : (newMutex ntfn rw s mem good).isSome := by
    unfold newMutex
    simp only
    split
    · rfl
    · rename_i h0
      have := alloc_free hnd ntfn 0 rw h0
      cases mem with
      | none => simp [this]
      | some a => cases good <;> simp [this]
  obtain ⟨⟨s', new⟩, hs⟩ := Option.isSome_iff_exists.mp hok
  refine ⟨s', new, hs, ?_⟩
  rcases new_cases hs with ⟨h0, _, rfl⟩ | ⟨h0, hbad, _, _, _, rfl⟩ | ⟨a, h0, rfl, rfl, _, rfl⟩
  · refine ⟨?_, by simp, by simp⟩
    simp only [List.mem_cons, reduceCtorEq, List.not_mem_nil, or_false, exists_false, false_iff]
    rintro ⟨_, _, p, hp, hno⟩
    exact hno (c2 h0 p hp)
  · refine ⟨?_, by simp, by simp⟩
    simp only [List.mem_cons, reduceCtorEq, List.not_mem_nil, or_false, exists_false, false_iff]
    rintro ⟨hm, hg, _⟩
    rcases hbad with rfl | hb
    · cases hm
    · rw [hb] at hg; cases hg
  · refine ⟨?_, ?_, by simp⟩
    · simp only [List.mem_cons, Event.made.injEq, reduceCtorEq, List.not_mem_nil, or_false]
      exact ⟨fun _ => ⟨rfl, trivial, _, c1 h0⟩, fun _ => ⟨a, _, rfl, rfl⟩⟩
    · intro b k hb
      simp only [List.mem_cons, Event.made.injEq, reduceCtorEq, List.not_mem_nil, or_false] at hb
      obtain ⟨rfl, rfl⟩ := hb
      exact ⟨rfl, c1 h0⟩

/-- **C72, failure.** If making a mutex fails, whoever has a capability is the same as before, and so is every later answer of the
allocator: the pool is the same. -/
theorem failed_harmless {ntfn rw : Nat} {s s' : Sys} {es new : List Event} (h : Reach ntfn rw s es) (hone : ProvidedOnce (capEvents es)) {mem : Option Nat} {good : Bool}
    (hs : step ntfn rw s (.newMutex mem good) = some (s', new)) (hf : Event.failed ∈ new) : s' = s ∧ ∀ p, HandedOut (capEvents (new ++ es)) p ↔ HandedOut (capEvents es) p := by
  obtain ⟨cs, hcs⟩ := reach_pool h
  obtain ⟨c1, c2⟩ := alloc_correct cs s.pool _ hcs hone ntfn 0 rw
  have hag := run_agrees cs [] s.pool [] _ agrees_nil hcs hone
  have hnd : (s.pool.map (·.ptr)).Nodup := by rw [hag.1]; exact hone.1
  rcases new_cases hs with ⟨h0, rfl, rfl⟩ | ⟨h0, _, pool, h1, rfl, rfl⟩ | ⟨a, h0, _, _, _, rfl⟩
  · rcases alloc_spec s.pool ntfn 0 rw with ⟨_, h⟩ | ⟨a, n, b, hp, _, _, h⟩
    · refine ⟨by rw [h], fun p => ?_⟩
      show (0 = p ∧ p ≠ 0) ∨ _ ↔ _
      constructor
      · rintro (⟨rfl, h⟩ | h)
        · exact absurd rfl h
        · exact h
      · exact .inr
    · rw [h] at h0
      exact absurd h0 (by
        intro e
        have : n.ptr ∈ s.pool.map (·.ptr) := by rw [hp]; simp
        rw [hag.1, show n.ptr = 0 from e] at this
        exact hone.2 this)
  · rw [alloc_free hnd ntfn 0 rw h0] at h1
    refine ⟨by rw [← Option.some.inj h1], fun p => ?_⟩
    show _ ≠ p ∧ ((_ = p ∧ p ≠ 0) ∨ HandedOut (capEvents es) p) ↔ _
    constructor
    · rintro ⟨hne, h | h⟩
      · exact absurd h.1 hne
      · exact h
    · intro hp
      refine ⟨?_, .inr hp⟩
      rintro rfl
      exact (c1 h0).2 hp
  · simp at hf

/-- **C72, freeing.** Freeing a mutex that exists never aborts; afterwards its notification is not handed out, and every other mutex is still
there. -/
theorem free_ok {ntfn rw : Nat} {s : Sys} {es : List Event} (h : Reach ntfn rw s es) (hone : ProvidedOnce (capEvents es)) {addr k : Nat} (hm : HasMutex es addr k) :
    ∃ s' new, step ntfn rw s (.freeMutex addr) = some (s', new) ∧ ¬ HandedOut (capEvents (new ++ es)) k ∧ ∀ b l, HasMutex (new ++ es) b l ↔ b ≠ addr ∧ HasMutex es b l := by
  have hi := reach_live h hone
  obtain ⟨cs, hcs⟩ := reach_pool h
  have hin := (hi.has addr k).mpr hm
  have hfind : s.live.find? (fun x => x.1 = addr) = some (addr, k) := by
    cases hf : s.live.find? (fun x => x.1 = addr) with
    | none => have := List.find?_eq_none.mp hf (addr, k) hin; simp at this
    | some x =>
      obtain ⟨h1, h2⟩ := find_addr hf
      rw [addr_unique hi.addrs h1 hin h2]
  obtain ⟨pool, hp⟩ := Option.isSome_iff_exists.mp ((free_correct cs s.pool _ hcs hone k).mpr (hi.out _ hin))
  refine ⟨_, _, by simp only [step, freeMutex, hfind, hp, Option.map_some]; rfl, ?_, ?_⟩
  · show ¬ (k ≠ k ∧ _)
    exact fun h => h.1 rfl
  · intro b l
    show ¬ (addr = b ∧ k = l) ∧ HasMutex es b l ↔ _
    refine and_congr_left fun hb => ?_
    constructor
    · rintro hne rfl
      exact hne ⟨rfl, by have := addr_unique hi.addrs hin ((hi.has _ _).mpr hb) rfl; exact congrArg Prod.snd this⟩
    · rintro hne ⟨rfl, _⟩; exact hne rfl

/-! ### A concrete case -/

/-- Two notifications; two mutexes, a third one fails, one is freed and another one is made with its notification. -/
def demo : List Event := [.made 30 8, .cap (.allocated 3 0 3 8), .freed 10 8, .cap (.freed 8), .failed, .cap (.allocated 3 0 3 0),
  .made 20 7, .cap (.allocated 3 0 3 7), .made 10 8, .cap (.allocated 3 0 3 8), .cap (.provided 3 8 12 3), .cap (.provided 3 7 12 3)]

example : ∃ s, Reach 3 3 s demo ∧ ProvidedOnce (capEvents demo) ∧ HasMutex demo 30 8 ∧ HasMutex demo 20 7 := by
  have r1 := Reach.call (.other (.provide true 3 7 12 3)) (Reach.start (ntfn := 3) (rw := 3)) trivial rfl
  have r2 := Reach.call (.other (.provide true 3 8 12 3)) r1 trivial rfl
  have r3 := Reach.call (.newMutex (some 10) true) r2 (by simp [Legal]) rfl
  have r4 := Reach.call (.newMutex (some 20) true) r3 (by simp [Legal]) rfl
  have r5 := Reach.call (.newMutex (some 40) true) r4 (by simp [Legal]) rfl
  have r6 := Reach.call (.freeMutex 10) r5 (by simp [Legal]) rfl
  have r7 := Reach.call (.newMutex (some 30) true) r6 (by simp [Legal]) rfl
  exact ⟨_, r7, by simp [ProvidedOnce, capEvents, demo, providedPtrs], by simp [HasMutex, demo], by simp [HasMutex, demo]⟩

end Verif.Mutexes
