import Verif.Pools.Lemmas

/-!
# The objects of a component (C91, C92)
-/

namespace Verif.Pools

theorem forall₂_map_left {α β γ : Type} {R : β → γ → Prop} {f : α → β} {l : List α} {m : List γ} (h : List.Forall₂ R (l.map f) m) :
    List.Forall₂ (fun a c => R (f a) c) l m := by
  simpa using h

theorem forall₂_mem {α β : Type} {R S : α → β → Prop} {l : List α} {m : List β} (h : List.Forall₂ R l m)
    (hi : ∀ a ∈ l, ∀ b, R a b → S a b) : List.Forall₂ S l m := by
  induction h with
  | nil => exact .nil
  | cons h1 _ ih => exact .cons (hi _ (by simp) _ h1) (ih (fun a ha => hi a (by simp [ha])))

theorem pyInt_aux : ∀ (t : Text) (n : Nat), t.foldl (fun n c => 10 * n + (c.toNat - '0'.toNat)) n = n * 10 ^ t.length + number t := by
  intro t
  induction t with
  | nil => intro n; simp [number]
  | cons c t ih =>
    intro n
    have h48 : '0'.toNat = 48 := rfl
    rw [List.foldl_cons, ih, number, List.length_cons, Nat.pow_succ, h48, Nat.add_mul]
    rw [Nat.mul_comm 10 n, Nat.mul_assoc, Nat.mul_comm 10 (10 ^ t.length), Nat.add_assoc]

theorem pyInt_eq (t : Text) : pyInt t = number t := by
  rw [pyInt, pyInt_aux]; simp

/-- The size of an untyped object. -/
def bitsOf : Kind → Nat
  | .untyped b => b
  | _ => 0

/-- C91 (partial): every mutex, semaphore and binary semaphore of a component has a kernel object of its own of the
right type, and so have the members of its pools and the endpoints of its start; threads of the pool are not
started and belong to the domain that is configured; all the capabilities are new. Missing is the case that a declared name is one that the
template uses (`semaphore_shared`, `mutex_shared`). -/
theorem own_objects_partial {sp : Space} (hsp : sp.Good) {c : Config} (hc : Sensible c) {s : State} (hs : Before s c) {T : State} {g : Gen}
    (h : gen sp c s = .ok (T, g)) :
    (allSlots g).Nodup ∧ (∀ x ∈ allSlots g, x ∉ s.used ∧ x ≠ 0) ∧ OneEach T ∧
    List.Forall₂ (fun n x => Has T x n .notification) c.mutexes g.mutexes ∧
    List.Forall₂ (fun n x => Has T x n .endpoint) c.semaphores g.semaphores ∧
    List.Forall₂ (fun n x => Has T x n .notification) c.binaries g.binaries ∧
    List.Forall₂ (fun i x => ∃ e ∈ T.named, e.slot = x ∧ e.kind = .tcb ∧ e.resume = false ∧ e.domain = c.domains.bind (·[i]?))
      (List.range c.tcbs) g.tcbs ∧
    List.Forall₂ (fun _ x => ∃ n, Has T x n .endpoint) (List.range c.eps) g.eps ∧
    List.Forall₂ (fun _ x => ∃ n, Has T x n .notification) (List.range c.notifications) g.notifications ∧
    List.Forall₂ (fun b x => ∃ n, Has T x n (.untyped b)) (untypedBits c) g.untypeds ∧
    g.start.length = 3 ∧ ∀ x ∈ g.start, ∃ n, Has T x n .endpoint := by
  obtain ⟨k1, k2, k3, _, _, m2, m3, m4, m5, m6, m7, m8, m9⟩ := gen_spec hsp hc hs h
  refine ⟨k1, k2, k3, ?_, ?_, ?_, ?_, ?_, ?_, ?_, ?_, ?_⟩
  · exact (forall₂_map_left m2).imp (fun n x hx => ⟨_, hx, rfl, rfl, rfl⟩)
  · exact (forall₂_map_left m3).imp (fun n x hx => ⟨_, hx, rfl, rfl, rfl⟩)
  · exact (forall₂_map_left m4).imp (fun n x hx => ⟨_, hx, rfl, rfl, rfl⟩)
  · refine (forall₂_map_left m5).imp (fun n x hx => ⟨_, hx, rfl, rfl, rfl, rfl⟩)
  · exact (forall₂_map_left m6).imp (fun n x hx => ⟨_, _, hx, rfl, rfl, rfl⟩)
  · exact (forall₂_map_left m7).imp (fun n x hx => ⟨_, _, hx, rfl, rfl, rfl⟩)
  · have e : untypedBits c = (untypedReqs c).map (fun r => bitsOf r.kind) := by
      simp only [untypedBits, untypedReqs, List.map_flatMap, List.map_map, Function.comp_def, bitsOf, pyInt_eq, List.map_const',
        List.length_range]
    rw [e, List.forall₂_map_left_iff]
    refine forall₂_mem m8 (fun r hr x hx => ?_)
    obtain ⟨u, _, hr⟩ := List.mem_flatMap.mp hr
    obtain ⟨i, _, rfl⟩ := List.mem_map.mp hr
    exact ⟨_, _, hx, rfl, rfl, rfl⟩
  · exact (gen_parts h).2.2.2.2.2.2.2.2
  · intro x hx
    have : ∀ {rs : List Req} {xs : List Nat}, List.Forall₂ (fun r x => entryOf r x ∈ T.named) rs xs → ∀ x ∈ xs, ∃ r ∈ rs, entryOf r x ∈ T.named := by
      intro rs xs hf
      induction hf with
      | nil => simp
      | cons h1 _ ih =>
        intro x hx
        rcases List.mem_cons.mp hx with rfl | hx
        · exact ⟨_, by simp, h1⟩
        · obtain ⟨r, hr, h⟩ := ih x hx
          exact ⟨r, by simp [hr], h⟩
    obtain ⟨r, hr, hx⟩ := this m9 x hx
    simp only [startReqs, List.mem_cons, List.not_mem_nil, or_false] at hr
    rcases hr with rfl | rfl | rfl <;> exact ⟨_, _, hx, rfl, rfl, rfl⟩

/-- C91: code is generated exactly for acceptable settings. -/
theorem accepted_iff (sp : Space) (c : Config) (s : State) : (∃ r, gen sp c s = .ok r) ↔ Acceptable c := by
  have hb : ∀ n, ((binaryValue c n == 0 || binaryValue c n == 1) = true) ↔ (c.value n = none ∨ c.value n = some 0 ∨ c.value n = some 1) := by
    intro n
    rw [binaryValue]
    cases c.value n with
    | none => simp
    | some v => simp
  have e1 : c.binaries.any (fun n => !(binaryValue c n == 0 || binaryValue c n == 1)) = false ↔
      ∀ n ∈ c.binaries, c.value n = none ∨ c.value n = some 0 ∨ c.value n = some 1 := by
    rw [List.any_eq_false]
    refine forall₂_congr (fun n _ => ?_)
    rw [← hb n]
    cases (binaryValue c n == 0 || binaryValue c n == 1) <;> simp
  have e2 : c.domains.any (fun ds => decide (ds.length < c.tcbs)) = false ↔ ∀ ds, c.domains = some ds → c.tcbs ≤ ds.length := by
    cases c.domains <;> simp
  have e3 : c.untypeds.any (fun u => decide (0 < u.2) && !(decide (4 ≤ pyInt u.1) && decide (pyInt u.1 ≤ 28))) = false ↔
      ∀ u ∈ c.untypeds, 0 < u.2 → 4 ≤ number u.1 ∧ number u.1 ≤ 28 := by
    rw [List.any_eq_false]
    refine forall₂_congr (fun u _ => ?_)
    rw [pyInt_eq]
    simp
  unfold gen Acceptable
  rw [← e1, ← e2, ← e3]
  split
  · rename_i h
    exact ⟨(fun ⟨r, hr⟩ => by cases hr), fun ⟨q, _, _⟩ => by rw [h] at q; cases q⟩
  · rename_i h
    split
    · rename_i h'
      exact ⟨(fun ⟨r, hr⟩ => by cases hr), fun ⟨_, q, _⟩ => by rw [h'] at q; cases q⟩
    · rename_i h'
      split
      · rename_i h''
        exact ⟨(fun ⟨r, hr⟩ => by cases hr), fun ⟨_, _, q⟩ => by rw [h''] at q; cases q⟩
      · rename_i h''
        simp only [Bool.not_eq_true] at h h' h''
        exact ⟨fun _ => ⟨h, h', h''⟩, fun _ => ⟨_, rfl⟩⟩

/-- C91: a semaphore begins with the value that is configured, or one; a binary semaphore with the one that is configured, or zero. -/
theorem initial_values {sp : Space} {c : Config} {s T : State} {g : Gen} (h : gen sp c s = .ok (T, g)) :
    (∀ (i : Nat) n, c.semaphores[i]? = some n → ∃ x v, g.semaphores[i]? = some x ∧ (semaphoreInits c g)[i]? = some (x, v) ∧
      (c.value n = some v ∨ c.value n = none ∧ v = 1)) ∧
    (∀ (i : Nat) n, c.binaries[i]? = some n → ∃ x v, g.binaries[i]? = some x ∧ (binaryInits c g)[i]? = some (x, v) ∧
      (v = 0 ∨ v = 1) ∧ (c.value n = some v ∨ c.value n = none ∧ v = 0)) := by
  have hacc := (accepted_iff sp c s).mp ⟨_, h⟩
  obtain ⟨_, _, l3, l4, _⟩ := gen_parts h
  rw [semaphoreReqs, List.length_map] at l3
  rw [binaryReqs, List.length_map] at l4
  constructor
  · intro i n hn
    have hi : i < g.semaphores.length := by rw [l3]; exact (List.getElem?_eq_some_iff.mp hn).1
    refine ⟨g.semaphores[i], semaphoreValue c n, by simp [hi], ?_, ?_⟩
    · simp [semaphoreInits, List.getElem?_zip_eq_some, hn]
    · rw [semaphoreValue]
      cases c.value n <;> simp
  · intro i n hn
    have hi : i < g.binaries.length := by rw [l4]; exact (List.getElem?_eq_some_iff.mp hn).1
    refine ⟨g.binaries[i], binaryValue c n, by simp [hi], ?_, ?_, ?_⟩
    · simp [binaryInits, List.getElem?_zip_eq_some, hn]
    · rcases hacc.1 n (List.mem_of_getElem? hn) with h | h | h <;> simp [binaryValue, h]
    · rw [binaryValue]
      cases c.value n <;> simp

/-! ### The pool -/

theorem suits_used (n : CapAlloc.Node) (type size flags : Nat) : ¬ CapAlloc.suits { n with used := true } type size flags := by
  simp [CapAlloc.suits]

theorem take_spec (type size flags : Nat) : ∀ (k : Nat) (pool : List CapAlloc.Node),
    (take pool type size flags k).2 = ((pool.filter (fun n => decide (CapAlloc.suits n type size flags))).map (·.ptr)).take k ++
      List.replicate (k - (pool.filter (fun n => decide (CapAlloc.suits n type size flags))).length) 0 := by
  have one : ∀ pool : List CapAlloc.Node,
      (pool.filter (fun n => decide (CapAlloc.suits n type size flags)) = [] ∧ CapAlloc.alloc pool type size flags = (pool, 0)) ∨
      ∃ n rest, pool.filter (fun n => decide (CapAlloc.suits n type size flags)) = n :: rest ∧
        (CapAlloc.alloc pool type size flags).2 = n.ptr ∧
        (CapAlloc.alloc pool type size flags).1.filter (fun n => decide (CapAlloc.suits n type size flags)) = rest := by
    intro pool
    induction pool with
    | nil => exact .inl ⟨rfl, rfl⟩
    | cons n pool ih =>
      by_cases hs : CapAlloc.suits n type size flags
      · refine .inr ⟨n, pool.filter (fun n => decide (CapAlloc.suits n type size flags)), ?_, ?_, ?_⟩
        · simp [hs]
        · simp [CapAlloc.alloc, hs]
        · rw [CapAlloc.alloc, if_pos hs]
          simp [suits_used]
      · rcases ih with ⟨h1, h2⟩ | ⟨m, rest, h1, h2, h3⟩
        · refine .inl ⟨by simpa [hs] using h1, ?_⟩
          rw [CapAlloc.alloc, if_neg hs]
          simp [h2]
        · refine .inr ⟨m, rest, by simpa [hs] using h1, ?_, ?_⟩
          · rw [CapAlloc.alloc, if_neg hs]
            exact h2
          · rw [CapAlloc.alloc, if_neg hs]
            simpa [hs] using h3
  intro k
  induction k with
  | zero => intro pool; simp [take]
  | succ k ih =>
    intro pool
    rw [take]
    rcases one pool with ⟨h1, h2⟩ | ⟨n, rest, h1, h2, h3⟩
    · simp only [h2, ih, h1]
      simp [List.replicate_succ]
    · simp only [ih, h1, h2, h3]
      simp

/-- A member of the pool for a call. -/
def nodeOf (p : Provide) : CapAlloc.Node := ⟨p.type, p.size, p.cap, false, p.attributes⟩

theorem initPool_eq (ps : List Provide) : initPool ps = (ps.map nodeOf).reverse := by
  have : ∀ (ps : List Provide) (pool : List CapAlloc.Node),
      ps.foldl (fun pool p => (CapAlloc.provide pool true p.type p.cap p.size p.attributes).1) pool = (ps.map nodeOf).reverse ++ pool := by
    intro ps
    induction ps with
    | nil => intro pool; simp
    | cons p ps ih => intro pool; rw [List.foldl_cons, ih]; simp [CapAlloc.provide, nodeOf]
  rw [initPool, this ps []]; simp

/-- The calls that an allocation finds. -/
def found (ps : List Provide) (type size flags : Nat) : List Provide :=
  ps.filter (fun p => decide (p.type = type ∧ p.attributes &&& flags = flags ∧ (size = 0 ∨ size = p.size)))

theorem take_init (ps : List Provide) (type size flags k : Nat) :
    (take (initPool ps) type size flags k).2 = Drawn ((found ps type size flags).map (·.cap)) k := by
  have e : (initPool ps).filter (fun n => decide (CapAlloc.suits n type size flags)) = ((found ps type size flags).map nodeOf).reverse := by
    rw [initPool_eq, List.filter_reverse, List.filter_map, found]
    congr 2
    apply List.filter_congr
    intro p _
    simp [CapAlloc.suits, nodeOf]
  rw [take_spec, e, Drawn]
  simp [Function.comp_def, nodeOf]

theorem rightsCalls_some {type : Nat} {rights : Option Nat} : ∀ {caps : List Nat} {ps : List Provide}, rightsCalls type rights caps = some ps →
    (∀ a, rights = some a → ps = caps.map (fun x => ⟨type, x, 0, a⟩)) ∧ (rights = none → caps = [] ∧ ps = []) := by
  intro caps
  induction caps with
  | nil => intro ps h; simp [rightsCalls] at h; subst h; simp
  | cons x caps ih =>
    intro ps h
    simp only [rightsCalls, Option.bind_eq_some_iff, Option.map_eq_some_iff] at h
    obtain ⟨a, h1, l, h2, rfl⟩ := h
    have := (ih h2).1 a h1
    refine ⟨fun a' ha' => ?_, fun hr => ?_⟩
    · rw [h1, Option.some.injEq] at ha'
      subst ha'
      rw [this]
      rfl
    · rw [h1] at hr; cases hr

theorem rightsCalls_some_iff (type : Nat) (rights : Option Nat) : ∀ caps : List Nat,
    (∃ ps, rightsCalls type rights caps = some ps) ↔ (0 < caps.length → rights.isSome) := by
  intro caps
  induction caps with
  | nil => simp [rightsCalls]
  | cons x caps ih =>
    constructor
    · rintro ⟨ps, h⟩ _
      simp only [rightsCalls, Option.bind_eq_some_iff, Option.map_eq_some_iff] at h
      obtain ⟨a, h1, _⟩ := h
      simp [h1]
    · intro h
      obtain ⟨a, ha⟩ := Option.isSome_iff_exists.mp (h (by simp))
      obtain ⟨l, hl⟩ := ih.mpr (fun _ => by simp [ha])
      exact ⟨⟨type, x, 0, a⟩ :: l, by rw [rightsCalls, hl, ha]; rfl⟩

theorem untypedCalls_some_iff (ty : Types) (rg : Rights) : ∀ l : List (Text × Nat),
    (∃ ps, untypedCalls ty rg l = some ps) ↔ ∀ u ∈ l, (cNumber u.1).isSome ∧ (plainRights rg).isSome := by
  intro l
  induction l with
  | nil => simp [untypedCalls]
  | cons u l ih =>
    obtain ⟨t, x⟩ := u
    constructor
    · rintro ⟨ps, h⟩
      rw [untypedCalls] at h
      split at h
      · rename_i b a l' h1 h2 h3
        intro u hu
        rcases List.mem_cons.mp hu with rfl | hu
        · simp [h1, h2]
        · exact ih.mp ⟨l', h3⟩ u hu
      · cases h
    · intro h
      obtain ⟨l', hl⟩ := ih.mpr (fun u hu => h u (by simp [hu]))
      obtain ⟨h1, h2⟩ := h (t, x) (by simp)
      obtain ⟨b, hb⟩ := Option.isSome_iff_exists.mp h1
      obtain ⟨a, ha⟩ := Option.isSome_iff_exists.mp h2
      simp only at hb
      exact ⟨⟨ty.untyped, x, 2 ^ b, a⟩ :: l', by rw [untypedCalls]; simp only [hl, ha, hb]⟩

theorem cNumber_some_iff (t : Text) : (cNumber t).isSome ↔ (t.head? = some '0' → t ≠ ['0'] → ∀ d ∈ t.tail, '0' ≤ d ∧ d ≤ '7') := by
  rw [cNumber.eq_def]
  split
  · rename_i c rest
    simp only [List.head?_cons, List.tail_cons, true_implies]
    have hne : ('0' :: c :: rest ≠ ['0']) := by simp
    constructor
    · intro h _
      split at h
      · rename_i h'
        simpa using h'
      · cases h
    · intro h
      have h' := h hne
      rw [if_pos (by simpa using h')]
      rfl
  · rename_i hno
    simp only [Option.isSome_some, true_iff]
    intro h0 h1
    cases t with
    | nil => cases h0
    | cons a t =>
      simp only [List.head?_cons, Option.some.injEq] at h0
      subst h0
      cases t with
      | nil => exact absurd rfl h1
      | cons b t => exact absurd rfl (hno b t)

theorem untypedCalls_some {ty : Types} {rg : Rights} : ∀ {l : List (Text × Nat)} {ps : List Provide}, untypedCalls ty rg l = some ps →
    List.Forall₂ (fun u p => ∃ b a, cNumber u.1 = some b ∧ plainRights rg = some a ∧ p = ⟨ty.untyped, u.2, 2 ^ b, a⟩) l ps := by
  intro l
  induction l with
  | nil => intro ps h; simp [untypedCalls] at h; subst h; exact .nil
  | cons u l ih =>
    intro ps h
    obtain ⟨t, x⟩ := u
    rw [untypedCalls] at h
    split at h
    · rename_i b a l' h1 h2 h3
      simp only [Option.some.injEq] at h
      subst h
      exact .cons ⟨b, a, h1, h2, rfl⟩ (ih h3)
    · cases h

theorem calls_some {ty : Types} {rg : Rights} {c : Config} {g : Gen} {ps : List Provide} (h : calls ty rg c g = some ps) :
    ∃ e n u, rightsCalls ty.endpoint (plainRights rg) g.eps = some e ∧ rightsCalls ty.notification (wordRights rg) g.notifications = some n ∧
      untypedCalls ty rg ((untypedDigits c).zip g.untypeds) = some u ∧
      ps = g.tcbs.map (fun cap => ⟨ty.tcb, cap, 0, 0⟩) ++ e ++ n ++ u := by
  rw [calls] at h
  split at h
  · rename_i e n u h1 h2 h3
    simp only [Option.some.injEq] at h
    exact ⟨e, n, u, h1, h2, h3, h.symm⟩
  · cases h

theorem filter_other {l : List Provide} {type t size flags : Nat} (h : ∀ p ∈ l, p.type = t) (ht : t ≠ type) : found l type size flags = [] := by
  rw [found, List.filter_eq_nil_iff]
  intro p hp
  simp [h p hp, ht]

theorem filter_all {l : List Provide} {type flags : Nat} (h : ∀ p ∈ l, p.type = type ∧ p.attributes &&& flags = flags) :
    found l type 0 flags = l := by
  rw [found, List.filter_eq_self]
  intro p hp
  simp [h p hp]

theorem found_append (a b : List Provide) (type size flags : Nat) :
    found (a ++ b) type size flags = found a type size flags ++ found b type size flags := by
  simp [found]

theorem cNumber_plain {t : Text} (h : t.head? ≠ some '0') : cNumber t = some (number t) := by
  rw [cNumber.eq_def]
  split
  · simp at h
  · rw [pyInt_eq]

theorem rights_types {type : Nat} {rights : Option Nat} {caps : List Nat} {ps : List Provide} (h : rightsCalls type rights caps = some ps) :
    (∀ p ∈ ps, p.type = type) ∧ ps.map (·.cap) = caps ∧ ∀ p ∈ ps, rights = some p.attributes := by
  obtain ⟨h1, h2⟩ := rightsCalls_some h
  cases hr : rights with
  | none =>
    obtain ⟨rfl, rfl⟩ := h2 hr
    simp
  | some a =>
    rw [h1 a hr]
    simp [Function.comp_def]

theorem untyped_found {ty : Types} {rg : Rights} {flags : Nat} (hf : readWrite rg &&& flags = flags) (b : Nat) :
    ∀ {ts : List Text} {xs : List Nat} {ps : List Provide}, (∀ t ∈ ts, t.head? ≠ some '0') →
    List.Forall₂ (fun u p => ∃ b a, cNumber u.1 = some b ∧ plainRights rg = some a ∧ p = ⟨ty.untyped, u.2, 2 ^ b, a⟩) (ts.zip xs) ps →
    (found ps ty.untyped (2 ^ b) flags).map (·.cap) = ofBits b (ts.map number) xs := by
  have hr : ∀ a, plainRights rg = some a → a &&& flags = flags := by
    intro a ha
    cases rg with
    | number r w => simp only [plainRights, Option.some.injEq] at ha; subst ha; exact hf
    | struct r w => cases ha
  intro ts
  induction ts with
  | nil => intro xs ps _ h; cases h; rfl
  | cons t ts ih =>
    intro xs ps ht h
    cases xs with
    | nil => cases h; rfl
    | cons x xs =>
      rw [List.zip_cons_cons] at h
      cases h with
      | cons h1 h2 =>
        obtain ⟨b', a, e1, e2, rfl⟩ := h1
        rw [cNumber_plain (ht t (by simp))] at e1
        simp only [Option.some.injEq] at e1
        subst e1
        have ih' := ih (fun t h => ht t (by simp [h])) h2
        rw [List.map_cons, ofBits, ← ih', found, List.filter_cons]
        have hp : (2 ^ b = 0 ∨ 2 ^ b = 2 ^ number t) ↔ number t = b := by
          constructor
          · rintro (h | h)
            · exact absurd h (Nat.two_pow_pos b).ne'
            · exact (Nat.pow_right_injective (Nat.le_refl 2) h).symm
          · rintro rfl; exact .inr rfl
        by_cases hb : number t = b
        · simp [hr a e2, hb, found]
        · have hne : ¬ (2 ^ b = 2 ^ number t) := fun h => hb (hp.mp (.inr h))
          simp [hb, found, hne]

/-- C91 (partial): if the code compiles then a component that allocates from its pools gets every object that it is configured to have exactly once,
by type and for untyped objects by size, and then null. Missing are configurations that do not compile
(`pools_do_not_compile`) and sizes with a leading zero (`octal_size`). -/
theorem pools_partial {sp : Space} {c : Config} {s T : State} {g : Gen} (h : gen sp c s = .ok (T, g)) {ty : Types} (hty : ty.Distinct)
    {rg : Rights} {ps : List Provide} (hps : calls ty rg c g = some ps) {flags : Nat} (hf : readWrite rg &&& flags = flags) (k : Nat) :
    g.tcbs.length = c.tcbs ∧ g.eps.length = c.eps ∧ g.notifications.length = c.notifications ∧ g.untypeds.length = (untypedBits c).length ∧
    (take (initPool ps) ty.tcb 0 0 k).2 = Drawn g.tcbs k ∧
    (take (initPool ps) ty.endpoint 0 flags k).2 = Drawn g.eps k ∧
    (take (initPool ps) ty.notification 0 flags k).2 = Drawn g.notifications k ∧
    ((∀ u ∈ c.untypeds, u.1.head? ≠ some '0') → ∀ b, (take (initPool ps) ty.untyped (2 ^ b) flags k).2 = Drawn (ofBits b (untypedBits c) g.untypeds) k) := by
  obtain ⟨e, n, u, he, hn, hu, rfl⟩ := calls_some hps
  obtain ⟨t1, t2, t3, t4, t5, t6⟩ := hty
  have hT : ∀ p ∈ g.tcbs.map (fun cap => (⟨ty.tcb, cap, 0, 0⟩ : Provide)), p.type = ty.tcb := by simp
  obtain ⟨hE, hE2, hE3⟩ := rights_types he
  obtain ⟨hN, hN2, hN3⟩ := rights_types hn
  have hu' := untypedCalls_some hu
  have hU : ∀ p ∈ u, p.type = ty.untyped := by
    have : ∀ {l : List (Text × Nat)} {ps : List Provide},
        List.Forall₂ (fun u p => ∃ b a, cNumber u.1 = some b ∧ plainRights rg = some a ∧ p = ⟨ty.untyped, u.2, 2 ^ b, a⟩) l ps →
        ∀ p ∈ ps, p.type = ty.untyped := by
      intro l ps h
      induction h with
      | nil => simp
      | cons h1 _ ih =>
        intro p hp
        rcases List.mem_cons.mp hp with rfl | hp
        · obtain ⟨_, _, _, _, rfl⟩ := h1; rfl
        · exact ih p hp
    exact this hu'
  obtain ⟨_, _, _, _, l5, l6, l7, l8, _⟩ := gen_parts h
  refine ⟨by simpa [tcbReqs] using l5, by simpa [epReqs] using l6, by simpa [notificationReqs] using l7, ?_, ?_, ?_, ?_, ?_⟩
  · rw [l8]; simp [untypedReqs, untypedBits, List.length_flatMap]
  · rw [take_init]
    simp only [found_append]
    rw [filter_other hE t1.symm, filter_other hN t2.symm, filter_other hU t3.symm, filter_all (by simp)]
    simp [Function.comp_def]
  · rw [take_init]
    simp only [found_append]
    rw [filter_other hT t1, filter_other hN t4.symm, filter_other hU t5.symm, filter_all (fun p hp => ⟨hE p hp, ?_⟩)]
    · simp [hE2]
    · have := hE3 p hp
      cases rg with
      | number r w => simp only [plainRights, Option.some.injEq] at this; rw [← this]; exact hf
      | struct r w => cases this
  · rw [take_init]
    simp only [found_append]
    rw [filter_other hT t2, filter_other hE t4, filter_other hU t6.symm, filter_all (fun p hp => ⟨hN p hp, ?_⟩)]
    · simp [hN2]
    · have := hN3 p hp
      cases rg with
      | number r w => cases this
      | struct r w => simp only [wordRights, Option.some.injEq] at this; rw [← this]; exact hf
  · intro hz b
    rw [take_init]
    simp only [found_append]
    rw [filter_other hT t3, filter_other hE t5, filter_other hN t6]
    have hd : ∀ t ∈ untypedDigits c, t.head? ≠ some '0' := by
      intro t ht
      obtain ⟨u, hu, ht⟩ := List.mem_flatMap.mp ht
      rw [(List.mem_replicate.mp ht).2]
      exact hz u hu
    have hb : (untypedDigits c).map number = untypedBits c := by
      simp [untypedDigits, untypedBits, List.map_flatMap]
    rw [List.nil_append, List.nil_append, List.nil_append, untyped_found hf b hd hu', hb]

/-- C91: the code compiles exactly if the constants of libsel4 have the form that each pool that is not empty expects and the digits are
a number in C. -/
theorem compiles_iff {sp : Space} {c : Config} {s T : State} {g : Gen} (h : gen sp c s = .ok (T, g)) (ty : Types) (rg : Rights) :
    (∃ ps, calls ty rg c g = some ps) ↔
      (0 < c.eps → ∃ r w, rg = .number r w) ∧ (0 < c.notifications → ∃ r w, rg = .struct r w) ∧
      (∀ u ∈ c.untypeds, 0 < u.2 → (∃ r w, rg = .number r w) ∧ (u.1.head? = some '0' → u.1 ≠ ['0'] → ∀ d ∈ u.1.tail, '0' ≤ d ∧ d ≤ '7')) := by
  obtain ⟨_, _, _, _, _, l6, l7, l8, _⟩ := gen_parts h
  have e1 : (∃ ps, calls ty rg c g = some ps) ↔ (∃ ps, rightsCalls ty.endpoint (plainRights rg) g.eps = some ps) ∧
      (∃ ps, rightsCalls ty.notification (wordRights rg) g.notifications = some ps) ∧
      (∃ ps, untypedCalls ty rg ((untypedDigits c).zip g.untypeds) = some ps) := by
    constructor
    · rintro ⟨ps, h⟩
      obtain ⟨e, n, u, he, hn, hu, _⟩ := calls_some h
      exact ⟨⟨e, he⟩, ⟨n, hn⟩, ⟨u, hu⟩⟩
    · rintro ⟨⟨e, he⟩, ⟨n, hn⟩, ⟨u, hu⟩⟩
      exact ⟨_, by rw [calls]; simp only [he, hn, hu]; rfl⟩
  have p1 : (plainRights rg).isSome ↔ ∃ r w, rg = .number r w := by cases rg <;> simp [plainRights]
  have p2 : (wordRights rg).isSome ↔ ∃ r w, rg = .struct r w := by cases rg <;> simp [wordRights]
  have m6 : g.eps.length = c.eps := by rw [l6]; simp [epReqs]
  have m7 : g.notifications.length = c.notifications := by rw [l7]; simp [notificationReqs]
  have m8 : (untypedDigits c).length = g.untypeds.length := by rw [l8]; simp [untypedReqs, untypedDigits, List.length_flatMap]
  rw [e1, rightsCalls_some_iff, rightsCalls_some_iff, untypedCalls_some_iff, p1, p2, m6, m7]
  refine and_congr Iff.rfl (and_congr Iff.rfl ?_)
  have hz : ∀ t, t ∈ untypedDigits c ↔ ∃ x, (t, x) ∈ (untypedDigits c).zip g.untypeds := by
    intro t
    constructor
    · intro ht
      obtain ⟨i, hi, rfl⟩ := List.getElem_of_mem ht
      exact ⟨g.untypeds[i]'(m8 ▸ hi), List.mem_iff_getElem?.mpr ⟨i, by simp [hi, m8 ▸ hi]⟩⟩
    · rintro ⟨x, hx⟩
      exact (List.of_mem_zip hx).1
  constructor
  · intro H u hu hpos
    obtain ⟨x, hx⟩ := (hz u.1).mp (List.mem_flatMap.mpr ⟨u, hu, List.mem_replicate.mpr ⟨by omega, rfl⟩⟩)
    obtain ⟨h1, h2⟩ := H _ hx
    exact ⟨h2, (cNumber_some_iff u.1).mp h1⟩
  · rintro H ⟨t, x⟩ hx
    obtain ⟨u, hu, ht⟩ := List.mem_flatMap.mp ((hz t).mpr ⟨x, hx⟩)
    obtain ⟨hn, rfl⟩ := List.mem_replicate.mp ht
    obtain ⟨h1, h2⟩ := H u hu (by omega)
    exact ⟨(cNumber_some_iff u.1).mpr h2, h1⟩

/-- **Disagreement with C91.** A component can not have both endpoints and notifications in its pools, nor both untyped objects and
notifications: whatever the constants of libsel4 are, the generated code does not compile. -/
theorem pools_do_not_compile {sp : Space} {c : Config} {s T : State} {g : Gen} (h : gen sp c s = .ok (T, g)) (ty : Types) (rg : Rights)
    (hn : 0 < c.notifications) (he : 0 < c.eps ∨ ∃ u ∈ c.untypeds, 0 < u.2) : calls ty rg c g = none := by
  by_contra hne
  obtain ⟨ps, hps⟩ := Option.ne_none_iff_exists'.mp hne
  obtain ⟨h1, h2, h3⟩ := (compiles_iff h ty rg).mp ⟨ps, hps⟩
  obtain ⟨r, w, rfl⟩ := h2 hn
  rcases he with he | ⟨u, hu, he⟩
  · obtain ⟨_, _, h⟩ := h1 he; cases h
  · obtain ⟨⟨_, _, h⟩, _⟩ := h3 u hu he; cases h

/-- **Disagreement with C91.** With the constants that the library itself expects, no component can have an endpoint in its pool. -/
theorem endpoints_do_not_compile {sp : Space} {c : Config} {s T : State} {g : Gen} (h : gen sp c s = .ok (T, g)) (ty : Types) (r w : Nat)
    (he : 0 < c.eps) : calls ty (.struct r w) c g = none := by
  by_contra hne
  obtain ⟨ps, hps⟩ := Option.ne_none_iff_exists'.mp hne
  obtain ⟨_, _, h⟩ := ((compiles_iff h ty _).mp ⟨ps, hps⟩).1 he
  cases h

/-! ### Names and sizes that go wrong -/

/-- A component without anything. -/
def bare : Config := ⟨[], [], [], [], fun _ => none, 0, none, 0, 0, []⟩

/-- The first slot that is larger than all that are in use. -/
def nextSlot : Space := ⟨fun used => used.foldr max 0 + 1⟩

theorem nextSlot_good : nextSlot.Good := by
  intro used
  have : ∀ x ∈ used, x ≤ used.foldr max 0 := by
    induction used with
    | nil => simp
    | cons y used ih =>
      intro x hx
      rcases List.mem_cons.mp hx with rfl | hx
      · simp only [List.foldr_cons]; omega
      · have := ih x hx
        simp only [List.foldr_cons]; omega
  refine ⟨fun h => ?_, Nat.succ_ne_zero _⟩
  have := this _ h
  simp only [nextSlot] at this
  omega

/-- **Disagreement with C91.** A semaphore with the name `ep_pool_0` shares its endpoint with the pool: an allocation hands it out. -/
theorem semaphore_shared (ty : Types) (r w : Nat) (sp : Space) (s : State) (hs : s.named = []) :
    ∃ T g ps, gen sp { bare with semaphores := ["ep_pool_0".toList], eps := 1 } s = .ok (T, g) ∧
      calls ty (.number r w) { bare with semaphores := ["ep_pool_0".toList], eps := 1 } g = some ps ∧
      g.semaphores = [sp.fresh s.used] ∧ (take (initPool ps) ty.endpoint 0 0 1).2 = g.semaphores := by
  have e : "ep_pool_0".toList = ['e', 'p', '_', 'p', 'o', 'o', 'l', '_', '0'] := rfl
  obtain ⟨used, named⟩ := s
  simp only at hs
  subst hs
  rw [e]
  refine ⟨_, ⟨[], [], [sp.fresh used], [], [], [sp.fresh used], [], [], _⟩, [⟨ty.endpoint, sp.fresh used, 0, r ||| w⟩], rfl, rfl, rfl, ?_⟩
  simp [take, initPool, CapAlloc.provide, CapAlloc.alloc, CapAlloc.suits]

/-- **Disagreement with C91.** A mutex with the name `post_init_ep` gives its notification to the code that starts the component,
which expects an endpoint. -/
theorem mutex_shared (sp : Space) (s : State) (hs : s.named = []) :
    ∃ T g, gen sp { bare with mutexes := ["post_init_ep".toList] } s = .ok (T, g) ∧
      g.mutexes = [sp.fresh s.used] ∧ sp.fresh s.used ∈ g.start ∧ Has T (sp.fresh s.used) "post_init_ep".toList .notification := by
  have e : "post_init_ep".toList = ['p', 'o', 's', 't', '_', 'i', 'n', 'i', 't', '_', 'e', 'p'] := rfl
  obtain ⟨used, named⟩ := s
  simp only at hs
  subst hs
  rw [e]
  refine ⟨⟨_, ⟨['p', 'o', 's', 't', '_', 'i', 'n', 'i', 't', '_', 'e', 'p'], sp.fresh used, .notification, true, none⟩ :: _⟩,
    ⟨[], [sp.fresh used], [], [], [], [], [], [], [_, _, sp.fresh used]⟩, rfl, rfl, by simp, ?_⟩
  exact ⟨_, List.mem_cons_self, rfl, rfl, rfl⟩

/-- **Disagreement with C91.** A size with a leading zero is decimal for the template and octal for the compiler: `untyped012_pool = 1` makes an object of
4096 bytes that can only be allocated as one of 1024 bytes. -/
theorem octal_size (ty : Types) (r w : Nat) (sp : Space) (s : State) (hs : s.named = []) (hz : sp.fresh s.used ≠ 0) :
    ∃ T g ps x, gen sp { bare with untypeds := [("012".toList, 1)] } s = .ok (T, g) ∧
      calls ty (.number r w) { bare with untypeds := [("012".toList, 1)] } g = some ps ∧
      g.untypeds = [x] ∧ (∃ n, Has T x n (.untyped 12)) ∧
      (take (initPool ps) ty.untyped (2 ^ 12) 0 1).2 = [0] ∧ (take (initPool ps) ty.untyped (2 ^ 10) 0 1).2 = [x] ∧ x ≠ 0 := by
  have e : "012".toList = ['0', '1', '2'] := rfl
  obtain ⟨used, named⟩ := s
  simp only at hs
  subst hs
  rw [e]
  refine ⟨⟨_, ⟨['u', 'n', 't', 'y', 'p', 'e', 'd', '_', '0', '1', '2', '_', 'p', 'o', 'o', 'l', '_', '0'], sp.fresh used, .untyped 12, true, none⟩ :: _⟩,
    ⟨[], [], [], [], [], [], [], [sp.fresh used], _⟩, [⟨ty.untyped, sp.fresh used, 2 ^ 10, r ||| w⟩], sp.fresh used, rfl, rfl, rfl, ?_, ?_, ?_, hz⟩
  · exact ⟨_, _, List.mem_cons_self, rfl, rfl, rfl⟩
  · simp [take, initPool, CapAlloc.provide, CapAlloc.alloc, CapAlloc.suits]
  · simp [take, initPool, CapAlloc.provide, CapAlloc.alloc, CapAlloc.suits]

/-! ### Secure monitor calls -/

/-- C92: a component has a capability for exactly the functions that are listed, and `camkes_get_smc_cap` returns
the one of the function that it is asked for. -/
theorem smc_cap {sp : Space} (hsp : sp.Good) {c : Config} (hc : Sensible c) {s : State} (hs : Before s c) {T : State} {g : Gen}
    (h : gen sp c s = .ok (T, g)) {w : Nat} (hw : ∀ f ∈ c.smcs, f < 2 ^ w) (call : Nat) :
    ∃ x, smcCap w c g call = some x ∧ (call ∈ c.smcs → x ≠ 0 ∧ x ∈ g.smcs ∧ ∃ n, Has T x n (.smc call)) ∧ (call ∉ c.smcs → x = 0) := by
  obtain ⟨_, k2, _, _, m1, _⟩ := gen_spec hsp hc hs h
  have m1 := forall₂_map_left m1
  have hm : c.smcs.map (· % 2 ^ w) = c.smcs := by
    have : c.smcs.map (· % 2 ^ w) = c.smcs.map id := List.map_congr_left (fun f hf => Nat.mod_eq_of_lt (hw f hf))
    rw [this, List.map_id]
  rw [smcCap, if_pos (by rw [hm]; exact hc.smcs)]
  refine ⟨_, rfl, ?_⟩
  have h0 : ∀ x ∈ g.smcs, x ≠ 0 := fun x hx => (k2 x (by simp [allSlots, hx])).2
  have key : ∀ {fs : List Nat} {xs : List Nat},
      List.Forall₂ (fun f x => entryOf (⟨['s', 'm', 'c', '_'] ++ dec f, .smc f, none⟩ : Req) x ∈ T.named) fs xs →
      (∀ f ∈ fs, f < 2 ^ w) → (∀ x ∈ xs, x ≠ 0) →
      (call ∈ fs → ((fs.zip xs).find? (fun p => p.1 % 2 ^ w == call)).elim 0 (·.2) ≠ 0 ∧
        ((fs.zip xs).find? (fun p => p.1 % 2 ^ w == call)).elim 0 (·.2) ∈ xs ∧
        ∃ n, Has T (((fs.zip xs).find? (fun p => p.1 % 2 ^ w == call)).elim 0 (·.2)) n (.smc call)) ∧
      (call ∉ fs → ((fs.zip xs).find? (fun p => p.1 % 2 ^ w == call)).elim 0 (·.2) = 0) := by
    intro fs xs hf
    induction hf with
    | nil => intro _ _; simp
    | @cons f x fs xs h1 _ ih =>
      intro hb hz
      have hlt := hb f (by simp)
      obtain ⟨i1, i2⟩ := ih (fun f hf => hb f (by simp [hf])) (fun x hx => hz x (by simp [hx]))
      rw [List.zip_cons_cons, List.find?_cons]
      by_cases he : f = call
      · subst he
        rw [Nat.mod_eq_of_lt hlt]
        simp only [beq_self_eq_true, Option.elim_some, List.mem_cons, true_or, true_implies, not_true_eq_false, false_implies, and_true]
        exact ⟨hz x (by simp), trivial, _, _, h1, rfl, rfl, rfl⟩
      · have hne : (f % 2 ^ w == call) = false := by rw [Nat.mod_eq_of_lt hlt]; simpa using he
        simp only [hne]
        refine ⟨fun hm => ?_, fun hm => i2 (fun h => hm (by simp [h]))⟩
        rcases List.mem_cons.mp hm with h | h
        · exact absurd h.symm he
        · obtain ⟨j1, j2, j3⟩ := i1 h
          exact ⟨j1, List.mem_cons_of_mem _ j2, j3⟩
  exact key m1 hw h0

/-- C92: if two functions in the list are the same word then the code does not compile. -/
theorem smc_twice (w : Nat) (c : Config) (g : Gen) (call f f' : Nat) (a b d : List Nat) (hl : c.smcs = a ++ f :: b ++ f' :: d)
    (he : f % 2 ^ w = f' % 2 ^ w) : smcCap w c g call = none := by
  rw [smcCap, if_neg]
  intro hnd
  rw [hl] at hnd
  simp only [List.map_append, List.map_cons, List.nodup_append, List.mem_append, List.mem_map, List.mem_cons] at hnd
  exact hnd.2.2 (f % 2 ^ w) (.inr (.inl rfl)) (f' % 2 ^ w) (.inl rfl) he

/-! ### A case -/

/-- Two mutexes, a semaphore, binary semaphores, threads with domains, endpoints and two sizes. -/
def demo : Config :=
  { smcs := [3, 7], mutexes := [['m'], ['k']], semaphores := [['s']], binaries := [['b']],
    value := fun n => if n = ['s'] then some 5 else if n = ['b'] then some 1 else none,
    tcbs := 2, domains := some [1, 2], eps := 2, notifications := 0, untypeds := [(['1', '2'], 2), (['8'], 1)] }

theorem not_generated {n : Text} (h : n.length = 1) : ¬ Generated n := by
  intro hg
  have hs : ∀ (a : String) (t : Text), 2 ≤ a.toList.length → n = a.toList ++ t → False := by
    intro a t ha he
    have := congrArg List.length he
    rw [List.length_append] at this
    omega
  rcases hg with ⟨k, h'⟩ | ⟨k, h'⟩ | ⟨k, h'⟩ | ⟨k, h'⟩ | ⟨t, k, h'⟩ | h' | h' | h'
  · exact hs _ _ (by decide) h'
  · exact hs _ _ (by decide) h'
  · exact hs _ _ (by decide) h'
  · exact hs _ _ (by decide) h'
  · exact hs "untyped_" (t ++ "_pool_".toList ++ dec k) (by decide) (by simpa using h')
  · exact hs "pre_init_ep" [] (by decide) (by simpa using h')
  · exact hs "interface_init_ep" [] (by decide) (by simpa using h')
  · exact hs "post_init_ep" [] (by decide) (by simpa using h')

example : Sensible demo := by
  refine ⟨by decide, ?_, by decide, by decide, ?_⟩
  · intro n hn
    apply not_generated
    revert n
    decide
  · intro u hu d hd
    have : (u.1 = ['1', '2'] ∨ u.1 = ['8']) := by
      simp only [demo, List.mem_cons, List.not_mem_nil, or_false] at hu
      rcases hu with rfl | rfl <;> simp
    rcases this with h | h <;> rw [h] at hd <;> simp only [List.mem_cons, List.not_mem_nil, or_false] at hd
    · rcases hd with rfl | rfl
      · exact ⟨1, by decide, rfl⟩
      · exact ⟨2, by decide, rfl⟩
    · exact ⟨8, by decide, hd⟩

example : Before ⟨[1], []⟩ demo := by
  refine ⟨?_, ?_⟩
  · intro e he; cases he
  · intro e he; cases he

/-- Types of objects. -/
def demoTypes : Types := ⟨1, 2, 3, 4⟩

example : demoTypes.Distinct := by unfold Types.Distinct; decide

set_option maxRecDepth 20000 in
example : (gen nextSlot demo ⟨[1], []⟩).toOption.map (·.2) =
    some ⟨[2, 3], [4, 5], [6], [7], [8, 9], [10, 11], [], [12, 13, 14], [15, 16, 17]⟩ := by decide

set_option maxRecDepth 20000 in
example : (gen nextSlot demo ⟨[1], []⟩).toOption.bind (fun r => calls demoTypes (.number 1 2) demo r.2) =
    some [⟨1, 8, 0, 0⟩, ⟨1, 9, 0, 0⟩, ⟨2, 10, 0, 3⟩, ⟨2, 11, 0, 3⟩, ⟨4, 12, 4096, 3⟩, ⟨4, 13, 4096, 3⟩, ⟨4, 14, 256, 3⟩] := by decide

set_option maxRecDepth 20000 in
example : (gen nextSlot demo ⟨[1], []⟩).toOption.bind (fun r => smcCap 32 demo r.2 7) = some 3 := by decide

end Verif.Pools
