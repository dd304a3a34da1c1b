import Verif.Pools.Spec
import Verif.Context.Props
import Mathlib.Data.List.Nodup
import Mathlib.Data.List.Forall2
import Mathlib.Tactic.Tauto
import Mathlib.Tactic.ByContra

namespace Verif.Pools

theorem find_none {name : Text} {es : List Entry} (h : ∀ e ∈ es, e.name ≠ name) : find name es = none := by
  induction es with
  | nil => rfl
  | cons e es ih =>
    rw [find, if_neg (h e (by simp)), ih (fun e he => h e (by simp [he]))]

/-- The entry of a request. -/
def entryOf (r : Req) (x : Nat) : Entry := ⟨r.name, x, r.kind, r.thread.isNone, r.thread.join⟩

/-- The slots of all entries are in use. -/
def InUse (s : State) : Prop := ∀ e ∈ s.named, e.slot ∈ s.used

theorem map_setThread {es : List Entry} {x : Nat} (d : Option Nat) (h : ∀ e ∈ es, e.slot ≠ x) : es.map (setThread x d) = es := by
  induction es with
  | nil => rfl
  | cons e es ih =>
    rw [List.map_cons, ih (fun e he => h e (by simp [he])), setThread, if_neg (h e (by simp))]

theorem alloc_new {sp : Space} (hsp : sp.Good) {s : State} (hu : InUse s) {r : Req} (hn : ∀ e ∈ s.named, e.name ≠ r.name) :
    alloc sp s r = (⟨sp.fresh s.used :: s.used, s.named ++ [entryOf r (sp.fresh s.used)]⟩, sp.fresh s.used) := by
  have hne : ∀ e ∈ s.named, e.slot ≠ sp.fresh s.used := by
    intro e he h
    exact (hsp s.used).1 (h ▸ hu e he)
  unfold alloc
  rw [find_none hn]
  cases ht : r.thread with
  | none => simp [entryOf, ht]
  | some d =>
    simp [entryOf, ht, map_setThread d hne, setThread]

theorem allocAll_fresh {sp : Space} (hsp : sp.Good) : ∀ (rs : List Req) (s : State), InUse s → OneEach s →
    (rs.map (·.name)).Nodup → (∀ r ∈ rs, ∀ e ∈ s.named, e.name ≠ r.name) →
    (allocAll sp s rs).2.Nodup ∧ (∀ x ∈ (allocAll sp s rs).2, x ∉ s.used ∧ x ≠ 0) ∧ OneEach (allocAll sp s rs).1 ∧
    (∀ e ∈ s.named, e ∈ (allocAll sp s rs).1.named) ∧
    List.Forall₂ (fun r x => entryOf r x ∈ (allocAll sp s rs).1.named) rs (allocAll sp s rs).2 := by
  intro rs
  induction rs with
  | nil =>
    intro s hu ho _ _
    simp only [allocAll]
    exact ⟨by simp, by simp, ho, fun e he => he, .nil⟩
  | cons r rs ih =>
    intro s hu ho hnd hn
    rw [List.map_cons, List.nodup_cons] at hnd
    have ha := alloc_new hsp hu (hn r (by simp))
    have hne : ∀ e ∈ s.named, e.slot ≠ sp.fresh s.used := by
      intro e he h
      exact (hsp s.used).1 (h ▸ hu e he)
    have key := ih ⟨sp.fresh s.used :: s.used, s.named ++ [entryOf r (sp.fresh s.used)]⟩ (by
        intro e he
        rcases List.mem_append.mp he with h | h
        · exact List.mem_cons_of_mem _ (hu e h)
        · rw [List.mem_singleton] at h
          subst h
          exact List.mem_cons_self) (by
        intro e he e' he' hs
        rcases List.mem_append.mp he with h | h <;> rcases List.mem_append.mp he' with h' | h'
        · exact ho e h e' h' hs
        · rw [List.mem_singleton] at h'; subst h'
          exact absurd hs (hne e h)
        · rw [List.mem_singleton] at h; subst h
          exact absurd hs.symm (hne e' h')
        · rw [List.mem_singleton] at h h'; rw [h, h']) hnd.2 (by
        intro q hq e he
        rcases List.mem_append.mp he with h | h
        · exact hn q (by simp [hq]) e h
        · rw [List.mem_singleton] at h; subst h
          intro h
          exact hnd.1 (List.mem_map.mpr ⟨q, hq, h.symm⟩))
    rw [allocAll, ha]
    obtain ⟨k1, k2, k3, k4, k5⟩ := key
    refine ⟨?_, ?_, k3, fun e he => k4 e (by simp [he]), .cons (k4 _ (by simp)) k5⟩
    · rw [List.nodup_cons]
      exact ⟨fun h => (k2 _ h).1 (by simp), k1⟩
    · intro x hx
      rcases List.mem_cons.mp hx with rfl | hx
      · exact hsp s.used
      · exact ⟨fun h => (k2 x hx).1 (by simp [h]), (k2 x hx).2⟩

theorem allocAll_append (sp : Space) : ∀ (rs rs' : List Req) (s : State), allocAll sp s (rs ++ rs') =
    ((allocAll sp (allocAll sp s rs).1 rs').1, (allocAll sp s rs).2 ++ (allocAll sp (allocAll sp s rs).1 rs').2) := by
  intro rs
  induction rs with
  | nil => intro rs' s; simp [allocAll]
  | cons r rs ih => intro rs' s; simp only [List.cons_append, allocAll, ih]

theorem allocAll_length (sp : Space) : ∀ (rs : List Req) (s : State), (allocAll sp s rs).2.length = rs.length := by
  intro rs
  induction rs with
  | nil => intro s; rfl
  | cons r rs ih => intro s; simp [allocAll, ih]

/-- All requests in order. -/
def allReqs (c : Config) : List Req :=
  smcReqs c ++ mutexReqs c ++ semaphoreReqs c ++ binaryReqs c ++ tcbReqs c ++ epReqs c ++ notificationReqs c ++ untypedReqs c ++ startReqs

theorem gen_all {sp : Space} {c : Config} {s T : State} {g : Gen} (h : gen sp c s = .ok (T, g)) :
    allocAll sp s (allReqs c) = (T, allSlots g) := by
  unfold gen at h
  split at h
  · cases h
  · split at h
    · cases h
    · split at h
      · cases h
      · simp only [Except.ok.injEq, Prod.mk.injEq] at h
        obtain ⟨rfl, rfl⟩ := h
        simp only [allReqs, allSlots, allocAll_append]

/-! ### Names -/

theorem dec_inj {m n : Nat} (h : dec m = dec n) : m = n := by
  have := congrArg Context.value h
  rwa [Context.value_dec, Context.value_dec] at this

theorem nodup_map_range {f : Nat → Text} (hf : ∀ i j, f i = f j → i = j) (n : Nat) : ((List.range n).map f).Nodup :=
  List.Nodup.map (fun i j h => hf i j h) List.nodup_range

theorem untyped_name_inj {t t' : Text} {i j : Nat} (h : ['u', 'n', 't', 'y', 'p', 'e', 'd', '_'] ++ t ++ ['_', 'p', 'o', 'o', 'l', '_'] ++ dec i =
    ['u', 'n', 't', 'y', 'p', 'e', 'd', '_'] ++ t' ++ ['_', 'p', 'o', 'o', 'l', '_'] ++ dec j) : t = t' ∧ i = j := by
  have h' : (['u', 'n', 't', 'y', 'p', 'e', 'd', '_'] ++ t ++ ['_', 'p', 'o', 'o', 'l']) ++ ['_'] ++ dec i =
      (['u', 'n', 't', 'y', 'p', 'e', 'd', '_'] ++ t' ++ ['_', 'p', 'o', 'o', 'l']) ++ ['_'] ++ dec j := by
    simpa using h
  obtain ⟨h1, h2⟩ := Context.split_last (Context.dec_digits i) (Context.dec_digits j) h'
  exact ⟨by simpa using h1, dec_inj h2⟩

theorem untyped_names_nodup {l : List (Text × Nat)} (h : (l.map (·.1)).Nodup) :
    (l.flatMap (fun u => (List.range u.2).map (fun i =>
      ['u', 'n', 't', 'y', 'p', 'e', 'd', '_'] ++ u.1 ++ ['_', 'p', 'o', 'o', 'l', '_'] ++ dec i))).Nodup := by
  induction l with
  | nil => simp
  | cons u l ih =>
    rw [List.map_cons, List.nodup_cons] at h
    rw [List.flatMap_cons, List.nodup_append]
    refine ⟨nodup_map_range (fun i j hij => (untyped_name_inj hij).2) _, ih h.2, ?_⟩
    intro a ha b hb hab
    obtain ⟨i, _, rfl⟩ := List.mem_map.mp ha
    obtain ⟨v, hv, hb⟩ := List.mem_flatMap.mp hb
    obtain ⟨j, _, rfl⟩ := List.mem_map.mp hb
    exact h.1 (List.mem_map.mpr ⟨v, hv, (untyped_name_inj hab).1.symm⟩)

theorem smc_names (c : Config) : (smcReqs c).map (·.name) = c.smcs.map (fun f => ['s', 'm', 'c', '_'] ++ dec f) := by
  simp [smcReqs]

theorem declared_names (c : Config) : (mutexReqs c ++ semaphoreReqs c ++ binaryReqs c).map (·.name) = declared c := by
  simp [mutexReqs, semaphoreReqs, binaryReqs, declared, Function.comp_def]

theorem made_generated (c : Config) : ∀ r ∈ smcReqs c ++ (tcbReqs c ++ epReqs c ++ notificationReqs c ++ untypedReqs c ++ startReqs), Generated r.name := by
  intro r hr
  simp only [List.mem_append] at hr
  rcases hr with h | ((((h | h) | h) | h) | h)
  · obtain ⟨f, _, rfl⟩ := List.mem_map.mp h
    exact .inl ⟨f, rfl⟩
  · obtain ⟨f, _, rfl⟩ := List.mem_map.mp h
    exact .inr (.inl ⟨f, rfl⟩)
  · obtain ⟨f, _, rfl⟩ := List.mem_map.mp h
    exact .inr (.inr (.inl ⟨f, rfl⟩))
  · obtain ⟨f, _, rfl⟩ := List.mem_map.mp h
    exact .inr (.inr (.inr (.inl ⟨f, rfl⟩)))
  · obtain ⟨u, _, h⟩ := List.mem_flatMap.mp h
    obtain ⟨f, _, rfl⟩ := List.mem_map.mp h
    exact .inr (.inr (.inr (.inr (.inl ⟨u.1, f, rfl⟩))))
  · simp only [startReqs, List.mem_cons, List.not_mem_nil, or_false] at h
    rcases h with rfl | rfl | rfl
    · exact .inr (.inr (.inr (.inr (.inr (.inl rfl)))))
    · exact .inr (.inr (.inr (.inr (.inr (.inr (.inl rfl))))))
    · exact .inr (.inr (.inr (.inr (.inr (.inr (.inr rfl))))))

theorem heads {rs : List Req} (ch : Char) (h : ∀ r ∈ rs, r.name.head? = some ch) : ∀ n ∈ rs.map (·.name), n.head? = some ch := by
  intro n hn
  obtain ⟨r, hr, rfl⟩ := List.mem_map.mp hn
  exact h r hr

theorem head_ne {a b : List Text} {x y : Char} (ha : ∀ n ∈ a, n.head? = some x) (hb : ∀ n ∈ b, n.head? = some y) (hxy : x ≠ y) :
    ∀ n ∈ a, ∀ m ∈ b, n ≠ m := by
  intro n hn m hm h
  have h1 := ha n hn
  rw [h, hb m hm] at h1
  exact hxy (Option.some.inj h1).symm

theorem names_nodup {c : Config} (hc : Sensible c) : ((allReqs c).map (·.name)).Nodup := by
  have e : (allReqs c).map (·.name) = (smcReqs c).map (·.name) ++ (declared c ++ ((tcbReqs c).map (·.name) ++ ((epReqs c).map (·.name) ++
      ((notificationReqs c).map (·.name) ++ ((untypedReqs c).map (·.name) ++ startReqs.map (·.name)))))) := by
    rw [← declared_names]
    simp [allReqs, List.append_assoc]
  have g := made_generated c
  have hS : ∀ n ∈ (smcReqs c).map (·.name), n.head? = some 's' := heads _ (by simp [smcReqs])
  have hT : ∀ n ∈ (tcbReqs c).map (·.name), n.head? = some 't' := heads _ (by simp [tcbReqs])
  have hE : ∀ n ∈ (epReqs c).map (·.name), n.head? = some 'e' := heads _ (by simp [epReqs])
  have hN : ∀ n ∈ (notificationReqs c).map (·.name), n.head? = some 'n' := heads _ (by simp [notificationReqs])
  have hU : ∀ n ∈ (untypedReqs c).map (·.name), n.head? = some 'u' := heads _ (by
    intro r hr
    obtain ⟨u, _, hr⟩ := List.mem_flatMap.mp hr
    obtain ⟨i, _, rfl⟩ := List.mem_map.mp hr
    rfl)
  have hP : ∀ n ∈ startReqs.map (·.name), n.head? = some 'p' ∨ n.head? = some 'i' := by decide
  have hPne : ∀ {a : List Text} {x : Char}, (∀ n ∈ a, n.head? = some x) → x ≠ 'p' → x ≠ 'i' → ∀ n ∈ a, ∀ m ∈ startReqs.map (·.name), n ≠ m := by
    intro a x ha hp hi n hn m hm h
    have h1 := ha n hn
    rcases hP m hm with h2 | h2
    · rw [h, h2] at h1; exact hp (Option.some.inj h1).symm
    · rw [h, h2] at h1; exact hi (Option.some.inj h1).symm
  have hD : ∀ n ∈ declared c, ∀ r ∈ smcReqs c ++ (tcbReqs c ++ epReqs c ++ notificationReqs c ++ untypedReqs c ++ startReqs), n ≠ r.name := by
    intro n hn r hr h
    exact hc.free n hn (h ▸ g r hr)
  rw [e]
  simp only [List.nodup_append]
  refine ⟨?_, ⟨hc.once, ⟨?_, ⟨?_, ⟨?_, ⟨?_, by decide, ?_⟩, ?_⟩, ?_⟩, ?_⟩, ?_⟩, ?_⟩
  · rw [smc_names]
    exact List.Nodup.map (fun i j h => dec_inj (List.append_cancel_left h)) hc.smcs
  · rw [tcbReqs, List.map_map]
    exact nodup_map_range (fun i j h => dec_inj (List.append_cancel_left h)) _
  · rw [epReqs, List.map_map]
    exact nodup_map_range (fun i j h => dec_inj (List.append_cancel_left h)) _
  · rw [notificationReqs, List.map_map]
    exact nodup_map_range (fun i j h => dec_inj (List.append_cancel_left h)) _
  · have := untyped_names_nodup hc.sizes
    rw [untypedReqs, List.map_flatMap]
    simpa [List.map_map, Function.comp_def] using this
  · exact hPne hU (by decide) (by decide)
  · intro n hn m hm
    rcases List.mem_append.mp hm with h | h
    · exact head_ne hN hU (by decide) n hn m h
    · exact hPne hN (by decide) (by decide) n hn m h
  · intro n hn m hm
    simp only [List.mem_append] at hm
    rcases hm with h | h | h
    · exact head_ne hE hN (by decide) n hn m h
    · exact head_ne hE hU (by decide) n hn m h
    · exact hPne hE (by decide) (by decide) n hn m h
  · intro n hn m hm
    simp only [List.mem_append] at hm
    rcases hm with h | h | h | h
    · exact head_ne hT hE (by decide) n hn m h
    · exact head_ne hT hN (by decide) n hn m h
    · exact head_ne hT hU (by decide) n hn m h
    · exact hPne hT (by decide) (by decide) n hn m h
  · intro n hn m hm
    have hm' : m ∈ (smcReqs c ++ (tcbReqs c ++ epReqs c ++ notificationReqs c ++ untypedReqs c ++ startReqs)).map (·.name) := by
      simp only [List.map_append, List.mem_append] at hm ⊢
      tauto
    obtain ⟨r, hr, rfl⟩ := List.mem_map.mp hm'
    exact hD n hn r hr
  · intro n hn m hm
    rcases List.mem_append.mp hm with h | hm
    · obtain ⟨r, hr, rfl⟩ := List.mem_map.mp hn
      exact fun he => hD m h r (by simp [hr]) he.symm
    · simp only [List.mem_append] at hm
      rcases hm with h | h | h | h | h
      · exact head_ne hS hT (by decide) n hn m h
      · exact head_ne hS hE (by decide) n hn m h
      · exact head_ne hS hN (by decide) n hn m h
      · exact head_ne hS hU (by decide) n hn m h
      · exact hPne hS (by decide) (by decide) n hn m h

theorem before_names {c : Config} {s : State} (hs : Before s c) : ∀ r ∈ allReqs c, ∀ e ∈ s.named, e.name ≠ r.name := by
  intro r hr e he h
  obtain ⟨_, h1, h2⟩ := hs.2 e he
  have hr' : r ∈ smcReqs c ++ (tcbReqs c ++ epReqs c ++ notificationReqs c ++ untypedReqs c ++ startReqs) ∨
      r ∈ mutexReqs c ++ semaphoreReqs c ++ binaryReqs c := by
    simp only [allReqs, List.mem_append] at hr ⊢
    tauto
  rcases hr' with hr | hr
  · exact h1 (h ▸ made_generated c r hr)
  · apply h2
    rw [h, ← declared_names]
    exact List.mem_map.mpr ⟨r, hr, rfl⟩

theorem forall₂_append {α β : Type} {R : α → β → Prop} {a a' : List α} {b b' : List β} (hl : a.length = b.length)
    (h : List.Forall₂ R (a ++ a') (b ++ b')) : List.Forall₂ R a b ∧ List.Forall₂ R a' b' := by
  induction a generalizing b with
  | nil =>
    cases b with
    | nil => exact ⟨.nil, h⟩
    | cons y b => cases hl
  | cons x a ih =>
    cases b with
    | nil => cases hl
    | cons y b =>
      cases h with
      | cons h1 h2 =>
        obtain ⟨k1, k2⟩ := ih (Nat.succ.inj hl) h2
        exact ⟨.cons h1 k1, k2⟩

/-- The slots of each part. -/
theorem gen_parts {sp : Space} {c : Config} {s T : State} {g : Gen} (h : gen sp c s = .ok (T, g)) :
    g.smcs.length = (smcReqs c).length ∧ g.mutexes.length = (mutexReqs c).length ∧ g.semaphores.length = (semaphoreReqs c).length ∧
    g.binaries.length = (binaryReqs c).length ∧ g.tcbs.length = (tcbReqs c).length ∧ g.eps.length = (epReqs c).length ∧
    g.notifications.length = (notificationReqs c).length ∧ g.untypeds.length = (untypedReqs c).length ∧ g.start.length = startReqs.length := by
  unfold gen at h
  split at h
  · cases h
  · split at h
    · cases h
    · split at h
      · cases h
      · simp only [Except.ok.injEq, Prod.mk.injEq] at h
        obtain ⟨rfl, rfl⟩ := h
        simp only [allocAll_length, and_true]

theorem gen_spec {sp : Space} (hsp : sp.Good) {c : Config} (hc : Sensible c) {s : State} (hs : Before s c) {T : State} {g : Gen}
    (h : gen sp c s = .ok (T, g)) :
    (allSlots g).Nodup ∧ (∀ x ∈ allSlots g, x ∉ s.used ∧ x ≠ 0) ∧ OneEach T ∧ (∀ e ∈ s.named, e ∈ T.named) ∧
    List.Forall₂ (fun r x => entryOf r x ∈ T.named) (smcReqs c) g.smcs ∧
    List.Forall₂ (fun r x => entryOf r x ∈ T.named) (mutexReqs c) g.mutexes ∧
    List.Forall₂ (fun r x => entryOf r x ∈ T.named) (semaphoreReqs c) g.semaphores ∧
    List.Forall₂ (fun r x => entryOf r x ∈ T.named) (binaryReqs c) g.binaries ∧
    List.Forall₂ (fun r x => entryOf r x ∈ T.named) (tcbReqs c) g.tcbs ∧
    List.Forall₂ (fun r x => entryOf r x ∈ T.named) (epReqs c) g.eps ∧
    List.Forall₂ (fun r x => entryOf r x ∈ T.named) (notificationReqs c) g.notifications ∧
    List.Forall₂ (fun r x => entryOf r x ∈ T.named) (untypedReqs c) g.untypeds ∧
    List.Forall₂ (fun r x => entryOf r x ∈ T.named) startReqs g.start := by
  have key := allocAll_fresh hsp (allReqs c) s (fun e he => (hs.2 e he).1) hs.1 (names_nodup hc) (before_names hs)
  rw [gen_all h] at key
  obtain ⟨k1, k2, k3, k4, k5⟩ := key
  refine ⟨k1, k2, k3, k4, ?_⟩
  obtain ⟨l1, l2, l3, l4, l5, l6, l7, l8, l9⟩ := gen_parts h
  simp only [allReqs, allSlots] at k5
  obtain ⟨k5, m9⟩ := forall₂_append (by simp only [List.length_append]; omega) k5
  obtain ⟨k5, m8⟩ := forall₂_append (by simp only [List.length_append]; omega) k5
  obtain ⟨k5, m7⟩ := forall₂_append (by simp only [List.length_append]; omega) k5
  obtain ⟨k5, m6⟩ := forall₂_append (by simp only [List.length_append]; omega) k5
  obtain ⟨k5, m5⟩ := forall₂_append (by simp only [List.length_append]; omega) k5
  obtain ⟨k5, m4⟩ := forall₂_append (by simp only [List.length_append]; omega) k5
  obtain ⟨k5, m3⟩ := forall₂_append (by simp only [List.length_append]; omega) k5
  obtain ⟨k5, m2⟩ := forall₂_append l1.symm k5
  exact ⟨k5, m2, m3, m4, m5, m6, m7, m8, m9⟩

end Verif.Pools
