import Verif.Simple.Spec
import Mathlib.Tactic.ByContra

/-!
# Lemmas about the allocation of capabilities by component.simple.c
-/

namespace Verif.Simple

open Spec

/-- What a name stands for. -/
def Right (c : Config) : Key → Obj → Prop
  | .cnode, o => o = .cnode
  | .pd, o => o = .pd
  | .untyped b _, o => o = .untyped b
  | .ports a b, o => o = .ports a (b + 1)
  | .frame p, o => ∃ r ∈ c.mmios, ∃ b, o = .frame p b ∧ Obj.frame p b ∈ frames r
  | .deviceUntyped p, o => ∃ u ∈ c.untypedMmios, u.1 = p ∧ o = .deviceUntyped u.1 u.2
  | .iospace d, o => ∃ p ∈ c.iospaces, devid p = d ∧ o = .iospace p.domain p.bus p.dev p.fn
  | .smmu n, o => o = .smmu n
  | .asidPool, o => o = .asidPool
  | .notification, o => o = .notification
  | .irq n, o => o = .irq n
  | .holding, o => o = .empty
  | .other _, _ => False

theorem devid_inj {p q : Pci} (hp : p.bus < 256 ∧ p.dev < 32 ∧ p.fn < 8) (hq : q.bus < 256 ∧ q.dev < 32 ∧ q.fn < 8)
    (h : devid p = devid q) : p = q := by
  obtain ⟨a, b, d, f⟩ := p
  obtain ⟨a', b', d', f'⟩ := q
  simp only [devid] at h hp hq
  have h1 : a = a' := by omega
  have h2 : b = b' := by omega
  have h3 : d = d' := by omega
  have h4 : f = f' := by omega
  subst h1; subst h2; subst h3; subst h4; rfl

theorem right_fun {c : Config} (hc : Sensible c) {k : Key} {o o' : Obj} (h : Right c k o) (h' : Right c k o') : o = o' := by
  cases k <;> simp only [Right] at h h' <;> try (first | exact h.trans h'.symm | exact h.elim)
  · obtain ⟨r, hr, b, ho, hf⟩ := h
    obtain ⟨r', hr', b', ho', hf'⟩ := h'
    rw [ho, ho', hc.one_size r hr r' hr' _ _ _ hf hf']
  · obtain ⟨u, hu, hp, ho⟩ := h
    obtain ⟨u', hu', hp', ho'⟩ := h'
    rw [ho, ho', hc.one_untyped u hu u' hu' (hp.trans hp'.symm)]
  · obtain ⟨p, hp, hd, ho⟩ := h
    obtain ⟨p', hp', hd', ho'⟩ := h'
    rw [ho, ho', devid_inj (hc.pci p hp) (hc.pci p' hp') (hd.trans hd'.symm)]

/-- All that was allocated is what its name stands for, and no name is there twice. -/
structure Inv (c : Config) (t : Table) : Prop where
  right : ∀ e ∈ t, (∃ n, e.1 = Key.other n) ∨ Right c e.1 e.2
  nonempty : t ≠ []

/-- The first table is a beginning of the second one. -/
def Grow (t t' : Table) : Prop := ∃ x, t' = t ++ x

theorem Grow.refl (t : Table) : Grow t t := ⟨[], by simp⟩

theorem Grow.trans {a b c : Table} (h : Grow a b) (h' : Grow b c) : Grow a c := by
  obtain ⟨x, rfl⟩ := h
  obtain ⟨y, rfl⟩ := h'
  exact ⟨x ++ y, by simp⟩

theorem Grow.get {t t' : Table} (h : Grow t t') {s : Nat} {e : Key × Obj} (he : t[s]? = some e) : t'[s]? = some e := by
  obtain ⟨x, rfl⟩ := h
  obtain ⟨hs, _⟩ := List.getElem?_eq_some_iff.mp he
  rw [List.getElem?_append_left hs, he]

theorem Grow.map {t t' : Table} (h : Grow t t') {ss : List Nat} {rs : List (Key × Obj)}
    (he : ss.map (fun s => t[s]?) = rs.map some) : ss.map (fun s => t'[s]?) = rs.map some := by
  induction ss generalizing rs with
  | nil => simpa using he
  | cons s ss ih =>
    cases rs with
    | nil => simp at he
    | cons r rs =>
      simp only [List.map_cons, List.cons.injEq] at he ⊢
      exact ⟨h.get he.1, ih he.2⟩

theorem position_some {k : Key} {t : Table} {i : Nat} (h : position k t = some i) : ∃ o, t[i]? = some (k, o) := by
  induction t generalizing i with
  | nil => simp [position] at h
  | cons e t ih =>
    rw [position] at h
    split at h
    · rename_i he
      cases h
      exact ⟨e.2, by simp [← he]⟩
    · cases hp : position k t with
      | none => simp [hp] at h
      | some j =>
        simp only [hp, Option.map_some, Option.some.injEq] at h
        subst h
        simpa using ih hp

theorem position_none {k : Key} {t : Table} (h : position k t = none) : ∀ e ∈ t, e.1 ≠ k := by
  induction t with
  | nil => simp
  | cons e t ih =>
    rw [position] at h
    split at h
    · cases h
    · rename_i he
      simp only [Option.map_eq_none_iff] at h
      intro x hx
      rcases List.mem_cons.mp hx with rfl | hx
      · exact he
      · exact ih h x hx

theorem position_of_absent {k : Key} {t : Table} (h : ∀ e ∈ t, e.1 ≠ k) : position k t = none := by
  cases hp : position k t with
  | none => rfl
  | some i =>
    obtain ⟨o, ho⟩ := position_some hp
    exact absurd rfl (h _ (List.mem_of_getElem? ho))

theorem alloc_grow (t : Table) (k : Key) (o : Obj) : Grow t (alloc t k o).1 := by
  unfold alloc
  split
  · exact .refl _
  · exact ⟨_, rfl⟩

theorem alloc_keys (t : Table) (k : Key) (o : Obj) : ∀ e ∈ (alloc t k o).1, e ∈ t ∨ e = (k, o) := by
  unfold alloc
  split
  · intro e he; exact Or.inl he
  · intro e he
    simpa using he

theorem alloc_inv {c : Config} {t : Table} (hi : Inv c t) {k : Key} {o : Obj} (hr : Right c k o) : Inv c (alloc t k o).1 := by
  constructor
  · intro e he
    rcases alloc_keys t k o e he with h | h
    · exact hi.right e h
    · subst h; exact Or.inr hr
  · obtain ⟨x, hx⟩ := alloc_grow t k o
    rw [hx]
    intro h
    exact hi.nonempty (List.append_eq_nil_iff.mp h).1

theorem alloc_get {c : Config} (hc : Sensible c) {t : Table} (hi : Inv c t) {k : Key} {o : Obj} (hr : Right c k o) :
    (alloc t k o).1[(alloc t k o).2]? = some (k, o) := by
  unfold alloc
  split
  · rename_i i hp
    obtain ⟨o', ho'⟩ := position_some hp
    rcases hi.right _ (List.mem_of_getElem? ho') with ⟨n, hn⟩ | h
    · simp only at hn
      subst hn
      simp [Right] at hr
    · simp only at h
      rw [ho', right_fun hc h hr]
  · simp

theorem allocAll_grow (t : Table) (rs : List (Key × Obj)) : Grow t (allocAll t rs).1 := by
  induction rs generalizing t with
  | nil => exact .refl _
  | cons r rs ih => exact (alloc_grow t r.1 r.2).trans (ih _)

theorem allocAll_keys (t : Table) (rs : List (Key × Obj)) : ∀ e ∈ (allocAll t rs).1, e ∈ t ∨ e ∈ rs := by
  induction rs generalizing t with
  | nil => intro e he; exact Or.inl he
  | cons r rs ih =>
    intro e he
    rcases ih _ e he with h | h
    · rcases alloc_keys t r.1 r.2 e h with h | h
      · exact Or.inl h
      · exact Or.inr (by simp [h])
    · exact Or.inr (List.mem_cons_of_mem _ h)

theorem allocAll_inv {c : Config} {t : Table} (hi : Inv c t) {rs : List (Key × Obj)} (hr : ∀ r ∈ rs, Right c r.1 r.2) :
    Inv c (allocAll t rs).1 := by
  induction rs generalizing t with
  | nil => exact hi
  | cons r rs ih =>
    exact ih (alloc_inv hi (hr r (by simp))) (fun x hx => hr x (List.mem_cons_of_mem _ hx))

theorem allocAll_get {c : Config} (hc : Sensible c) {t : Table} (hi : Inv c t) {rs : List (Key × Obj)}
    (hr : ∀ r ∈ rs, Right c r.1 r.2) :
    (allocAll t rs).2.map (fun s => (allocAll t rs).1[s]?) = rs.map some := by
  induction rs generalizing t with
  | nil => rfl
  | cons r rs ih =>
    have h1 := hr r (by simp)
    have hi' := alloc_inv hi h1
    have h2 := ih hi' (fun x hx => hr x (List.mem_cons_of_mem _ hx))
    simp only [allocAll, List.map_cons, List.cons.injEq]
    exact ⟨(allocAll_grow _ rs).get (alloc_get hc hi h1), h2⟩

theorem allocAll_length (t : Table) (rs : List (Key × Obj)) : (allocAll t rs).2.length = rs.length := by
  induction rs generalizing t with
  | nil => rfl
  | cons r rs ih => simp [allocAll, ih]

theorem ceil_eq (r : Region) : (r.size + 2 ^ r.bits - 1) / 2 ^ r.bits = frameCount r := by
  have hp : 0 < 2 ^ r.bits := Nat.two_pow_pos _
  unfold frameCount
  generalize 2 ^ r.bits = p at *
  have h := Nat.div_add_mod r.size p
  have hm := Nat.mod_lt r.size hp
  generalize r.size / p = q at *
  generalize r.size % p = m at *
  rw [← h]
  split
  · rename_i h0
    subst h0
    rw [Nat.add_zero, Nat.add_zero, Nat.div_eq_of_lt_le]
    · rw [Nat.mul_comm q p]; omega
    · rw [Nat.mul_comm (q + 1) p, Nat.mul_succ]; omega
  · rw [Nat.div_eq_of_lt_le]
    · rw [Nat.mul_comm (q + 1) p, Nat.mul_succ]; omega
    · rw [Nat.mul_comm (q + 1 + 1) p, Nat.mul_succ, Nat.mul_succ]; omega

/-- The requests for a region. -/
def regionKeys (r : Region) : List (Key × Obj) :=
  (List.range (frameCount r)).map (fun i => (Key.frame (r.paddr + i * 2 ^ r.bits), Obj.frame (r.paddr + i * 2 ^ r.bits) r.bits))

theorem frameBits_eq {c : Config} (hc : Sensible c) {r : Region} (hr : r ∈ c.mmios) : frameBits c r.bits = some r.bits := by
  unfold frameBits
  rcases hc.frame_bits r hr with h | h <;> rcases hc.section_bits with h' | h' <;> simp [h, h']

theorem regionReqs_eq {c : Config} (hc : Sensible c) {r : Region} (hr : r ∈ c.mmios) : regionReqs c r = some (regionKeys r) := by
  have hs : steps r.size (2 ^ r.bits) = (List.range (frameCount r)).map (· * 2 ^ r.bits) := by
    unfold steps; rw [ceil_eq]
  unfold regionReqs regionKeys
  rw [hs]
  split
  · rename_i h
    have : frameCount r = 0 := by simpa using h
    simp [this]
  · rw [frameBits_eq hc hr]
    simp

theorem regionKeys_right {c : Config} {r : Region} (hr : r ∈ c.mmios) : ∀ e ∈ regionKeys r, Right c e.1 e.2 := by
  intro e he
  simp only [regionKeys, List.mem_map, List.mem_range] at he
  obtain ⟨i, hi, rfl⟩ := he
  exact ⟨r, hr, r.bits, rfl, List.mem_map.mpr ⟨i, List.mem_range.mpr hi, rfl⟩⟩

theorem allocRegions_spec {c : Config} (hc : Sensible c) {t : Table} (hi : Inv c t) {rs : List Region}
    (hrs : ∀ r ∈ rs, r ∈ c.mmios) : ∃ T ms, allocRegions c t rs = some (T, ms) ∧ Grow t T ∧ Inv c T ∧
      ms.map (·.1) = rs ∧ (∀ m ∈ ms, m.2.map (fun s => T[s]?) = (regionKeys m.1).map some) ∧
      (∀ e ∈ T, e ∈ t ∨ ∃ r ∈ rs, e ∈ regionKeys r) := by
  induction rs generalizing t with
  | nil => exact ⟨t, [], rfl, .refl _, hi, rfl, by simp, fun e he => Or.inl he⟩
  | cons r rs ih =>
    have hr := hrs r (by simp)
    have hi' := allocAll_inv hi (regionKeys_right hr)
    obtain ⟨T, ms, h1, h2, h3, h4, h5, h6⟩ := ih hi' (fun x hx => hrs x (List.mem_cons_of_mem _ hx))
    refine ⟨T, (r, (allocAll t (regionKeys r)).2) :: ms, ?_, (allocAll_grow _ _).trans h2, h3, by simp [h4], ?_, ?_⟩
    · rw [allocRegions, regionReqs_eq hc hr]
      simp [h1]
    · intro m hm
      rcases List.mem_cons.mp hm with rfl | hm
      · exact h2.map (allocAll_get hc hi (regionKeys_right hr))
      · exact h5 m hm
    · intro e he
      rcases h6 e he with h | ⟨r', hr', h⟩
      · rcases allocAll_keys _ _ e h with h | h
        · exact Or.inl h
        · exact Or.inr ⟨r, by simp, h⟩
      · exact Or.inr ⟨r', List.mem_cons_of_mem _ hr', h⟩

theorem earlier_inv {c : Config} {t : Table} (h : Earlier t) : Inv c t := by
  constructor
  · intro e he
    rcases h.2 e he with h | h | h
    · exact Or.inl h
    · subst h; exact Or.inr rfl
    · subst h; exact Or.inr rfl
  · exact h.1

/-- What is known of the result of the template. -/
structure Facts (c : Config) (t T : Table) (g : Gen) : Prop where
  inv : Inv c T
  cnode : T[g.cnode]? = some (.cnode, .cnode)
  pd : T[g.pd]? = some (.pd, .pd)
  untypedBits : g.untypeds.map (·.2) = untypedBits c
  untypeds : g.untypeds.map (fun u => T[u.1]?) = (untypedReqs c).map some
  portRanges : g.ioports.map (·.2) = c.ioports
  ports : g.ioports.map (fun p => T[p.1]?) = (portReqs c).map some
  regions : g.mmio.map (·.1) = c.mmios
  mmio : ∀ m ∈ g.mmio, m.2.map (fun s => T[s]?) = (regionKeys m.1).map some
  deviceUntypeds : g.untypedMmio.map (fun u => (u.1, u.2.1)) = c.untypedMmios
  device : g.untypedMmio.map (fun u => T[u.2.2]?)
    = c.untypedMmios.map (fun u => some (Key.deviceUntyped u.1, Obj.deviceUntyped u.1 u.2))
  devids : g.iospaces.map (·.1) = c.iospaces.map devid ++ c.smmu
  iospaces : g.iospaces.map (fun p => T[p.2]?)
    = c.iospaces.map (fun p => some (Key.iospace (devid p), Obj.iospace p.domain p.bus p.dev p.fn))
      ++ c.smmu.map (fun n => some (Key.smmu n, Obj.smmu n))
  irqNumbers : g.irqs.map (·.1) = c.irqs
  irqs : g.irqs.map (fun p => T[p.2]?) = c.irqs.map (fun n => some (Key.irq n, Obj.irq n))
  holding : T[g.holding]? = some (.holding, .empty)
  last : T.length = g.holding + 1
  positive : ∀ p ∈ g.ioports, p.1 ≠ 0

theorem zip_map_fst {α β : Type} {l : List α} {l' : List β} (h : l.length = l'.length) : (l.zip l').map (·.1) = l := by
  rw [← List.unzip_fst, List.unzip_zip h]

theorem zip_map_snd {α β : Type} {l : List α} {l' : List β} (h : l.length = l'.length) : (l.zip l').map (·.2) = l' := by
  rw [← List.unzip_snd, List.unzip_zip h]

theorem zip_map_left {α β γ : Type} {l : List α} {l' : List β} (f : α → γ) (h : l.length = l'.length) :
    (l.zip l').map (fun p => f p.1) = l.map f := by
  rw [← zip_map_fst h, List.map_map, zip_map_fst h]; rfl

theorem zip_map_right {α β γ : Type} {l : List α} {l' : List β} (f : β → γ) (h : l.length = l'.length) :
    (l.zip l').map (fun p => f p.2) = l'.map f := by
  rw [← zip_map_snd h, List.map_map, zip_map_snd h]; rfl

theorem untypedReqs_bits (c : Config) : (untypedReqs c).length = (untypedBits c).length := by
  simp [untypedReqs, untypedBits]

theorem alloc_new {t : Table} {k : Key} {o : Obj} (h : ∀ e ∈ t, e.1 ≠ k) : alloc t k o = (t ++ [(k, o)], t.length) := by
  rw [alloc, position_of_absent h]

theorem gen_spec {c : Config} (hc : Sensible c) {t : Table} (ht : Earlier t) {T : Table} {g : Gen}
    (h : gen c t = .ok (T, g)) : Facts c t T g ∧ Grow t T := by
  have i0 : Inv c t := earlier_inv ht
  have i1 := alloc_inv i0 (k := .cnode) (o := .cnode) rfl
  have i2 := alloc_inv i1 (k := .pd) (o := .pd) rfl
  have r3 : ∀ r ∈ untypedReqs c, Right c r.1 r.2 := by
    intro r hr
    simp only [untypedReqs, List.mem_flatMap, List.mem_map] at hr
    obtain ⟨p, _, i, _, rfl⟩ := hr
    rfl
  have i3 := allocAll_inv i2 r3
  have r4 : ∀ r ∈ portReqs c, Right c r.1 r.2 := by
    intro r hr
    simp only [portReqs, List.mem_map] at hr
    obtain ⟨p, _, rfl⟩ := hr
    rfl
  have i4 := allocAll_inv i3 r4
  unfold gen at h
  simp only at h
  split at h
  · cases h
  · rename_i hl
    generalize e1 : alloc t Key.cnode Obj.cnode = a1 at *
    generalize e2 : alloc a1.1 Key.pd Obj.pd = a2 at *
    generalize e3 : allocAll a2.1 (untypedReqs c) = a3 at *
    generalize e4 : allocAll a3.1 (portReqs c) = a4 at *
    obtain ⟨T5, ms, h5, g5, i5, q5, q5', q5''⟩ := allocRegions_spec hc i4 (rs := c.mmios) (fun r hr => hr)
    rw [h5] at h
    simp only at h
    have r6 : ∀ r ∈ c.untypedMmios.map (fun u => (Key.deviceUntyped u.1, Obj.deviceUntyped u.1 u.2)), Right c r.1 r.2 := by
      intro r hr
      simp only [List.mem_map] at hr
      obtain ⟨u, hu, rfl⟩ := hr
      exact ⟨u, hu, rfl, rfl⟩
    have i6 := allocAll_inv i5 r6
    have r7 : ∀ r ∈ c.iospaces.map (fun p => (Key.iospace (devid p), Obj.iospace p.domain p.bus p.dev p.fn)), Right c r.1 r.2 := by
      intro r hr
      simp only [List.mem_map] at hr
      obtain ⟨u, hu, rfl⟩ := hr
      exact ⟨u, hu, rfl, rfl⟩
    have r8 : ∀ r ∈ c.smmu.map (fun n => (Key.smmu n, Obj.smmu n)), Right c r.1 r.2 := by
      intro r hr
      simp only [List.mem_map] at hr
      obtain ⟨u, hu, rfl⟩ := hr
      rfl
    have r9 : ∀ r ∈ c.irqs.map (fun n => (Key.irq n, Obj.irq n)), Right c r.1 r.2 := by
      intro r hr
      simp only [List.mem_map] at hr
      obtain ⟨u, hu, rfl⟩ := hr
      rfl
    generalize e6 : allocAll T5 (c.untypedMmios.map (fun u => (Key.deviceUntyped u.1, Obj.deviceUntyped u.1 u.2))) = a6 at *
    have i7 := allocAll_inv i6 r7
    generalize e7 : allocAll a6.1 (c.iospaces.map (fun p => (Key.iospace (devid p), Obj.iospace p.domain p.bus p.dev p.fn))) = a7 at *
    have i8 := allocAll_inv i7 r8
    generalize e8 : allocAll a7.1 (c.smmu.map (fun n => (Key.smmu n, Obj.smmu n))) = a8 at *
    have i9 : Inv c (if c.asidPool = true then (alloc a8.1 .asidPool .asidPool).1 else a8.1) := by
      split
      · exact alloc_inv i8 rfl
      · exact i8
    have g9 : Grow a8.1 (if c.asidPool = true then (alloc a8.1 .asidPool .asidPool).1 else a8.1) := by
      split
      · exact alloc_grow _ _ _
      · exact .refl _
    have k9 : ∀ e ∈ (if c.asidPool = true then (alloc a8.1 .asidPool .asidPool).1 else a8.1), e ∈ a8.1 ∨ e.1 = .asidPool := by
      intro e he
      split at he
      · rcases alloc_keys _ _ _ e he with h | h
        · exact Or.inl h
        · exact Or.inr (by rw [h])
      · exact Or.inl he
    generalize e9 : (if c.asidPool = true then (alloc a8.1 .asidPool .asidPool).1 else a8.1) = a9 at *
    have i10 := alloc_inv i9 (k := .notification) (o := .notification) rfl
    generalize e10 : alloc a9 Key.notification Obj.notification = a10 at *
    have i11 := allocAll_inv i10 r9
    generalize e11 : allocAll a10.1 (c.irqs.map (fun n => (Key.irq n, Obj.irq n))) = a11 at *
    -- the holding slot is new
    have hnew : ∀ e ∈ a11.1, e.1 ≠ Key.holding := by
      intro e he hk
      rw [← e11] at he
      rcases allocAll_keys _ _ e he with he | he
      · rw [← e10] at he
        rcases alloc_keys _ _ _ e he with he | he
        · rcases k9 e he with he | he
          · rw [← e8] at he
            rcases allocAll_keys _ _ e he with he | he
            · rw [← e7] at he
              rcases allocAll_keys _ _ e he with he | he
              · rw [← e6] at he
                rcases allocAll_keys _ _ e he with he | he
                · rcases q5'' e he with he | ⟨r, _, he⟩
                  · rw [← e4] at he
                    rcases allocAll_keys _ _ e he with he | he
                    · rw [← e3] at he
                      rcases allocAll_keys _ _ e he with he | he
                      · rw [← e2] at he
                        rcases alloc_keys _ _ _ e he with he | he
                        · rw [← e1] at he
                          rcases alloc_keys _ _ _ e he with he | he
                          · rcases ht.2 e he with ⟨n, hn⟩ | he | he
                            · rw [hn] at hk; cases hk
                            · rw [he] at hk; cases hk
                            · rw [he] at hk; cases hk
                          · rw [he] at hk; cases hk
                        · rw [he] at hk; cases hk
                      · simp only [untypedReqs, List.mem_flatMap, List.mem_map] at he
                        obtain ⟨p, _, i, _, rfl⟩ := he
                        cases hk
                    · simp only [portReqs, List.mem_map] at he
                      obtain ⟨p, _, rfl⟩ := he
                      cases hk
                  · simp only [regionKeys, List.mem_map] at he
                    obtain ⟨p, _, rfl⟩ := he
                    cases hk
                · simp only [List.mem_map] at he
                  obtain ⟨p, _, rfl⟩ := he
                  cases hk
              · simp only [List.mem_map] at he
                obtain ⟨p, _, rfl⟩ := he
                cases hk
            · simp only [List.mem_map] at he
              obtain ⟨p, _, rfl⟩ := he
              cases hk
          · rw [he] at hk; cases hk
        · rw [he] at hk; cases hk
      · simp only [List.mem_map] at he
        obtain ⟨p, _, rfl⟩ := he
        cases hk
    have e12 := alloc_new (o := Obj.empty) hnew
    have i12 := alloc_inv i11 (k := .holding) (o := .empty) rfl
    rw [e12] at h i12
    simp only [Except.ok.injEq, Prod.mk.injEq] at h
    obtain ⟨rfl, rfl⟩ := h
    -- growth
    have g11 : Grow a11.1 (a11.1 ++ [(Key.holding, Obj.empty)]) := ⟨_, rfl⟩
    have g10 : Grow a10.1 (a11.1 ++ [(Key.holding, Obj.empty)]) := by
      refine Grow.trans ?_ g11
      rw [← e11]; exact allocAll_grow _ _
    have g9' : Grow a9 (a11.1 ++ [(Key.holding, Obj.empty)]) := by
      refine Grow.trans ?_ g10
      rw [← e10]; exact alloc_grow _ _ _
    have g8 := g9.trans g9'
    have g7 : Grow a7.1 (a11.1 ++ [(Key.holding, Obj.empty)]) := by
      refine Grow.trans ?_ g8
      rw [← e8]; exact allocAll_grow _ _
    have g6 : Grow a6.1 (a11.1 ++ [(Key.holding, Obj.empty)]) := by
      refine Grow.trans ?_ g7
      rw [← e7]; exact allocAll_grow _ _
    have g5' : Grow T5 (a11.1 ++ [(Key.holding, Obj.empty)]) := by
      refine Grow.trans ?_ g6
      rw [← e6]; exact allocAll_grow _ _
    have g4 := g5.trans g5'
    have g3 : Grow a3.1 (a11.1 ++ [(Key.holding, Obj.empty)]) := by
      refine Grow.trans ?_ g4
      rw [← e4]; exact allocAll_grow _ _
    have g2 : Grow a2.1 (a11.1 ++ [(Key.holding, Obj.empty)]) := by
      refine Grow.trans ?_ g3
      rw [← e3]; exact allocAll_grow _ _
    have g1 : Grow a1.1 (a11.1 ++ [(Key.holding, Obj.empty)]) := by
      refine Grow.trans ?_ g2
      rw [← e2]; exact alloc_grow _ _ _
    have g0 : Grow t (a11.1 ++ [(Key.holding, Obj.empty)]) := by
      refine Grow.trans ?_ g1
      rw [← e1]; exact alloc_grow _ _ _
    -- what the slots hold
    have s1 := alloc_get hc i0 (k := .cnode) (o := .cnode) rfl
    rw [e1] at s1
    have s2 := alloc_get hc i1 (k := .pd) (o := .pd) rfl
    rw [e2] at s2
    have s3 := allocAll_get hc i2 r3
    rw [e3] at s3
    have s4 := allocAll_get hc i3 r4
    rw [e4] at s4
    have s6 := allocAll_get hc i5 r6
    rw [e6] at s6
    have s7 := allocAll_get hc i6 r7
    rw [e7] at s7
    have s8 := allocAll_get hc i7 r8
    rw [e8] at s8
    have s11 := allocAll_get hc i10 r9
    rw [e11] at s11
    have l3 : a3.2.length = (untypedBits c).length := by
      rw [← e3, allocAll_length, untypedReqs_bits]
    have l4 : a4.2.length = c.ioports.length := by
      rw [← e4, allocAll_length]; simp [portReqs]
    have l6 : c.untypedMmios.length = a6.2.length := by
      rw [← e6, allocAll_length]; simp
    have l7 : (c.iospaces.map devid).length = a7.2.length := by
      rw [← e7, allocAll_length]; simp
    have l8 : c.smmu.length = a8.2.length := by
      rw [← e8, allocAll_length]; simp
    have l11 : c.irqs.length = a11.2.length := by
      rw [← e11, allocAll_length]; simp
    generalize hT : a11.1 ++ [(Key.holding, Obj.empty)] = T at *
    refine ⟨?_, g0⟩
    have ports : (a4.2.zip c.ioports).map (fun p => T[p.1]?) = (portReqs c).map some :=
      (zip_map_left (fun s => T[s]?) l4).trans (g4.map s4)
    exact
      { inv := i12
        cnode := g1.get s1
        pd := g2.get s2
        untypedBits := zip_map_snd l3
        untypeds := (zip_map_left (fun s => T[s]?) l3).trans (g3.map s3)
        portRanges := zip_map_snd l4
        ports := ports
        regions := q5
        mmio := fun m hm => g5'.map (q5' m hm)
        deviceUntypeds := by
          simp only [List.map_map]
          exact zip_map_fst l6
        device := by
          simp only [List.map_map]
          refine (zip_map_right (fun s => T[s]?) l6).trans ((g6.map s6).trans ?_)
          simp
        devids := by
          simp only [List.map_append]
          rw [zip_map_fst l7, zip_map_fst l8]
        iospaces := by
          simp only [List.map_append]
          refine congr (congrArg _ ((zip_map_right (fun s => T[s]?) l7).trans ((g7.map s7).trans ?_)))
            ((zip_map_right (fun s => T[s]?) l8).trans ((g8.map s8).trans ?_)) <;> simp
        irqNumbers := zip_map_fst l11
        irqs := by
          refine (zip_map_right (fun s => T[s]?) l11).trans ((g11.map s11).trans ?_)
          simp
        holding := by simp [← hT]
        last := by simp [← hT]
        positive := by
          intro p hp h0
          have h1 : T[p.1]? ∈ (a4.2.zip c.ioports).map (fun p => T[p.1]?) := List.mem_map.mpr ⟨p, hp, rfl⟩
          rw [ports, h0] at h1
          simp only [portReqs, List.map_map, List.mem_map, Function.comp] at h1
          obtain ⟨q, _, hq⟩ := h1
          obtain ⟨e, t', rfl⟩ : ∃ e t', t = e :: t' := List.exists_cons_of_ne_nil ht.1
          have h2 := g0.get (s := 0) (e := e) rfl
          rw [← hq] at h2
          cases h2
          rcases ht.2 _ (List.mem_cons_self ..) with ⟨n, hn⟩ | hn | hn <;> cases hn }

end Verif.Simple
