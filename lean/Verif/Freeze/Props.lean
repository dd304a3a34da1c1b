import Verif.Freeze.Spec
import Mathlib.Tactic.Tauto
import Mathlib.Data.List.Nodup
import Mathlib.Tactic.ByContra

namespace Verif.Freeze
open Spec

/-! ### C19 -/

theorem dget_append {β : Type} (d e : List (String × β)) (n : String) :
    dget (d ++ e) n = (dget d n).or (dget e n) := by
  induction d with
  | nil => simp [dget]
  | cons p d ih =>
    obtain ⟨k, v⟩ := p
    simp only [List.cons_append, dget]
    split
    · simp
    · exact ih

theorem dget_none {β : Type} (d : List (String × β)) (n : String) : dget d n = none ↔ ∀ p ∈ d, p.1 ≠ n := by
  induction d with
  | nil => simp [dget]
  | cons p d ih =>
    obtain ⟨k, v⟩ := p
    simp only [dget, List.mem_cons, forall_eq_or_imp]
    split
    · rename_i h; simp [h]
    · rename_i h; rw [ih]; simp [h]

theorem dget_some_mem {β : Type} (d : List (String × β)) (n : String) (v : β) (h : dget d n = some v) : (n, v) ∈ d := by
  induction d with
  | nil => simp [dget] at h
  | cons p d ih =>
    obtain ⟨k, w⟩ := p
    simp only [dget] at h
    split at h
    · rename_i hk; cases h; rw [hk]; simp
    · simp [ih h]

theorem dget_mem {β : Type} (d : List (String × β)) (n : String) (v : β) (hn : (d.map Prod.fst).Nodup)
    (h : (n, v) ∈ d) : dget d n = some v := by
  induction d with
  | nil => cases h
  | cons p d ih =>
    obtain ⟨k, w⟩ := p
    simp only [List.map_cons, List.nodup_cons] at hn
    simp only [dget]
    rcases List.mem_cons.mp h with h | h
    · cases h; simp
    · have : k ≠ n := fun e => hn.1 (e ▸ List.mem_map_of_mem (f := Prod.fst) h)
      rw [if_neg this]; exact ih hn.2 h

/-- The named children with their names. -/
def named (children : List Child) : List (String × Child) :=
  children.filterMap fun c => c.name.map fun n => (n, c)

theorem addAll_eq (children : List Child) : ∀ d : List (String × Child), (d.map Prod.fst).Nodup →
    addAll d children = if ((d ++ named children).map Prod.fst).Nodup then some (d ++ named children) else none := by
  induction children with
  | nil => intro d h; simp [addAll, named, h]
  | cons c rest ih =>
    intro d h
    simp only [addAll]
    cases hc : c.name with
    | none =>
      have hnm : named (c :: rest) = named rest := by simp [named, hc]
      rw [hnm]; exact ih d h
    | some n =>
      have hnm : named (c :: rest) = (n, c) :: named rest := by simp [named, hc]
      rw [hnm]
      cases hd : dget d n with
      | some v =>
        simp only [hd]
        rw [if_neg]
        intro hnd
        rw [List.map_append, List.nodup_append] at hnd
        exact hnd.2.2 n (List.mem_map_of_mem (f := Prod.fst) (dget_some_mem d n v hd)) n (by simp) rfl
      | none =>
        simp only [hd]
        have hfresh := (dget_none d n).mp hd
        rw [ih (d ++ [(n, c)])]
        · simp
        · rw [List.map_append, List.nodup_append]
          refine ⟨h, by simp, ?_⟩
          intro a ha b hb
          simp at hb; subst hb
          rw [List.mem_map] at ha
          obtain ⟨p, hp, rfl⟩ := ha
          exact hfresh p hp

/-- C19: freezing a map-like object fails exactly when two different children, at positions
`i < j`, have the same name. -/
theorem mapFreeze_error_iff (children : List Child) :
    mapFreeze children = none ↔ ∃ (i j : Nat) (a b : Child) (n : String), i < j ∧ children[i]? = some a ∧
      children[j]? = some b ∧ a.name = some n ∧ b.name = some n := by
  unfold mapFreeze
  rw [addAll_eq children [] (by simp)]
  simp only [List.nil_append]
  have key : ((named children).map Prod.fst).Nodup ↔ ¬ ∃ (i j : Nat) (a b : Child) (n : String), i < j ∧
      children[i]? = some a ∧ children[j]? = some b ∧ a.name = some n ∧ b.name = some n := by
    induction children with
    | nil => simp [named]
    | cons c rest ih =>
      have memn : ∀ n, n ∈ (named rest).map Prod.fst ↔ ∃ (j : Nat) (b : Child), rest[j]? = some b ∧ b.name = some n := by
        intro n
        simp only [named, List.mem_map, List.mem_filterMap, Option.map_eq_some_iff]
        constructor
        · rintro ⟨p, ⟨b, hb, m, hm, rfl⟩, rfl⟩
          obtain ⟨j, hj⟩ := List.mem_iff_getElem?.mp hb
          exact ⟨j, b, hj, hm⟩
        · rintro ⟨j, b, hj, hm⟩
          exact ⟨(n, b), ⟨b, List.mem_iff_getElem?.mpr ⟨j, hj⟩, n, hm, rfl⟩, rfl⟩
      have shift : (∃ (i j : Nat) (a b : Child) (n : String), i < j ∧
          (c :: rest)[i]? = some a ∧ (c :: rest)[j]? = some b ∧ a.name = some n ∧ b.name = some n) ↔
          (∃ n, c.name = some n ∧ n ∈ (named rest).map Prod.fst) ∨ (∃ (i j : Nat) (a b : Child) (n : String), i < j ∧
          rest[i]? = some a ∧ rest[j]? = some b ∧ a.name = some n ∧ b.name = some n) := by
        constructor
        · rintro ⟨i, j, a, b, n, hij, ha, hb, hna, hnb⟩
          match i, j with
          | 0, 0 => omega
          | 0, j + 1 =>
            simp at ha hb; subst ha
            exact .inl ⟨n, hna, (memn n).mpr ⟨j, b, hb, hnb⟩⟩
          | i + 1, 0 => omega
          | i + 1, j + 1 =>
            simp at ha hb
            exact .inr ⟨i, j, a, b, n, by omega, ha, hb, hna, hnb⟩
        · rintro (⟨n, hn, hm⟩ | ⟨i, j, a, b, n, hij, ha, hb, hna, hnb⟩)
          · obtain ⟨j, b, hb, hnb⟩ := (memn n).mp hm
            exact ⟨0, j + 1, c, b, n, by omega, by simp, by simpa using hb, hn, hnb⟩
          · exact ⟨i + 1, j + 1, a, b, n, by omega, by simpa using ha, by simpa using hb, hna, hnb⟩
      rw [shift]
      cases hc : c.name with
      | none =>
        have hnm : named (c :: rest) = named rest := by simp [named, hc]
        rw [hnm, ih]; simp
      | some n =>
        have hnm : named (c :: rest) = (n, c) :: named rest := by simp [named, hc]
        rw [hnm, List.map_cons, List.nodup_cons, ih]
        simp only [Option.some.injEq]
        constructor
        · rintro ⟨h1, h2⟩ (⟨m, hm, h3⟩ | h3)
          · subst hm; exact h1 h3
          · exact h2 h3
        · intro h
          exact ⟨fun h1 => h (.inl ⟨n, rfl, h1⟩), fun h1 => h (.inr h1)⟩
  split
  · rename_i h
    constructor
    · intro h'; cases h'
    · intro h'; exact absurd h' (key.mp h)
  · rename_i h
    constructor
    · intro _; by_contra h'; exact h (key.mpr h')
    · intro _; rfl

/-- C19: after freezing, looking a name up gives a child exactly if it is a child of that name. -/
theorem mapFreeze_lookup (children : List Child) (d : List (String × Child)) (h : mapFreeze children = some d)
    (n : String) (c : Child) : dget d n = some c ↔ c ∈ children ∧ c.name = some n := by
  unfold mapFreeze at h
  rw [addAll_eq children [] (by simp)] at h
  simp only [List.nil_append] at h
  split at h
  · rename_i hn
    cases h
    have hmem : (n, c) ∈ named children ↔ c ∈ children ∧ c.name = some n := by
      simp only [named, List.mem_filterMap, Option.map_eq_some_iff, Prod.mk.injEq]
      constructor
      · rintro ⟨a, ha, m, hm, rfl, rfl⟩; exact ⟨ha, hm⟩
      · rintro ⟨ha, hm⟩; exact ⟨c, ha, n, hm, rfl, rfl⟩
    rw [← hmem]
    exact ⟨dget_some_mem _ _ _, dget_mem _ _ _ hn⟩
  · cases h

/-- C19: iterating yields the names of the children, in order, each once. -/
theorem mapFreeze_iter (children : List Child) (d : List (String × Child)) (h : mapFreeze children = some d) :
    d.map Prod.fst = children.filterMap (·.name) ∧ (d.map Prod.fst).Nodup := by
  unfold mapFreeze at h
  rw [addAll_eq children [] (by simp)] at h
  simp only [List.nil_append] at h
  split at h
  · rename_i hn
    cases h
    refine ⟨?_, hn⟩
    unfold named
    induction children with
    | nil => rfl
    | cons c rest ih =>
      have ih' := ih (by
        unfold named at hn ⊢
        rw [List.filterMap_cons] at hn
        cases hc : c.name with
        | none => simpa [hc] using hn
        | some n => rw [hc] at hn; simp only [Option.map_some, List.map_cons, List.nodup_cons] at hn; exact hn.2)
      cases hc : c.name with
      | none => simpa [List.filterMap_cons, hc] using ih'
      | some n => simp only [List.filterMap_cons, hc, Option.map_some, List.map_cons, ih']
  · cases h

example : mapFreeze [⟨some "a", 0⟩, ⟨none, 1⟩, ⟨some "b", 2⟩] =
    some [("a", ⟨some "a", 0⟩), ("b", ⟨some "b", 2⟩)] := by decide
example : mapFreeze [⟨some "a", 0⟩, ⟨none, 1⟩, ⟨some "a", 2⟩] = none := by decide

/-! ### C20 -/

theorem useEnds_ok : ∀ (ends un con : List End) (r : List End × List End), (∀ e ∈ con, e ∉ un) →
    useEnds un con ends = .ok r →
    ends.Nodup ∧ (∀ e ∈ ends, e ∈ un ∧ e ∉ con) ∧ ∀ e, e ∈ r.1 ↔ e ∈ un ∧ e ∉ ends := by
  intro ends
  induction ends with
  | nil => intro un con r _ h; cases h; simp
  | cons x rest ih =>
    intro un con r hdis h
    simp only [useEnds] at h
    split at h
    · cases h
    · rename_i hxc
      split at h
      · rename_i hxu
        obtain ⟨h1, h2, h3⟩ := ih _ _ r (by
          intro e he heu
          simp only [List.mem_filter] at heu
          rcases List.mem_cons.mp he with rfl | he
          · simp at heu
          · exact hdis e he heu.1) h
        refine ⟨?_, ?_, ?_⟩
        · rw [List.nodup_cons]
          refine ⟨fun hx => ?_, h1⟩
          exact (h2 x hx).2 (by simp)
        · intro e he
          rcases List.mem_cons.mp he with rfl | he
          · exact ⟨hxu, hxc⟩
          · have := h2 e he
            simp only [List.mem_filter, List.mem_cons, not_or] at this
            exact ⟨this.1.1, this.2.2⟩
        · intro e
          rw [h3]
          simp only [List.mem_filter, List.mem_cons, not_or, Bool.not_eq_true', decide_eq_false_iff_not]
          tauto
      · cases h

theorem useEnds_success : ∀ (ends un con : List End), ends.Nodup → (∀ e ∈ ends, e ∈ un ∧ e ∉ con) →
    ∃ r, useEnds un con ends = .ok r := by
  intro ends
  induction ends with
  | nil => intro un con _ _; exact ⟨_, rfl⟩
  | cons x rest ih =>
    intro un con hn h
    rw [List.nodup_cons] at hn
    obtain ⟨h1, h2⟩ := h x (by simp)
    simp only [useEnds, if_neg h2, if_pos h1]
    apply ih _ _ hn.2
    intro e he
    obtain ⟨h3, h4⟩ := h e (by simp [he])
    have hne : e ≠ x := fun hx => hn.1 (hx ▸ he)
    simp [h3, h4, hne]

theorem mem_allIfaces (insts : List Inst) (e : End) : e ∈ allIfaces insts ↔ e.inst ∈ insts ∧ e.iface ∈ e.inst.ifaces := by
  obtain ⟨i, f⟩ := e
  simp only [allIfaces, List.mem_flatMap, List.mem_map, End.mk.injEq]
  constructor
  · rintro ⟨a, ha, b, hb, rfl, rfl⟩; exact ⟨ha, hb⟩
  · rintro ⟨ha, hb⟩; exact ⟨i, ha, f, hb, rfl, rfl⟩

theorem mustConnect_iff (e : End) : mustConnect e = true ↔ Mandatory e.inst e.iface := by
  obtain ⟨i, ⟨k, n, t, o⟩⟩ := e
  unfold mustConnect Mandatory
  cases k <;> cases o <;> simp

/-- C20: a top-level composition is accepted exactly when no interface is used twice, all
connection ends exist, and every mandatory interface is connected. -/
theorem composition_accepted_iff (insts : List Inst) (conns : List (List End)) :
    compositionFreeze insts conns = .ok () ↔ WellConnected insts conns := by
  unfold compositionFreeze
  constructor
  · intro h
    split at h
    · cases h
    · rename_i un con hu
      obtain ⟨h1, h2, h3⟩ := useEnds_ok _ _ _ _ (by simp) hu
      split at h
      · cases h
      · rename_i hany
        refine ⟨h1, ?_, ?_⟩
        · intro c hc e he
          exact (mem_allIfaces insts e).mp (h2 e (List.mem_flatten.mpr ⟨c, hc, he⟩)).1
        · intro i hi f hf hm
          by_contra hno
          apply hany
          rw [List.any_eq_true]
          refine ⟨⟨i, f⟩, (h3 _).mpr ⟨(mem_allIfaces insts _).mpr ⟨hi, hf⟩, ?_⟩, (mustConnect_iff _).mpr hm⟩
          intro hin
          obtain ⟨c, hc, he⟩ := List.mem_flatten.mp hin
          exact hno ⟨c, hc, he⟩
  · intro h
    obtain ⟨r, hr⟩ := useEnds_success conns.flatten (allIfaces insts) [] h.once (by
      intro e he
      obtain ⟨c, hc, hec⟩ := List.mem_flatten.mp he
      exact ⟨(mem_allIfaces insts e).mpr (h.exist c hc e hec), by simp⟩)
    obtain ⟨h1, h2, h3⟩ := useEnds_ok _ _ _ _ (by simp) hr
    rw [hr]
    obtain ⟨un, con⟩ := r
    simp only
    rw [if_neg]
    intro hany
    rw [List.any_eq_true] at hany
    obtain ⟨e, he, hm⟩ := hany
    obtain ⟨h4, h5⟩ := (h3 e).mp he
    obtain ⟨h6, h7⟩ := (mem_allIfaces insts e).mp h4
    obtain ⟨c, hc, hec⟩ := h.mandatory e.inst h6 e.iface h7 ((mustConnect_iff e).mp hm)
    exact h5 (List.mem_flatten.mpr ⟨c, hc, hec⟩)

section Demo
def fu : Iface := ⟨.uses, "u", "P", false⟩
def fp : Iface := ⟨.provides, "p", "P", false⟩
def fd : Iface := ⟨.dataport, "d", "Buf", true⟩
def client : Inst := ⟨"client", [fu, fd], []⟩
def server : Inst := ⟨"server", [fp], []⟩
example : compositionFreeze [client, server] [[⟨client, fu⟩, ⟨server, fp⟩]] = .ok () := rfl
example : compositionFreeze [client, server] [] = .error .unconnected := rfl
example : compositionFreeze [client, server] [[⟨client, fu⟩, ⟨server, fp⟩], [⟨client, fu⟩, ⟨server, fp⟩]] =
    .error .duplicateUse := rfl
end Demo

/-! ### C21 -/

variable {V : Type}

theorem tget_append (t u : Table V) (i a : String) : tget (t ++ u) i a = (tget t i a).or (tget u i a) := by
  induction t with
  | nil => simp [tget]
  | cons p t ih =>
    obtain ⟨⟨k, l⟩, v⟩ := p
    simp only [List.cons_append, tget]
    split
    · simp
    · exact ih

theorem addSettings_ok : ∀ (settings : List (Setting V)) (t u : Table V), addSettings t settings = some u →
    (∀ i a v, tget u i a = some v ↔ tget t i a = some v ∨ ∃ s ∈ settings, s.inst = i ∧ s.attr = a ∧ s.value = v) ∧
    (∀ s ∈ settings, tget t s.inst s.attr = none) ∧
    settings.Pairwise (fun s s' => ¬ (s.inst = s'.inst ∧ s.attr = s'.attr)) := by
  intro settings
  induction settings with
  | nil => intro t u h; cases h; simp
  | cons s rest ih =>
    intro t u h
    simp only [addSettings] at h
    split at h
    · cases h
    · rename_i hn
      obtain ⟨h1, h2, h3⟩ := ih _ _ h
      have hstep : ∀ i a, tget (t ++ [((s.inst, s.attr), s.value)]) i a =
          if s.inst = i ∧ s.attr = a then some s.value else tget t i a := by
        intro i a
        rw [tget_append]
        simp only [tget]
        split
        · rename_i hia; rw [← hia.1, ← hia.2, hn]; rfl
        · simp
      refine ⟨?_, ?_, ?_⟩
      · intro i a v
        rw [h1, hstep]
        simp only [List.mem_cons, exists_eq_or_imp]
        split
        · rename_i hia
          obtain ⟨rfl, rfl⟩ := hia
          rw [hn]
          simp
        · rename_i hia
          constructor
          · rintro (h | h)
            · exact .inl h
            · exact .inr (.inr h)
          · rintro (h | ⟨h4, h5, _⟩ | h)
            · exact .inl h
            · exact absurd ⟨h4, h5⟩ hia
            · exact .inr h
      · intro s' hs'
        rcases List.mem_cons.mp hs' with rfl | hs'
        · exact hn
        · have := h2 s' hs'
          rw [hstep] at this
          split at this
          · cases this
          · exact this
      · rw [List.pairwise_cons]
        refine ⟨?_, h3⟩
        intro s' hs' hss
        have := h2 s' hs'
        rw [hstep, if_pos hss] at this
        cases this

theorem addSettings_success : ∀ (settings : List (Setting V)) (t : Table V),
    (∀ s ∈ settings, tget t s.inst s.attr = none) →
    settings.Pairwise (fun s s' => ¬ (s.inst = s'.inst ∧ s.attr = s'.attr)) → ∃ u, addSettings t settings = some u := by
  intro settings
  induction settings with
  | nil => intro t _ _; exact ⟨t, rfl⟩
  | cons s rest ih =>
    intro t h1 h2
    rw [List.pairwise_cons] at h2
    simp only [addSettings, h1 s (by simp)]
    apply ih _ _ h2.2
    intro s' hs'
    rw [tget_append, h1 s' (by simp [hs'])]
    simp only [tget]
    rw [if_neg (h2.1 s' hs')]
    rfl

/-- C21: freezing a configuration fails exactly when the same attribute of the same instance is
set twice. -/
theorem config_accepted_iff (insts : List (CInst V)) (settings : List (Setting V)) :
    (∃ t, configFreeze insts settings = some t) ↔
      settings.Pairwise (fun s s' => ¬ (s.inst = s'.inst ∧ s.attr = s'.attr)) := by
  unfold configFreeze
  constructor
  · rintro ⟨t, h⟩
    rw [Option.map_eq_some_iff] at h
    obtain ⟨u, hu, _⟩ := h
    exact (addSettings_ok settings [] u hu).2.2
  · intro h
    obtain ⟨u, hu⟩ := addSettings_success settings [] (by simp [tget]) h
    exact ⟨_, by rw [hu]; rfl⟩

theorem addDefault_get (i : String) (t : Table V) (a : AttrDecl V) (i' a' : String) :
    tget (addDefault i t a) i' a' =
      (tget t i' a').or (if i = i' ∧ a.name = a' then a.default else none) := by
  unfold addDefault
  cases ht : tget t i a.name with
  | some v =>
    have goal : tget t i' a' = (tget t i' a').or (if i = i' ∧ a.name = a' then a.default else none) := by
      split
      · rename_i h; obtain ⟨rfl, rfl⟩ := h; rw [ht]; rfl
      · simp
    cases hd : a.default <;> simp only [hd] at goal ⊢ <;> exact goal
  | none =>
    cases hd : a.default with
    | none => simp
    | some d =>
      simp only
      rw [tget_append]
      simp only [tget]

/-- The default found for attribute `a` of instance `i`, the first one if there are several. -/
theorem addDefaults_get (insts : List (CInst V)) : ∀ (t : Table V) (i a : String),
    (∀ v, tget t i a = some v → tget (addDefaults insts t) i a = some v) ∧
    (tget t i a = none → ∀ v, tget (addDefaults insts t) i a = some v →
      ∃ x ∈ insts, x.name = i ∧ ∃ d ∈ x.attrs, d.name = a ∧ d.default = some v) ∧
    (∀ x ∈ insts, x.name = i → ∀ d ∈ x.attrs, d.name = a → d.default ≠ none → tget (addDefaults insts t) i a ≠ none) := by
  have inner : ∀ (attrs : List (AttrDecl V)) (n : String) (t : Table V) (i a : String),
      (∀ v, tget t i a = some v → tget (attrs.foldl (addDefault n) t) i a = some v) ∧
      (tget t i a = none → ∀ v, tget (attrs.foldl (addDefault n) t) i a = some v →
        n = i ∧ ∃ d ∈ attrs, d.name = a ∧ d.default = some v) ∧
      (n = i → ∀ d ∈ attrs, d.name = a → d.default ≠ none → tget (attrs.foldl (addDefault n) t) i a ≠ none) := by
    intro attrs
    induction attrs with
    | nil => intro n t i a; simp; intro h v h'; rw [h] at h'; cases h'
    | cons d rest ih =>
      intro n t i a
      obtain ⟨h1, h2, h3⟩ := ih n (addDefault n t d) i a
      simp only [List.foldl_cons]
      have hg := addDefault_get n t d i a
      refine ⟨?_, ?_, ?_⟩
      · intro v hv
        apply h1; rw [hg, hv]; rfl
      · intro hn v hv
        rw [hn] at hg
        simp only [Option.none_or] at hg
        split at hg
        · rename_i hia
          cases hd : d.default with
          | some w =>
            rw [hd] at hg
            rw [h1 w hg] at hv
            cases hv
            exact ⟨hia.1, d, by simp, hia.2, hd⟩
          | none =>
            rw [hd] at hg
            obtain ⟨e1, d', hd', e2⟩ := h2 hg v hv
            exact ⟨e1, d', by simp [hd'], e2⟩
        · obtain ⟨e1, d', hd', e2⟩ := h2 hg v hv
          exact ⟨e1, d', by simp [hd'], e2⟩
      · intro hni d' hd' hda hdn
        rcases List.mem_cons.mp hd' with rfl | hd'
        · cases hd : d'.default with
          | none => exact absurd hd hdn
          | some w =>
            rw [if_pos ⟨hni, hda⟩, hd] at hg
            cases ht : tget t i a with
            | none => rw [ht] at hg; rw [h1 w hg]; simp
            | some u => rw [ht] at hg; rw [h1 u hg]; simp
        · exact h3 hni d' hd' hda hdn
  induction insts with
  | nil => intro t i a; simp [addDefaults]; intro h v h'; rw [h] at h'; cases h'
  | cons x rest ih =>
    intro t i a
    obtain ⟨g1, g2, g3⟩ := inner x.attrs x.name t i a
    obtain ⟨h1, h2, h3⟩ := ih (x.attrs.foldl (addDefault x.name) t) i a
    have hunf : addDefaults (x :: rest) t = addDefaults rest (x.attrs.foldl (addDefault x.name) t) := rfl
    rw [hunf]
    refine ⟨fun v hv => h1 v (g1 v hv), ?_, ?_⟩
    · intro hn v hv
      cases hm : tget (x.attrs.foldl (addDefault x.name) t) i a with
      | some w =>
        rw [h1 w hm] at hv; cases hv
        obtain ⟨e1, d, hd, e2⟩ := g2 hn v hm
        exact ⟨x, by simp, e1, d, hd, e2⟩
      | none =>
        obtain ⟨y, hy, e⟩ := h2 hm v hv
        exact ⟨y, by simp [hy], e⟩
    · intro y hy hyi d hd hda hdn
      rcases List.mem_cons.mp hy with rfl | hy
      · have := g3 hyi d hd hda hdn
        cases hm : tget (y.attrs.foldl (addDefault y.name) t) i a with
        | none => exact absurd hm this
        | some w => rw [h1 w hm]; simp
      · exact h3 y hy hyi d hd hda hdn

/-- C21: in an accepted configuration, the value looked up for attribute `a` of instance `i` is
that of its setting, otherwise the declared default. Instance names and the attribute names of
one component are unique, as C19 guarantees in an accepted assembly. -/
theorem config_lookup (insts : List (CInst V)) (settings : List (Setting V)) (t : Table V)
    (h : configFreeze insts settings = some t) (hi : (insts.map (·.name)).Nodup)
    (ha : ∀ x ∈ insts, (x.attrs.map (·.name)).Nodup) (i a : String) (v : V) :
    tget t i a = some v ↔ ConfigValue insts settings i a v := by
  unfold configFreeze at h
  rw [Option.map_eq_some_iff] at h
  obtain ⟨u, hu, rfl⟩ := h
  obtain ⟨h1, _, h2⟩ := addSettings_ok settings [] u hu
  simp only [tget, reduceCtorEq, false_or] at h1
  obtain ⟨g1, g2, g3⟩ := addDefaults_get insts u i a
  have hnone : tget u i a = none ↔ ∀ s ∈ settings, ¬ (s.inst = i ∧ s.attr = a) := by
    constructor
    · intro hn s hs ⟨e1, e2⟩
      have := (h1 i a s.value).mpr ⟨s, hs, e1, e2, rfl⟩
      rw [hn] at this; cases this
    · intro hall
      cases hg : tget u i a with
      | none => rfl
      | some w =>
        obtain ⟨s, hs, e1, e2, _⟩ := (h1 i a w).mp hg
        exact absurd ⟨e1, e2⟩ (hall s hs)
  unfold ConfigValue
  constructor
  · intro hv
    cases hg : tget u i a with
    | some w =>
      rw [g1 w hg] at hv; cases hv
      exact .inl ((h1 i a v).mp hg)
    | none => exact .inr ⟨hnone.mp hg, g2 hg v hv⟩
  · rintro (hs | ⟨hall, x, hx, hxi, d, hd, hda, hdv⟩)
    · exact g1 v ((h1 i a v).mpr hs)
    · have hne := g3 x hx hxi d hd hda (by rw [hdv]; simp)
      cases hw : tget (addDefaults insts u) i a with
      | none => exact absurd hw hne
      | some w =>
        obtain ⟨y, hy, hyi, d', hd', hda', hdw⟩ := g2 (hnone.mpr hall) w hw
        have hxy : x = y := List.inj_on_of_nodup_map hi hx hy (hxi.trans hyi.symm)
        subst hxy
        have hdd : d = d' := List.inj_on_of_nodup_map (ha x hx) hd hd' (hda.trans hda'.symm)
        subst hdd
        rw [hdv] at hdw; rw [hdw]

section Demo
def ci : CInst Nat := ⟨"i", [⟨"a", some 1⟩, ⟨"b", some 2⟩, ⟨"c", none⟩]⟩
def st : Setting Nat := ⟨"i", "a", 7⟩
example : (configFreeze [ci] [st]).map (fun t => (tget t "i" "a", tget t "i" "b", tget t "i" "c")) =
    some (some 7, some 2, none) := by decide
example : ([ci].map (·.name)).Nodup ∧ ∀ x ∈ [ci], (x.attrs.map (·.name)).Nodup := by
  constructor
  · decide
  · intro x hx; simp at hx; subst hx; decide
end Demo

/-! ### C22 -/

theorem checkAll_ok (f : CEnd → Except CErr Unit) (l : List CEnd) :
    checkAll f l = .ok () ↔ ∀ e ∈ l, f e = .ok () := by
  induction l with
  | nil => simp [checkAll]
  | cons a l ih =>
    simp only [checkAll, List.mem_cons, forall_eq_or_imp]
    cases h : f a with
    | error x => simp
    | ok u => simp [ih]

theorem checkFrom_ok (c : Connector) (e : CEnd) :
    checkFrom c e = .ok () ↔ e.kind ∈ fromKinds c.fromType ∧ e.hardware = c.fromHardware := by
  obtain ⟨ft, tt, fm, tm, fh, th, nt⟩ := c
  obtain ⟨k, t, hw⟩ := e
  cases k <;> cases hw <;> cases fh <;> rcases ft with _ | (_ | _ | _) <;> simp [checkFrom, fromKinds]

theorem checkTo_ok (c : Connector) (e : CEnd) :
    checkTo c e = .ok () ↔ e.kind ∈ toKinds c.toType ∧ e.hardware = c.toHardware := by
  obtain ⟨ft, tt, fm, tm, fh, th, nt⟩ := c
  obtain ⟨k, t, hw⟩ := e
  cases k <;> cases hw <;> cases th <;> rcases tt with _ | (_ | _ | _) <;> simp [checkTo, toKinds]

theorem severalTypes_false (l : List CEnd) : severalTypes l = false ↔ ∀ e ∈ l, ∀ f ∈ l, e.type = f.type := by
  cases l with
  | nil => simp [severalTypes]
  | cons a l =>
    simp only [severalTypes, List.any_eq_false, Bool.not_eq_true, Bool.not_eq_false', decide_eq_true_eq]
    constructor
    · intro h e he f hf
      have to_a : ∀ e ∈ a :: l, e.type = a.type := by
        intro e he
        rcases List.mem_cons.mp he with rfl | he
        · rfl
        · exact h e he
      rw [to_a e he, to_a f hf]
    · intro h e he; exact h e (by simp [he]) a (by simp)

/-- C22: a connection is accepted exactly when its ends are compatible. -/
theorem connection_accepted_iff (c : Connector) (froms tos : List CEnd) :
    connectionFreeze c froms tos = .ok () ↔ Compatible c froms tos := by
  unfold connectionFreeze
  constructor
  · intro h
    split at h
    · cases h
    rename_i h1
    split at h
    · cases h
    rename_i h2
    split at h
    · cases h
    rename_i h3
    split at h
    · cases h
    rename_i h4
    split at h
    · cases h
    rename_i h5
    split at h
    · cases h
    rename_i h6
    rw [checkAll_ok] at h h6
    refine ⟨?_, ?_, ?_, ?_, ?_, ?_, ?_, ?_, ?_⟩
    · rintro rfl; exact h1 rfl
    · rintro rfl; exact h2 rfl
    · intro hm; simp [hm] at h3; omega
    · intro hm; simp [hm] at h4; omega
    · intro hm
      rw [← severalTypes_false]
      simpa [hm] using h5
    · intro e he; exact ((checkFrom_ok c e).mp (h6 e he)).1
    · intro e he; exact ((checkTo_ok c e).mp (h e he)).1
    · intro e he; exact ((checkFrom_ok c e).mp (h6 e he)).2
    · intro e he; exact ((checkTo_ok c e).mp (h e he)).2
  · intro h
    have f0 : froms.length ≠ 0 := fun e => h.hasFrom (List.length_eq_zero_iff.mp e)
    have t0 : tos.length ≠ 0 := fun e => h.hasTo (List.length_eq_zero_iff.mp e)
    rw [if_neg f0, if_neg t0, if_neg, if_neg, if_neg]
    · rw [(checkAll_ok _ froms).mpr (fun e he => (checkFrom_ok c e).mpr ⟨h.fromKind e he, h.fromHw e he⟩)]
      exact (checkAll_ok _ tos).mpr (fun e he => (checkTo_ok c e).mpr ⟨h.toKind e he, h.toHw e he⟩)
    · intro hb
      simp only [Bool.and_eq_true, Bool.not_eq_true'] at hb
      rw [(severalTypes_false _).mpr (h.sameType hb.2)] at hb
      cases hb.1
    · intro hb
      simp only [Bool.and_eq_true, Bool.not_eq_true', decide_eq_true_eq] at hb
      have := h.oneTo hb.2; omega
    · intro hb
      simp only [Bool.and_eq_true, Bool.not_eq_true', decide_eq_true_eq] at hb
      have := h.oneFrom hb.2; omega

example : connectionFreeze ⟨some .procedure, some .procedure, true, false, false, false, false⟩
    [⟨.uses, "P", false⟩, ⟨.uses, "P", false⟩] [⟨.provides, "P", false⟩] = .ok () := rfl
example : connectionFreeze ⟨some .procedure, some .procedure, true, false, false, false, false⟩
    [⟨.uses, "P", false⟩, ⟨.uses, "Q", false⟩] [⟨.provides, "P", false⟩] = .error .types := rfl

end Verif.Freeze
