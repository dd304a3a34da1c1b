import Verif.ArchSpec.Read

/-!
# C104: the generated formal description of an assembly says what the assembly is

`theory a` is the generated theory, `denote` reads it, `Described` says what the assembly is.

**Disagreement with C104.**  Interfaces that a component exports for a component inside it are left
out of the description if they are procedures, but not if they are dataports or events: the
template asks `interface_is_exported` about the interface where it compares names
(`exported_dataport_stays`, `exported_event_stays`).  So the description of such an assembly is
wrong (`exported_described_not`), and the theorem that it is right, `description_read_partial`, asks
that only procedures are exported.  Two dataport types can be given the same name
(`dataport_names_meet`), and the last lemma of the theory of an assembly with a name mentions one
that is not defined (`named_assembly_undefined`).
-/

namespace Verif.ArchSpec
open Spec

/-! ### Reading the description -/

/-- Reading the theory gives the system that the assembly is, if no dataports or events are
exported. -/
theorem description_read_partial {a : Assembly} {thy : List Item} (h : theory a = some thy) (ha : Apart a)
    (ht : TopApart a) (he : ExportsProceduresOnly a) :
    ∃ sys, denote thy (topName a.name "assembly'") = some sys ∧ Described a sys := by
  obtain ⟨p1, p2, p3, p4, p5, p6, p7, cs, ks, ls, P⟩ := theory_parts h
  obtain ⟨sys, hs, r⟩ := read_system P (parts_nodup P ha ht)
  refine ⟨sys, hs, ⟨fun t => (eventTypes a).idxOf t, ?_, ?_⟩, r.connections, r.groups, ?_, r.policy⟩
  · intro t u h1 h2 h
    exact (List.idxOf_inj (mem_eventTypes.mpr h1)).mp h
  · refine forall₂_imp_mem r.components ?_
    rintro i hi x ⟨h1, h2⟩
    have keep : ∀ l : List TextIface, (∀ x ∈ l, x ∈ i.type.dataports ∨ x ∈ i.type.emits ∨ x ∈ i.type.consumes) →
        (l.filter fun x => decide (x.name ∉ i.type.exports)) = l := by
      intro l hl
      rw [List.filter_eq_self]
      intro x hx
      simpa using he i hi x (hl x hx)
    refine ⟨h1, h2.control, h2.hardware, h2.requires, h2.provides, ?_, ?_, ?_, h2.attributes⟩
    · rw [h2.dataports, keep _ fun x hx => .inl hx]
    · rw [h2.emits, keep _ fun x hx => .inr (.inl hx)]
    · rw [h2.consumes, keep _ fun x hx => .inr (.inr hx)]
  · rw [r.settings]
    by_cases hh : a.holds = true
    · simp [hh]
    · rw [if_neg hh]
      by_cases hs : a.settings = []
      · rw [hs]; rfl
      · exact absurd (ha.configured hs) hh

/-- No name is defined twice. -/
theorem names_different {a : Assembly} {thy : List Item} (h : theory a = some thy) (ha : Apart a) (ht : TopApart a) :
    ((defs thy).map (·.1)).Nodup := by
  obtain ⟨p1, p2, p3, p4, p5, p6, p7, cs, ks, ls, P⟩ := theory_parts h
  exact parts_nodup P ha ht

theorem exported_read {a : Assembly} {thy : List Item} (h : theory a = some thy) (ha : Apart a) (ht : TopApart a) :
    ∃ sys, denote thy (topName a.name "assembly'") = some sys ∧ ReadSystem a sys := by
  obtain ⟨p1, p2, p3, p4, p5, p6, p7, cs, ks, ls, P⟩ := theory_parts h
  exact read_system P (parts_nodup P ha ht)

/-- **Disagreement with C104.**  A dataport is in the description even if it is exported. -/
theorem exported_dataport_stays {a : Assembly} {thy : List Item} (h : theory a = some thy) (ha : Apart a)
    (ht : TopApart a) {i : Inst} (hi : i ∈ a.insts) {d : TextIface} (hd : d ∈ i.type.dataports)
    (_he : d.name ∈ i.type.exports) :
    ∃ sys x, denote thy (topName a.name "assembly'") = some sys ∧ (i.name, x) ∈ sys.components ∧
      (d.name, d.type) ∈ x.dataports := by
  obtain ⟨sys, hs, r⟩ := exported_read h ha ht
  obtain ⟨x, hx, h1, h2⟩ := forall₂_mem r.components i hi
  refine ⟨sys, x.2, hs, h1 ▸ hx, ?_⟩
  rw [h2.dataports]
  exact List.mem_map.mpr ⟨d, hd, rfl⟩

/-- **Disagreement with C104.**  So are events. -/
theorem exported_event_stays {a : Assembly} {thy : List Item} (h : theory a = some thy) (ha : Apart a)
    (ht : TopApart a) {i : Inst} (hi : i ∈ a.insts) {d : TextIface} (hd : d ∈ i.type.emits ∨ d ∈ i.type.consumes)
    (_he : d.name ∈ i.type.exports) :
    ∃ sys x, denote thy (topName a.name "assembly'") = some sys ∧ (i.name, x) ∈ sys.components ∧
      (d.name ∈ x.emits.map (·.1) ∨ d.name ∈ x.consumes.map (·.1)) := by
  obtain ⟨sys, hs, r⟩ := exported_read h ha ht
  obtain ⟨x, hx, h1, h2⟩ := forall₂_mem r.components i hi
  refine ⟨sys, x.2, hs, h1 ▸ hx, ?_⟩
  rw [h2.emits, h2.consumes]
  simp only [List.map_map]
  rcases hd with hd | hd
  · exact .inl (List.mem_map.mpr ⟨d, hd, rfl⟩)
  · exact .inr (List.mem_map.mpr ⟨d, hd, rfl⟩)

/-- **Disagreement with C104.**  The description of an assembly with an exported dataport or event
is not what the assembly is. -/
theorem exported_described_not {a : Assembly} {thy : List Item} (h : theory a = some thy) (ha : Apart a)
    (ht : TopApart a) (he : ¬ ExportsProceduresOnly a) :
    ¬ ∃ sys, denote thy (topName a.name "assembly'") = some sys ∧ Described a sys := by
  rintro ⟨sys, hs, D⟩
  apply he
  intro i hi d hd hx
  obtain ⟨num, _, hc⟩ := D.components
  have same : ∀ sys' x, denote thy (topName a.name "assembly'") = some sys' → (i.name, x) ∈ sys'.components →
      CompIs num i.type x := by
    intro sys' x h1 h2
    rw [hs] at h1
    cases h1
    obtain ⟨i', hi', e, hci⟩ := forall₂_mem' hc _ h2
    have := List.inj_on_of_nodup_map ha.insts hi hi' e
    subst this
    exact hci
  rcases hd with hd | hd
  · obtain ⟨sys', x, h1, h2, h3⟩ := exported_dataport_stays h ha ht hi hd hx
    rw [(same sys' x h1 h2).dataports] at h3
    obtain ⟨d', hd', e⟩ := List.mem_map.mp h3
    have := (List.mem_filter.mp hd').2
    simp only [Prod.mk.injEq] at e
    rw [e.1] at this
    simp [hx] at this
  · obtain ⟨sys', x, h1, h2, h3⟩ := exported_event_stays h ha ht hi hd hx
    rw [(same sys' x h1 h2).emits, (same sys' x h1 h2).consumes] at h3
    simp only [List.map_map, List.mem_map, List.mem_filter, Function.comp] at h3
    rcases h3 with ⟨d', ⟨_, hd'⟩, e⟩ | ⟨d', ⟨_, hd'⟩, e⟩ <;>
    · rw [e] at hd'
      simp [hx] at hd'

/-! ### When there is a description -/

theorem starts_iff (c : Char) : starts c = true ↔ (c.isAlpha = true ∨ c = '_') := by
  simp only [starts, Bool.or_eq_true, Bool.and_eq_true, decide_eq_true_eq, beq_iff_eq, Char.isAlpha, Char.isUpper,
    Char.isLower, Char.le_def]
  constructor
  · rintro ((h | h) | h)
    · exact .inl (.inr h)
    · exact .inl (.inl h)
    · exact .inr h
  · rintro ((h | h) | h)
    · exact .inl (.inr h)
    · exact .inl (.inl h)
    · exact .inr h

theorem adl_isSome {k : Kind} {n : Str} : (adl k n).isSome ↔ Begins n := by
  simp only [adl, Option.isSome_map, ident, Begins]
  cases n with
  | nil => simp
  | cons c r =>
    simp only [List.cons.injEq]
    by_cases h : starts c = true
    · simp only [h, if_true, Option.isSome_some, true_iff]
      exact ⟨c, r, ⟨rfl, rfl⟩, (starts_iff c).mp h⟩
    · simp only [h]
      constructor
      · intro h'; simp at h'
      · rintro ⟨c', r', ⟨rfl, rfl⟩, h'⟩
        exact absurd ((starts_iff c).mpr h') h

theorem adl?_isSome {k : Kind} {n : Option Str} : (adl? k n).isSome ↔ ∃ m, n = some m ∧ Begins m := by
  cases n with
  | none => simp [adl?]
  | some m => simp [adl?, adl_isSome]

theorem written_unique {t u v : Str} (h : Written t u) (h' : Written t v) : u = v := by
  have first : ∀ (p p' x x' : Str), p ++ '(' :: x = p' ++ '(' :: x' → '(' ∉ p → '(' ∉ p' → p = p' ∧ x = x' := by
    intro p
    induction p with
    | nil =>
      intro p' x x' h _ h2
      cases p' with
      | nil => simp at h; exact ⟨rfl, h⟩
      | cons c p' => simp only [List.nil_append, List.cons_append, List.cons.injEq] at h; simp [← h.1] at h2
    | cons c p ih =>
      intro p' x x' h h1 h2
      cases p' with
      | nil => simp only [List.nil_append, List.cons_append, List.cons.injEq] at h; simp [h.1] at h1
      | cons d p' =>
        simp only [List.cons_append, List.cons.injEq] at h
        simp only [List.mem_cons, not_or] at h1 h2
        obtain ⟨e1, e2⟩ := ih p' x x' h.2 h1.2 h2.2
        exact ⟨by rw [h.1, e1], e2⟩
  have last : ∀ (m m' s s' : Str), m ++ ')' :: s = m' ++ ')' :: s' → ')' ∉ s → ')' ∉ s' → m = m' ∧ s = s' := by
    intro m
    induction m with
    | nil =>
      intro m' s s' h h1 _
      cases m' with
      | nil => simp at h; exact ⟨rfl, h⟩
      | cons c m' =>
        simp only [List.nil_append, List.cons_append, List.cons.injEq] at h
        exact absurd (by rw [h.2]; simp) h1
    | cons c m ih =>
      intro m' s s' h h1 h2
      cases m' with
      | nil =>
        simp only [List.nil_append, List.cons_append, List.cons.injEq] at h
        exact absurd (by rw [← h.2]; simp) h2
      | cons d m' =>
        simp only [List.cons_append, List.cons.injEq] at h
        obtain ⟨e1, e2⟩ := ih m' s s' h.2 h1 h2
        exact ⟨by rw [h.1, e1], e2⟩
  rcases h with ⟨p, m, s, rfl, h2, h3, rfl⟩ | ⟨h1, rfl⟩ <;>
  rcases h' with ⟨p', m', s', h1', h2', h3', rfl⟩ | ⟨h1', rfl⟩
  · obtain ⟨rfl, e⟩ := first _ _ _ _ h1' h2 h2'
    obtain ⟨rfl, rfl⟩ := last _ _ _ _ e h3 h3'
    rfl
  · exact absurd ⟨p, m, s, rfl⟩ h1'
  · exact absurd ⟨p', m', s', h1'⟩ h1
  · rfl

theorem dataportName_isSome {t : Str} : (dataportName t).isSome ↔ ∀ w, Written t w → Begins w := by
  unfold dataportName
  rw [adl_isSome]
  constructor
  · intro h w hw; rwa [written_unique hw (unsize_written t)]
  · intro h; exact h _ (unsize_written t)

theorem each_isSome {α β : Type} {f : α → Option β} : ∀ {l : List α}, (each f l).isSome ↔ ∀ x ∈ l, (f x).isSome
  | [] => by simp [each]
  | x :: l => by
    simp only [List.forall_mem_cons, each]
    cases hx : f x with
    | none => simp
    | some b => simp [each_isSome (l := l)]

theorem eventDefs_isSome : ∀ {l : List Str} {k : Nat}, (eventDefs k l).isSome ↔ ∀ x ∈ l, Begins x
  | [], _ => by simp [eventDefs]
  | x :: l, k => by
    simp only [List.forall_mem_cons, eventDefs, eventDef]
    rw [← adl_isSome (k := .event)]
    cases hx : adl .event x with
    | none => simp
    | some b => simp [eventDefs_isSome (l := l)]

theorem isSome_bind {α β : Type} {o : Option α} {f : α → Option β} :
    (o.bind f).isSome ↔ ∃ x, o = some x ∧ (f x).isSome := by
  cases o <;> simp

theorem isSome_bind' {α β : Type} {o : Option α} {f : α → Option β} {q : Prop} (h : ∀ x, (f x).isSome ↔ q) :
    (o.bind f).isSome ↔ o.isSome ∧ q := by
  cases o <;> simp [h]

/-- There is a description exactly if everything has a name that can be used, and arrays are of
types that can be described. -/
theorem description_exists_iff (a : Assembly) : (theory a).isSome ↔ Nameable a := by
  have e1 : (each connectorDef (uniq (a.conns.map (·.type)))).isSome ↔
      ∀ c, HasConnector a c → ∃ n, c.name = some n ∧ Begins n := by
    rw [each_isSome]
    simp only [mem_connectors, connectorDef, Option.isSome_map, adl?_isSome]
  have e2 : (each procedureDef (procTypes a)).isSome ↔ (∀ c, HasProc a c → ∃ n, c.name = some n ∧ Begins n) ∧
      ∀ c, HasProc a c → ∀ m ∈ c.methods, ∀ p ∈ m.params, p.array = true → ∃ q, BuiltIn p.type q ∧ q ≠ .txt .string := by
    rw [each_isSome]
    have : ∀ c : Proc, (procedureDef c).isSome ↔ (∃ n, c.name = some n ∧ Begins n) ∧
        ∀ m ∈ c.methods, ∀ p ∈ m.params, p.array = true → ∃ q, BuiltIn p.type q ∧ q ≠ .txt .string := by
      intro c
      unfold procedureDef
      rw [isSome_bind' (q := ∀ m ∈ c.methods, ∀ p ∈ m.params, p.array = true → ∃ q, BuiltIn p.type q ∧ q ≠ .txt .string),
        adl?_isSome]
      intro n
      rw [Option.isSome_map, each_isSome]
      refine forall_congr' fun m => imp_congr_right fun _ => ?_
      unfold method
      rw [Option.isSome_map, each_isSome]
      refine forall_congr' fun p => imp_congr_right fun _ => ?_
      unfold param
      rw [Option.isSome_map]
      constructor
      · intro h ha
        obtain ⟨x, hx⟩ := Option.isSome_iff_exists.mp h
        obtain ⟨q, h1, h2, _⟩ := paramType_array ha hx
        exact ⟨q, h1, h2⟩
      · exact paramType_some
    simp only [this, mem_procTypes]
    constructor
    · intro h; exact ⟨fun c hc => (h c hc).1, fun c hc => (h c hc).2⟩
    · intro h c hc; exact ⟨h.1 c hc, h.2 c hc⟩
  have e3 : (eventDefs 0 (eventTypes a)).isSome ↔ ∀ t, IsEvent a t → Begins t := by
    rw [eventDefs_isSome]; simp only [mem_eventTypes]
  have e4 : (each dataportDef (dataportTypes a)).isSome ↔ ∀ t, HasDataport a t → ∀ w, Written t w → Begins w := by
    rw [each_isSome]; simp only [mem_dataportTypes, dataportDef, Option.isSome_map, dataportName_isSome]
  have e6 : (each instDef a.insts).isSome ↔ (∀ i ∈ a.insts, Begins i.name) ∧
      ∀ c, HasType a c → ∃ n, c.name = some n ∧ Begins n := by
    rw [each_isSome]
    have : ∀ i : Inst, (instDef i).isSome ↔ Begins i.name ∧ ∃ n, i.type.name = some n ∧ Begins n := by
      intro i
      unfold instDef
      rw [isSome_bind' (q := ∃ n, i.type.name = some n ∧ Begins n), adl_isSome]
      intro n
      rw [Option.isSome_map, adl?_isSome]
    simp only [this]
    constructor
    · intro h; exact ⟨fun i hi => (h i hi).1, by rintro c ⟨i, hi, rfl⟩; exact (h i hi).2⟩
    · intro h i hi; exact ⟨h.1 i hi, h.2 _ ⟨i, hi, rfl⟩⟩
  have e7 : (each connDef a.conns).isSome ↔ (∀ i ∈ a.conns, Begins i.name) ∧
      ∀ c, HasConnector a c → ∃ n, c.name = some n ∧ Begins n := by
    rw [each_isSome]
    have : ∀ i : Conn, (connDef i).isSome ↔ Begins i.name ∧ ∃ n, i.type.name = some n ∧ Begins n := by
      intro i
      unfold connDef
      rw [isSome_bind' (q := ∃ n, i.type.name = some n ∧ Begins n), adl_isSome]
      intro n
      rw [Option.isSome_map, adl?_isSome]
    simp only [this]
    constructor
    · intro h; exact ⟨fun i hi => (h i hi).1, by rintro c ⟨i, hi, rfl⟩; exact (h i hi).2⟩
    · intro h i hi; exact ⟨h.1 i hi, h.2 _ ⟨i, hi, rfl⟩⟩
  constructor
  · intro h
    obtain ⟨thy, h⟩ := Option.isSome_iff_exists.mp h
    simp only [theory, Option.bind_eq_some_iff, Option.map_eq_some_iff] at h
    obtain ⟨d1, h1, d2, h2, d3, h3, d4, h4, d5, h5, d6, h6, d7, h7, d8, h8, d9, h9, rfl⟩ := h
    have s : ∀ {α : Type} {o : Option α} {x}, o = some x → o.isSome := fun h => by rw [h]; rfl
    exact ⟨(e6.mp (s h6)).1, (e7.mp (s h7)).1, e1.mp (s h1), (e2.mp (s h2)).1, (e6.mp (s h6)).2, e3.mp (s h3),
      e4.mp (s h4), (e2.mp (s h2)).2⟩
  · intro N
    obtain ⟨d1, h1⟩ := Option.isSome_iff_exists.mp (e1.mpr N.connectors)
    obtain ⟨d2, h2⟩ := Option.isSome_iff_exists.mp (e2.mpr ⟨N.procs, N.arrays⟩)
    obtain ⟨d3, h3⟩ := Option.isSome_iff_exists.mp (e3.mpr N.events)
    obtain ⟨d4, h4⟩ := Option.isSome_iff_exists.mp (e4.mpr N.dataports)
    obtain ⟨d6, h6⟩ := Option.isSome_iff_exists.mp (e6.mpr ⟨N.insts, N.types⟩)
    obtain ⟨d7, h7⟩ := Option.isSome_iff_exists.mp (e7.mpr ⟨N.conns, N.connectors⟩)
    have e5 : (each typeDef (uniq (a.insts.map (·.type)))).isSome := by
      rw [each_isSome]
      intro c hc
      rw [mem_types] at hc
      obtain ⟨i, hi, rfl⟩ := hc
      obtain ⟨n, hn⟩ := Option.isSome_iff_exists.mp (adl?_isSome (k := .instance).mpr (N.types _ ⟨i, hi, rfl⟩))
      obtain ⟨rs, hrs⟩ := Option.isSome_iff_exists.mp (each_isSome (f := requiresEntry i.type) (l := i.type.uses).mpr (by
        intro x hx
        unfold requiresEntry
        rw [Option.isSome_map, adl?_isSome]
        exact N.procs _ ⟨i, hi, x, .inl hx, rfl⟩))
      obtain ⟨ps, hps⟩ := Option.isSome_iff_exists.mp (each_isSome (f := providesEntry i.type) (l := i.type.provides).mpr (by
        intro x hx
        unfold providesEntry
        rw [Option.isSome_map, adl?_isSome]
        exact N.procs _ ⟨i, hi, x, .inr hx, rfl⟩))
      obtain ⟨ds, hds⟩ := Option.isSome_iff_exists.mp (each_isSome (f := dataportsEntry i.type) (l := i.type.dataports).mpr (by
        intro x hx
        unfold dataportsEntry
        rw [Option.isSome_map, dataportName_isSome]
        exact N.dataports _ ⟨i, hi, x, hx, rfl⟩))
      obtain ⟨es, hes⟩ := Option.isSome_iff_exists.mp (each_isSome (f := emitsEntry i.type) (l := i.type.emits).mpr (by
        intro x hx
        unfold emitsEntry
        rw [Option.isSome_map, adl_isSome]
        exact N.events _ ⟨i, hi, x, .inl hx, rfl⟩))
      obtain ⟨us, hus⟩ := Option.isSome_iff_exists.mp (each_isSome (f := consumesEntry i.type) (l := i.type.consumes).mpr (by
        intro x hx
        unfold consumesEntry
        rw [Option.isSome_map, adl_isSome]
        exact N.events _ ⟨i, hi, x, .inr hx, rfl⟩))
      simp only [typeDef, hn, hrs, hps, hds, hes, hus, Option.bind_some, Option.map_some, Option.isSome_some]
    obtain ⟨d5, h5⟩ := Option.isSome_iff_exists.mp e5
    obtain ⟨cs, hcs⟩ := Option.isSome_iff_exists.mp (each_isSome (f := componentEntry) (l := a.insts).mpr (by
      intro x hx
      unfold componentEntry
      rw [Option.isSome_map, adl_isSome]
      exact N.insts x hx))
    obtain ⟨ks, hks⟩ := Option.isSome_iff_exists.mp (each_isSome (f := connectionEntry) (l := a.conns).mpr (by
      intro x hx
      unfold connectionEntry
      rw [Option.isSome_map, adl_isSome]
      exact N.conns x hx))
    have e9 : (validLemmas a).isSome := by
      unfold validLemmas
      rw [isSome_bind' (q := True)]
      · refine ⟨?_, trivial⟩
        rw [each_isSome]
        intro i hi
        rw [isSome_bind' (q := True)]
        · exact ⟨adl_isSome.mpr (N.insts i hi), trivial⟩
        · intro n
          rw [Option.isSome_map, adl?_isSome]
          exact iff_true_intro (N.types _ ⟨i, hi, rfl⟩)
      · intro is
        rw [Option.isSome_map, each_isSome]
        refine iff_true_intro fun k hk => ?_
        rw [Option.isSome_map, adl_isSome]
        exact N.conns k hk
    obtain ⟨d9, h9⟩ := Option.isSome_iff_exists.mp e9
    simp only [theory, h1, h2, h3, h4, h5, h6, h7, h9, compositionDef, hcs, hks, Option.bind_some, Option.map_some,
      Option.isSome_some]

/-! ### Names are defined before they are mentioned -/

/-- All items mention only names in `seen` or defined before. -/
def okFrom (seen : List Str) : List Item → Prop
  | [] => True
  | it :: r => (∀ n ∈ mentions it, n ∈ seen) ∧ okFrom (seen ++ (defs [it]).map (·.1)) r

theorem okFrom_append : ∀ {l m : List Item} {seen : List Str},
    okFrom seen (l ++ m) ↔ okFrom seen l ∧ okFrom (seen ++ (defs l).map (·.1)) m
  | [], m, seen => by simp [okFrom, defs]
  | it :: l, m, seen => by
    rw [List.cons_append, okFrom, okFrom, okFrom_append (l := l)]
    have : defs (it :: l) = defs [it] ++ defs l := defs_append [it] l
    rw [this, List.map_append, List.append_assoc, and_assoc]

theorem okFrom_before {l : List Item} {seen : List Str} (h : okFrom seen l) {before after : List Item} {item : Item}
    (e : l = before ++ item :: after) : ∀ n ∈ mentions item, n ∈ seen ++ (defs before).map (·.1) := by
  subst e
  exact (okFrom_append.mp h).2.1

theorem okFrom_items {ps : List (Str × Body)} : ∀ {seen : List Str},
    (∀ p ∈ ps, ∀ n ∈ mentions (.defn p.1 p.2), n ∈ seen) → okFrom seen (items ps) := by
  induction ps with
  | nil => intro _ _; exact trivial
  | cons p ps ih =>
    intro seen h
    have e : items (p :: ps) = .defn p.1 p.2 :: .lemma [p.1] :: items ps := rfl
    rw [e]
    refine ⟨h p (by simp), ?_, ih fun q hq n hn => ?_⟩
    · intro n hn
      simp only [mentions, List.mem_cons, List.not_mem_nil, or_false] at hn
      simp [hn, defs]
    · exact List.mem_append_left _ (List.mem_append_left _ (h q (by simp [hq]) n hn))

theorem okFrom_lemmas : ∀ {ls : List Item} {seen : List Str}, (∀ l ∈ ls, ∃ ms, l = Item.lemma ms ∧ ∀ n ∈ ms, n ∈ seen) →
    okFrom seen ls
  | [], _, _ => trivial
  | l :: ls, seen, h => by
    obtain ⟨ms, rfl, hm⟩ := h l (by simp)
    exact ⟨hm, okFrom_lemmas fun x hx => by
      obtain ⟨ms, e, hm⟩ := h x (by simp [hx])
      exact ⟨ms, e, fun n hn => List.mem_append_left _ (hm n hn)⟩⟩

theorem shown_mem {α ε : Type} {entry : α → Option (Option ε)} {nm : α → Option Str} {hid : α → Bool}
    {mk : α → Str → ε} (he : ∀ x, entry x = (nm x).map fun n => if hid x then none else some (mk x n))
    {as : List α} {rs : List (Option ε)} (h : each entry as = some rs) {e : ε} (hm : e ∈ shown rs) :
    ∃ x ∈ as, ∃ n, nm x = some n ∧ e = mk x n := by
  simp only [shown, List.mem_filterMap, id] at hm
  obtain ⟨o, ho, rfl⟩ := hm
  obtain ⟨x, hx, hr⟩ := forall₂_mem' (each_forall₂ h) _ ho
  rw [he, Option.map_eq_some_iff] at hr
  obtain ⟨n, hn, hr⟩ := hr
  split at hr
  · simp at hr
  · exact ⟨x, hx, n, hn, (Option.some.inj hr).symm⟩

/-- Names are defined before they are mentioned, except that of the assembly if it has one of its
own (`named_assembly_undefined`). -/
theorem defined_before_partial {a : Assembly} {thy : List Item} (h : theory a = some thy) (hu : a.name = none) :
    DefinedBefore thy := by
  obtain ⟨p1, p2, p3, p4, p5, p6, p7, cs, ks, ls, P⟩ := theory_parts h
  have nms : ∀ {α : Type} {R : α → Str × Body → Prop} {nm : α → Option Str} {as : List α} {ps : List (Str × Body)},
      List.Forall₂ R as ps → (∀ x p, R x p → nm x = some p.1) → ∀ x ∈ as, ∀ n, nm x = some n → n ∈ ps.map (·.1) := by
    intro α R nm as ps hf hR x hx n hn
    obtain ⟨p, hp, hr⟩ := forall₂_mem hf x hx
    have := hR x p hr
    rw [hn] at this
    cases this
    exact List.mem_map.mpr ⟨p, hp, rfl⟩
  have m1 := fun c hc => nms P.h1 (nm := fun c => adl? .connector c.name) (fun _ _ h => h.1) c (mem_connectors.mpr hc)
  have m2 := fun c hc => nms P.h2 (nm := fun c => adl? .procedure c.name) (fun _ _ h => h.1) c (mem_procTypes.mpr hc)
  have m3 := fun c hc => nms P.h3 (nm := fun c => adl .event c) (fun _ _ h => h.1) c (mem_eventTypes.mpr hc)
  have m4 := fun c hc => nms P.h4 (nm := dataportName) (fun _ _ h => h.1) c (mem_dataportTypes.mpr hc)
  have m5 := fun c hc => nms P.h5 (nm := fun c => adl? .instance c.name) (fun _ _ h => h.1) c (mem_types.mpr hc)
  have m6 := fun c hc => nms P.h6 (nm := fun c => adl .component c.name) (fun _ _ h => h.1) c hc
  have m7 := fun c hc => nms P.h7 (nm := fun c => adl .connection c.name) (fun _ _ h => h.1) c hc
  have ok : okFrom [] thy := by
    rw [P.eq]
    simp only [okFrom_append, defs_items, List.nil_append, List.append_assoc]
    refine ⟨?_, ?_, ?_, ?_, ?_, ?_, ?_, ?_, ?_, ?_, ?_⟩
    · refine okFrom_items fun p hp n hn => ?_
      obtain ⟨c, _, _, x, hx, _⟩ := forall₂_mem' P.h1 p hp
      rw [hx] at hn; simp [mentions] at hn
    · refine okFrom_items fun p hp n hn => ?_
      obtain ⟨c, _, _, x, hx, _⟩ := forall₂_mem' P.h2 p hp
      rw [hx] at hn; simp [mentions] at hn
    · refine okFrom_items fun p hp n hn => ?_
      obtain ⟨c, _, _, hx⟩ := forall₂_mem' P.h3 p hp
      rw [hx] at hn; simp [mentions] at hn
    · refine okFrom_items fun p hp n hn => ?_
      obtain ⟨c, _, _, hx⟩ := forall₂_mem' P.h4 p hp
      rw [hx] at hn; simp [mentions] at hn
    · refine okFrom_items fun p hp n hn => ?_
      obtain ⟨c, hc, hT⟩ := forall₂_mem' P.h5 p hp
      obtain ⟨_, rs, ps, ds, es, us, hrs, hps, hds, hes, hus, hx⟩ := hT
      obtain ⟨i, hi, rfl⟩ := mem_types.mp hc
      rw [hx] at hn
      simp only [mentions, List.mem_append, List.mem_map] at hn
      simp only [List.mem_append]
      rcases hn with (((⟨e, he, rfl⟩ | ⟨e, he, rfl⟩) | ⟨e, he, rfl⟩) | ⟨e, he, rfl⟩) | ⟨e, he, rfl⟩
      · obtain ⟨x, hx, n, hn, rfl⟩ := shown_mem (entry := requiresEntry i.type) (nm := fun x => adl? .procedure x.type.name)
          (hid := fun x => isExported i.type (.name x.name)) (mk := fun x n => (x.name, x.optional, n)) (fun _ => rfl) hrs he
        exact .inr (.inl (m2 _ ⟨i, hi, x, .inl hx, rfl⟩ n hn))
      · obtain ⟨x, hx, n, hn, rfl⟩ := shown_mem (entry := providesEntry i.type) (nm := fun x => adl? .procedure x.type.name)
          (hid := fun x => isExported i.type (.name x.name)) (mk := fun x n => (x.name, n)) (fun _ => rfl) hps he
        exact .inr (.inl (m2 _ ⟨i, hi, x, .inr hx, rfl⟩ n hn))
      · obtain ⟨x, hx, n, hn, rfl⟩ := shown_mem (entry := dataportsEntry i.type) (nm := fun x => dataportName x.type)
          (hid := fun x => isExported i.type (.object x)) (mk := fun x n => (x.name, n)) (fun _ => rfl) hds he
        exact .inr (.inr (.inr (m4 _ ⟨i, hi, x, hx, rfl⟩ n hn)))
      · obtain ⟨x, hx, n, hn, rfl⟩ := shown_mem (entry := emitsEntry i.type) (nm := fun x => adl .event x.type)
          (hid := fun x => isExported i.type (.object x)) (mk := fun x n => (x.name, n)) (fun _ => rfl) hes he
        exact .inr (.inr (.inl (m3 _ ⟨i, hi, x, .inl hx, rfl⟩ n hn)))
      · obtain ⟨x, hx, n, hn, rfl⟩ := shown_mem (entry := consumesEntry i.type) (nm := fun x => adl .event x.type)
          (hid := fun x => isExported i.type (.object x)) (mk := fun x n => (x.name, x.optional, n)) (fun _ => rfl) hus he
        exact .inr (.inr (.inl (m3 _ ⟨i, hi, x, .inr hx, rfl⟩ n hn)))
    · refine okFrom_items fun p hp n hn => ?_
      obtain ⟨i, hi, _, t, ht, hx⟩ := forall₂_mem' P.h6 p hp
      rw [hx] at hn
      simp only [mentions, List.mem_cons, List.not_mem_nil, or_false] at hn
      subst hn
      simp only [List.mem_append]
      exact .inr (.inr (.inr (.inr (m5 _ ⟨i, hi, rfl⟩ n ht))))
    · refine okFrom_items fun p hp n hn => ?_
      obtain ⟨k, hk, _, t, ht, hx⟩ := forall₂_mem' P.h7 p hp
      rw [hx] at hn
      simp only [mentions, List.mem_cons, List.not_mem_nil, or_false] at hn
      subst hn
      simp only [List.mem_append]
      exact .inl (m1 _ ⟨k, hk, rfl⟩ n ht)
    · refine ⟨fun n hn => ?_, trivial⟩
      simp only [mentions, List.mem_append, List.mem_map] at hn
      simp only [List.mem_append]
      rcases hn with ⟨e, he, rfl⟩ | ⟨e, he, rfl⟩
      · obtain ⟨i, hi, _, hn⟩ := forall₂_mem' P.hc e he
        exact .inr (.inr (.inr (.inr (.inr (.inl (m6 i hi _ hn))))))
      · obtain ⟨i, hi, _, hn⟩ := forall₂_mem' P.hk e he
        exact .inr (.inr (.inr (.inr (.inr (.inr (m7 i hi _ hn))))))
    · refine okFrom_lemmas fun l hl => ?_
      have hv := P.hl
      simp only [validLemmas, Option.bind_eq_some_iff, Option.map_eq_some_iff] at hv
      obtain ⟨is, his, us, hus, rfl⟩ := hv
      simp only [List.mem_append, List.mem_cons, List.not_mem_nil, or_false] at hl
      rcases hl with (hl | hl) | rfl
      · obtain ⟨i, hi, he⟩ := forall₂_mem' (each_forall₂ his) l hl
        simp only [Option.bind_eq_some_iff, Option.map_eq_some_iff] at he
        obtain ⟨n, hn, t, ht, rfl⟩ := he
        refine ⟨_, rfl, fun m hm => ?_⟩
        simp only [List.mem_cons, List.not_mem_nil, or_false] at hm
        simp only [List.mem_append]
        rcases hm with rfl | rfl | rfl
        · exact .inr (.inr (.inr (.inr (.inr (.inl (m6 i hi _ hn))))))
        · simp [defs]
        · exact .inr (.inr (.inr (.inr (.inl (m5 _ ⟨i, hi, rfl⟩ _ ht)))))
      · obtain ⟨i, hi, he⟩ := forall₂_mem' (each_forall₂ hus) l hl
        simp only [Option.map_eq_some_iff] at he
        obtain ⟨n, hn, rfl⟩ := he
        refine ⟨_, rfl, fun m hm => ?_⟩
        simp only [List.mem_cons, List.not_mem_nil, or_false] at hm
        simp only [List.mem_append]
        rcases hm with rfl | rfl
        · exact .inr (.inr (.inr (.inr (.inr (.inr (.inl (m7 i hi _ hn)))))))
        · simp [defs]
      · exact ⟨_, rfl, fun n hn => by
          simp only [List.mem_cons, List.not_mem_nil, or_false] at hn
          simp [hn, defs]⟩
    · refine ⟨fun n hn => by simp [mentions] at hn, fun n hn => ?_, trivial⟩
      simp only [mentions] at hn
      split at hn
      · simp only [List.mem_cons, List.not_mem_nil, or_false] at hn
        simp [hn, defs]
      · simp at hn
    · refine ⟨fun n hn => ?_, fun n hn => ?_, trivial⟩
      · simp only [mentions, List.mem_cons, List.not_mem_nil, or_false] at hn
        rcases hn with rfl | rfl <;> simp [defs, configurationDef]
      · simp only [mentions, List.mem_cons, List.not_mem_nil, or_false] at hn
        have e : assemblyName a = "assembly'".toList := by simp [assemblyName, hu]
        rcases hn with rfl | rfl | rfl | rfl
        · simp [defs, configurationDef]
        · rw [e]; simp [defs, configurationDef]
        · simp [defs, configurationDef]
        · simp [defs, configurationDef]
  intro before item after e n hn
  simpa using okFrom_before ok e n hn

/-- **Disagreement with C104.**  If the assembly has a name, the last lemma mentions `assembly'`,
which is not defined unless something else happens to have that name. -/
theorem named_assembly_undefined {a : Assembly} {thy : List Item} (h : theory a = some thy) {n : Str}
    (hn : a.name = some n) (h1 : n ≠ "assembly'".toList) (h2 : a.compositionName ≠ some "assembly'".toList)
    (h3 : a.configurationName ≠ some "assembly'".toList) : ¬ DefinedBefore thy := by
  obtain ⟨p1, p2, p3, p4, p5, p6, p7, cs, ks, ls, P⟩ := theory_parts h
  intro hd
  have last : ∃ before, thy = before ++ [Item.lemma [assemblyName a, "assembly'".toList, compositionName a, configurationName a]] := by
    rw [P.eq]
    unfold assemblyDef
    exact ⟨_, (List.append_assoc _ [Item.defn (assemblyName a) _] _).symm⟩
  obtain ⟨before, e⟩ := last
  have hm := hd before _ [] e "assembly'".toList (by simp [mentions])
  have hm' : "assembly'".toList ∈ (defs thy).map (·.1) := by
    rw [e, defs_append, List.map_append]
    exact List.mem_append_left _ hm
  rw [parts_defs P] at hm'
  have no : ∀ {α : Type} {R : α → Str × Body → Prop} {k : Kind} {as : List α} {ps : List (Str × Body)},
      List.Forall₂ R as ps → (∀ x p, R x p → OfKind k p.1) → "assembly'".toList ∉ ps.map (·.1) := by
    intro α R k as ps hf hR hm
    obtain ⟨p, hp, he⟩ := List.mem_map.mp hm
    obtain ⟨x, _, hr⟩ := forall₂_mem' hf p hp
    obtain ⟨i, hi⟩ := hR x p hr
    rw [he] at hi
    have : '_' ∈ "assembly'".toList := by rw [hi]; simp
    exact absurd this (by decide)
  simp only [List.map_append, List.mem_append, List.map_cons, List.mem_cons, List.map_nil, List.not_mem_nil,
    or_false] at hm'
  rcases hm' with ((((((hm | hm) | hm) | hm) | hm) | hm) | hm) | hm | hm | hm
  · exact no P.h1 (fun _ _ h => adl?_ofKind h.1) hm
  · exact no P.h2 (fun _ _ h => adl?_ofKind h.1) hm
  · exact no P.h3 (fun _ _ h => adl_ofKind h.1) hm
  · exact no P.h4 (fun _ _ h => adl_ofKind h.1) hm
  · exact no P.h5 (fun _ _ h => adl?_ofKind h.1) hm
  · exact no P.h6 (fun _ _ h => adl_ofKind h.1) hm
  · exact no P.h7 (fun _ _ h => adl_ofKind h.1) hm
  · cases hc : a.compositionName with
    | none => rw [compositionName, hc] at hm; exact absurd hm (by decide)
    | some x => rw [compositionName, hc] at hm; exact h2 (by rw [hc, hm]; rfl)
  · cases hc : a.configurationName with
    | none => rw [configurationName, hc] at hm; exact absurd hm (by decide)
    | some x => rw [configurationName, hc] at hm; exact h3 (by rw [hc, hm]; rfl)
  · rw [assemblyName, hn] at hm
    exact h1 hm.symm

/-- **Disagreement with C104.**  Dataport types `Buf(4)` and `Buf_4` are given one name, so that it
is defined twice. -/
theorem dataport_names_meet : dataportName "Buf(4)".toList = dataportName "Buf_4".toList ∧
    (dataportName "Buf(4)".toList).isSome := by decide +kernel

/-! ### An assembly that meets the conditions -/

def demoProc : Proc := ⟨some "Reading".toList, [⟨"get".toList, some "int".toList,
  [⟨"n".toList, .inp, "unsigned int".toList, false⟩, ⟨"v".toList, .out, "char".toList, true⟩]⟩], 0⟩

def demoServer : Comp :=
  ⟨some "Server".toList, false, false, [], [⟨"r".toList, false, demoProc⟩],
    [⟨"d".toList, false, "Buf(4096)".toList⟩], [⟨"e".toList, false, "Tick".toList⟩], [],
    [("size".toList, "int".toList)], [], 0⟩

def demoClient : Comp :=
  ⟨some "Client".toList, true, false, [⟨"r".toList, false, demoProc⟩, ⟨"x".toList, false, demoProc⟩], [],
    [⟨"d".toList, false, "Buf(4096)".toList⟩], [], [⟨"e".toList, true, "Tick".toList⟩], [],
    ["x".toList], 0⟩

def demoCall : Connector := ⟨some "seL4RPCCall".toList, false, false, .procedure, none, 0⟩

def demo : Assembly :=
  ⟨none, none, none, [⟨"c.one".toList, demoClient⟩, ⟨"s".toList, demoServer⟩],
    [⟨"k".toList, demoCall, [("c.one".toList, "r".toList)], [("s".toList, "r".toList)]⟩],
    true, [("s".toList, "size".toList, "4".toList)], [], []⟩

theorem demo_has : (∀ t, IsEvent demo t → t = "Tick".toList) ∧ (∀ t, HasDataport demo t → t = "Buf(4096)".toList) ∧
    (∀ p, HasProc demo p → p = demoProc) ∧ (∀ c, HasConnector demo c → c = demoCall) ∧
    (∀ c, HasType demo c → c = demoClient ∨ c = demoServer) := by
  refine ⟨?_, ?_, ?_, ?_, ?_⟩
  · rintro t ⟨i, hi, e, he, rfl⟩
    simp only [demo, List.mem_cons, List.not_mem_nil, or_false] at hi
    rcases hi with rfl | rfl <;> simp [demoClient, demoServer] at he <;> subst he <;> rfl
  · rintro t ⟨i, hi, e, he, rfl⟩
    simp only [demo, List.mem_cons, List.not_mem_nil, or_false] at hi
    rcases hi with rfl | rfl <;> simp [demoClient, demoServer] at he <;> subst he <;> rfl
  · rintro t ⟨i, hi, e, he, rfl⟩
    simp only [demo, List.mem_cons, List.not_mem_nil, or_false] at hi
    rcases hi with rfl | rfl
    · simp only [demoClient, List.mem_cons, List.not_mem_nil, or_false] at he
      rcases he with rfl | rfl <;> rfl
    · simp only [demoServer, List.mem_cons, List.not_mem_nil, or_false, false_or] at he
      rw [he]
  · rintro c ⟨k, hk, rfl⟩
    simp only [demo, List.mem_cons, List.not_mem_nil, or_false] at hk
    rw [hk]
  · rintro c ⟨i, hi, rfl⟩
    simp only [demo, List.mem_cons, List.not_mem_nil, or_false] at hi
    rcases hi with rfl | rfl
    · exact .inl rfl
    · exact .inr rfl

theorem demo_apart : Apart demo := by
  obtain ⟨e1, e2, e3, e4, e5⟩ := demo_has
  refine ⟨by decide, by decide, ?_, ?_, ?_, ?_, ?_, ?_, ?_, ?_, ?_, ?_, ?_, ?_⟩
  · intro c d hc hd _; rw [e4 c hc, e4 d hd]
  · intro c d hc hd _; rw [e3 c hc, e3 d hd]
  · intro c d hc hd h
    rcases e5 c hc with rfl | rfl <;> rcases e5 d hd with rfl | rfl <;> first | rfl | (exact absurd h (by decide))
  · intro t u ht hu _ _ _; rw [e2 t ht, e2 u hu]
  · decide
  · decide
  · intro c hc n hn; rw [e4 c hc] at hn; cases hn; decide
  · intro c hc n hn; rw [e3 c hc] at hn; cases hn; decide
  · intro c hc n hn
    rcases e5 c hc with rfl | rfl <;> cases hn <;> decide
  · intro t ht; rw [e1 t ht]; decide
  · intro t ht; rw [e2 t ht]; decide
  · intro _; rfl

theorem demo_topApart : TopApart demo :=
  ⟨by decide, fun _ h => (by cases h), fun _ h => (by cases h), fun _ h => (by cases h)⟩

theorem demo_exports : ExportsProceduresOnly demo := by
  intro i hi x hx
  simp only [demo, List.mem_cons, List.not_mem_nil, or_false] at hi
  rcases hi with rfl | rfl
  · simp only [demoClient, List.mem_cons, List.not_mem_nil, or_false, false_or] at hx ⊢
    rcases hx with rfl | rfl <;> decide
  · simp only [demoServer, List.not_mem_nil, not_false_eq_true]

/-- The demonstration assembly has a description; `x`, which the client exports, is not in it. -/
theorem demo_described : ∃ thy sys, theory demo = some thy ∧ denote thy "assembly'".toList = some sys ∧
    sys.components.map (fun c => (String.ofList c.1, c.2.requires.map fun r => String.ofList r.1)) =
      [("c.one", ["r"]), ("s", [])] := by
  refine ⟨(theory demo).get (by decide +kernel), (denote ((theory demo).get (by decide +kernel)) "assembly'".toList).get
    (by decide +kernel), by simp, by simp, by decide +kernel⟩

example : ∃ thy sys, theory demo = some thy ∧ denote thy "assembly'".toList = some sys ∧ Described demo sys := by
  obtain ⟨thy, _, h, _⟩ := demo_described
  obtain ⟨sys, h1, h2⟩ := description_read_partial h demo_apart demo_topApart demo_exports
  exact ⟨thy, sys, h, h1, h2⟩

/-- The same, with a client that exports its dataport. -/
def demoExports : Assembly := { demo with
  insts := [⟨"c".toList, { demoClient with exports := ["d".toList] }⟩, ⟨"s".toList, demoServer⟩] }

example : (theory demoExports).isSome ∧ ¬ ExportsProceduresOnly demoExports := by
  refine ⟨by decide +kernel, ?_⟩
  unfold ExportsProceduresOnly
  intro h
  exact h ⟨"c".toList, { demoClient with exports := ["d".toList] }⟩ (by simp [demoExports])
    ⟨"d".toList, false, "Buf(4096)".toList⟩ (.inl (by simp [demoClient])) (by simp)

end Verif.ArchSpec
