import Verif.ArchSpec.Lemmas

/-! # The parts of the theory, and what reading them gives -/

namespace Verif.ArchSpec
open Spec

/-! ### Types, methods, connectors -/

theorem camkesType_is (t : Str) : TypeIs t (camkesType t) := by
  unfold camkesType
  by_cases h1 : t = "int".toList
  · rw [if_pos h1]; exact .inl ⟨_, ⟨"int", by simp [builtIn], h1⟩, rfl⟩
  rw [if_neg h1]
  by_cases h2 : t = "unsigned int".toList
  · rw [if_pos h2]; exact .inl ⟨_, ⟨"unsigned int", by simp [builtIn], h2⟩, rfl⟩
  rw [if_neg h2]
  by_cases h3 : t = "real".toList
  · rw [if_pos h3]; exact .inl ⟨_, ⟨"real", by simp [builtIn], h3⟩, rfl⟩
  rw [if_neg h3]
  by_cases h4 : t = "char".toList
  · rw [if_pos h4]; exact .inl ⟨_, ⟨"char", by simp [builtIn], h4⟩, rfl⟩
  rw [if_neg h4]
  by_cases h5 : t = "character".toList
  · rw [if_pos h5]; exact .inl ⟨_, ⟨"character", by simp [builtIn], h5⟩, rfl⟩
  rw [if_neg h5]
  by_cases h6 : t = "boolean".toList
  · rw [if_pos h6]; exact .inl ⟨_, ⟨"boolean", by simp [builtIn], h6⟩, rfl⟩
  rw [if_neg h6]
  by_cases h7 : t = "string".toList
  · rw [if_pos h7]; exact .inl ⟨_, ⟨"string", by simp [builtIn], h7⟩, rfl⟩
  rw [if_neg h7]
  refine .inr ⟨?_, rfl⟩
  rintro p ⟨s, hs, rfl⟩
  simp only [builtIn, List.mem_cons, Prod.mk.injEq, List.not_mem_nil, or_false] at hs
  rcases hs with ⟨rfl, _⟩ | ⟨rfl, _⟩ | ⟨rfl, _⟩ | ⟨rfl, _⟩ | ⟨rfl, _⟩ | ⟨rfl, _⟩ | ⟨rfl, _⟩
  · exact h1 rfl
  · exact h2 rfl
  · exact h3 rfl
  · exact h6 rfl
  · exact h4 rfl
  · exact h5 rfl
  · exact h7 rfl

/-- The element types that arrays may have. -/
def arrayable : List (String × Prim) :=
  [("int", .num .integer), ("unsigned int", .num .unsigned), ("real", .num .real),
   ("char", .txt .char), ("character", .txt .character), ("boolean", .num .boolean)]

theorem paramType_array {p : Param} (h : p.array = true) {x : Ty} (hx : paramType p = some x) :
    ∃ q, BuiltIn p.type q ∧ q ≠ .txt .string ∧ x = .array q := by
  unfold paramType at hx
  rw [if_pos h] at hx
  by_cases h1 : p.type = "int".toList
  · rw [if_pos h1] at hx; cases hx; exact ⟨_, ⟨"int", by simp [builtIn], h1⟩, by simp, rfl⟩
  rw [if_neg h1] at hx
  by_cases h2 : p.type = "unsigned int".toList
  · rw [if_pos h2] at hx; cases hx; exact ⟨_, ⟨"unsigned int", by simp [builtIn], h2⟩, by simp, rfl⟩
  rw [if_neg h2] at hx
  by_cases h3 : p.type = "real".toList
  · rw [if_pos h3] at hx; cases hx; exact ⟨_, ⟨"real", by simp [builtIn], h3⟩, by simp, rfl⟩
  rw [if_neg h3] at hx
  by_cases h4 : p.type = "char".toList
  · rw [if_pos h4] at hx; cases hx; exact ⟨_, ⟨"char", by simp [builtIn], h4⟩, by simp, rfl⟩
  rw [if_neg h4] at hx
  by_cases h5 : p.type = "character".toList
  · rw [if_pos h5] at hx; cases hx; exact ⟨_, ⟨"character", by simp [builtIn], h5⟩, by simp, rfl⟩
  rw [if_neg h5] at hx
  by_cases h6 : p.type = "boolean".toList
  · rw [if_pos h6] at hx; cases hx; exact ⟨_, ⟨"boolean", by simp [builtIn], h6⟩, by simp, rfl⟩
  rw [if_neg h6] at hx
  cases hx

theorem paramType_some {p : Param} (h : p.array = true → ∃ q, BuiltIn p.type q ∧ q ≠ .txt .string) :
    (paramType p).isSome := by
  unfold paramType
  by_cases ha : p.array = true
  · obtain ⟨q, ⟨s, hs, ht⟩, hq⟩ := h ha
    rw [if_pos ha, ht]
    simp only [builtIn, List.mem_cons, Prod.mk.injEq, List.not_mem_nil, or_false] at hs
    rcases hs with ⟨rfl, _⟩ | ⟨rfl, _⟩ | ⟨rfl, _⟩ | ⟨rfl, _⟩ | ⟨rfl, _⟩ | ⟨rfl, _⟩ | ⟨rfl, rfl⟩
    any_goals decide
    exact absurd rfl hq
  · rw [if_neg ha]; rfl

theorem param_is {p : Param} {x : TParam} (h : param p = some x) : ParamIs p x := by
  simp only [param, Option.map_eq_some_iff] at h
  obtain ⟨t, ht, rfl⟩ := h
  refine ⟨rfl, ?_, ?_, ?_, ?_, ?_⟩
  · cases hd : p.dir <;> simp [paramDir]
  · cases hd : p.dir <;> simp [paramDir]
  · cases hd : p.dir <;> simp [paramDir]
  · intro ha
    unfold paramType at ht
    rw [if_neg (by simp [ha])] at ht
    cases ht
    exact camkesType_is _
  · intro ha
    exact paramType_array ha ht

theorem method_is {m : Method} {x : TMethod} (h : method m = some x) : MethodIs m x := by
  simp only [method, Option.map_eq_some_iff] at h
  obtain ⟨ps, hps, rfl⟩ := h
  refine ⟨rfl, (each_forall₂ hps).imp fun _ _ h => param_is h, ?_, ?_⟩
  · intro h; simp [h]
  · intro t h; exact ⟨_, by simp [h], camkesType_is t⟩

/-! ### The parts of the theory -/

def ConnectorPart (c : Connector) (p : Str × Body) : Prop :=
  adl? .connector c.name = some p.1 ∧ ∃ x, p.2 = .connector x ∧ ConnectorIs c x

def ProcPart (c : Proc) (p : Str × Body) : Prop :=
  adl? .procedure c.name = some p.1 ∧ ∃ ms, p.2 = .procedure ms ∧ List.Forall₂ MethodIs c.methods ms

def EventPart (a : Assembly) (t : Str) (p : Str × Body) : Prop :=
  adl .event t = some p.1 ∧ p.2 = .event ((eventTypes a).idxOf t)

def DataportPart (t : Str) (p : Str × Body) : Prop := dataportName t = some p.1 ∧ p.2 = .dataport t

def TypePart (c : Comp) (p : Str × Body) : Prop :=
  adl? .instance c.name = some p.1 ∧ ∃ rs ps ds es cs,
    each (requiresEntry c) c.uses = some rs ∧ each (providesEntry c) c.provides = some ps ∧
    each (dataportsEntry c) c.dataports = some ds ∧ each (emitsEntry c) c.emits = some es ∧
    each (consumesEntry c) c.consumes = some cs ∧
    p.2 = .type ⟨c.control, c.hardware, shown rs, shown ps, shown ds, shown es, shown cs,
        c.attributes.map fun a => (a.1, camkesType a.2)⟩

def InstPart (i : Inst) (p : Str × Body) : Prop :=
  adl .component i.name = some p.1 ∧ ∃ t, adl? .instance i.type.name = some t ∧ p.2 = .alias t

def ConnPart (k : Conn) (p : Str × Body) : Prop :=
  adl .connection k.name = some p.1 ∧ ∃ t, adl? .connector k.type.name = some t ∧ p.2 = .connection t k.froms k.tos

structure Parts (a : Assembly) (thy : List Item) (p1 p2 p3 p4 p5 p6 p7 : List (Str × Body))
    (cs ks : List (Str × Str)) (ls : List Item) : Prop where
  eq : thy = items p1 ++ items p2 ++ items p3 ++ items p4 ++ items p5 ++ items p6 ++ items p7 ++
    [.defn (compositionName a) (.composition cs ks a.groups)] ++ ls ++ configurationDef a ++ assemblyDef a
  h1 : List.Forall₂ ConnectorPart (uniq (a.conns.map (·.type))) p1
  h2 : List.Forall₂ ProcPart (procTypes a) p2
  h3 : List.Forall₂ (EventPart a) (eventTypes a) p3
  h4 : List.Forall₂ DataportPart (dataportTypes a) p4
  h5 : List.Forall₂ TypePart (uniq (a.insts.map (·.type))) p5
  h6 : List.Forall₂ InstPart a.insts p6
  h7 : List.Forall₂ ConnPart a.conns p7
  hc : List.Forall₂ (fun (i : Inst) e => e.1 = i.name ∧ adl .component i.name = some e.2) a.insts cs
  hk : List.Forall₂ (fun (k : Conn) e => e.1 = k.name ∧ adl .connection k.name = some e.2) a.conns ks
  hl : validLemmas a = some ls

theorem theory_parts {a : Assembly} {thy : List Item} (h : theory a = some thy) :
    ∃ p1 p2 p3 p4 p5 p6 p7 cs ks ls, Parts a thy p1 p2 p3 p4 p5 p6 p7 cs ks ls := by
  simp only [theory, Option.bind_eq_some_iff, Option.map_eq_some_iff] at h
  obtain ⟨d1, h1, d2, h2, d3, h3, d4, h4, d5, h5, d6, h6, d7, h7, d8, h8, d9, h9, rfl⟩ := h
  obtain ⟨p1, e1, r1⟩ := section_items ConnectorPart (by
    intro x d hd
    simp only [connectorDef, Option.map_eq_some_iff] at hd
    obtain ⟨n, hn, rfl⟩ := hd
    refine ⟨n, _, rfl, hn, _, rfl, ?_, ?_⟩
    · intro s hs; simp [hs]
    · intro hs; exact ⟨_, by simp [hs]; rfl, by simp⟩) h1
  obtain ⟨p2, e2, r2⟩ := section_items ProcPart (by
    intro x d hd
    simp only [procedureDef, Option.bind_eq_some_iff, Option.map_eq_some_iff] at hd
    obtain ⟨n, hn, ms, hms, rfl⟩ := hd
    exact ⟨n, _, rfl, hn, ms, rfl, (each_forall₂ hms).imp fun _ _ h => method_is h⟩) h2
  obtain ⟨p3, e3, r3⟩ := event_items (nodup_uniq _) h3
  obtain ⟨p4, e4, r4⟩ := section_items DataportPart (by
    intro x d hd
    simp only [dataportDef, Option.map_eq_some_iff] at hd
    obtain ⟨n, hn, rfl⟩ := hd
    exact ⟨n, _, rfl, hn, rfl⟩) h4
  obtain ⟨p5, e5, r5⟩ := section_items TypePart (by
    intro x d hd
    simp only [typeDef, Option.bind_eq_some_iff, Option.map_eq_some_iff] at hd
    obtain ⟨n, hn, rs, hrs, ps, hps, ds, hds, es, hes, cs, hcs, rfl⟩ := hd
    exact ⟨n, _, rfl, hn, rs, ps, ds, es, cs, hrs, hps, hds, hes, hcs, rfl⟩) h5
  obtain ⟨p6, e6, r6⟩ := section_items InstPart (by
    intro x d hd
    simp only [instDef, Option.bind_eq_some_iff, Option.map_eq_some_iff] at hd
    obtain ⟨n, hn, t, ht, rfl⟩ := hd
    exact ⟨n, _, rfl, hn, t, ht, rfl⟩) h6
  obtain ⟨p7, e7, r7⟩ := section_items ConnPart (by
    intro x d hd
    simp only [connDef, Option.bind_eq_some_iff, Option.map_eq_some_iff] at hd
    obtain ⟨n, hn, t, ht, rfl⟩ := hd
    exact ⟨n, _, rfl, hn, t, ht, rfl⟩) h7
  simp only [compositionDef, Option.bind_eq_some_iff, Option.map_eq_some_iff] at h8
  obtain ⟨cs, hcs, ks, hks, rfl⟩ := h8
  refine ⟨p1, p2, p3, p4, p5, p6, p7, cs, ks, d9, ?_, r1, r2, ?_, r4, r5, r6, r7, ?_, ?_, h9⟩
  · rw [e1, e2, e3, e4, e5, e6, e7]
  · exact r3.imp fun _ _ h => ⟨h.1, by rw [h.2]; simp [eventTypes]⟩
  · exact (each_forall₂ hcs).imp fun _ _ h => by
      simp only [componentEntry, Option.map_eq_some_iff] at h
      obtain ⟨n, hn, rfl⟩ := h
      exact ⟨rfl, hn⟩
  · exact (each_forall₂ hks).imp fun _ _ h => by
      simp only [connectionEntry, Option.map_eq_some_iff] at h
      obtain ⟨n, hn, rfl⟩ := h
      exact ⟨rfl, hn⟩

/-! ### What is in the assembly -/

theorem mem_connectors {a : Assembly} {c : Connector} : c ∈ uniq (a.conns.map (·.type)) ↔ HasConnector a c := by
  rw [mem_uniq, List.mem_map]; rfl

theorem mem_types {a : Assembly} {c : Comp} : c ∈ uniq (a.insts.map (·.type)) ↔ HasType a c := by
  rw [mem_uniq, List.mem_map]; rfl

theorem mem_procTypes {a : Assembly} {c : Proc} : c ∈ procTypes a ↔ HasProc a c := by
  unfold procTypes HasProc
  rw [mem_uniq, List.mem_map]
  constructor
  · rintro ⟨x, hx, rfl⟩
    obtain ⟨i, hi, hx⟩ := List.mem_flatMap.mp hx
    exact ⟨i, hi, x, List.mem_append.mp hx, rfl⟩
  · rintro ⟨i, hi, x, hx, rfl⟩
    exact ⟨x, List.mem_flatMap.mpr ⟨i, hi, List.mem_append.mpr hx⟩, rfl⟩

theorem mem_eventTypes {a : Assembly} {t : Str} : t ∈ eventTypes a ↔ IsEvent a t := by
  unfold eventTypes IsEvent
  rw [mem_uniq, List.mem_map]
  constructor
  · rintro ⟨x, hx, rfl⟩
    obtain ⟨i, hi, hx⟩ := List.mem_flatMap.mp hx
    exact ⟨i, hi, x, List.mem_append.mp hx, rfl⟩
  · rintro ⟨i, hi, x, hx, rfl⟩
    exact ⟨x, List.mem_flatMap.mpr ⟨i, hi, List.mem_append.mpr hx⟩, rfl⟩

theorem mem_dataportTypes {a : Assembly} {t : Str} : t ∈ dataportTypes a ↔ HasDataport a t := by
  unfold dataportTypes HasDataport
  rw [mem_uniq, List.mem_map]
  constructor
  · rintro ⟨x, hx, rfl⟩
    obtain ⟨i, hi, hx⟩ := List.mem_flatMap.mp hx
    exact ⟨i, hi, x, hx, rfl⟩
  · rintro ⟨i, hi, x, hx, rfl⟩
    exact ⟨x, List.mem_flatMap.mpr ⟨i, hi, hx⟩, rfl⟩

/-! ### The names of the definitions are different -/

theorem validLemmas_lemma {a : Assembly} {ls : List Item} (h : validLemmas a = some ls) :
    ∀ l ∈ ls, ∃ ms, l = .lemma ms := by
  simp only [validLemmas, Option.bind_eq_some_iff, Option.map_eq_some_iff] at h
  obtain ⟨is, his, cs, hcs, rfl⟩ := h
  intro l hl
  simp only [List.mem_append, List.mem_cons, List.not_mem_nil, or_false] at hl
  rcases hl with (hl | hl) | rfl
  · obtain ⟨i, _, hi⟩ := forall₂_mem' (each_forall₂ his) l hl
    simp only [Option.bind_eq_some_iff, Option.map_eq_some_iff] at hi
    obtain ⟨n, _, t, _, rfl⟩ := hi
    exact ⟨_, rfl⟩
  · obtain ⟨i, _, hi⟩ := forall₂_mem' (each_forall₂ hcs) l hl
    simp only [Option.map_eq_some_iff] at hi
    obtain ⟨n, _, rfl⟩ := hi
    exact ⟨_, rfl⟩
  · exact ⟨_, rfl⟩

theorem defs_lemmas : ∀ {ls : List Item}, (∀ l ∈ ls, ∃ ms, l = Item.lemma ms) → defs ls = []
  | [], _ => rfl
  | l :: ls, h => by
    obtain ⟨ms, rfl⟩ := h l (by simp)
    have := defs_lemmas (ls := ls) fun x hx => h x (by simp [hx])
    simpa [defs] using this

theorem kinds_nodup : ∀ {L : List (Kind × List Str)}, (L.map (·.1)).Nodup →
    (∀ x ∈ L, x.2.Nodup ∧ ∀ n ∈ x.2, OfKind x.1 n) → ((L.map (·.2)).flatten).Nodup
  | [], _, _ => List.nodup_nil
  | x :: L, hn, h => by
    simp only [List.map_cons, List.flatten_cons, List.nodup_cons, List.nodup_append] at hn ⊢
    refine ⟨(h x (by simp)).1, kinds_nodup hn.2 fun y hy => h y (by simp [hy]), ?_⟩
    rintro n hx m hm rfl
    obtain ⟨l, hl, hm⟩ := List.mem_flatten.mp hm
    obtain ⟨y, hy, rfl⟩ := List.mem_map.mp hl
    obtain ⟨i, hi⟩ := (h x (by simp)).2 n hx
    obtain ⟨j, hj⟩ := (h y (by simp [hy])).2 n hm
    have := (kind_text_inj (hi.symm.trans hj)).1
    exact hn.1 (this ▸ List.mem_map.mpr ⟨y, hy, rfl⟩)

theorem part_names {α : Type} {R : α → Str × Body → Prop} {k : Kind} {nm : α → Option Str} {as : List α}
    {ps : List (Str × Body)} (h : List.Forall₂ R as ps) (hR : ∀ x p, R x p → nm x = some p.1)
    (hk : ∀ x m, nm x = some m → OfKind k m) (hn : as.Nodup)
    (hi : ∀ x ∈ as, ∀ y ∈ as, ∀ m, nm x = some m → nm y = some m → x = y) :
    (ps.map (·.1)).Nodup ∧ ∀ n ∈ ps.map (·.1), OfKind k n := by
  have h' : List.Forall₂ (fun x n => nm x = some n) as (ps.map (·.1)) := by
    rw [List.forall₂_map_right_iff]
    exact h.imp hR
  refine ⟨forall₂_nodup h' hn hi, fun n hn => ?_⟩
  obtain ⟨x, _, hx⟩ := forall₂_mem' h' n hn
  exact hk x n hx

section
variable {a : Assembly} {thy : List Item} {p1 p2 p3 p4 p5 p6 p7 : List (Str × Body)}
    {cs ks : List (Str × Str)} {ls : List Item}

theorem parts_defs (P : Parts a thy p1 p2 p3 p4 p5 p6 p7 cs ks ls) :
    defs thy = p1 ++ p2 ++ p3 ++ p4 ++ p5 ++ p6 ++ p7 ++
      [(compositionName a, .composition cs ks a.groups),
       (configurationName a, .configuration (if a.holds then some a.settings else none)),
       (assemblyName a, .assembly (compositionName a) (configurationName a) a.policy)] := by
  rw [P.eq]
  simp only [defs_append, defs_items, defs_lemmas (validLemmas_lemma P.hl)]
  simp [defs, configurationDef, assemblyDef]

theorem not_ofKind {k : Kind} {n : Str} (h : ¬ ['_', '_'] <:+: n) : ¬ OfKind k n := by
  rintro ⟨i, rfl⟩
  exact h ⟨k.text, i, by simp⟩

theorem topName_not {k : Kind} {n : Option Str} {d : String} (hn : ∀ m, n = some m → ¬ ['_', '_'] <:+: m)
    (hd : '_' ∉ d.toList) : ¬ OfKind k (n.getD d.toList) := by
  cases n with
  | none => exact not_ofKind fun h => hd (h.subset (by simp))
  | some m => exact not_ofKind (hn m rfl)

theorem parts_nodup (P : Parts a thy p1 p2 p3 p4 p5 p6 p7 cs ks ls) (ha : Apart a) (ht : TopApart a) :
    ((defs thy).map (·.1)).Nodup := by
  have n1 := part_names (k := .connector) P.h1 (nm := fun c => adl? .connector c.name) (fun _ _ h => h.1)
    (fun _ _ h => adl?_ofKind h) (nodup_uniq _) (by
      intro x hx y hy m h h'
      rw [mem_connectors] at hx hy
      exact ha.connectors x y hx hy (adl?_inj (ha.plainConnectors x hx) (ha.plainConnectors y hy) h h'))
  have n2 := part_names (k := .procedure) P.h2 (nm := fun c => adl? .procedure c.name) (fun _ _ h => h.1)
    (fun _ _ h => adl?_ofKind h) (nodup_uniq _) (by
      intro x hx y hy m h h'
      rw [mem_procTypes] at hx hy
      exact ha.procs x y hx hy (adl?_inj (ha.plainProcs x hx) (ha.plainProcs y hy) h h'))
  have n3 := part_names (k := .event) P.h3 (nm := fun c => adl .event c) (fun _ _ h => h.1)
    (fun _ _ h => adl_ofKind h) (nodup_uniq _) (by
      intro x hx y hy m h h'
      rw [mem_eventTypes] at hx hy
      exact adl_inj (ha.plainEvents x hx) (ha.plainEvents y hy) h h')
  have n4 := part_names (k := .dataport) P.h4 (nm := dataportName) (fun _ _ h => h.1)
    (fun _ _ h => adl_ofKind h) (nodup_uniq _) (by
      intro x hx y hy m h h'
      rw [mem_dataportTypes] at hx hy
      have := adl_inj (written_plain (unsize_written x) (ha.plainDataports x hx))
        (written_plain (unsize_written y) (ha.plainDataports y hy)) h h'
      exact ha.dataports x y hx hy (unsize x) (unsize_written x) (this ▸ unsize_written y))
  have n5 := part_names (k := .instance) P.h5 (nm := fun c => adl? .instance c.name) (fun _ _ h => h.1)
    (fun _ _ h => adl?_ofKind h) (nodup_uniq _) (by
      intro x hx y hy m h h'
      rw [mem_types] at hx hy
      exact ha.types x y hx hy (adl?_inj (ha.plainTypes x hx) (ha.plainTypes y hy) h h'))
  have n6 := part_names (k := .component) P.h6 (nm := fun c => adl .component c.name) (fun _ _ h => h.1)
    (fun _ _ h => adl_ofKind h) (List.Nodup.of_map _ ha.insts) (by
      intro x hx y hy m h h'
      exact List.inj_on_of_nodup_map ha.insts hx hy
        (adl_inj (ha.plainInsts x hx) (ha.plainInsts y hy) h h'))
  have n7 := part_names (k := .connection) P.h7 (nm := fun c => adl .connection c.name) (fun _ _ h => h.1)
    (fun _ _ h => adl_ofKind h) (List.Nodup.of_map _ ha.conns) (by
      intro x hx y hy m h h'
      exact List.inj_on_of_nodup_map ha.conns hx hy
        (adl_inj (ha.plainConns x hx) (ha.plainConns y hy) h h'))
  let L : List (Kind × List Str) := [(.connector, p1.map (·.1)), (.procedure, p2.map (·.1)), (.event, p3.map (·.1)),
    (.dataport, p4.map (·.1)), (.instance, p5.map (·.1)), (.component, p6.map (·.1)), (.connection, p7.map (·.1))]
  have hL : ∀ x ∈ L, x.2.Nodup ∧ ∀ n ∈ x.2, OfKind x.1 n := by
    intro x hx
    simp only [L, List.mem_cons, List.not_mem_nil, or_false] at hx
    rcases hx with rfl | rfl | rfl | rfl | rfl | rfl | rfl <;> assumption
  have key := kinds_nodup (L := L) (by simp [L]) hL
  rw [parts_defs P]
  have e : ((p1 ++ p2 ++ p3 ++ p4 ++ p5 ++ p6 ++ p7 ++
      [(compositionName a, Body.composition cs ks a.groups),
       (configurationName a, .configuration (if a.holds then some a.settings else none)),
       (assemblyName a, .assembly (compositionName a) (configurationName a) a.policy)]).map (·.1))
      = (L.map (·.2)).flatten ++ [compositionName a, configurationName a, assemblyName a] := by
    simp [L]
  rw [e, List.nodup_append]
  refine ⟨key, ?_, ?_⟩
  · have := ht.different
    simp only [topName, List.nodup_cons, List.mem_cons, List.not_mem_nil, or_false, not_or, not_false_eq_true,
      List.nodup_nil, and_true] at this
    simp only [compositionName, configurationName, assemblyName, List.nodup_cons, List.mem_cons, List.not_mem_nil,
      or_false, not_or, not_false_eq_true, List.nodup_nil, and_true]
    exact ⟨⟨this.2, fun h => this.1.1 h.symm⟩, fun h => this.1.2 h.symm⟩
  · rintro n hn m hm rfl
    obtain ⟨l, hl, hn⟩ := List.mem_flatten.mp hn
    obtain ⟨x, hx, rfl⟩ := List.mem_map.mp hl
    have := (hL x hx).2 n hn
    simp only [List.mem_cons, List.not_mem_nil, or_false] at hm
    rcases hm with rfl | rfl | rfl
    · exact topName_not ht.composition (by decide) this
    · exact topName_not ht.configuration (by decide) this
    · exact topName_not ht.assembly (by decide) this

/-! ### Reading -/

theorem theProcedure_of (P : Parts a thy p1 p2 p3 p4 p5 p6 p7 cs ks ls) (hn : ((defs thy).map (·.1)).Nodup)
    {c : Proc} (hc : HasProc a c) {n : Str} (h : adl? .procedure c.name = some n) :
    ∃ ms, theProcedure thy n = some ms ∧ List.Forall₂ MethodIs c.methods ms := by
  obtain ⟨p, hp, h1, ms, h2, h3⟩ := forall₂_mem P.h2 c (mem_procTypes.mpr hc)
  rw [h] at h1
  cases h1
  have := lookup_of_mem hn (n := p.1) (b := p.2) (by rw [parts_defs P]; simp [hp])
  exact ⟨ms, by unfold theProcedure; rw [this, h2], h3⟩

theorem theEvent_of (P : Parts a thy p1 p2 p3 p4 p5 p6 p7 cs ks ls) (hn : ((defs thy).map (·.1)).Nodup)
    {t : Str} (hc : IsEvent a t) {n : Str} (h : adl .event t = some n) :
    theEvent thy n = some ((eventTypes a).idxOf t) := by
  obtain ⟨p, hp, h1, h2⟩ := forall₂_mem P.h3 t (mem_eventTypes.mpr hc)
  rw [h] at h1
  cases h1
  have := lookup_of_mem hn (n := p.1) (b := p.2) (by rw [parts_defs P]; simp [hp])
  unfold theEvent; rw [this, h2]

theorem theDataport_of (P : Parts a thy p1 p2 p3 p4 p5 p6 p7 cs ks ls) (hn : ((defs thy).map (·.1)).Nodup)
    {t : Str} (hc : HasDataport a t) {n : Str} (h : dataportName t = some n) :
    theDataport thy n = some t := by
  obtain ⟨p, hp, h1, h2⟩ := forall₂_mem P.h4 t (mem_dataportTypes.mpr hc)
  rw [h] at h1
  cases h1
  have := lookup_of_mem hn (n := p.1) (b := p.2) (by rw [parts_defs P]; simp [hp])
  unfold theDataport; rw [this, h2]

theorem theConnector_of (P : Parts a thy p1 p2 p3 p4 p5 p6 p7 cs ks ls) (hn : ((defs thy).map (·.1)).Nodup)
    {c : Connector} (hc : HasConnector a c) {n : Str} (h : adl? .connector c.name = some n) :
    ∃ x, theConnector thy n = some x ∧ ConnectorIs c x := by
  obtain ⟨p, hp, h1, x, h2, h3⟩ := forall₂_mem P.h1 c (mem_connectors.mpr hc)
  rw [h] at h1
  cases h1
  have := lookup_of_mem hn (n := p.1) (b := p.2) (by rw [parts_defs P]; simp [hp])
  exact ⟨x, by unfold theConnector; rw [this, h2], h3⟩

/-- What is read of a list of entries, some of which are in comments. -/
theorem read_entries {α ε β : Type} {entry : α → Option (Option ε)} {nm : α → Option Str} {hid : α → Bool}
    {mk : α → Str → ε} {f : ε → Option β} (Q : α → β → Prop)
    (he : ∀ x, entry x = (nm x).map fun n => if hid x then none else some (mk x n)) :
    ∀ {as : List α} {rs : List (Option ε)}, each entry as = some rs →
    (∀ x ∈ as, ∀ n, nm x = some n → ∃ v, f (mk x n) = some v ∧ Q x v) →
    ∃ out, Spec.all f (shown rs) = some out ∧ List.Forall₂ Q (as.filter fun x => !hid x) out
  | [], _, h, _ => by cases h; exact ⟨[], rfl, .nil⟩
  | x :: as, rs, h, hq => by
    simp only [each, Option.bind_eq_some_iff, Option.map_eq_some_iff] at h
    obtain ⟨b, hb, bs, hbs, rfl⟩ := h
    obtain ⟨out, ho, hf⟩ := read_entries Q he hbs fun y hy => hq y (by simp [hy])
    rw [he, Option.map_eq_some_iff] at hb
    obtain ⟨n, hn, hb⟩ := hb
    by_cases hx : hid x = true
    · rw [if_pos hx] at hb
      subst hb
      exact ⟨out, by simpa [shown] using ho, by simpa [List.filter_cons, hx] using hf⟩
    · rw [if_neg hx] at hb
      subst hb
      obtain ⟨v, hv, hqv⟩ := hq x (by simp) n hn
      refine ⟨v :: out, ?_, ?_⟩
      · have e : shown (some (mk x n) :: bs) = mk x n :: shown bs := rfl
        rw [e]
        simp [Spec.all, hv, ho]
      · have e : (x :: as).filter (fun x => !hid x) = x :: as.filter (fun x => !hid x) := by
          simp [hx]
        rw [e]
        exact .cons hqv hf

/-- What is read for a component type.  Dataports and events are all there. -/
structure ReadAs (a : Assembly) (c : Comp) (x : SComp) : Prop where
  control : x.control = c.control
  hardware : x.hardware = c.hardware
  requires : List.Forall₂ (fun (i : ProcIface) r => r.1 = i.name ∧ r.2.1 = i.optional ∧
    List.Forall₂ MethodIs i.type.methods r.2.2) (c.uses.filter fun i => decide (i.name ∉ c.exports)) x.requires
  provides : List.Forall₂ (fun (i : ProcIface) r => r.1 = i.name ∧
    List.Forall₂ MethodIs i.type.methods r.2) (c.provides.filter fun i => decide (i.name ∉ c.exports)) x.provides
  dataports : x.dataports = c.dataports.map fun i => (i.name, i.type)
  emits : x.emits = c.emits.map fun i => (i.name, (eventTypes a).idxOf i.type)
  consumes : x.consumes = c.consumes.map fun i => (i.name, i.optional, (eventTypes a).idxOf i.type)
  attributes : List.Forall₂ (fun (a : Str × Str) y => y.1 = a.1 ∧ TypeIs a.2 y.2) c.attributes x.attributes

theorem exported_iff (c : Comp) (n : Str) : (!isExported c (.name n)) = decide (n ∉ c.exports) := by
  simp only [isExported]
  by_cases h : n ∈ c.exports
  · simp [h]
  · have : c.exports.any (fun e => decide (n = e)) = false := by
      rw [List.any_eq_false]
      intro e he
      simp only [decide_eq_true_eq]
      rintro rfl
      exact h he
    simp [this, h]

theorem readComp_of (P : Parts a thy p1 p2 p3 p4 p5 p6 p7 cs ks ls) (hn : ((defs thy).map (·.1)).Nodup)
    {c : Comp} (hc : HasType a c) {p : Str × Body} (hp : TypePart c p) :
    ∃ tc x, p.2 = .type tc ∧ readComp thy tc = some x ∧ ReadAs a c x := by
  obtain ⟨_, rs, ps, ds, es, us, hrs, hps, hds, hes, hcs, hb⟩ := hp
  obtain ⟨i, hi, hic⟩ := hc
  obtain ⟨o1, ho1, f1⟩ := read_entries (entry := requiresEntry c) (f := fun r => (theProcedure thy r.2.2).map fun p => (r.1, r.2.1, p))
    (mk := fun (i : ProcIface) n => (i.name, i.optional, n)) (hid := fun (i : ProcIface) => isExported c (.name i.name))
    (nm := fun (i : ProcIface) => adl? .procedure i.type.name)
    (fun (i : ProcIface) r => r.1 = i.name ∧ r.2.1 = i.optional ∧ List.Forall₂ MethodIs i.type.methods r.2.2)
    (fun _ => rfl) hrs (by
      intro x hx n h
      obtain ⟨ms, h1, h2⟩ := theProcedure_of P hn ⟨i, hi, x, .inl (hic ▸ hx), rfl⟩ h
      exact ⟨_, by simp only [h1]; rfl, rfl, rfl, h2⟩)
  obtain ⟨o2, ho2, f2⟩ := read_entries (entry := providesEntry c) (f := fun r => (theProcedure thy r.2).map fun p => (r.1, p))
    (mk := fun (i : ProcIface) n => (i.name, n)) (hid := fun (i : ProcIface) => isExported c (.name i.name))
    (nm := fun (i : ProcIface) => adl? .procedure i.type.name)
    (fun (i : ProcIface) r => r.1 = i.name ∧ List.Forall₂ MethodIs i.type.methods r.2)
    (fun _ => rfl) hps (by
      intro x hx n h
      obtain ⟨ms, h1, h2⟩ := theProcedure_of P hn ⟨i, hi, x, .inr (hic ▸ hx), rfl⟩ h
      exact ⟨_, by simp only [h1]; rfl, rfl, h2⟩)
  obtain ⟨o3, ho3, f3⟩ := read_entries (entry := dataportsEntry c) (f := fun r => (theDataport thy r.2).map fun p => (r.1, p))
    (mk := fun (i : TextIface) n => (i.name, n)) (hid := fun (i : TextIface) => isExported c (.object i))
    (nm := fun (i : TextIface) => dataportName i.type)
    (fun (i : TextIface) r => r = (i.name, i.type))
    (fun _ => rfl) hds (by
      intro x hx n h
      have h1 := theDataport_of P hn ⟨i, hi, x, hic ▸ hx, rfl⟩ h
      exact ⟨_, by simp only [h1]; rfl, rfl⟩)
  obtain ⟨o4, ho4, f4⟩ := read_entries (entry := emitsEntry c) (f := fun r => (theEvent thy r.2).map fun p => (r.1, p))
    (mk := fun (i : TextIface) n => (i.name, n)) (hid := fun (i : TextIface) => isExported c (.object i))
    (nm := fun (i : TextIface) => adl .event i.type)
    (fun (i : TextIface) r => r = (i.name, (eventTypes a).idxOf i.type))
    (fun _ => rfl) hes (by
      intro x hx n h
      have h1 := theEvent_of P hn ⟨i, hi, x, .inl (hic ▸ hx), rfl⟩ h
      exact ⟨_, by simp only [h1]; rfl, rfl⟩)
  obtain ⟨o5, ho5, f5⟩ := read_entries (entry := consumesEntry c) (f := fun r => (theEvent thy r.2.2).map fun p => (r.1, r.2.1, p))
    (mk := fun (i : TextIface) n => (i.name, i.optional, n)) (hid := fun (i : TextIface) => isExported c (.object i))
    (nm := fun (i : TextIface) => adl .event i.type)
    (fun (i : TextIface) r => r = (i.name, i.optional, (eventTypes a).idxOf i.type))
    (fun _ => rfl) hcs (by
      intro x hx n h
      have h1 := theEvent_of P hn ⟨i, hi, x, .inr (hic ▸ hx), rfl⟩ h
      exact ⟨_, by simp only [h1]; rfl, rfl⟩)
  refine ⟨_, ⟨c.control, c.hardware, o1, o2, o3, o4, o5, c.attributes.map fun a => (a.1, camkesType a.2)⟩, hb, ?_, ?_⟩
  · simp only [readComp, ho1, ho2, ho3, ho4, ho5, Option.bind_some, Option.map_some]
  · refine ⟨rfl, rfl, ?_, ?_, ?_, ?_, ?_, ?_⟩
    · simpa only [exported_iff] using f1
    · simpa only [exported_iff] using f2
    · have := forall₂_map_eq f3; simpa [isExported] using this
    · have := forall₂_map_eq f4; simpa [isExported] using this
    · have := forall₂_map_eq f5; simpa [isExported] using this
    · rw [List.forall₂_map_right_iff, List.forall₂_same]
      exact fun y _ => ⟨rfl, camkesType_is _⟩

theorem theComponent_of (P : Parts a thy p1 p2 p3 p4 p5 p6 p7 cs ks ls) (hn : ((defs thy).map (·.1)).Nodup)
    {i : Inst} (hi : i ∈ a.insts) {n : Str} (h : adl .component i.name = some n) :
    ∃ x, theComponent thy n = some x ∧ ReadAs a i.type x := by
  obtain ⟨p, hp, h1, t, ht, h2⟩ := forall₂_mem P.h6 i hi
  rw [h] at h1
  cases h1
  have l1 := lookup_of_mem hn (n := p.1) (b := p.2) (by rw [parts_defs P]; simp [hp])
  obtain ⟨q, hq, hqt⟩ := forall₂_mem P.h5 i.type (mem_types.mpr ⟨i, hi, rfl⟩)
  obtain ⟨tc, x, hb, hx, hr⟩ := readComp_of P hn ⟨i, hi, rfl⟩ hqt
  have l2 := lookup_of_mem hn (n := q.1) (b := q.2) (by rw [parts_defs P]; simp [hq])
  have e : t = q.1 := by
    have := hqt.1
    rw [ht] at this
    exact Option.some.inj this
  refine ⟨x, ?_, hr⟩
  unfold theComponent
  rw [l1, h2]
  simp only
  rw [e, l2, hb]
  exact hx

theorem theConnection_of (P : Parts a thy p1 p2 p3 p4 p5 p6 p7 cs ks ls) (hn : ((defs thy).map (·.1)).Nodup)
    {k : Conn} (hk : k ∈ a.conns) {n : Str} (h : adl .connection k.name = some n) :
    ∃ x, theConnection thy n = some x ∧ ConnIs k x := by
  obtain ⟨p, hp, h1, t, ht, h2⟩ := forall₂_mem P.h7 k hk
  rw [h] at h1
  cases h1
  have l1 := lookup_of_mem hn (n := p.1) (b := p.2) (by rw [parts_defs P]; simp [hp])
  obtain ⟨c, hc, hcc⟩ := theConnector_of P hn ⟨k, hk, rfl⟩ ht
  refine ⟨⟨c, k.froms, k.tos⟩, ?_, hcc, rfl, rfl⟩
  unfold theConnection
  rw [l1, h2]
  simp only [hc, Option.map_some]

/-- What reading the theory gives. -/
structure ReadSystem (a : Assembly) (sys : System) : Prop where
  components : List.Forall₂ (fun (i : Inst) x => x.1 = i.name ∧ ReadAs a i.type x.2) a.insts sys.components
  connections : List.Forall₂ (fun (k : Conn) x => x.1 = k.name ∧ ConnIs k x.2) a.conns sys.connections
  groups : sys.groups = a.groups
  settings : sys.settings = if a.holds then some a.settings else none
  policy : sys.policy = a.policy

theorem forall₂_trans {α β γ : Type} {R : α → β → Prop} {S : β → γ → Prop} {T : α → γ → Prop} :
    ∀ {as : List α} {bs : List β} {zs : List γ}, List.Forall₂ R as bs → List.Forall₂ S bs zs →
    (∀ a b c, R a b → S b c → T a c) → List.Forall₂ T as zs
  | _, _, _, .nil, .nil, _ => .nil
  | _, _, _, .cons h hs, .cons h' hs', hT => .cons (hT _ _ _ h h') (forall₂_trans hs hs' hT)

theorem read_system (P : Parts a thy p1 p2 p3 p4 p5 p6 p7 cs ks ls) (hn : ((defs thy).map (·.1)).Nodup) :
    ∃ sys, denote thy (assemblyName a) = some sys ∧ ReadSystem a sys := by
  have la : lookup thy (assemblyName a) = some (.assembly (compositionName a) (configurationName a) a.policy) :=
    lookup_of_mem hn (by rw [parts_defs P]; simp)
  have lc : lookup thy (compositionName a) = some (.composition cs ks a.groups) :=
    lookup_of_mem hn (by rw [parts_defs P]; simp)
  have lf : lookup thy (configurationName a) = some (.configuration (if a.holds then some a.settings else none)) :=
    lookup_of_mem hn (by rw [parts_defs P]; simp)
  have comps : ∀ {is : List Inst} {cs : List (Str × Str)},
      List.Forall₂ (fun (i : Inst) e => e.1 = i.name ∧ adl .component i.name = some e.2) is cs →
      (∀ i ∈ is, i ∈ a.insts) → ∃ xs, Spec.all (fun c => (theComponent thy c.2).map fun x => (c.1, x)) cs = some xs ∧
        List.Forall₂ (fun (i : Inst) x => x.1 = i.name ∧ ReadAs a i.type x.2) is xs := by
    intro is cs h
    induction h with
    | nil => exact fun _ => ⟨[], rfl, .nil⟩
    | @cons i e is es h hs ih =>
      intro hi
      obtain ⟨xs, hx, hr⟩ := ih fun i h => hi i (by simp [h])
      obtain ⟨x, hx', hr'⟩ := theComponent_of P hn (hi i (by simp)) h.2
      exact ⟨(e.1, x) :: xs, by simp [Spec.all, hx, hx'], .cons ⟨h.1, hr'⟩ hr⟩
  have conns : ∀ {is : List Conn} {cs : List (Str × Str)},
      List.Forall₂ (fun (i : Conn) e => e.1 = i.name ∧ adl .connection i.name = some e.2) is cs →
      (∀ i ∈ is, i ∈ a.conns) → ∃ xs, Spec.all (fun c => (theConnection thy c.2).map fun x => (c.1, x)) cs = some xs ∧
        List.Forall₂ (fun (i : Conn) x => x.1 = i.name ∧ ConnIs i x.2) is xs := by
    intro is cs h
    induction h with
    | nil => exact fun _ => ⟨[], rfl, .nil⟩
    | @cons i e is es h hs ih =>
      intro hi
      obtain ⟨xs, hx, hr⟩ := ih fun i h => hi i (by simp [h])
      obtain ⟨x, hx', hr'⟩ := theConnection_of P hn (hi i (by simp)) h.2
      exact ⟨(e.1, x) :: xs, by simp [Spec.all, hx, hx'], .cons ⟨h.1, hr'⟩ hr⟩
  obtain ⟨xs, hx, hr⟩ := comps P.hc fun _ h => h
  obtain ⟨ys, hy, hr'⟩ := conns P.hk fun _ h => h
  refine ⟨⟨xs, ys, a.groups, if a.holds then some a.settings else none, a.policy⟩, ?_, hr, hr', rfl, rfl, rfl⟩
  unfold denote
  rw [la]
  simp only [lc, lf, hx, hy, Option.bind_some, Option.map_some]

end

end Verif.ArchSpec
