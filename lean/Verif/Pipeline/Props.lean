import Verif.Pipeline.Settings

/-!
# C103: from what is written to what is delivered, through stages 6 to 10

All theorems are about a specification that the parser accepts: `pipeline … = some (.ok sys)`.
`first :: rest` are the assemblies of the specification, `whole first rest` is what they say
together, and `WellFormed` is what the stages before guarantee of it.
-/

namespace Verif.Pipeline
open Verif.Hierarchy (Str)
open Verif.Hierarchy.Spec (CompAt InstAt EndMeans EndsMean ConnMeans dotted Path WellFormed)
variable {V : Type}

/-! ### Helpers -/

theorem pipeline_flat {connector : String → Freeze.Connector} {look : V → List Str → Option V} {fuel : Nat}
    {items : List (Item V)} {sys : System V} {first : Assembly V} {rest : List (Assembly V)}
    (h : pipeline connector look fuel items = some (.ok sys)) (ha : Spec.assemblies items = first :: rest)
    (hw : WellFormed (Spec.whole first rest)) :
    ∃ f, FlatOk (Spec.whole first rest) f ∧ Parts connector look f sys := by
  obtain ⟨first', rest', f, h1, h2, h3⟩ := pipeline_parts h
  rw [ha] at h1
  cases h1
  exact ⟨f, flat_ok hw h2, h3⟩

theorem together_of_flat {root : Comp V} {f : Hierarchy.Flat Iface V} (hf : FlatOk root f)
    {k : Hierarchy.Conn Iface} (hk : k ∈ f.conns) {e e' : End} (he : e ∈ k.froms ++ k.tos)
    (he' : e' ∈ k.froms ++ k.tos) : Spec.Together root e e' := by
  obtain ⟨p, c, k0, hc, hk0, hm⟩ := hf.conns k hk
  have pick : ∀ x ∈ k.froms ++ k.tos, ∃ y ∈ k0.froms ++ k0.tos, EndMeans root p y x := by
    intro x hx
    rcases List.mem_append.mp hx with hx | hx
    · obtain ⟨y, hy, hyx⟩ := (ends_mem hm.froms).1 x hx
      exact ⟨y, List.mem_append_left _ hy, hyx⟩
    · obtain ⟨y, hy, hyx⟩ := (ends_mem hm.tos).1 x hx
      exact ⟨y, List.mem_append_right _ hy, hyx⟩
  obtain ⟨y, hy, hyx⟩ := pick e he
  obtain ⟨y', hy', hyx'⟩ := pick e' he'
  exact ⟨p, c, k0, y, y', hc, hk0, hy, hy', hyx, hyx'⟩

theorem flat_of_together {root : Comp V} (hw : WellFormed root) {f : Hierarchy.Flat Iface V} (hf : FlatOk root f)
    {e e' : End} (h : Spec.Together root e e') :
    ∃ k ∈ f.conns, e ∈ k.froms ++ k.tos ∧ e' ∈ k.froms ++ k.tos := by
  obtain ⟨p, c, k0, x, x', hc, hk0, hx, hx', hm, hm'⟩ := h
  obtain ⟨k, hk, hkm⟩ := hf.conns' p c k0 hc hk0
  have pick : ∀ x ∈ k0.froms ++ k0.tos, ∀ e, EndMeans root p x e → e ∈ k.froms ++ k.tos := by
    intro x hx e hm
    rcases List.mem_append.mp hx with hx | hx
    · obtain ⟨y, hy, hyx⟩ := (ends_mem hkm.froms).2 x hx
      rw [endMeans_unique hw hm hyx]
      exact List.mem_append_left _ hy
    · obtain ⟨y, hy, hyx⟩ := (ends_mem hkm.tos).2 x hx
      rw [endMeans_unique hw hm hyx]
      exact List.mem_append_right _ hy
  exact ⟨k, hk, pick x hx e hm, pick x' hx' e' hm'⟩

theorem find_inst {root : Comp V} {f : Hierarchy.Flat Iface V} (hf : FlatOk root f) (n : Str)
    (i : Hierarchy.FInst Iface V) : f.insts.find? (fun i => decide (i.name = n)) = some i ↔ i ∈ f.insts ∧ i.name = n :=
  find_unique _ _ hf.nodup i n

theorem toEnds_map {insts : List (Hierarchy.FInst Iface V)} : ∀ {es : List End} {xs : List Freeze.End},
    toEnds insts es = some xs →
    xs.map some = es.map fun e => (instOf insts e).map fun i => (⟨toInst i, e.iface⟩ : Freeze.End) := by
  intro es
  induction es with
  | nil => intro xs h; cases h; rfl
  | cons e es ih =>
    intro xs h
    simp only [toEnds, Option.bind_eq_some_iff, Option.map_eq_some_iff] at h
    obtain ⟨i, hi, ys, hys, rfl⟩ := h
    simp only [List.map_cons, ih hys, hi, Option.map_some]

theorem allEnds_map {insts : List (Hierarchy.FInst Iface V)} : ∀ {ks : List (Consolidate.Conn End String)}
    {xs : List (List Freeze.End)}, allEnds insts ks = some xs →
    xs.map (fun x => x.map some) = ks.map fun k => (k.froms ++ k.tos).map fun e =>
      (instOf insts e).map fun i => (⟨toInst i, e.iface⟩ : Freeze.End) := by
  intro ks
  induction ks with
  | nil => intro xs h; cases h; rfl
  | cons k ks ih =>
    intro xs h
    simp only [allEnds, Option.bind_eq_some_iff, Option.map_eq_some_iff] at h
    obtain ⟨x, hx, ys, hys, rfl⟩ := h
    simp only [List.map_cons, ih hys, toEnds_map hx]

theorem ends_flat {insts : List (Hierarchy.FInst Iface V)} {ks : List (Consolidate.Conn End String)}
    {xs : List (List Freeze.End)} (h : allEnds insts ks = some xs) :
    xs.flatten.map some = (ks.flatMap fun k => k.froms ++ k.tos).map fun e =>
      (instOf insts e).map fun i => (⟨toInst i, e.iface⟩ : Freeze.End) := by
  have := congrArg List.flatten (allEnds_map h)
  rw [List.map_flatten, this, ← List.flatMap_def, List.map_flatMap]

theorem exported_eq (t : Comp V) : exportedOf t = (Hierarchy.Spec.exports t).map (·.dest) := by cases t; rfl

theorem toCEnds_map {insts : List (Hierarchy.FInst Iface V)} : ∀ {es : List End} {xs : List Freeze.CEnd},
    toCEnds insts es = some xs →
    xs.map some = es.map fun e => (instOf insts e).map fun i =>
      (⟨e.iface.kind, e.iface.type, (declOf i.type).hardware⟩ : Freeze.CEnd) := by
  intro es
  induction es with
  | nil => intro xs h; cases h; rfl
  | cons e es ih =>
    intro xs h
    simp only [toCEnds, Option.bind_eq_some_iff, Option.map_eq_some_iff] at h
    obtain ⟨i, hi, ys, hys, rfl⟩ := h
    simp only [List.map_cons, ih hys, hi, Option.map_some]

theorem toCEnds_mem {insts : List (Hierarchy.FInst Iface V)} {es : List End} {xs : List Freeze.CEnd}
    (h : toCEnds insts es = some xs) : xs.length = es.length ∧ ∀ e ∈ es, ∃ i, instOf insts e = some i ∧
      (⟨e.iface.kind, e.iface.type, (declOf i.type).hardware⟩ : Freeze.CEnd) ∈ xs := by
  have hm := toCEnds_map h
  refine ⟨by simpa using congrArg List.length hm, fun e he => ?_⟩
  have : ((instOf insts e).map fun i =>
      (⟨e.iface.kind, e.iface.type, (declOf i.type).hardware⟩ : Freeze.CEnd)) ∈ xs.map some := by
    rw [hm]; exact List.mem_map.mpr ⟨e, he, rfl⟩
  rw [List.mem_map] at this
  obtain ⟨y, hy, hye⟩ := this
  cases hi : instOf insts e with
  | none => rw [hi] at hye; cases hye
  | some i => rw [hi] at hye; simp only [Option.map_some, Option.some.injEq] at hye; exact ⟨i, rfl, hye ▸ hy⟩

theorem checkConns_mem {connector : String → Freeze.Connector} {insts : List (Hierarchy.FInst Iface V)} :
    ∀ {ks : List (Consolidate.Conn End String)}, checkConns connector insts ks = true → ∀ k ∈ ks,
      ∃ fs ts, toCEnds insts k.froms = some fs ∧ toCEnds insts k.tos = some ts ∧
        Freeze.connectionFreeze (connector k.type) fs ts = .ok () := by
  intro ks
  induction ks with
  | nil => intro _ k hk; cases hk
  | cons k0 ks ih =>
    intro h k hk
    simp only [checkConns] at h
    split at h
    · rename_i fs ts hfs hts
      split at h
      · rename_i hok
        rcases List.mem_cons.mp hk with rfl | hk
        · exact ⟨fs, ts, hfs, hts, hok⟩
        · exact ih h k hk
      · cases h
    · cases h

theorem joined_iff_merged {root : Comp V} (hw : WellFormed root) {f : Hierarchy.Flat Iface V} (hf : FlatOk root f)
    {conns : List (Consolidate.Conn End String)} (hm : Merged f conns) (e e' : End) :
    (∃ k ∈ conns, e ∈ k.froms ++ k.tos ∧ e' ∈ k.froms ++ k.tos) ↔ Spec.Joined root e e' := by
  have sub : ∀ {k : Hierarchy.Conn Iface} {r : Consolidate.Conn End String}, (∀ e ∈ k.froms, e ∈ r.froms) →
      (∀ e ∈ k.tos, e ∈ r.tos) → ∀ x ∈ k.froms ++ k.tos, x ∈ r.froms ++ r.tos := by
    intro k r h1 h2 x hx
    rcases List.mem_append.mp hx with hx | hx
    · exact List.mem_append_left _ (h1 x hx)
    · exact List.mem_append_right _ (h2 x hx)
  constructor
  · rintro ⟨r, hr, he, he'⟩
    exact hm.chain (Spec.Joined root) (fun k hk a ha b hb => .one a b (together_of_flat hf hk ha hb))
      (fun a b c hab ⟨k, hk, hb, hc⟩ => .step a b c hab (together_of_flat hf hk hb hc)) r hr e he e' he'
  · intro h
    induction h with
    | one e' ht =>
      obtain ⟨k, hk, h1, h2⟩ := flat_of_together hw hf ht
      obtain ⟨r, hr, _, hf1, ht1⟩ := hm.into k hk
      exact ⟨r, hr, sub hf1 ht1 _ h1, sub hf1 ht1 _ h2⟩
    | step e' e'' _ ht ih =>
      obtain ⟨r, hr, h1, h2⟩ := ih
      obtain ⟨k, hk, h3, h4⟩ := flat_of_together hw hf ht
      obtain ⟨_, hf1, ht1⟩ := hm.shared r hr k hk ⟨e', h2, h3⟩
      exact ⟨r, hr, h1, sub hf1 ht1 _ h4⟩

/-! ### C103 -/

section
variable {connector : String → Freeze.Connector} {look : V → List Str → Option V} {fuel : Nat}
  {items : List (Item V)} {sys : System V} {first : Assembly V} {rest : List (Assembly V)}

/-- C103: the instances delivered are those written anywhere in the hierarchy, of all assemblies,
under their full names, with their own address space; no two have the same name. -/
theorem delivered_instances (h : pipeline connector look fuel items = some (.ok sys))
    (ha : Spec.assemblies items = first :: rest) (hw : WellFormed (Spec.whole first rest)) :
    sys.insts ≠ [] ∧ (sys.insts.map (·.name)).Nodup ∧
    ∀ x, x ∈ sys.insts ↔ ∃ p n sp t, InstAt (Spec.whole first rest) p n sp t ∧
      x = ⟨dotted (p ++ [n]), dotted (p ++ [sp]), t⟩ := by
  obtain ⟨f, hf, hp⟩ := pipeline_flat h ha hw
  rw [hp.insts]
  exact ⟨hp.some_, hf.nodup, hf.insts⟩

/-- C103: two interfaces are on a common connection exactly when written connections join them. -/
theorem delivered_connected_iff (h : pipeline connector look fuel items = some (.ok sys))
    (ha : Spec.assemblies items = first :: rest) (hw : WellFormed (Spec.whole first rest)) (e e' : End) :
    (∃ k ∈ sys.conns, e ∈ k.froms ++ k.tos ∧ e' ∈ k.froms ++ k.tos) ↔
      Spec.Joined (Spec.whole first rest) e e' := by
  obtain ⟨f, hf, hp⟩ := pipeline_flat h ha hw
  exact joined_iff_merged hw hf (merged_ok hp.conns) e e'

/-- C103: an interface is on the from-side of a connection with some connector exactly when it was
written there. -/
theorem delivered_from_iff (h : pipeline connector look fuel items = some (.ok sys))
    (ha : Spec.assemblies items = first :: rest) (hw : WellFormed (Spec.whole first rest)) (ty : Str) (e : End) :
    (∃ k ∈ sys.conns, k.type = String.ofList ty ∧ e ∈ k.froms) ↔
      Spec.FromWritten (Spec.whole first rest) ty e := by
  obtain ⟨f, hf, hp⟩ := pipeline_flat h ha hw
  have hm := merged_ok hp.conns
  constructor
  · rintro ⟨r, hr, hty, he⟩
    obtain ⟨k, hk, hkt, hek⟩ := hm.from_ r hr e he
    obtain ⟨p, c, k0, hc, hk0, hkm⟩ := hf.conns k hk
    obtain ⟨y, hy, hye⟩ := (ends_mem hkm.froms).1 e hek
    exact ⟨p, c, k0, y, hc, hk0, by rw [← hkm.type]; exact ofList_inj (hkt.trans hty), hy, hye⟩
  · rintro ⟨p, c, k0, x, hc, hk0, hty, hx, hxe⟩
    obtain ⟨k, hk, hkm⟩ := hf.conns' p c k0 hc hk0
    obtain ⟨r, hr, hrt, hrf, _⟩ := hm.into k hk
    obtain ⟨y, hy, hxy⟩ := (ends_mem hkm.froms).2 x hx
    exact ⟨r, hr, by rw [← hrt, hkm.type, hty], by rw [endMeans_unique hw hxe hxy]; exact hrf y hy⟩

/-- C103: the same for the to-side. -/
theorem delivered_to_iff (h : pipeline connector look fuel items = some (.ok sys))
    (ha : Spec.assemblies items = first :: rest) (hw : WellFormed (Spec.whole first rest)) (ty : Str) (e : End) :
    (∃ k ∈ sys.conns, k.type = String.ofList ty ∧ e ∈ k.tos) ↔
      Spec.ToWritten (Spec.whole first rest) ty e := by
  obtain ⟨f, hf, hp⟩ := pipeline_flat h ha hw
  have hm := merged_ok hp.conns
  constructor
  · rintro ⟨r, hr, hty, he⟩
    obtain ⟨k, hk, hkt, hek⟩ := hm.to_ r hr e he
    obtain ⟨p, c, k0, hc, hk0, hkm⟩ := hf.conns k hk
    obtain ⟨y, hy, hye⟩ := (ends_mem hkm.tos).1 e hek
    exact ⟨p, c, k0, y, hc, hk0, by rw [← hkm.type]; exact ofList_inj (hkt.trans hty), hy, hye⟩
  · rintro ⟨p, c, k0, x, hc, hk0, hty, hx, hxe⟩
    obtain ⟨k, hk, hkm⟩ := hf.conns' p c k0 hc hk0
    obtain ⟨r, hr, hrt, _, hrt'⟩ := hm.into k hk
    obtain ⟨y, hy, hxy⟩ := (ends_mem hkm.tos).2 x hx
    exact ⟨r, hr, by rw [← hrt, hkm.type, hty], by rw [endMeans_unique hw hxe hxy]; exact hrt' y hy⟩

/-- C103: every interface is on at most one connection, and there only once. -/
theorem delivered_ends_once (h : pipeline connector look fuel items = some (.ok sys))
    (ha : Spec.assemblies items = first :: rest) (hw : WellFormed (Spec.whole first rest)) :
    (sys.conns.flatMap fun k => k.froms ++ k.tos).Nodup := by
  obtain ⟨f, hf, hp⟩ := pipeline_flat h ha hw
  obtain ⟨ends, he, hc⟩ := hp.ends
  have hwc := (Freeze.composition_accepted_iff _ _).mp hc
  have h1 : (ends.flatten.map some).Nodup := List.Nodup.map (fun _ _ e => Option.some.inj e) hwc.once
  rw [ends_flat he] at h1
  exact List.Nodup.of_map _ h1

/-- C103: every end of a delivered connection is an interface that its instance declares. -/
theorem delivered_ends_exist (h : pipeline connector look fuel items = some (.ok sys))
    (ha : Spec.assemblies items = first :: rest) (hw : WellFormed (Spec.whole first rest)) :
    ∀ k ∈ sys.conns, ∀ e ∈ k.froms ++ k.tos, ∃ p n sp t, InstAt (Spec.whole first rest) p n sp t ∧
      e.inst = some (dotted (p ++ [n])) ∧ e.iface ∈ (Hierarchy.Spec.decl t).ifaces := by
  intro k hk e he
  obtain ⟨f, hf, hp⟩ := pipeline_flat h ha hw
  obtain ⟨ends, hends, hc⟩ := hp.ends
  have hwc := (Freeze.composition_accepted_iff _ _).mp hc
  have hmem : ((instOf f.insts e).map fun i => (⟨toInst i, e.iface⟩ : Freeze.End)) ∈ ends.flatten.map some := by
    rw [ends_flat hends]
    exact List.mem_map.mpr ⟨e, List.mem_flatMap.mpr ⟨k, hk, he⟩, rfl⟩
  rw [List.mem_map] at hmem
  obtain ⟨y, hy, hye⟩ := hmem
  cases hi : instOf f.insts e with
  | none => rw [hi] at hye; cases hye
  | some i =>
    rw [hi] at hye
    simp only [Option.map_some, Option.some.injEq] at hye
    subst hye
    obtain ⟨c, hcm, hyc⟩ := List.mem_flatten.mp hy
    obtain ⟨_, hif⟩ := hwc.exist c hcm _ hyc
    unfold instOf at hi
    rw [Option.bind_eq_some_iff] at hi
    obtain ⟨n, hn, hfi⟩ := hi
    obtain ⟨him, hin⟩ := (find_inst hf n i).mp hfi
    obtain ⟨p, m, sp, t, hat, rfl⟩ := (hf.insts i).mp him
    refine ⟨p, m, sp, t, hat, by rw [hn, ← hin], ?_⟩
    rw [← decl_eq]; exact hif

/-- C103: an interface that has to be connected is an end of a connection written somewhere. -/
theorem delivered_mandatory (h : pipeline connector look fuel items = some (.ok sys))
    (ha : Spec.assemblies items = first :: rest) (hw : WellFormed (Spec.whole first rest))
    (p : Path) (n sp : Str) (t : Comp V) (hi : InstAt (Spec.whole first rest) p n sp t) (g : Iface)
    (hg : Spec.MustConnect t g) :
    ∃ ty, Spec.FromWritten (Spec.whole first rest) ty ⟨some (dotted (p ++ [n])), g⟩ ∨
      Spec.ToWritten (Spec.whole first rest) ty ⟨some (dotted (p ++ [n])), g⟩ := by
  obtain ⟨f, hf, hp⟩ := pipeline_flat h ha hw
  obtain ⟨ends, hends, hc⟩ := hp.ends
  have hwc := (Freeze.composition_accepted_iff _ _).mp hc
  have hx := (hf.insts _).mpr ⟨p, n, sp, t, hi, rfl⟩
  obtain ⟨hg1, hg2, hg3, hg4⟩ := hg
  obtain ⟨c, hcm, hec⟩ := hwc.mandatory (toInst ⟨dotted (p ++ [n]), dotted (p ++ [sp]), t⟩)
    (List.mem_map_of_mem hx) g (by simp only [toInst, decl_eq]; exact hg1)
    ⟨hg2, hg3, by
      simp only [toInst, exported_eq, List.mem_map]
      rintro ⟨x, hx, rfl⟩
      exact hg4 x hx rfl⟩
  have hmem : some (⟨toInst ⟨dotted (p ++ [n]), dotted (p ++ [sp]), t⟩, g⟩ : Freeze.End) ∈ ends.flatten.map some :=
    List.mem_map_of_mem (List.mem_flatten.mpr ⟨c, hcm, hec⟩)
  rw [ends_flat hends, List.mem_map] at hmem
  obtain ⟨e, he, hee⟩ := hmem
  rw [Option.map_eq_some_iff] at hee
  obtain ⟨i, hio, hie⟩ := hee
  unfold instOf at hio
  rw [Option.bind_eq_some_iff] at hio
  obtain ⟨m, hm, hfi⟩ := hio
  obtain ⟨him, hin⟩ := (find_inst hf m i).mp hfi
  have e1 := congrArg Freeze.End.iface hie
  have e2 := congrArg (fun x => x.inst.name) hie
  simp only [toInst] at e1 e2
  have e3 := ofList_inj e2
  have hee : e = ⟨some (dotted (p ++ [n])), g⟩ := by
    obtain ⟨ei, eg⟩ := e
    simp only at hm e1
    rw [hm, ← hin, e3, e1]
  rw [hee] at he
  obtain ⟨k, hk, hek⟩ := List.mem_flatMap.mp he
  refine ⟨k.type.toList, ?_⟩
  rcases List.mem_append.mp hek with hek | hek
  · exact .inl ((delivered_from_iff h ha hw _ _).mp ⟨k, hk, by simp, hek⟩)
  · exact .inr ((delivered_to_iff h ha hw _ _).mp ⟨k, hk, by simp, hek⟩)

/-- C103: every delivered connection suits its connector. -/
theorem delivered_suits (h : pipeline connector look fuel items = some (.ok sys))
    (ha : Spec.assemblies items = first :: rest) (hw : WellFormed (Spec.whole first rest)) :
    ∀ k ∈ sys.conns, Spec.Suits (Spec.whole first rest) (connector k.type) k.froms k.tos := by
  intro k hk
  obtain ⟨f, hf, hp⟩ := pipeline_flat h ha hw
  obtain ⟨fs, ts, hfs, hts, hok⟩ := checkConns_mem hp.checks k hk
  have hc := (Freeze.connection_accepted_iff _ _ _).mp hok
  obtain ⟨l1, m1⟩ := toCEnds_mem hfs
  obtain ⟨l2, m2⟩ := toCEnds_mem hts
  have m : ∀ e ∈ k.froms ++ k.tos, ∃ x ∈ fs ++ ts, x.type = e.iface.type := by
    intro e he
    rcases List.mem_append.mp he with he | he
    · obtain ⟨i, _, hx⟩ := m1 e he; exact ⟨_, List.mem_append_left _ hx, rfl⟩
    · obtain ⟨i, _, hx⟩ := m2 e he; exact ⟨_, List.mem_append_right _ hx, rfl⟩
  have hwd : ∀ {e : End} {i : Hierarchy.FInst Iface V}, instOf f.insts e = some i → ∀ p n sp t,
      InstAt (Spec.whole first rest) p n sp t → e.inst = some (dotted (p ++ [n])) → i.type = t := by
    intro e i hi p n sp t hat hen
    unfold instOf at hi
    rw [hen, Option.bind_some] at hi
    have := (find_inst hf (dotted (p ++ [n])) ⟨dotted (p ++ [n]), dotted (p ++ [sp]), t⟩).mpr
      ⟨(hf.insts _).mpr ⟨p, n, sp, t, hat, rfl⟩, rfl⟩
    rw [this] at hi
    cases hi
    rfl
  refine ⟨?_, ?_, ?_, ?_, ?_, ?_, ?_, ?_, ?_⟩
  · intro he
    rw [he] at l1
    exact hc.hasFrom (List.length_eq_zero_iff.mp l1)
  · intro he
    rw [he] at l2
    exact hc.hasTo (List.length_eq_zero_iff.mp l2)
  · intro hx; rw [← l1]; exact hc.oneFrom hx
  · intro hx; rw [← l2]; exact hc.oneTo hx
  · intro hx e he e' he'
    obtain ⟨x, hx1, hx2⟩ := m e he
    obtain ⟨y, hy1, hy2⟩ := m e' he'
    rw [← hx2, ← hy2]
    exact hc.sameType hx x hx1 y hy1
  · intro e he
    obtain ⟨i, _, hx⟩ := m1 e he
    exact hc.fromKind _ hx
  · intro e he
    obtain ⟨i, _, hx⟩ := m2 e he
    exact hc.toKind _ hx
  · intro e he p n sp t hat hen
    obtain ⟨i, hi, hx⟩ := m1 e he
    have := hc.fromHw _ hx
    simp only [decl_eq, hwd hi p n sp t hat hen] at this
    exact this
  · intro e he p n sp t hat hen
    obtain ⟨i, hi, hx⟩ := m2 e he
    have := hc.toHw _ hx
    simp only [decl_eq, hwd hi p n sp t hat hen] at this
    exact this

/-- C103: the value of an attribute is what is written for it, followed through references, or its
default. -/
theorem delivered_value_iff (h : pipeline connector look fuel items = some (.ok sys))
    (ha : Spec.assemblies items = first :: rest) (hw : WellFormed (Spec.whole first rest))
    (hd : Spec.AttributesDistinct (Spec.whole first rest)) (hs : Spec.SubscriptsDirect (Spec.whole first rest))
    (i a : Str) (v : V) :
    Freeze.tget sys.config (String.ofList i) (String.ofList a) = some v ↔
      Spec.Value look (Spec.whole first rest) i a v := by
  obtain ⟨f, hf, hp⟩ := pipeline_flat h ha hw
  exact config_value hf hp hd hs i a v

/-- C103: no attribute of an instance is set to two things, wherever the settings are written. -/
theorem delivered_set_once (h : pipeline connector look fuel items = some (.ok sys))
    (ha : Spec.assemblies items = first :: rest) (hw : WellFormed (Spec.whole first rest))
    (hs : Spec.SubscriptsDirect (Spec.whole first rest)) (i a : Str) (u u' : Hierarchy.Value V)
    (hu : Spec.Written (Spec.whole first rest) i a u) (hu' : Spec.Written (Spec.whole first rest) i a u') : u = u' := by
  obtain ⟨f, hf, hp⟩ := pipeline_flat h ha hw
  have hn := keys_nodup hf hp hs
  have := List.inj_on_of_nodup_map hn ((hf.settings i a u).mpr hu) ((hf.settings i a u').mpr hu') rfl
  cases this
  rfl

end

/-- C103: the parser comes to an end, whatever is written, and the more steps it is given the result
is the same. -/
theorem pipeline_terminates (connector : String → Freeze.Connector) (look : V → List Str → Option V)
    (items : List (Item V)) (first : Assembly V) (rest : List (Assembly V))
    (ha : Spec.assemblies items = first :: rest) (hw : WellFormed (Spec.whole first rest)) :
    ∃ N r, ∀ fuel, N ≤ fuel → pipeline connector look fuel items = some r := by
  obtain ⟨N, hN⟩ := Hierarchy.transform_ok _ hw
  obtain ⟨f, hf, _⟩ := hN N (Nat.le_refl _)
  rcases compose_whole items with ⟨h0, _⟩ | ⟨first', rest', items', a, h1, h2, h3, h4⟩
  · rw [ha] at h0; cases h0
  · rw [ha] at h1
    cases h1
    refine ⟨N, finish connector look f, fun fuel hle => ?_⟩
    have := transform_mono hle _ hf
    unfold pipeline
    rw [h2]
    simp only [h3]
    rw [h4, this]

/-- C103: without an assembly there is no system. -/
theorem pipeline_no_assembly (connector : String → Freeze.Connector) (look : V → List Str → Option V)
    (fuel : Nat) (items : List (Item V)) (ha : Spec.assemblies items = []) :
    pipeline connector look fuel items = some (.error .stage6) := by
  unfold pipeline
  rcases compose_whole items with ⟨_, e, he⟩ | ⟨first', rest', items', a, h1, _⟩
  · rw [he]
  · rw [ha] at h1; cases h1

/-! ### A concrete specification

Two assemblies. The first has `o`, an instance of a compound component whose interface `p` stands
for `x.p`, and the client `c`; the second adds the client `d`. Both clients are connected to `o.p`,
each in its own assembly. `o` has the attribute `q`, set by reference to `o.x.b`, which is set
inside the compound component; `o.x.a` has a default. -/

def pI : Iface := ⟨.provides, "p", "T", false⟩
def uI : Iface := ⟨.uses, "u", "T", false⟩
def inner : Comp Nat := .mk .nil [] [] [] { ifaces := [pI], attrs := [(['a'], some 7), (['b'], none)] }
def outer : Comp Nat := .mk (.cons ['x'] ['x'] inner .nil) [] [⟨['x'], pI, pI⟩] [⟨['x'], ['b'], .lit 5⟩]
  { ifaces := [pI], attrs := [(['q'], none)] }
def client : Comp Nat := .mk .nil [] [] [] { ifaces := [uI] }
def asm1 : Assembly Nat := ⟨[(['o'], ['o'], outer), (['c'], ['c'], client)],
  [⟨['k'], ['R'], [⟨some ['c'], uI⟩], [⟨some ['o'], pI⟩]⟩], [], [⟨['o'], ['q'], .ref "o.x.b".toList []⟩], ()⟩
def asm2 : Assembly Nat := ⟨[(['d'], ['d'], client)],
  [⟨['l'], ['R'], [⟨some ['d'], uI⟩], [⟨some ['o'], pI⟩]⟩], [], [], ()⟩
def demo : List (Item Nat) := [.other (), .assembly asm1, .assembly asm2]
def rpc : Freeze.Connector := ⟨some .procedure, some .procedure, true, false, false, false, false⟩

/-- What there is to see of a result. -/
structure Seen where
  names : List Str
  types : List String
  froms : List (List End)
  tos : List (List End)
  values : List (Option Nat)
  deriving DecidableEq

def seen (r : Option (Except Err (System Nat))) : Option Seen :=
  match r with
  | some (.ok s) => some ⟨s.insts.map (·.name), s.conns.map (·.type), s.conns.map (·.froms), s.conns.map (·.tos),
      [Freeze.tget s.config "o" "q", Freeze.tget s.config "o.x" "a", Freeze.tget s.config "o.x" "b",
        Freeze.tget s.config "c" "z"]⟩
  | _ => none

theorem demo_seen : seen (pipeline (fun _ => rpc) (fun _ _ => none) 5 demo) =
    some ⟨["o".toList, "c".toList, "d".toList, "o.x".toList], ["R"],
      [[⟨some ['c'], uI⟩, ⟨some ['d'], uI⟩]], [[⟨some "o.x".toList, pI⟩]],
      [some 5, some 7, some 5, none]⟩ := by decide +kernel

/-- The specification is accepted. -/
theorem demo_accepted : ∃ sys, pipeline (fun _ => rpc) (fun _ _ => none) 5 demo = some (.ok sys) := by
  have h := demo_seen
  unfold seen at h
  split at h
  · rename_i s hs; exact ⟨s, hs⟩
  · cases h

example : Spec.assemblies demo = asm1 :: [asm2] := rfl

open Verif.Hierarchy.Spec (insts instList conns exports settings decl) in
theorem demo_cases {p : Path} {c : Comp Nat} (h : CompAt (Spec.whole asm1 [asm2]) p c) :
    (p = [] ∧ c = Spec.whole asm1 [asm2]) ∨ (p = [['o']] ∧ c = outer) ∨ (p ≠ [] ∧ c = client) ∨
      (p = [['o'], ['x']] ∧ c = inner) := by
  cases h with
  | here => exact .inl ⟨rfl, rfl⟩
  | down _ n sp t p d hi hd =>
    simp only [Spec.whole, asm1, asm2, Spec.instances, insts, instList, List.flatMap_cons, List.flatMap_nil,
      List.append_nil, List.cons_append, List.nil_append, List.mem_cons, List.not_mem_nil, or_false,
      Prod.mk.injEq] at hi
    have hcl : ∀ {p d}, CompAt client p d → p = [] ∧ d = client := by
      intro p d h
      cases h with
      | here => exact ⟨rfl, rfl⟩
      | down _ n sp t p d hi hd => simp [client, insts, instList] at hi
    rcases hi with ⟨rfl, _, rfl⟩ | ⟨rfl, _, rfl⟩ | ⟨rfl, _, rfl⟩
    · cases hd with
      | here => exact .inr (.inl ⟨rfl, rfl⟩)
      | down _ n2 sp2 t2 p2 d2 hi2 hd2 =>
        simp only [outer, insts, instList, List.mem_cons, List.not_mem_nil, or_false, Prod.mk.injEq] at hi2
        obtain ⟨rfl, _, rfl⟩ := hi2
        cases hd2 with
        | here => exact .inr (.inr (.inr ⟨rfl, rfl⟩))
        | down _ n3 sp3 t3 p3 d3 hi3 hd3 => simp [inner, insts, instList] at hi3
    · obtain ⟨rfl, rfl⟩ := hcl hd; exact .inr (.inr (.inl ⟨by simp, rfl⟩))
    · obtain ⟨rfl, rfl⟩ := hcl hd; exact .inr (.inr (.inl ⟨by simp, rfl⟩))

/-- The hypotheses are met by the concrete specification. -/
theorem demo_wellFormed : WellFormed (Spec.whole asm1 [asm2]) := by
  open Verif.Hierarchy.Spec in
  constructor
  · intro p c h
    rcases demo_cases h with ⟨_, rfl⟩ | ⟨_, rfl⟩ | ⟨_, rfl⟩ | ⟨_, rfl⟩ <;>
      simp [Spec.whole, asm1, asm2, Spec.instances, outer, inner, client, insts, instList]
  · intro p c h
    rcases demo_cases h with ⟨_, rfl⟩ | ⟨_, rfl⟩ | ⟨_, rfl⟩ | ⟨_, rfl⟩ <;>
      simp [Spec.whole, asm1, asm2, Spec.instances, outer, inner, client, insts, instList]
  · intro p c h
    rcases demo_cases h with ⟨_, rfl⟩ | ⟨_, rfl⟩ | ⟨_, rfl⟩ | ⟨_, rfl⟩ <;>
      simp [Spec.whole, asm1, asm2, Spec.instances, outer, inner, client, insts, instList, conns]
  · intro p c h
    rcases demo_cases h with ⟨_, rfl⟩ | ⟨_, rfl⟩ | ⟨_, rfl⟩ | ⟨_, rfl⟩ <;>
      simp [Spec.whole, asm1, asm2, Spec.instances, outer, inner, client, insts, instList, exports]
  · simp [Spec.whole, asm1, asm2, conns]
  · simp [Spec.whole, asm1, exports]

theorem demo_distinct : Spec.AttributesDistinct (Spec.whole asm1 [asm2]) := by
  rintro p n sp t ⟨c, hc, hi⟩
  open Verif.Hierarchy.Spec in
  rcases demo_cases hc with ⟨_, rfl⟩ | ⟨_, rfl⟩ | ⟨_, rfl⟩ | ⟨_, rfl⟩ <;>
    simp [Spec.whole, asm1, asm2, Spec.instances, outer, inner, client, insts, instList] at hi
  · rcases hi with ⟨_, _, rfl⟩ | ⟨_, _, rfl⟩ | ⟨_, _, rfl⟩ <;> simp [decl]
  · obtain ⟨_, _, rfl⟩ := hi; simp [decl]

theorem demo_direct : Spec.SubscriptsDirect (Spec.whole asm1 [asm2]) := by
  rintro i a i' a' lk ⟨p, c, s, hc, hs, hq⟩ _ hne
  exfalso
  open Verif.Hierarchy.Spec in
  rcases demo_cases hc with ⟨_, rfl⟩ | ⟨_, rfl⟩ | ⟨_, rfl⟩ | ⟨_, rfl⟩ <;>
    simp [Spec.whole, asm1, asm2, outer, inner, client, settings] at hs
  · subst hs; simp [qualify] at hq; exact hne hq.2.2.2
  · subst hs; simp [qualify] at hq

/-- And so the value of `o.q` is the one written for `x.b` inside the compound component. -/
example : Spec.Value (fun _ _ => none) (Spec.whole asm1 [asm2]) ['o'] ['q'] 5 := by
  obtain ⟨sys, h⟩ := demo_accepted
  refine (delivered_value_iff h rfl demo_wellFormed demo_distinct demo_direct ['o'] ['q'] 5).mp ?_
  have hs := demo_seen
  rw [h] at hs
  simp only [seen, Option.some.injEq, Seen.mk.injEq, List.cons.injEq] at hs
  exact hs.2.2.2.2.1

/-- A client that is left unconnected, and one connected twice with different connectors, are refused. -/
example : (match pipeline (fun _ => rpc) (fun _ _ => none) 5
    [.assembly { asm1 with connections := [] }] with | some (.error e) => some e | _ => none) = some .stage10 := by
  decide +kernel
example : (match pipeline (fun _ => rpc) (fun _ _ => none) 5 [.assembly asm1, .assembly { asm2 with
    connections := [⟨['l'], ['S'], [⟨some ['d'], uI⟩], [⟨some ['o'], pI⟩]⟩] }] with
    | some (.error e) => some e | _ => none) = some .stage9 := by
  decide +kernel

end Verif.Pipeline
