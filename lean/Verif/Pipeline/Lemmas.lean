import Verif.Pipeline.Spec
import Verif.Hierarchy.Props
import Verif.AttrRef.Props
import Verif.Consolidate.Props
import Verif.Freeze.Props
import Mathlib.Data.List.Nodup
import Mathlib.Data.List.Pairwise

namespace Verif.Pipeline
open Verif.Hierarchy (Str)
open Verif.Hierarchy.Spec (CompAt InstAt EndMeans EndsMean ConnMeans dotted qualify Path WellFormed)
variable {V : Type}

theorem ofList_inj {a b : Str} (h : String.ofList a = String.ofList b) : a = b := by
  have := congrArg String.toList h
  simpa using this

/-! ### Stage 6 -/

theorem toInsts_eq (l : List (Str × Str × Comp V)) : toInsts l = Spec.instances l := by
  induction l with
  | nil => rfl
  | cons x l ih => obtain ⟨n, sp, t⟩ := x; simp only [toInsts, Spec.instances, ih]

theorem foldl_absorb (rest : List (Assembly V)) : ∀ a : Assembly V,
    asComp (rest.foldl Compose.absorb a) = Spec.whole a rest := by
  induction rest with
  | nil => intro a; simp [asComp, Spec.whole, toInsts_eq]
  | cons b rest ih =>
    intro a
    rw [List.foldl_cons, ih]
    simp [Spec.whole, Compose.absorb]

theorem assemblies_eq (items : List (Item V)) : Compose.assemblies items = Spec.assemblies items := by
  induction items with
  | nil => rfl
  | cons x rest ih => cases x <;> simp [Compose.assemblies, Spec.assemblies, ih]

theorem compose_whole (items : List (Item V)) :
    (Spec.assemblies items = [] ∧ ∃ e, Compose.compose items = .error e) ∨
    ∃ first rest items' a, Spec.assemblies items = first :: rest ∧ Compose.compose items = .ok items' ∧
      theAssembly items' = some a ∧ asComp a = Spec.whole first rest := by
  induction items with
  | nil => exact .inl ⟨rfl, _, rfl⟩
  | cons x rest ih =>
    cases x with
    | assembly a =>
      refine .inr ⟨a, Spec.assemblies rest, _, _, rfl, rfl, rfl, ?_⟩
      rw [assemblies_eq, foldl_absorb]
    | other x =>
      rcases ih with ⟨h1, e, h2⟩ | ⟨first, r, items', a, h1, h2, h3, h4⟩
      · exact .inl ⟨h1, e, by simp [Compose.compose, h2]⟩
      · exact .inr ⟨first, r, .other x :: items', a, h1, by simp [Compose.compose, h2], h3, h4⟩

/-! ### Stage 7 -/

theorem chaseEnds_mono {al : Hierarchy.Aliases Iface} {n m : Nat} (h : n ≤ m) (es : List End) {r : List End}
    (hr : Hierarchy.chaseEnds al n es = some r) : Hierarchy.chaseEnds al m es = some r := by
  induction es generalizing r with
  | nil => simpa [Hierarchy.chaseEnds] using hr
  | cons e es ih =>
    simp only [Hierarchy.chaseEnds] at hr ⊢
    cases hi : e.inst with
    | none => rw [hi] at hr; cases hr
    | some i =>
      rw [hi] at hr
      simp only at hr ⊢
      cases hc : Hierarchy.chase al n (i, e.iface) with
      | none => rw [hc] at hr; cases hr
      | some p =>
        rw [hc] at hr
        simp only at hr
        rw [Hierarchy.chase_mono al h hc]
        simp only
        cases hs : Hierarchy.chaseEnds al n es with
        | none => rw [hs] at hr; cases hr
        | some es' => rw [hs] at hr; rw [ih hs]; exact hr

theorem chaseConns_mono {al : Hierarchy.Aliases Iface} {n m : Nat} (h : n ≤ m)
    (cs : List (Hierarchy.Conn Iface)) {r : List (Hierarchy.Conn Iface)}
    (hr : Hierarchy.chaseConns al n cs = some r) : Hierarchy.chaseConns al m cs = some r := by
  induction cs generalizing r with
  | nil => simpa [Hierarchy.chaseConns] using hr
  | cons c cs ih =>
    simp only [Hierarchy.chaseConns] at hr ⊢
    cases hf : Hierarchy.chaseEnds al n c.froms with
    | none => rw [hf] at hr; cases hr
    | some fs =>
      rw [hf] at hr
      simp only at hr
      rw [chaseEnds_mono h _ hf]
      simp only
      cases ht : Hierarchy.chaseEnds al n c.tos with
      | none => rw [ht] at hr; cases hr
      | some ts =>
        rw [ht] at hr
        simp only at hr
        rw [chaseEnds_mono h _ ht]
        simp only
        cases hs : Hierarchy.chaseConns al n cs with
        | none => rw [hs] at hr; cases hr
        | some cs' => rw [hs] at hr; rw [ih hs]; exact hr

theorem transform_mono {n m : Nat} (h : n ≤ m) (root : Comp V) {r : Except Hierarchy.Err (Hierarchy.Flat Iface V)}
    (hr : Hierarchy.transform n root = some r) : Hierarchy.transform m root = some r := by
  unfold Hierarchy.transform at hr ⊢
  cases hi : Hierarchy.inferAll none root with
  | error x => rw [hi] at hr; exact hr
  | ok o =>
    rw [hi] at hr
    simp only at hr ⊢
    cases hc : Hierarchy.chaseConns o.aliases n o.conns with
    | none => rw [hc] at hr; cases hr
    | some cs => rw [hc] at hr; rw [chaseConns_mono h _ hc]; exact hr

/-- What is known of a flattened assembly. -/
structure FlatOk (root : Comp V) (f : Hierarchy.Flat Iface V) : Prop where
  insts : ∀ x, x ∈ f.insts ↔ ∃ p n sp t, InstAt root p n sp t ∧ x = ⟨dotted (p ++ [n]), dotted (p ++ [sp]), t⟩
  nodup : (f.insts.map (·.name)).Nodup
  conns : ∀ k' ∈ f.conns, ∃ p c k, CompAt root p c ∧ k ∈ Hierarchy.Spec.conns c ∧ ConnMeans root p k k'
  conns' : ∀ p c k, CompAt root p c → k ∈ Hierarchy.Spec.conns c → ∃ k' ∈ f.conns, ConnMeans root p k k'
  settings : ∀ i a v, (⟨i, a, v⟩ : Hierarchy.Setting V) ∈ f.settings ↔ Spec.Written root i a v

theorem flat_ok {root : Comp V} (h : WellFormed root) {fuel : Nat} {f : Hierarchy.Flat Iface V}
    (hf : Hierarchy.transform fuel root = some (.ok f)) : FlatOk root f := by
  obtain ⟨N1, h1⟩ := Hierarchy.instances_flattened root h
  obtain ⟨N2, h2⟩ := Hierarchy.connections_flattened root h
  obtain ⟨N3, h3⟩ := Hierarchy.settings_flattened root h
  have hm := transform_mono (Nat.le_max_left fuel (max N1 (max N2 N3))) root hf
  obtain ⟨o1, e1, a1, a2⟩ := h1 (max fuel (max N1 (max N2 N3))) (by omega)
  obtain ⟨o2, e2, b1, b2⟩ := h2 (max fuel (max N1 (max N2 N3))) (by omega)
  obtain ⟨o3, e3, c1⟩ := h3 (max fuel (max N1 (max N2 N3))) (by omega)
  rw [hm] at e1 e2 e3
  cases e1; cases e2; cases e3
  refine ⟨a1, a2, b1, b2, ?_⟩
  intro i a v
  rw [c1]
  constructor
  · rintro ⟨p, c, s, x1, x2, x3⟩; exact ⟨p, c, s, x1, x2, x3.symm⟩
  · rintro ⟨p, c, s, x1, x2, x3⟩; exact ⟨p, c, s, x1, x2, x3.symm⟩

/-! ### The stages taken apart -/

structure Parts (connector : String → Freeze.Connector) (look : V → List Str → Option V)
    (f : Hierarchy.Flat Iface V) (sys : System V) : Prop where
  insts : sys.insts = f.insts
  conns : Consolidate.transform (f.conns.map toConn) = .ok sys.conns
  config : ∃ refs resolved settings, toRefs f.settings = some refs ∧
    AttrRef.resolve ⟨attrDefault f.insts, look⟩ (refs.length + 1) refs = some (.ok resolved) ∧
    literals resolved = some settings ∧
    Freeze.configFreeze (f.insts.map fun i => ⟨String.ofList i.name,
            (declOf i.type).attrs.map fun a => ⟨String.ofList a.1, a.2⟩⟩) settings = some sys.config
  ends : ∃ ends, allEnds f.insts sys.conns = some ends ∧
    Freeze.compositionFreeze (f.insts.map toInst) ends = .ok ()
  checks : checkConns connector f.insts sys.conns = true
  some_ : f.insts ≠ []

theorem finish_parts {connector : String → Freeze.Connector} {look : V → List Str → Option V}
    {f : Hierarchy.Flat Iface V} {sys : System V} (h : finish connector look f = .ok sys) :
    Parts connector look f sys := by
  unfold finish at h
  split at h
  · cases h
  rename_i refs hrefs
  split at h
  · cases h
  · cases h
  rename_i resolved hres
  split at h
  · cases h
  rename_i settings hlit
  split at h
  · cases h
  rename_i conns hconns
  split at h
  · cases h
  rename_i s h10
  cases h
  unfold stage10 at h10
  split at h10
  · cases h10
  rename_i ends hends
  split at h10
  · cases h10
  rename_i hcomp
  split at h10
  · rename_i hchk
    split at h10
    · cases h10
    rename_i t hconf
    split at h10
    · cases h10
    · rename_i hne
      cases h10
      exact ⟨rfl, hconns, ⟨refs, resolved, settings, hrefs, hres, hlit, hconf⟩, ⟨ends, hends, hcomp⟩, hchk, hne⟩
  · cases h10

theorem pipeline_parts {connector : String → Freeze.Connector} {look : V → List Str → Option V} {fuel : Nat}
    {items : List (Item V)} {sys : System V} (h : pipeline connector look fuel items = some (.ok sys)) :
    ∃ first rest f, Spec.assemblies items = first :: rest ∧
      Hierarchy.transform fuel (Spec.whole first rest) = some (.ok f) ∧ Parts connector look f sys := by
  unfold pipeline at h
  rcases compose_whole items with ⟨_, e, he⟩ | ⟨first, rest, items', a, h1, h2, h3, h4⟩
  · rw [he] at h; cases h
  · rw [h2] at h
    simp only [h3] at h
    rw [h4] at h
    split at h
    · cases h
    · cases h
    · rename_i f hf
      simp only [Option.some.injEq] at h
      exact ⟨first, rest, f, h1, hf, finish_parts h⟩

/-! ### Connections -/

theorem ends_mem {root : Comp V} {p : Path} {es es' : List End} (h : EndsMean root p es es') :
    (∀ e' ∈ es', ∃ e ∈ es, EndMeans root p e e') ∧ ∀ e ∈ es, ∃ e' ∈ es', EndMeans root p e e' := by
  induction h with
  | nil => simp
  | cons e e' es es' h _ ih =>
    constructor
    · intro x hx
      rcases List.mem_cons.mp hx with rfl | hx
      · exact ⟨e, by simp, h⟩
      · obtain ⟨y, hy, hm⟩ := ih.1 x hx; exact ⟨y, by simp [hy], hm⟩
    · intro x hx
      rcases List.mem_cons.mp hx with rfl | hx
      · exact ⟨e', by simp, h⟩
      · obtain ⟨y, hy, hm⟩ := ih.2 x hx; exact ⟨y, by simp [hy], hm⟩

theorem endMeans_unique {root : Comp V} (h : WellFormed root) {p : Path} {x e e' : End}
    (h1 : EndMeans root p x e) (h2 : EndMeans root p x e') : e = e' := by
  obtain ⟨q, g, hu, rfl⟩ := h1
  obtain ⟨q', g', hu', rfl⟩ := h2
  obtain ⟨rfl, rfl⟩ := Hierarchy.underlying_unique h hu hu'
  rfl

theorem merges_left {E T : Type} {conns : List (Consolidate.Conn E T)} {classes : List (List Nat)}
    {out : List (Consolidate.Conn E T)} (h : Consolidate.Spec.MergesOf conns classes out) :
    (∀ r ∈ out, ∃ s ∈ classes, Consolidate.Spec.MergeOf conns s r) ∧
      ∀ s ∈ classes, ∃ r ∈ out, Consolidate.Spec.MergeOf conns s r := by
  induction h with
  | nil => simp
  | cons s r ss rs h _ ih =>
    constructor
    · intro x hx
      rcases List.mem_cons.mp hx with rfl | hx
      · exact ⟨s, by simp, h⟩
      · obtain ⟨y, hy, hm⟩ := ih.1 x hx; exact ⟨y, by simp [hy], hm⟩
    · intro x hx
      rcases List.mem_cons.mp hx with rfl | hx
      · exact ⟨r, by simp, h⟩
      · obtain ⟨y, hy, hm⟩ := ih.2 x hx; exact ⟨y, by simp [hy], hm⟩

/-- The connections of the system, in terms of the flattened ones. -/
structure Merged (f : Hierarchy.Flat Iface V) (conns : List (Consolidate.Conn End String)) : Prop where
  /-- the connection of the system that contains a flattened one -/
  into : ∀ k ∈ f.conns, ∃ r ∈ conns, String.ofList k.type = r.type ∧ (∀ e ∈ k.froms, e ∈ r.froms) ∧
    (∀ e ∈ k.tos, e ∈ r.tos)
  from_ : ∀ r ∈ conns, ∀ e ∈ r.froms, ∃ k ∈ f.conns, String.ofList k.type = r.type ∧ e ∈ k.froms
  to_ : ∀ r ∈ conns, ∀ e ∈ r.tos, ∃ k ∈ f.conns, String.ofList k.type = r.type ∧ e ∈ k.tos
  /-- connections with a common end go into the same one -/
  shared : ∀ r ∈ conns, ∀ k ∈ f.conns, (∃ e, e ∈ r.froms ++ r.tos ∧ e ∈ k.froms ++ k.tos) →
    String.ofList k.type = r.type ∧ (∀ e ∈ k.froms, e ∈ r.froms) ∧ (∀ e ∈ k.tos, e ∈ r.tos)
  /-- nothing else is merged -/
  chain : ∀ (P : End → End → Prop), (∀ k ∈ f.conns, ∀ e ∈ k.froms ++ k.tos, ∀ e' ∈ k.froms ++ k.tos, P e e') →
    (∀ e e' e'', P e e' → (∃ k ∈ f.conns, e' ∈ k.froms ++ k.tos ∧ e'' ∈ k.froms ++ k.tos) → P e e'') →
    ∀ r ∈ conns, ∀ e ∈ r.froms ++ r.tos, ∀ e' ∈ r.froms ++ r.tos, P e e'

theorem merged_ok {f : Hierarchy.Flat Iface V} {conns : List (Consolidate.Conn End String)}
    (h : Consolidate.transform (f.conns.map toConn) = .ok conns) : Merged f conns := by
  obtain ⟨classes, hcl, hm⟩ := Consolidate.consolidate_correct_partial _ _ h
  obtain ⟨hm1, hm2⟩ := merges_left hm
  have get : ∀ {c : Nat} {k : Consolidate.Conn End String}, (f.conns.map toConn)[c]? = some k →
      ∃ k0 ∈ f.conns, k = toConn k0 := by
    intro c k hk
    have := List.mem_of_getElem? hk
    rw [List.mem_map] at this
    obtain ⟨k0, h0, rfl⟩ := this
    exact ⟨k0, h0, rfl⟩
  have idx : ∀ k0 ∈ f.conns, ∃ c : Nat, (f.conns.map toConn)[c]? = some (toConn k0) := by
    intro k0 hk0
    exact List.getElem?_of_mem (List.mem_map_of_mem hk0)
  have memEnds : ∀ {s : List Nat} {r : Consolidate.Conn End String},
      Consolidate.Spec.MergeOf (f.conns.map toConn) s r → ∀ e, e ∈ r.froms ++ r.tos →
      ∃ c ∈ s, ∃ k0 ∈ f.conns, (f.conns.map toConn)[c]? = some (toConn k0) ∧ e ∈ k0.froms ++ k0.tos := by
    intro s r hr e he
    rcases List.mem_append.mp he with he | he
    · obtain ⟨c, hc, k, hk, hek⟩ := (hr.froms e).mp he
      obtain ⟨k0, h0, rfl⟩ := get hk
      exact ⟨c, hc, k0, h0, hk, List.mem_append_left _ hek⟩
    · obtain ⟨c, hc, k, hk, hek⟩ := (hr.tos e).mp he
      obtain ⟨k0, h0, rfl⟩ := get hk
      exact ⟨c, hc, k0, h0, hk, List.mem_append_right _ hek⟩
  have lt : ∀ {c : Nat} {k : Consolidate.Conn End String}, (f.conns.map toConn)[c]? = some k →
      c < (f.conns.map toConn).length := fun hk => (List.getElem?_eq_some_iff.mp hk).1
  have into' : ∀ {s : List Nat} {r : Consolidate.Conn End String},
      Consolidate.Spec.MergeOf (f.conns.map toConn) s r → ∀ c ∈ s, ∀ k0,
      (f.conns.map toConn)[c]? = some (toConn k0) →
      String.ofList k0.type = r.type ∧ (∀ e ∈ k0.froms, e ∈ r.froms) ∧ (∀ e ∈ k0.tos, e ∈ r.tos) := by
    intro s r hr c hc k0 hk
    exact ⟨hr.type c hc _ hk, fun e he => (hr.froms e).mpr ⟨c, hc, _, hk, he⟩,
      fun e he => (hr.tos e).mpr ⟨c, hc, _, hk, he⟩⟩
  refine ⟨?_, ?_, ?_, ?_, ?_⟩
  · intro k0 hk0
    obtain ⟨c, hc⟩ := idx k0 hk0
    obtain ⟨s, hs, hcs⟩ := hcl.cover c (lt hc)
    obtain ⟨r, hr, hrs⟩ := hm2 s hs
    exact ⟨r, hr, into' hrs c hcs k0 hc⟩
  · intro r hr e he
    obtain ⟨s, hs, hrs⟩ := hm1 r hr
    obtain ⟨c, hc, k, hk, hek⟩ := (hrs.froms e).mp he
    obtain ⟨k0, h0, rfl⟩ := get hk
    exact ⟨k0, h0, hrs.type c hc _ hk, hek⟩
  · intro r hr e he
    obtain ⟨s, hs, hrs⟩ := hm1 r hr
    obtain ⟨c, hc, k, hk, hek⟩ := (hrs.tos e).mp he
    obtain ⟨k0, h0, rfl⟩ := get hk
    exact ⟨k0, h0, hrs.type c hc _ hk, hek⟩
  · rintro r hr k0 hk0 ⟨e, he, hek⟩
    obtain ⟨s, hs, hrs⟩ := hm1 r hr
    obtain ⟨c, hc, k1, h1, hk1, he1⟩ := memEnds hrs e he
    obtain ⟨d, hd⟩ := idx k0 hk0
    have hsh : Consolidate.Spec.Shares (f.conns.map toConn) c d :=
      ⟨_, _, e, hk1, hd, by simp only [toConn]; rw [List.mem_append] at he1 ⊢; exact he1.symm,
        by simp only [toConn]; rw [List.mem_append] at hek ⊢; exact hek.symm⟩
    have hds : d ∈ s := ((hcl.linked s hs c hc).2 d (lt hd)).mpr (.step _ _ _ (.refl _) hsh)
    exact into' hrs d hds k0 hd
  · intro P hP1 hP2 r hr e he e' he'
    obtain ⟨s, hs, hrs⟩ := hm1 r hr
    obtain ⟨c, hc, k1, h1, hk1, he1⟩ := memEnds hrs e he
    obtain ⟨d, hd, k2, h2, hk2, he2⟩ := memEnds hrs e' he'
    have hl : Consolidate.Spec.Linked (f.conns.map toConn) c d := ((hcl.linked s hs c hc).2 d (lt hk2)).mp hd
    clear hd
    induction hl generalizing k2 e' with
    | refl =>
      rw [hk1] at hk2
      have hk := Option.some.inj hk2
      have hf : k1.froms = k2.froms := by
        have := congrArg Consolidate.Conn.froms hk; simpa [toConn] using this
      have ht : k1.tos = k2.tos := by
        have := congrArg Consolidate.Conn.tos hk; simpa [toConn] using this
      rw [← hf, ← ht] at he2
      exact hP1 k1 h1 e he1 e' he2
    | step d g _ hsh ih =>
      obtain ⟨ka, kb, x, ha, hb, hxa, hxb⟩ := hsh
      obtain ⟨ka0, ha0, rfl⟩ := get ha
      rw [hk2] at hb
      have hkb := (Option.some.inj hb).symm
      subst hkb
      have hx1 : x ∈ ka0.froms ++ ka0.tos := by
        simp only [toConn] at hxa; rw [List.mem_append] at hxa ⊢; exact hxa.symm
      have hx2 : x ∈ k2.froms ++ k2.tos := by
        simp only [toConn] at hxb; rw [List.mem_append] at hxb ⊢; exact hxb.symm
      have hgs : g ∈ s := by
        obtain ⟨c2, hc2, k3, h3, hk3, he3⟩ := memEnds hrs e' he'
        exact ((hcl.linked s hs c2 hc2).2 g (lt hk2)).mpr (.step _ _ _ (.refl _)
          ⟨_, _, e', hk3, hk2, by simp only [toConn]; rw [List.mem_append] at he3 ⊢; exact he3.symm,
            by simp only [toConn]; rw [List.mem_append] at he2 ⊢; exact he2.symm⟩)
      have hxr : x ∈ r.froms ++ r.tos := by
        rcases List.mem_append.mp hx2 with h | h
        · exact List.mem_append_left _ ((into' hrs g hgs k2 hk2).2.1 x h)
        · exact List.mem_append_right _ ((into' hrs g hgs k2 hk2).2.2 x h)
      exact hP2 e x e' (ih x hxr ka0 ha0 ha hx1) ⟨k2, h2, hx2, he2⟩

end Verif.Pipeline
