import Verif.Pipeline.Lemmas

namespace Verif.Pipeline
open Verif.Hierarchy (Str)
open Verif.Hierarchy.Spec (CompAt InstAt dotted Path WellFormed)
variable {V : Type}

/-! ### Names -/

theorem rsplit_none (s : Str) : rsplit s = none ↔ '.' ∉ s := by
  induction s with
  | nil => simp [rsplit]
  | cons c s ih =>
    simp only [rsplit]
    cases h : rsplit s with
    | some p =>
      have : '.' ∈ s := by
        by_cases hd : '.' ∈ s
        · exact hd
        · rw [ih.mpr hd] at h; cases h
      simp [this]
    | none =>
      have := ih.mp h
      by_cases hc : c = '.'
      · subst hc; simp
      · have : ¬ '.' = c := fun e => hc e.symm
        simp_all

theorem rsplit_some (s a b : Str) : rsplit s = some (a, b) ↔ s = Spec.key a b ∧ '.' ∉ b := by
  induction s generalizing a with
  | nil => simp [rsplit, Spec.key]
  | cons c s ih =>
    simp only [rsplit]
    cases h : rsplit s with
    | some p =>
      obtain ⟨a', b'⟩ := p
      have := (ih a' ).mp
      constructor
      · intro he
        cases he
        obtain ⟨h1, h2⟩ := (ih a').mp h
        exact ⟨by rw [h1]; rfl, h2⟩
      · rintro ⟨h1, h2⟩
        have hd : '.' ∈ s := by
          by_cases hd : '.' ∈ s
          · exact hd
          · rw [(rsplit_none s).mpr hd] at h; cases h
        cases a with
        | nil =>
          simp only [Spec.key, List.nil_append, List.cons.injEq] at h1
          rw [h1.2] at hd
          exact absurd hd h2
        | cons x a =>
          simp only [Spec.key, List.cons_append, List.cons.injEq] at h1
          have h3 := (ih a).mpr ⟨h1.2, h2⟩
          rw [h] at h3
          cases h3
          rw [h1.1]
    | none =>
      have hd := (rsplit_none s).mp h
      by_cases hc : c = '.'
      · subst hc
        simp only [if_true, Option.some.injEq, Prod.mk.injEq]
        constructor
        · rintro ⟨rfl, rfl⟩; exact ⟨rfl, hd⟩
        · rintro ⟨h1, h2⟩
          cases a with
          | nil => simp only [Spec.key, List.nil_append, List.cons.injEq] at h1; exact ⟨rfl, h1.2⟩
          | cons x a =>
            simp only [Spec.key, List.cons_append, List.cons.injEq] at h1
            rw [h1.2] at hd
            exact absurd (by simp) hd
      · rw [if_neg hc]
        constructor
        · intro h; cases h
        · rintro ⟨h1, h2⟩
          cases a with
          | nil => simp only [Spec.key, List.nil_append, List.cons.injEq] at h1; exact absurd h1.1 hc
          | cons x a =>
            simp only [Spec.key, List.cons_append, List.cons.injEq] at h1
            rw [h1.2] at hd
            exact absurd (by simp) hd

abbrev skey (i a : Str) : AttrRef.Key := (String.ofList i, String.ofList a)

theorem skey_inj {i a i' a' : Str} (h : skey i a = skey i' a') : i = i' ∧ a = a' :=
  ⟨ofList_inj (Prod.mk.inj h).1, ofList_inj (Prod.mk.inj h).2⟩

/-! ### Reading the settings -/

theorem toRefs_mem : ∀ {ss : List (Hierarchy.Setting V)} {refs : List (AttrRef.Setting Str V)},
    toRefs ss = some refs → (∀ s ∈ ss, ∃ x ∈ refs, toRef s = some x) ∧ ∀ x ∈ refs, ∃ s ∈ ss, toRef s = some x := by
  intro ss
  induction ss with
  | nil => intro refs h; cases h; simp
  | cons s ss ih =>
    intro refs h
    simp only [toRefs, Option.bind_eq_some_iff, Option.map_eq_some_iff] at h
    obtain ⟨x, hx, xs, hxs, rfl⟩ := h
    obtain ⟨h1, h2⟩ := ih hxs
    constructor
    · intro t ht
      rcases List.mem_cons.mp ht with rfl | ht
      · exact ⟨x, by simp, hx⟩
      · obtain ⟨y, hy, he⟩ := h1 t ht; exact ⟨y, by simp [hy], he⟩
    · intro y hy
      rcases List.mem_cons.mp hy with rfl | hy
      · exact ⟨s, by simp, hx⟩
      · obtain ⟨t, ht, he⟩ := h2 y hy; exact ⟨t, by simp [ht], he⟩

theorem toRef_lit {s : Hierarchy.Setting V} {k : AttrRef.Key} {v : V} (h : toRef s = some ⟨k, .lit v⟩) :
    k = skey s.inst s.attr ∧ s.value = .lit v := by
  unfold toRef at h
  cases hv : s.value with
  | lit w => rw [hv] at h; simp only [Option.some.injEq] at h; cases h; exact ⟨rfl, rfl⟩
  | ref r lk =>
    rw [hv] at h
    simp only [Option.map_eq_some_iff] at h
    obtain ⟨p, _, he⟩ := h
    cases he

theorem toRef_ref {s : Hierarchy.Setting V} {k r : AttrRef.Key} {lk : List Str}
    (h : toRef s = some ⟨k, .ref r lk⟩) :
    k = skey s.inst s.attr ∧ ∃ i a, r = skey i a ∧ '.' ∉ a ∧ s.value = .ref (Spec.key i a) lk := by
  unfold toRef at h
  cases hv : s.value with
  | lit w => rw [hv] at h; simp only [Option.some.injEq] at h; cases h
  | ref r' lk' =>
    rw [hv] at h
    simp only [Option.map_eq_some_iff] at h
    obtain ⟨⟨i, a⟩, hp, he⟩ := h
    cases he
    obtain ⟨h1, h2⟩ := (rsplit_some _ _ _).mp hp
    exact ⟨rfl, i, a, rfl, h2, by rw [h1]⟩

theorem toRef_key {s : Hierarchy.Setting V} {x : AttrRef.Setting Str V} (h : toRef s = some x) :
    x.key = skey s.inst s.attr := by
  obtain ⟨k, v⟩ := x
  cases v with
  | lit v => exact (toRef_lit h).1
  | ref r lk => exact (toRef_ref h).1

theorem toRefs_keys : ∀ {ss : List (Hierarchy.Setting V)} {refs : List (AttrRef.Setting Str V)},
    toRefs ss = some refs → refs.map (·.key) = ss.map fun s => skey s.inst s.attr := by
  intro ss
  induction ss with
  | nil => intro refs h; cases h; rfl
  | cons s ss ih =>
    intro refs h
    simp only [toRefs, Option.bind_eq_some_iff, Option.map_eq_some_iff] at h
    obtain ⟨x, hx, xs, hxs, rfl⟩ := h
    simp only [List.map_cons, ih hxs, toRef_key hx]

/-- The settings that stage 8 reads are those that are written. -/
structure RefsOk (root : Comp V) (refs : List (AttrRef.Setting Str V)) : Prop where
  lit : ∀ i a v, (⟨skey i a, .lit v⟩ : AttrRef.Setting Str V) ∈ refs ↔ Spec.Written root i a (.lit v)
  ref : ∀ i a i' a' lk, '.' ∉ a' → ((⟨skey i a, .ref (skey i' a') lk⟩ : AttrRef.Setting Str V) ∈ refs ↔
    Spec.Written root i a (.ref (Spec.key i' a') lk))
  key : ∀ x ∈ refs, ∃ i a, x.key = skey i a
  dot : ∀ k r lk, (⟨k, .ref r lk⟩ : AttrRef.Setting Str V) ∈ refs → ∃ i a, r = skey i a ∧ '.' ∉ a
  all : ∀ i a r lk, Spec.Written root i a (.ref r lk) → ∃ i' a', r = Spec.key i' a' ∧ '.' ∉ a'

theorem refs_ok {root : Comp V} {f : Hierarchy.Flat Iface V} (hf : FlatOk root f)
    {refs : List (AttrRef.Setting Str V)} (h : toRefs f.settings = some refs) : RefsOk root refs := by
  obtain ⟨h1, h2⟩ := toRefs_mem h
  refine ⟨?_, ?_, ?_, ?_, ?_⟩
  · intro i a v
    rw [← hf.settings]
    constructor
    · intro hm
      obtain ⟨s, hs, he⟩ := h2 _ hm
      obtain ⟨e1, e2⟩ := toRef_lit he
      obtain ⟨rfl, rfl⟩ := skey_inj e1
      rw [← e2]; exact hs
    · intro hm
      obtain ⟨x, hx, he⟩ := h1 _ hm
      simp only [toRef, Option.some.injEq] at he
      rw [← he] at hx; exact hx
  · intro i a i' a' lk hd
    rw [← hf.settings]
    constructor
    · intro hm
      obtain ⟨s, hs, he⟩ := h2 _ hm
      obtain ⟨e1, j, b, e2, _, e3⟩ := toRef_ref he
      obtain ⟨rfl, rfl⟩ := skey_inj e1
      obtain ⟨rfl, rfl⟩ := skey_inj e2
      rw [← e3]; exact hs
    · intro hm
      obtain ⟨x, hx, he⟩ := h1 _ hm
      simp only [toRef, (rsplit_some _ _ _).mpr ⟨rfl, hd⟩, Option.map_some, Option.some.injEq] at he
      rw [← he] at hx; exact hx
  · intro x hx
    obtain ⟨s, _, he⟩ := h2 x hx
    exact ⟨_, _, toRef_key he⟩
  · intro k r lk hm
    obtain ⟨s, _, he⟩ := h2 _ hm
    obtain ⟨_, i, a, e, hd, _⟩ := toRef_ref he
    exact ⟨i, a, e, hd⟩
  · intro i a r lk hw
    obtain ⟨x, hx, he⟩ := h1 _ ((hf.settings i a _).mpr hw)
    simp only [toRef, Option.map_eq_some_iff] at he
    obtain ⟨⟨i', a'⟩, hp, _⟩ := he
    exact ⟨i', a', (rsplit_some _ _ _).mp hp⟩

theorem RefsOk.set {root : Comp V} {refs : List (AttrRef.Setting Str V)} (h : RefsOk root refs) (i a : Str) :
    (∃ v, (⟨skey i a, v⟩ : AttrRef.Setting Str V) ∈ refs) ↔ ∃ u, Spec.Written root i a u := by
  constructor
  · rintro ⟨v, hv⟩
    cases v with
    | lit v => exact ⟨_, (h.lit i a v).mp hv⟩
    | ref r lk =>
      obtain ⟨i', a', rfl, hd⟩ := h.dot _ _ _ hv
      exact ⟨_, (h.ref i a i' a' lk hd).mp hv⟩
  · rintro ⟨u, hu⟩
    cases u with
    | lit v => exact ⟨_, (h.lit i a v).mpr hu⟩
    | ref r lk =>
      obtain ⟨i', a', rfl, hd⟩ := h.all _ _ _ _ hu
      exact ⟨_, (h.ref i a i' a' lk hd).mpr hu⟩

/-! ### Defaults -/

theorem find_unique {α β : Type} [DecidableEq β] (g : α → β) : ∀ (l : List α), (l.map g).Nodup → ∀ (x : α) (b : β),
    l.find? (fun y => decide (g y = b)) = some x ↔ x ∈ l ∧ g x = b := by
  intro l
  induction l with
  | nil => simp
  | cons y l ih =>
    intro hn x b
    simp only [List.map_cons, List.nodup_cons] at hn
    rw [List.find?_cons]
    by_cases hy : g y = b
    · simp only [hy, decide_true, Option.some.injEq, List.mem_cons]
      constructor
      · rintro rfl; exact ⟨.inl rfl, hy⟩
      · rintro ⟨rfl | hx, he⟩
        · rfl
        · exact absurd (by rw [hy, ← he]; exact List.mem_map_of_mem hx) hn.1
    · simp only [hy, decide_false, List.mem_cons]
      rw [ih hn.2]
      constructor
      · rintro ⟨h1, h2⟩; exact ⟨.inr h1, h2⟩
      · rintro ⟨rfl | hx, he⟩
        · exact absurd he hy
        · exact ⟨hx, he⟩

theorem nodup_ofList {l : List Str} (h : l.Nodup) : (l.map String.ofList).Nodup :=
  List.Nodup.map (fun _ _ e => ofList_inj e) h

theorem decl_eq (c : Comp V) : declOf c = Hierarchy.Spec.decl c := by cases c; rfl

theorem attrDefault_iff {root : Comp V} {f : Hierarchy.Flat Iface V} (hf : FlatOk root f)
    (ha : Spec.AttributesDistinct root) (i a : Str) (v : V) :
    attrDefault f.insts (skey i a) = some v ↔ Spec.HasDefault root i a v := by
  have hn : (f.insts.map fun x => String.ofList x.name).Nodup := by
    have := nodup_ofList hf.nodup
    rwa [List.map_map] at this
  have han : ∀ x ∈ f.insts, ((declOf x.type).attrs.map fun y => String.ofList y.1).Nodup := by
    intro x hx
    obtain ⟨p, n, sp, t, hat, rfl⟩ := (hf.insts x).mp hx
    have := nodup_ofList (ha p n sp t hat)
    rw [List.map_map] at this
    rw [decl_eq]; exact this
  unfold attrDefault
  rw [Option.bind_eq_some_iff]
  constructor
  · rintro ⟨x, hx, hy⟩
    rw [Option.bind_eq_some_iff] at hy
    obtain ⟨y, hy, hv⟩ := hy
    obtain ⟨hx1, hx2⟩ := (find_unique _ _ hn x _).mp hx
    obtain ⟨hy1, hy2⟩ := (find_unique _ _ (han x hx1) y _).mp hy
    obtain ⟨p, n, sp, t, hat, rfl⟩ := (hf.insts x).mp hx1
    refine ⟨p, n, sp, t, hat, ofList_inj hx2, ?_⟩
    obtain ⟨y1, y2⟩ := y
    simp only at hv hy2
    rw [← ofList_inj hy2, ← hv, ← decl_eq]
    exact hy1
  · rintro ⟨p, n, sp, t, hat, rfl, hm⟩
    have hx := (hf.insts _).mpr ⟨p, n, sp, t, hat, rfl⟩
    refine ⟨_, (find_unique _ _ hn _ _).mpr ⟨hx, rfl⟩, ?_⟩
    rw [Option.bind_eq_some_iff]
    exact ⟨(a, some v), (find_unique _ _ (han _ hx) _ _).mpr ⟨by rw [decl_eq]; exact hm, rfl⟩, rfl⟩

/-! ### Values -/

section
variable {root : Comp V} {f : Hierarchy.Flat Iface V} {refs : List (AttrRef.Setting Str V)}
  {look : V → List Str → Option V}

theorem direct_of (hr : RefsOk root refs) (hs : Spec.SubscriptsDirect root) : AttrRef.Spec.SubscriptsDirect refs := by
  intro n k r lk hn hne j v hj
  have hm := List.mem_of_getElem? hn
  obtain ⟨i', a', rfl, hd⟩ := hr.dot _ _ _ hm
  obtain ⟨i, a, hk⟩ := hr.key _ hm
  simp only at hk; subst hk
  have hw := (hr.ref i a i' a' lk hd).mp hm
  have hmj := List.mem_of_getElem? hj
  cases v with
  | lit v => exact ⟨v, rfl⟩
  | ref r' lk' =>
    obtain ⟨i2, a2, rfl, hd2⟩ := hr.dot _ _ _ hmj
    have hw2 := (hr.ref i' a' i2 a2 lk' hd2).mp hmj
    obtain ⟨v, hv⟩ := hs i a i' a' lk hw hd hne _ hw2
    cases hv

theorem notSet_iff (hr : RefsOk root refs) (i a : Str) :
    AttrRef.Spec.NotSet refs (skey i a) ↔ ∀ u, ¬ Spec.Written root i a u := by
  constructor
  · intro h u hu
    obtain ⟨v, hv⟩ := (hr.set i a).mpr ⟨u, hu⟩
    obtain ⟨n, hn⟩ := List.getElem?_of_mem hv
    exact h n v hn
  · intro h n v hn
    obtain ⟨u, hu⟩ := (hr.set i a).mp ⟨v, List.mem_of_getElem? hn⟩
    exact h u hu

theorem default_none (hf : FlatOk root f) (ha : Spec.AttributesDistinct root) (i a : Str) :
    attrDefault f.insts (skey i a) = none ↔ ∀ u, ¬ Spec.HasDefault root i a u := by
  constructor
  · intro h u hu
    rw [(attrDefault_iff hf ha i a u).mpr hu] at h; cases h
  · intro h
    cases hd : attrDefault f.insts (skey i a) with
    | none => rfl
    | some v => exact absurd ((attrDefault_iff hf ha i a v).mp hd) (h v)

theorem value_of_means (hf : FlatOk root f) (ha : Spec.AttributesDistinct root) (hr : RefsOk root refs)
    (hs : Spec.SubscriptsDirect root) {n : Nat} {v : V}
    (hm : AttrRef.Spec.Means ⟨attrDefault f.insts, look⟩ refs n v) :
    ∀ i a w, refs[n]? = some ⟨skey i a, w⟩ → Spec.Value look root i a v := by
  induction hm with
  | lit n k v h =>
    intro i a w hn
    rw [h] at hn; cases hn
    exact .lit i a v ((hr.lit i a v).mp (List.mem_of_getElem? h))
  | follow n k r j v h ho _ ih =>
    intro i a w hn
    rw [h] at hn; cases hn
    obtain ⟨i', a', rfl, hd⟩ := hr.dot _ _ _ (List.mem_of_getElem? h)
    obtain ⟨u, hu⟩ := ho.1
    exact .ref i a i' a' v ((hr.ref i a i' a' [] hd).mp (List.mem_of_getElem? h)) hd (ih i' a' u hu)
  | subscript n k r lk j v w' h hlk ho hmj hl _ =>
    intro i a w hn
    rw [h] at hn; cases hn
    obtain ⟨i', a', rfl, hd⟩ := hr.dot _ _ _ (List.mem_of_getElem? h)
    obtain ⟨u, hu⟩ := ho.1
    obtain ⟨x, rfl⟩ := direct_of hr hs n _ _ lk h hlk j u hu
    have hx : x = v := AttrRef.means_unique (.lit j _ x hu) hmj
    subst hx
    exact .subscript i a i' a' lk x w' ((hr.ref i a i' a' lk hd).mp (List.mem_of_getElem? h)) hd hlk
      ((hr.lit i' a' x).mp (List.mem_of_getElem? hu)) hl
  | default n k r lk d h hns hd' =>
    intro i a w hn
    rw [h] at hn; cases hn
    obtain ⟨i', a', rfl, hd⟩ := hr.dot _ _ _ (List.mem_of_getElem? h)
    exact .refDefault i a i' a' lk d ((hr.ref i a i' a' lk hd).mp (List.mem_of_getElem? h)) hd
      ((notSet_iff hr i' a').mp hns) ((attrDefault_iff hf ha i' a' d).mp hd')
  | ownDefault n k r lk d h hns hd' hd2 =>
    intro i a w hn
    rw [h] at hn; cases hn
    obtain ⟨i', a', rfl, hd⟩ := hr.dot _ _ _ (List.mem_of_getElem? h)
    exact .ownDefault i a i' a' lk d ((hr.ref i a i' a' lk hd).mp (List.mem_of_getElem? h)) hd
      ((notSet_iff hr i' a').mp hns) ((default_none hf ha i' a').mp hd') ((attrDefault_iff hf ha i a d).mp hd2)

theorem means_of_value (hf : FlatOk root f) (ha : Spec.AttributesDistinct root) (hr : RefsOk root refs)
    (honly : (refs.map (·.key)).Nodup) {i a : Str} {v : V} (hv : Spec.Value look root i a v) :
    (∃ n w, refs[n]? = some ⟨skey i a, w⟩ ∧ AttrRef.Spec.Means ⟨attrDefault f.insts, look⟩ refs n v) ∨
    ((∀ u, ¬ Spec.Written root i a u) ∧ Spec.HasDefault root i a v) := by
  have only : ∀ {r : AttrRef.Key} {n : Nat} {w : AttrRef.Val Str V}, refs[n]? = some ⟨r, w⟩ →
      AttrRef.Spec.OnlySetting refs r n := by
    intro r n w hn
    refine ⟨⟨w, hn⟩, fun m w' hm => ?_⟩
    have h1 : (refs.map (·.key))[n]? = some r := by simp [hn]
    have h2 : (refs.map (·.key))[m]? = some r := by simp [hm]
    exact (List.Nodup.getElem_inj_iff honly (hi := (List.getElem?_eq_some_iff.mp h2).1)
      (hj := (List.getElem?_eq_some_iff.mp h1).1)).mp (by
        rw [(List.getElem?_eq_some_iff.mp h2).2, (List.getElem?_eq_some_iff.mp h1).2])
  induction hv with
  | lit i a v hw =>
    obtain ⟨n, hn⟩ := List.getElem?_of_mem ((hr.lit i a v).mpr hw)
    exact .inl ⟨n, _, hn, .lit n _ v hn⟩
  | ref i a i' a' v hw hd _ ih =>
    obtain ⟨n, hn⟩ := List.getElem?_of_mem ((hr.ref i a i' a' [] hd).mpr hw)
    refine .inl ⟨n, _, hn, ?_⟩
    rcases ih with ⟨j, w, hj, hm⟩ | ⟨hnw, hdef⟩
    · exact .follow n _ _ j v hn (only hj) hm
    · exact .default n _ _ [] v hn ((notSet_iff hr i' a').mpr hnw) ((attrDefault_iff hf ha i' a' v).mpr hdef)
  | subscript i a i' a' lk v w hw hd hlk hl hlook =>
    obtain ⟨n, hn⟩ := List.getElem?_of_mem ((hr.ref i a i' a' lk hd).mpr hw)
    obtain ⟨j, hj⟩ := List.getElem?_of_mem ((hr.lit i' a' v).mpr hl)
    exact .inl ⟨n, _, hn, .subscript n _ _ lk j v w hn hlk (only hj) (.lit j _ v hj) hlook⟩
  | refDefault i a i' a' lk v hw hd hnw hdef =>
    obtain ⟨n, hn⟩ := List.getElem?_of_mem ((hr.ref i a i' a' lk hd).mpr hw)
    exact .inl ⟨n, _, hn, .default n _ _ lk v hn ((notSet_iff hr i' a').mpr hnw)
      ((attrDefault_iff hf ha i' a' v).mpr hdef)⟩
  | ownDefault i a i' a' lk v hw hd hnw hnd hdef =>
    obtain ⟨n, hn⟩ := List.getElem?_of_mem ((hr.ref i a i' a' lk hd).mpr hw)
    exact .inl ⟨n, _, hn, .ownDefault n _ _ lk v hn ((notSet_iff hr i' a').mpr hnw)
      ((default_none hf ha i' a').mpr hnd) ((attrDefault_iff hf ha i a v).mpr hdef)⟩
  | default i a v hnw hdef => exact .inr ⟨hnw, hdef⟩

end

theorem literals_eq : ∀ {l : List (AttrRef.Setting Str V)} {ss : List (Freeze.Setting V)}, literals l = some ss →
    (ss.map fun s => (s.inst, s.attr)) = l.map (·.key) ∧
    ∀ i a v, ((⟨i, a, v⟩ : Freeze.Setting V) ∈ ss ↔ (⟨(i, a), .lit v⟩ : AttrRef.Setting Str V) ∈ l) := by
  intro l
  induction l with
  | nil => intro ss h; cases h; simp
  | cons x l ih =>
    intro ss h
    obtain ⟨k, v⟩ := x
    cases v with
    | ref r lk => simp [literals] at h
    | lit v =>
      simp only [literals, Option.map_eq_some_iff] at h
      obtain ⟨xs, hxs, rfl⟩ := h
      obtain ⟨h1, h2⟩ := ih hxs
      refine ⟨by simp [h1], fun i a w => ?_⟩
      simp only [List.mem_cons, h2]
      constructor
      · rintro (he | hm)
        · cases he; exact .inl rfl
        · exact .inr hm
      · rintro (he | hm)
        · cases he; exact .inl rfl
        · exact .inr hm

/-- No attribute is set twice in an accepted specification. -/
theorem keys_nodup {connector : String → Freeze.Connector} {look : V → List Str → Option V}
    {root : Comp V} {f : Hierarchy.Flat Iface V} {sys : System V} (hf : FlatOk root f)
    (hp : Parts connector look f sys) (hs : Spec.SubscriptsDirect root) :
    (f.settings.map fun s => skey s.inst s.attr).Nodup := by
  obtain ⟨refs, resolved, settings, h1, h2, h3, h4⟩ := hp.config
  have hr := refs_ok hf h1
  have hsub := direct_of hr hs
  obtain ⟨hlen, hmem⟩ : resolved.length = refs.length ∧ ∀ x, x ∈ resolved ↔ ∃ n k w v, refs[n]? = some ⟨k, w⟩ ∧
      AttrRef.Spec.Means ⟨attrDefault f.insts, look⟩ refs n v ∧ x = ⟨k, .lit v⟩ := by
    rcases AttrRef.resolve_outcome ⟨attrDefault f.insts, look⟩ refs hsub (refs.length + 1) (Nat.le_refl _) with
      ⟨out, e1, _, e2, e3⟩ | ⟨e, e1, _⟩
    · rw [h2] at e1; cases e1; exact ⟨e2, e3⟩
    · rw [h2] at e1; cases e1
  obtain ⟨hk, _⟩ := literals_eq h3
  have hpw := (Freeze.config_accepted_iff _ _).mp ⟨_, h4⟩
  have hnd : (resolved.map (·.key)).Nodup := by
    rw [← hk, List.nodup_iff_pairwise_ne, List.pairwise_map]
    refine hpw.imp ?_
    intro x y hxy he
    exact hxy ⟨(Prod.mk.inj he).1, (Prod.mk.inj he).2⟩
  have hsubset : resolved.map (·.key) ⊆ refs.map (·.key) := by
    intro k hkm
    rw [List.mem_map] at hkm
    obtain ⟨x, hx, rfl⟩ := hkm
    obtain ⟨n, k, w, v, hn, _, rfl⟩ := (hmem x).mp hx
    exact List.mem_map.mpr ⟨_, List.mem_of_getElem? hn, rfl⟩
  have hperm := (List.subperm_of_subset hnd hsubset).perm_of_length_le (by simp [hlen])
  have : (refs.map (·.key)).Nodup := hperm.nodup_iff.mp hnd
  rwa [toRefs_keys h1] at this

/-- What the configuration of an accepted specification says. -/
theorem config_value {connector : String → Freeze.Connector} {look : V → List Str → Option V}
    {root : Comp V} {f : Hierarchy.Flat Iface V} {sys : System V} (hf : FlatOk root f)
    (hp : Parts connector look f sys) (ha : Spec.AttributesDistinct root) (hs : Spec.SubscriptsDirect root)
    (i a : Str) (v : V) :
    Freeze.tget sys.config (String.ofList i) (String.ofList a) = some v ↔ Spec.Value look root i a v := by
  obtain ⟨refs, resolved, settings, h1, h2, h3, h4⟩ := hp.config
  have hr := refs_ok hf h1
  have hsub := direct_of hr hs
  obtain ⟨hlen, hmem⟩ : resolved.length = refs.length ∧ ∀ x, x ∈ resolved ↔ ∃ n k w v, refs[n]? = some ⟨k, w⟩ ∧
      AttrRef.Spec.Means ⟨attrDefault f.insts, look⟩ refs n v ∧ x = ⟨k, .lit v⟩ := by
    rcases AttrRef.resolve_outcome ⟨attrDefault f.insts, look⟩ refs hsub (refs.length + 1) (Nat.le_refl _) with
      ⟨out, e1, _, e2, e3⟩ | ⟨e, e1, _⟩
    · rw [h2] at e1; cases e1; exact ⟨e2, e3⟩
    · rw [h2] at e1; cases e1
  obtain ⟨hk, hl⟩ := literals_eq h3
  have hpw := (Freeze.config_accepted_iff _ _).mp ⟨_, h4⟩
  have hnd : (resolved.map (·.key)).Nodup := by
    rw [← hk, List.nodup_iff_pairwise_ne, List.pairwise_map]
    refine hpw.imp ?_
    intro x y hxy he
    exact hxy ⟨(Prod.mk.inj he).1, (Prod.mk.inj he).2⟩
  have honly : (refs.map (·.key)).Nodup := by
    have hsubset : resolved.map (·.key) ⊆ refs.map (·.key) := by
      intro k hkm
      rw [List.mem_map] at hkm
      obtain ⟨x, hx, rfl⟩ := hkm
      obtain ⟨n, k, w, v, hn, _, rfl⟩ := (hmem x).mp hx
      exact List.mem_map.mpr ⟨_, List.mem_of_getElem? hn, rfl⟩
    have hsp := List.subperm_of_subset hnd hsubset
    have := hsp.perm_of_length_le (by simp [hlen])
    exact this.nodup_iff.mp hnd
  have hi : ((f.insts.map fun i => (⟨String.ofList i.name,
      (declOf i.type).attrs.map fun a => ⟨String.ofList a.1, a.2⟩⟩ : Freeze.CInst V)).map (·.name)).Nodup := by
    rw [List.map_map]
    have := nodup_ofList hf.nodup
    rw [List.map_map] at this
    exact this
  have hat : ∀ x ∈ (f.insts.map fun i => (⟨String.ofList i.name,
      (declOf i.type).attrs.map fun a => ⟨String.ofList a.1, a.2⟩⟩ : Freeze.CInst V)), (x.attrs.map (·.name)).Nodup := by
    intro x hx
    rw [List.mem_map] at hx
    obtain ⟨y, hy, rfl⟩ := hx
    obtain ⟨p, n, sp, t, hat, rfl⟩ := (hf.insts y).mp hy
    have := nodup_ofList (ha p n sp t hat)
    rw [List.map_map] at this
    simp only [List.map_map, decl_eq]
    exact this
  rw [Freeze.config_lookup _ _ _ h4 hi hat]
  have hset : ∀ u, (∃ s ∈ settings, s.inst = String.ofList i ∧ s.attr = String.ofList a ∧ s.value = u) ↔
      ∃ n w, refs[n]? = some ⟨skey i a, w⟩ ∧ AttrRef.Spec.Means ⟨attrDefault f.insts, look⟩ refs n u := by
    intro u
    constructor
    · rintro ⟨⟨i', a', v'⟩, hm, rfl, rfl, rfl⟩
      obtain ⟨n, k, w, v, hn, hme, he⟩ := (hmem _).mp ((hl _ _ _).mp hm)
      cases he
      exact ⟨n, w, hn, hme⟩
    · rintro ⟨n, w, hn, hme⟩
      exact ⟨⟨String.ofList i, String.ofList a, u⟩, (hl _ _ _).mpr ((hmem _).mpr ⟨n, _, w, u, hn, hme, rfl⟩),
        rfl, rfl, rfl⟩
  have hnone : (∀ s ∈ settings, ¬ (s.inst = String.ofList i ∧ s.attr = String.ofList a)) ↔
      ∀ u, ¬ Spec.Written root i a u := by
    rw [← notSet_iff hr i a]
    constructor
    · intro h n w hn
      have hmk : skey i a ∈ resolved.map (·.key) := by
        have hperm : (resolved.map (·.key)).Perm (refs.map (·.key)) := by
          refine (List.subperm_of_subset hnd ?_).perm_of_length_le (by simp [hlen])
          intro k hkm
          rw [List.mem_map] at hkm
          obtain ⟨x, hx, rfl⟩ := hkm
          obtain ⟨n, k, w, v, hn, _, rfl⟩ := (hmem x).mp hx
          exact List.mem_map.mpr ⟨_, List.mem_of_getElem? hn, rfl⟩
        exact hperm.mem_iff.mpr (List.mem_map.mpr ⟨_, List.mem_of_getElem? hn, rfl⟩)
      rw [← hk, List.mem_map] at hmk
      obtain ⟨s, hs', he⟩ := hmk
      exact h s hs' ⟨(Prod.mk.inj he).1, (Prod.mk.inj he).2⟩
    · rintro h ⟨i', a', v'⟩ hm ⟨rfl, rfl⟩
      obtain ⟨n, k, w, v, hn, _, he⟩ := (hmem _).mp ((hl _ _ _).mp hm)
      cases he
      exact h n w hn
  have hdef : (∃ x ∈ (f.insts.map fun i => (⟨String.ofList i.name,
      (declOf i.type).attrs.map fun a => ⟨String.ofList a.1, a.2⟩⟩ : Freeze.CInst V)), x.name = String.ofList i ∧
      ∃ d ∈ x.attrs, d.name = String.ofList a ∧ d.default = some v) ↔ Spec.HasDefault root i a v := by
    constructor
    · rintro ⟨x, hx, hxn, d, hd, hdn, hdv⟩
      rw [List.mem_map] at hx
      obtain ⟨y, hy, rfl⟩ := hx
      rw [List.mem_map] at hd
      obtain ⟨z, hz, rfl⟩ := hd
      obtain ⟨p, n, sp, t, hat, rfl⟩ := (hf.insts y).mp hy
      obtain ⟨z1, z2⟩ := z
      simp only at hdn hdv hxn
      rw [ofList_inj hdn, hdv] at hz
      exact ⟨p, n, sp, t, hat, ofList_inj hxn, by rw [← decl_eq]; exact hz⟩
    · rintro ⟨p, n, sp, t, hat, rfl, hm⟩
      have hx := (hf.insts _).mpr ⟨p, n, sp, t, hat, rfl⟩
      refine ⟨_, List.mem_map.mpr ⟨_, hx, rfl⟩, rfl, _, List.mem_map.mpr ⟨(a, some v), ?_, rfl⟩, rfl, rfl⟩
      rw [decl_eq]; exact hm
  unfold Freeze.Spec.ConfigValue
  rw [hset, hnone, hdef]
  constructor
  · rintro (⟨n, w, hn, hm⟩ | ⟨h1, h2⟩)
    · exact value_of_means hf ha hr hs hm i a w hn
    · exact .default i a v h1 h2
  · intro hv
    exact means_of_value hf ha hr honly hv

end Verif.Pipeline
