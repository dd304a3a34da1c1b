import Verif.Hierarchy.Spec

namespace Verif.Hierarchy
open Spec
variable {F V : Type}

/-! ### Enumerations along the hierarchy -/

mutual
def pInsts : Comp F V → List (Path × Str × Comp F V)
  | .mk is _ _ _ _ => pImm is ++ pInstsL is
def pInstsL : Insts F V → List (Path × Str × Comp F V)
  | .nil => []
  | .cons n _ t rest => (pInsts t).map (fun x => (n :: x.1, x.2)) ++ pInstsL rest
def pImm : Insts F V → List (Path × Str × Comp F V)
  | .nil => []
  | .cons n sp t rest => ([n], sp, t) :: pImm rest
end

mutual
def pConns : Comp F V → List (Path × Conn F)
  | .mk is cs _ _ _ => cs.map (fun c => ([], c)) ++ pConnsL is
def pConnsL : Insts F V → List (Path × Conn F)
  | .nil => []
  | .cons n _ t rest => (pConns t).map (fun x => (n :: x.1, x.2)) ++ pConnsL rest
end

mutual
def pAliases : Comp F V → List ((Path × F) × (Path × F))
  | .mk is _ es _ _ => pAliasesL is ++ es.map (fun e => (([], e.dest), ([e.srcInst], e.srcIface)))
def pAliasesL : Insts F V → List ((Path × F) × (Path × F))
  | .nil => []
  | .cons n _ t rest =>
    (pAliases t).map (fun x => ((n :: x.1.1, x.1.2), (n :: x.2.1, x.2.2))) ++ pAliasesL rest
end

mutual
def pSettings : Comp F V → List (Path × Setting V)
  | .mk is _ _ ss _ => ss.map (fun s => ([], s)) ++ pSettingsL is
def pSettingsL : Insts F V → List (Path × Setting V)
  | .nil => []
  | .cons n _ t rest => (pSettings t).map (fun x => (n :: x.1, x.2)) ++ pSettingsL rest
end

/-! ### Naming relative to a parent -/

theorem dotted_cons (n : Str) (p : Path) (h : p ≠ []) : dotted (n :: p) = n ++ '.' :: dotted p := by
  cases p with
  | nil => contradiction
  | cons a p => rfl

theorem derive_dotted (parent : Option Str) (p : Path) (h : p ≠ []) :
    deriveName parent (dotted p) = dotted (parent.toList ++ p) := by
  cases parent with
  | none => rfl
  | some q => simp [deriveName, dotted_cons q p h]

theorem derive_dotted_snoc (parent : Option Str) (p : Path) (x : Str) :
    deriveName parent (dotted (p ++ [x])) = dotted (parent.toList ++ (p ++ [x])) :=
  derive_dotted parent _ (by simp)

def nameInst (pre : Path) (x : Path × Str × Comp F V) : FInst F V :=
  ⟨dotted (pre ++ x.1), dotted (pre ++ x.1.dropLast ++ [x.2.1]), x.2.2⟩

def nameEnd (p : Path) (e : End F) : End F := ⟨some (dotted (p ++ e.inst.toList)), e.iface⟩

def nameConn (pre : Path) (x : Path × Conn F) : Conn F :=
  ⟨dotted (pre ++ x.1 ++ [x.2.name]), x.2.type, x.2.froms.map (nameEnd (pre ++ x.1)),
    x.2.tos.map (nameEnd (pre ++ x.1))⟩

def namePtr (pre : Path) (x : Path × F) : Ptr F := (dotted (pre ++ x.1), x.2)

def nameAlias (pre : Path) (x : (Path × F) × (Path × F)) : Ptr F × Ptr F :=
  (namePtr pre x.1, namePtr pre x.2)

def nameSetting (pre : Path) (x : Path × Setting V) : Setting V := qualify (pre ++ x.1) x.2

/-! ### Lookup in logs -/

theorem lookupLast_append {α β : Type} [DecidableEq α] (l m : List (α × β)) (x : α) :
    lookupLast (l ++ m) x = (match lookupLast m x with | some v => some v | none => lookupLast l x) := by
  induction l with
  | nil => cases h : lookupLast m x <;> simp [lookupLast, h]
  | cons p l ih =>
    simp only [List.cons_append, lookupLast, ih]
    cases lookupLast m x <;> rfl

theorem lookupLast_isSome {α β : Type} [DecidableEq α] (l : List (α × β)) (x : α) :
    (∃ v, lookupLast l x = some v) ↔ x ∈ l.map Prod.fst := by
  induction l with
  | nil => simp [lookupLast]
  | cons p l ih =>
    obtain ⟨k, v⟩ := p
    simp only [lookupLast, List.map_cons, List.mem_cons]
    cases h : lookupLast l x with
    | some w =>
      have : x ∈ l.map Prod.fst := ih.mp ⟨w, h⟩
      simp [this]
    | none =>
      have : x ∉ l.map Prod.fst := fun hm => by obtain ⟨v, hv⟩ := ih.mpr hm; rw [h] at hv; cases hv
      by_cases hk : k = x
      · simp [hk]
      · have : ¬ x = k := fun e => hk e.symm
        simp_all

theorem lookupLast_mem {α β : Type} [DecidableEq α] {l : List (α × β)} {x : α} {v : β}
    (h : lookupLast l x = some v) : (x, v) ∈ l := by
  induction l with
  | nil => simp [lookupLast] at h
  | cons p l ih =>
    obtain ⟨k, w⟩ := p
    simp only [lookupLast] at h
    cases h2 : lookupLast l x with
    | some u => rw [h2] at h; simp at h; subst h; exact List.mem_cons_of_mem _ (ih h2)
    | none =>
      rw [h2] at h
      simp only at h
      split at h
      · rename_i hk; cases h; subst hk; exact List.mem_cons_self
      · cases h

/-- The table `derived` maps names to their derived names and knows all of `keys`. -/
structure DOk (parent : Option Str) (d : List (Str × Str)) (keys : List Str) : Prop where
  val : ∀ x ∈ d, x.2 = deriveName parent x.1
  key : ∀ k ∈ keys, k ∈ d.map Prod.fst

theorem DOk.lookup {parent : Option Str} {d : List (Str × Str)} {keys : List Str} (h : DOk parent d keys)
    {k : Str} (hk : k ∈ keys) : lookupLast d k = some (deriveName parent k) := by
  obtain ⟨v, hv⟩ := (lookupLast_isSome d k).mpr (h.key k hk)
  rw [hv]
  have := h.val _ (lookupLast_mem hv)
  simp at this; rw [this]

/-! ### Paths that exist -/

theorem mem_pImm {is : Insts F V} {x : Path × Str × Comp F V} :
    x ∈ pImm is ↔ ∃ i ∈ instList is, x = ([i.1], i.2) := by
  cases is with
  | nil => simp [pImm, instList]
  | cons n sp t rest =>
    have ih := mem_pImm (is := rest) (x := x)
    simp [pImm, instList, ih]

mutual
theorem mem_pInsts (c : Comp F V) (x : Path × Str × Comp F V) :
    x ∈ pInsts c ↔ ∃ p n, x.1 = p ++ [n] ∧ InstAt c p n x.2.1 x.2.2 := by
  cases c with
  | mk is cs es ss dc =>
    have ih := mem_pInstsL is x
    simp only [pInsts, List.mem_append, mem_pImm, ih]
    constructor
    · rintro (⟨⟨n, sp, t⟩, hi, rfl⟩ | ⟨n, sp, t, p, m, hi, hx, d, hd, hm⟩)
      · exact ⟨[], n, rfl, _, .here _, hi⟩
      · exact ⟨n :: p, m, by simp [hx], d, .down _ n sp t p d hi hd, hm⟩
    · rintro ⟨p, n, hx, d, hd, hm⟩
      cases hd with
      | here =>
        left
        refine ⟨_, hm, ?_⟩
        obtain ⟨a, b, e⟩ := x
        simp at hx ⊢; exact hx
      | down _ m sp t p _ hi hd => exact .inr ⟨m, sp, t, p, n, hi, by simpa using hx, d, hd, hm⟩
theorem mem_pInstsL (is : Insts F V) (x : Path × Str × Comp F V) :
    x ∈ pInstsL is ↔ ∃ n sp t p m, (n, sp, t) ∈ instList is ∧ x.1 = n :: (p ++ [m]) ∧
      InstAt t p m x.2.1 x.2.2 := by
  cases is with
  | nil => simp [pInstsL, instList]
  | cons n sp t rest =>
    have ih1 := fun y => mem_pInsts t y
    have ih2 := mem_pInstsL rest x
    simp only [pInstsL, List.mem_append, List.mem_map, ih1, ih2, instList, List.mem_cons]
    constructor
    · rintro (⟨y, ⟨p, m, hy, hi⟩, rfl⟩ | ⟨n', sp', t', p, m, hi, hx, hh⟩)
      · exact ⟨n, sp, t, p, m, .inl rfl, by simp [hy], hi⟩
      · exact ⟨n', sp', t', p, m, .inr hi, hx, hh⟩
    · rintro ⟨n', sp', t', p, m, hi | hi, hx, hh⟩
      · cases hi
        refine .inl ⟨(p ++ [m], x.2), ⟨p, m, rfl, hh⟩, ?_⟩
        obtain ⟨a, b⟩ := x
        simp at hx ⊢; exact hx.symm
      · exact .inr ⟨n', sp', t', p, m, hi, hx, hh⟩
end

mutual
theorem mem_pConns (c : Comp F V) (x : Path × Conn F) :
    x ∈ pConns c ↔ ∃ d, CompAt c x.1 d ∧ x.2 ∈ conns d := by
  cases c with
  | mk is cs es ss dc =>
    have ih := mem_pConnsL is x
    obtain ⟨q, k⟩ := x
    simp only [pConns, List.mem_append, List.mem_map, ih]
    constructor
    · rintro (⟨k', hk, he⟩ | ⟨n, sp, t, p, hi, hx, d, hd, hm⟩)
      · cases he; exact ⟨_, .here _, hk⟩
      · subst hx; exact ⟨d, .down _ n sp t p d hi hd, hm⟩
    · rintro ⟨d, hd, hm⟩
      cases hd with
      | here => exact .inl ⟨k, hm, rfl⟩
      | down _ n sp t p _ hi hd => exact .inr ⟨n, sp, t, p, hi, rfl, d, hd, hm⟩
theorem mem_pConnsL (is : Insts F V) (x : Path × Conn F) :
    x ∈ pConnsL is ↔ ∃ n sp t p, (n, sp, t) ∈ instList is ∧ x.1 = n :: p ∧
      ∃ d, CompAt t p d ∧ x.2 ∈ conns d := by
  cases is with
  | nil => simp [pConnsL, instList]
  | cons n sp t rest =>
    have ih1 := fun y => mem_pConns t y
    have ih2 := mem_pConnsL rest x
    simp only [pConnsL, List.mem_append, List.mem_map, ih1, ih2, instList, List.mem_cons]
    constructor
    · rintro (⟨y, ⟨d, hd, hm⟩, rfl⟩ | ⟨n', sp', t', p, hi, hx, hh⟩)
      · exact ⟨n, sp, t, y.1, .inl rfl, rfl, d, hd, hm⟩
      · exact ⟨n', sp', t', p, .inr hi, hx, hh⟩
    · rintro ⟨n', sp', t', p, hi | hi, hx, hh⟩
      · cases hi
        refine .inl ⟨(p, x.2), hh, ?_⟩
        obtain ⟨a, b⟩ := x
        simp at hx ⊢; exact hx.symm
      · exact .inr ⟨n', sp', t', p, hi, hx, hh⟩
end

mutual
theorem mem_pSettings (c : Comp F V) (x : Path × Setting V) :
    x ∈ pSettings c ↔ ∃ d, CompAt c x.1 d ∧ x.2 ∈ settings d := by
  cases c with
  | mk is cs es ss dc =>
    have ih := mem_pSettingsL is x
    obtain ⟨q, k⟩ := x
    simp only [pSettings, List.mem_append, List.mem_map, ih]
    constructor
    · rintro (⟨k', hk, he⟩ | ⟨n, sp, t, p, hi, hx, d, hd, hm⟩)
      · cases he; exact ⟨_, .here _, hk⟩
      · subst hx; exact ⟨d, .down _ n sp t p d hi hd, hm⟩
    · rintro ⟨d, hd, hm⟩
      cases hd with
      | here => exact .inl ⟨k, hm, rfl⟩
      | down _ n sp t p _ hi hd => exact .inr ⟨n, sp, t, p, hi, rfl, d, hd, hm⟩
theorem mem_pSettingsL (is : Insts F V) (x : Path × Setting V) :
    x ∈ pSettingsL is ↔ ∃ n sp t p, (n, sp, t) ∈ instList is ∧ x.1 = n :: p ∧
      ∃ d, CompAt t p d ∧ x.2 ∈ settings d := by
  cases is with
  | nil => simp [pSettingsL, instList]
  | cons n sp t rest =>
    have ih1 := fun y => mem_pSettings t y
    have ih2 := mem_pSettingsL rest x
    simp only [pSettingsL, List.mem_append, List.mem_map, ih1, ih2, instList, List.mem_cons]
    constructor
    · rintro (⟨y, ⟨d, hd, hm⟩, rfl⟩ | ⟨n', sp', t', p, hi, hx, hh⟩)
      · exact ⟨n, sp, t, y.1, .inl rfl, rfl, d, hd, hm⟩
      · exact ⟨n', sp', t', p, .inr hi, hx, hh⟩
    · rintro ⟨n', sp', t', p, hi | hi, hx, hh⟩
      · cases hi
        refine .inl ⟨(p, x.2), hh, ?_⟩
        obtain ⟨a, b⟩ := x
        simp at hx ⊢; exact hx.symm
      · exact .inr ⟨n', sp', t', p, hi, hx, hh⟩
end

/-- The references of the component and everything below it are resolved. -/
structure Resolved (root : Comp F V) : Prop where
  ends : ∀ p c, CompAt root p c → ∀ k ∈ conns c, ∀ e ∈ k.froms ++ k.tos, ∀ i, e.inst = some i →
    i ∈ (insts c).map (·.1)
  sources : ∀ p c, CompAt root p c → ∀ x ∈ exports c, x.srcInst ∈ (insts c).map (·.1)

theorem Resolved.down {c : Comp F V} (h : Resolved c) {n sp : Str} {t : Comp F V}
    (hi : (n, sp, t) ∈ insts c) : Resolved t :=
  ⟨fun p d hd => h.ends (n :: p) d (.down c n sp t p d hi hd),
   fun p d hd => h.sources (n :: p) d (.down c n sp t p d hi hd)⟩

mutual
theorem mem_pAliases (c : Comp F V) (h : Resolved c) (x : (Path × F) × (Path × F)) (hx : x ∈ pAliases c) :
    (∃ d, CompAt c x.1.1 d ∧ ∃ i, x.2.1 = x.1.1 ++ [i] ∧ i ∈ (insts d).map (·.1)) := by
  cases c with
  | mk is cs es ss dc =>
    simp only [pAliases, List.mem_append, List.mem_map] at hx
    rcases hx with hx | ⟨e, he, rfl⟩
    · obtain ⟨n, sp, t, p, hi, hp, d, hd, i, h1, h2⟩ := mem_pAliasesL is
        (fun n sp t hi => h.down (c := .mk is cs es ss dc) hi) x hx
      refine ⟨d, ?_, i, ?_, h2⟩
      · rw [hp]; exact .down _ n sp t p d hi hd
      · rw [h1]
    · exact ⟨_, .here _, e.srcInst, rfl, h.sources [] _ (.here _) e he⟩
theorem mem_pAliasesL (is : Insts F V) (h : ∀ n sp t, (n, sp, t) ∈ instList is → Resolved t)
    (x : (Path × F) × (Path × F)) (hx : x ∈ pAliasesL is) :
    ∃ n sp t p, (n, sp, t) ∈ instList is ∧ x.1.1 = n :: p ∧
      ∃ d, CompAt t p d ∧ ∃ i, x.2.1 = x.1.1 ++ [i] ∧ i ∈ (insts d).map (·.1) := by
  cases is with
  | nil => simp [pAliasesL] at hx
  | cons n sp t rest =>
    simp only [pAliasesL, List.mem_append, List.mem_map] at hx
    rcases hx with ⟨y, hy, rfl⟩ | hx
    · obtain ⟨d, hd, i, h1, h2⟩ := mem_pAliases t (h n sp t (by simp [instList])) y hy
      exact ⟨n, sp, t, y.1.1, by simp [instList], rfl, d, hd, i, by simp [h1], h2⟩
    · obtain ⟨n', sp', t', p, hi, hp, hd⟩ := mem_pAliasesL rest
        (fun n sp t hi => h n sp t (by simp [instList, hi])) x hx
      exact ⟨n', sp', t', p, by simp [instList, hi], hp, hd⟩
end

/-- Names known after processing a list of instances. -/
def knownNames (is : Insts F V) : List Str := (pImm is ++ pInstsL is).map fun x => dotted x.1

theorem known_of_path {is : Insts F V} {cs : List (Conn F)} {es : List (Export F)} {ss : List (Setting V)}
    {dc : Decl F V} {p : Path} {n sp : Str} {t : Comp F V} (h : InstAt (.mk is cs es ss dc) p n sp t) :
    dotted (p ++ [n]) ∈ knownNames is := by
  unfold knownNames
  rw [List.mem_map]
  exact ⟨(p ++ [n], sp, t), (mem_pInsts (.mk is cs es ss dc) _).mpr ⟨p, n, rfl, h⟩, rfl⟩

/-- A component path ending in an instance of that component is an instance path. -/
theorem instAt_of_comp {c : Comp F V} {p : Path} {d : Comp F V} (hd : CompAt c p d) {i : Str}
    (hi : i ∈ (insts d).map (·.1)) : ∃ sp t, InstAt c p i sp t := by
  rw [List.mem_map] at hi
  obtain ⟨⟨n, sp, t⟩, hm, rfl⟩ := hi
  exact ⟨sp, t, d, hd, hm⟩

/-- A non-empty component path is an instance path. -/
theorem instAt_of_path {c : Comp F V} {n : Str} {p : Path} {d : Comp F V} (hd : CompAt c (n :: p) d) :
    ∃ q m sp, n :: p = q ++ [m] ∧ InstAt c q m sp d := by
  generalize hq : n :: p = q at hd
  induction hd generalizing n p with
  | here => cases hq
  | down c' n' sp t p' d hi hd ih =>
    cases p' with
    | nil =>
      cases hd
      exact ⟨[], n', sp, rfl, c', .here _, hi⟩
    | cons a p =>
      obtain ⟨q, m, sp', he, c2, hc2, hm⟩ := ih rfl
      exact ⟨n' :: q, m, sp', by simp [he], c2, .down _ _ _ _ _ _ hi hc2, hm⟩

/-! ### What the recursion computes -/

theorem mapEnds_own {parent : Option Str} {d : List (Str × Str)} {keys : List Str} (hd : DOk parent d keys)
    (es : List (End F)) (hk : ∀ e ∈ es, ∀ i, e.inst = some i → i ∈ keys)
    (hp : parent = none → ∀ e ∈ es, e.inst ≠ none) :
    mapEnds parent d es = .ok (es.map (nameEnd parent.toList)) := by
  induction es with
  | nil => rfl
  | cons e es ih =>
    have ih' := ih (fun e he => hk e (by simp [he])) (fun h e he => hp h e (by simp [he]))
    obtain ⟨inst, f⟩ := e
    cases inst with
    | none =>
      cases parent with
      | none => exact absurd rfl (hp rfl ⟨none, f⟩ (by simp))
      | some q => simp [mapEnds, ih', nameEnd, dotted]
    | some i =>
      have hl := hd.lookup (hk ⟨some i, f⟩ (by simp) i rfl)
      have : deriveName parent i = dotted (parent.toList ++ [i]) := derive_dotted parent [i] (by simp)
      simp [mapEnds, hl, ih', nameEnd, this]

theorem mapEnds_child {parent : Option Str} {d : List (Str × Str)} {keys : List Str} (hd : DOk parent d keys)
    (p : Path) (hp : p ≠ []) (es : List (End F)) (hk : ∀ e ∈ es, dotted (p ++ e.inst.toList) ∈ keys) :
    mapEnds parent d (es.map (nameEnd p)) = .ok (es.map (nameEnd (parent.toList ++ p))) := by
  induction es with
  | nil => rfl
  | cons e es ih =>
    have ih' := ih (fun e he => hk e (by simp [he]))
    have hl := hd.lookup (hk e (by simp))
    rw [derive_dotted parent _ (by simp [hp])] at hl
    simp only [List.map_cons, mapEnds, nameEnd, hl, ih', List.append_assoc]

theorem mapConns_append (parent : Option Str) (d : List (Str × Str)) (l m : List (Conn F)) {l' m' : List (Conn F)}
    (hl : mapConns parent d l = .ok l') (hm : mapConns parent d m = .ok m') :
    mapConns parent d (l ++ m) = .ok (l' ++ m') := by
  induction l generalizing l' with
  | nil => cases hl; simpa using hm
  | cons c l ih =>
    simp only [mapConns] at hl
    cases h1 : mapEnds parent d c.froms with
    | error x => rw [h1] at hl; cases hl
    | ok fs =>
      cases h2 : mapEnds parent d c.tos with
      | error x => rw [h1, h2] at hl; cases hl
      | ok ts =>
        cases h3 : mapConns parent d l with
        | error x => rw [h1, h2, h3] at hl; cases hl
        | ok l2 =>
          rw [h1, h2, h3] at hl
          cases hl
          simp [mapConns, h1, h2, ih h3]

theorem mapConns_own {parent : Option Str} {d : List (Str × Str)} {keys : List Str} (hd : DOk parent d keys)
    (cs : List (Conn F)) (hk : ∀ c ∈ cs, ∀ e ∈ c.froms ++ c.tos, ∀ i, e.inst = some i → i ∈ keys)
    (hp : parent = none → ∀ c ∈ cs, ∀ e ∈ c.froms ++ c.tos, e.inst ≠ none) :
    mapConns parent d cs = .ok ((cs.map fun c => ([], c)).map (nameConn parent.toList)) := by
  induction cs with
  | nil => rfl
  | cons c cs ih =>
    have ih' := ih (fun c hc => hk c (by simp [hc])) (fun h c hc => hp h c (by simp [hc]))
    have h1 := mapEnds_own hd c.froms (fun e he => hk c (by simp) e (by simp [he]))
      (fun h e he => hp h c (by simp) e (by simp [he]))
    have h2 := mapEnds_own hd c.tos (fun e he => hk c (by simp) e (by simp [he]))
      (fun h e he => hp h c (by simp) e (by simp [he]))
    have h3 : deriveName parent c.name = dotted (parent.toList ++ [c.name]) :=
      derive_dotted parent [c.name] (by simp)
    simp only [mapConns, h1, h2, ih', List.map_cons, nameConn, List.append_nil, h3]

theorem mapConns_child {parent : Option Str} {d : List (Str × Str)} {keys : List Str} (hd : DOk parent d keys)
    (xs : List (Path × Conn F)) (hne : ∀ x ∈ xs, x.1 ≠ [])
    (hk : ∀ x ∈ xs, ∀ e ∈ x.2.froms ++ x.2.tos, dotted (x.1 ++ e.inst.toList) ∈ keys) :
    mapConns parent d (xs.map (nameConn [])) = .ok (xs.map (nameConn parent.toList)) := by
  induction xs with
  | nil => rfl
  | cons x xs ih =>
    have ih' := ih (fun c hc => hne c (by simp [hc])) (fun c hc => hk c (by simp [hc]))
    have h1 := mapEnds_child hd x.1 (hne x (by simp)) x.2.froms (fun e he => hk x (by simp) e (by simp [he]))
    have h2 := mapEnds_child hd x.1 (hne x (by simp)) x.2.tos (fun e he => hk x (by simp) e (by simp [he]))
    have h3 := derive_dotted_snoc parent x.1 x.2.name
    simp only [List.map_cons, mapConns, nameConn, List.nil_append, h1, h2, ih', h3, List.append_assoc]

theorem mapAliases_ok {parent : Option Str} {d : List (Str × Str)} {keys : List Str} (hd : DOk parent d keys)
    (xs : List ((Path × F) × (Path × F)))
    (hk : ∀ x ∈ xs, (x.1.1 ≠ [] ∧ dotted x.1.1 ∈ keys) ∧ (x.2.1 ≠ [] ∧ dotted x.2.1 ∈ keys)) :
    mapAliases d (xs.map (nameAlias [])) = .ok (xs.map (nameAlias parent.toList)) := by
  induction xs with
  | nil => rfl
  | cons x xs ih =>
    have ih' := ih (fun c hc => hk c (by simp [hc]))
    obtain ⟨⟨h1, h2⟩, ⟨h3, h4⟩⟩ := hk x (by simp)
    have l1 := hd.lookup h2
    have l2 := hd.lookup h4
    rw [derive_dotted parent _ h1] at l1
    rw [derive_dotted parent _ h3] at l2
    simp only [List.map_cons, nameAlias, namePtr, List.nil_append, mapAliases, l1, l2, ih']

theorem exportAliases_ok {parent : Option Str} {d : List (Str × Str)} {keys : List Str} (hd : DOk parent d keys)
    (es : List (Export F)) (hk : ∀ e ∈ es, e.srcInst ∈ keys) (hp : parent = none → es = []) :
    exportAliases parent d es =
      .ok ((es.map (fun e => (([], e.dest), ([e.srcInst], e.srcIface)))).map (nameAlias parent.toList)) := by
  induction es with
  | nil => rfl
  | cons e es ih =>
    cases parent with
    | none => have := hp rfl; cases this
    | some q =>
      have ih' := ih (fun c hc => hk c (by simp [hc])) (by simp)
      have l1 := hd.lookup (hk e (by simp))
      have h3 : deriveName (some q) e.srcInst = dotted ([q] ++ [e.srcInst]) :=
        derive_dotted (some q) [e.srcInst] (by simp)
      rw [h3] at l1
      simp only [exportAliases, l1, ih']
      simp [nameAlias, namePtr, dotted]

theorem deriveInst_name (parent : Option Str) (pre : Path) (x : Path × Str × Comp F V)
    (hx : x.1 ≠ []) : deriveInst parent (nameInst pre x) = nameInst (parent.toList ++ pre) x := by
  have h1 : deriveName parent (dotted (pre ++ x.1)) = dotted (parent.toList ++ pre ++ x.1) := by
    rw [derive_dotted parent _ (by simp [hx])]; simp
  have h2 : deriveName parent (dotted (pre ++ x.1.dropLast ++ [x.2.1])) =
      dotted (parent.toList ++ pre ++ x.1.dropLast ++ [x.2.1]) := by
    rw [derive_dotted parent _ (by simp)]; simp
  simp only [deriveInst, nameInst, h1, h2]

theorem deriveSetting_name (parent : Option Str) (pre : Path) (x : Path × Setting V) :
    deriveSetting parent (nameSetting pre x) = nameSetting (parent.toList ++ pre) x := by
  obtain ⟨q, ⟨i, a, v⟩⟩ := x
  have h : ∀ s : Str, deriveName parent (dotted (pre ++ q ++ [s])) =
      dotted (parent.toList ++ pre ++ q ++ [s]) := by
    intro s; rw [derive_dotted parent _ (by simp)]; simp
  cases v <;> simp only [deriveSetting, nameSetting, qualify, h]

theorem pInsts_ne (c : Comp F V) : ∀ x ∈ pInsts c, x.1 ≠ [] := by
  intro x hx
  obtain ⟨p, n, h, _⟩ := (mem_pInsts c x).mp hx
  simp [h]

theorem nameInst_cons (pre : Path) (n : Str) (x : Path × Str × Comp F V) (hx : x.1 ≠ []) :
    nameInst pre (n :: x.1, x.2) = nameInst (pre ++ [n]) x := by
  obtain ⟨p, y⟩ := x
  cases p with
  | nil => simp at hx
  | cons a p => simp [nameInst]

mutual
theorem inferAll_eq (c : Comp F V) (parent : Option Str) (h : Resolved c)
    (hroot : parent = none → (∀ k ∈ conns c, ∀ e ∈ k.froms ++ k.tos, e.inst ≠ none) ∧ exports c = []) :
    inferAll parent c = .ok ⟨(pInsts c).map (nameInst parent.toList), (pConns c).map (nameConn parent.toList),
      (pAliases c).map (nameAlias parent.toList), (pSettings c).map (nameSetting parent.toList)⟩ := by
  cases c with
  | mk is cs es ss dc =>
    obtain ⟨d, hd, hk⟩ := inferInsts_eq is parent ⟨[], [], [], [], [], []⟩ [] ⟨by simp, by simp⟩
      (fun n sp t hi => h.down (c := .mk is cs es ss dc) hi)
    have himm : ∀ i ∈ (instList is).map (·.1), i ∈ [] ++ knownNames is := by
      intro i hi
      obtain ⟨sp, t, hat⟩ := instAt_of_comp (CompAt.here (.mk is cs es ss dc)) hi
      simpa [dotted] using known_of_path hat
    have hown := mapConns_own hk cs
      (fun k hkm e he i hie => himm i (h.ends [] _ (.here _) k hkm e he i hie))
      (fun hp => (hroot hp).1)
    have hchild := mapConns_child hk (pConnsL is)
      (by
        intro x hx
        obtain ⟨n, sp, t, p, _, hp, _⟩ := (mem_pConnsL is x).mp hx
        simp [hp])
      (by
        intro x hx e he
        obtain ⟨n, sp, t, p, hi, hp, dd, hdd, hm⟩ := (mem_pConnsL is x).mp hx
        have hc : CompAt (.mk is cs es ss dc) (n :: p) dd := .down _ n sp t p dd hi hdd
        simp only [List.nil_append]
        cases hinst : e.inst with
        | none =>
          obtain ⟨q, m, sp', he', hat⟩ := instAt_of_path hc
          simp only [Option.toList, List.append_nil, hp, he']
          exact known_of_path hat
        | some i =>
          have hmem := h.ends (n :: p) dd hc x.2 hm e he i hinst
          obtain ⟨sp', t', hat⟩ := instAt_of_comp hc hmem
          simp only [Option.toList, hp]
          exact known_of_path hat)
    have hexp := exportAliases_ok hk es (fun e he => himm _ (h.sources [] _ (.here _) e he))
      (fun hp => (hroot hp).2)
    have hset : ((ss ++ (pSettingsL is).map (nameSetting [])).map (deriveSetting parent)) =
        (pSettings (.mk is cs es ss dc)).map (nameSetting parent.toList) := by
      simp only [pSettings, List.map_append, List.map_map]
      congr 1
      · apply List.map_congr_left
        intro s _
        have hs : nameSetting [] ([], s) = s := by
          obtain ⟨i, a, v⟩ := s
          cases v <;> simp [nameSetting, qualify, dotted]
        have := deriveSetting_name parent [] ([], s)
        rw [hs] at this
        simpa using this
      · apply List.map_congr_left
        intro s _
        have := deriveSetting_name parent [] s
        simpa using this
    simp only [inferAll, hd, List.nil_append]
    rw [mapConns_append _ _ _ _ hown hchild, hexp]
    simp only [hset]
    congr 2
    · simp [pInsts]
    · simp [pConns]
    · simp [pAliases]
theorem inferInsts_eq (is : Insts F V) (parent : Option Str) (a : Acc F V) (keys : List Str)
    (hd : DOk parent a.derived keys)
    (h : ∀ n sp t, (n, sp, t) ∈ instList is → Resolved t) :
    ∃ d, inferInsts parent a is = .ok ⟨a.immediate ++ (pImm is).map (nameInst parent.toList),
        a.child ++ (pInstsL is).map (nameInst parent.toList), d,
        a.childConns ++ (pConnsL is).map (nameConn []),
        a.aliases ++ (pAliasesL is).map (nameAlias parent.toList),
        a.childSettings ++ (pSettingsL is).map (nameSetting [])⟩ ∧
      DOk parent d (keys ++ knownNames is) := by
  cases is with
  | nil => exact ⟨a.derived, by simp [inferInsts, pImm, pInstsL, pConnsL, pAliasesL, pSettingsL],
      by simpa [knownNames, pImm, pInstsL] using hd⟩
  | cons n sp t rest =>
    have ht : Resolved t := h n sp t (by simp [instList])
    have ih := inferAll_eq t (some n) ht (by simp)
    let d1 := a.derived ++ ((pInsts t).map (nameInst [n])).map (fun i => (i.name, deriveName parent i.name)) ++
      [(n, deriveName parent n)]
    let keys1 := keys ++ ((pInsts t).map fun x => dotted (n :: x.1)) ++ [n]
    have hd1 : DOk parent d1 keys1 := by
      constructor
      · intro x hx
        simp only [d1, List.mem_append, List.mem_map, List.mem_singleton] at hx
        rcases hx with (hx | ⟨i, _, rfl⟩) | rfl
        · exact hd.val x hx
        · rfl
        · rfl
      · intro k hk
        simp only [keys1, List.mem_append, List.mem_map, List.mem_singleton] at hk
        simp only [d1, List.map_append, List.mem_append]
        rcases hk with (hk | ⟨x, hx, rfl⟩) | rfl
        · exact .inl (.inl (hd.key k hk))
        · left; right
          simp only [List.mem_map]
          exact ⟨_, ⟨nameInst [n] x, ⟨x, hx, rfl⟩, rfl⟩, by simp [nameInst]⟩
        · right; simp
    have hal : mapAliases d1 (((pAliases t).map (nameAlias [n]))) =
        .ok (((pAliases t).map (fun x => ((n :: x.1.1, x.1.2), (n :: x.2.1, x.2.2)))).map
          (nameAlias parent.toList)) := by
      have he : (pAliases t).map (nameAlias [n]) =
          ((pAliases t).map (fun x => ((n :: x.1.1, x.1.2), (n :: x.2.1, x.2.2)))).map (nameAlias []) := by
        rw [List.map_map]; apply List.map_congr_left; intro x _; simp [nameAlias, namePtr]
      rw [he]
      apply mapAliases_ok hd1
      intro x hx
      rw [List.mem_map] at hx
      obtain ⟨y, hy, rfl⟩ := hx
      obtain ⟨dd, hdd, i, hi1, hi2⟩ := mem_pAliases t ht y hy
      refine ⟨⟨by simp, ?_⟩, ⟨by simp, ?_⟩⟩
      · simp only [keys1, List.mem_append, List.mem_map, List.mem_singleton]
        cases hp : y.1.1 with
        | nil => right; simp [dotted]
        | cons b p =>
          left; right
          rw [hp] at hdd
          obtain ⟨q, m, sp', he', hat⟩ := instAt_of_path hdd
          exact ⟨(q ++ [m], sp', dd), (mem_pInsts t _).mpr ⟨q, m, rfl, hat⟩, by simp [he']⟩
      · simp only [keys1, List.mem_append, List.mem_map, List.mem_singleton]
        left; right
        obtain ⟨sp', t', hat⟩ := instAt_of_comp hdd hi2
        exact ⟨(y.1.1 ++ [i], sp', t'), (mem_pInsts t _).mpr ⟨_, _, rfl, hat⟩, by simp [hi1]⟩
    let a1 : Acc F V := ⟨a.immediate ++ [deriveInst parent ⟨n, sp, t⟩],
           a.child ++ ((pInsts t).map (nameInst [n])).map (deriveInst parent),
           d1, a.childConns ++ (pConns t).map (nameConn [n]),
           a.aliases ++ ((pAliases t).map (fun x => ((n :: x.1.1, x.1.2), (n :: x.2.1, x.2.2)))).map
          (nameAlias parent.toList), a.childSettings ++ (pSettings t).map (nameSetting [n])⟩
    obtain ⟨d, hr, hk⟩ := inferInsts_eq rest parent a1 keys1 hd1
      (fun n sp t hi => h n sp t (by simp [instList, hi]))
    refine ⟨d, ?_, ?_⟩
    · have hstep : inferInsts parent a (.cons n sp t rest) = inferInsts parent a1 rest := by
        simp only [inferInsts, ih, Option.toList]
        show (match mapAliases d1 ((pAliases t).map (nameAlias [n])) with
          | .error x => _ | .ok al => _) = _
        rw [hal]
      rw [hstep, hr]
      congr 2
      · have : deriveInst parent (⟨n, sp, t⟩ : FInst F V) = nameInst parent.toList ([n], sp, t) := by
          have := deriveInst_name parent [] (([n], sp, t) : Path × Str × Comp F V) (by simp)
          simpa [nameInst, dotted] using this
        simp [a1, pImm, this]
      · simp only [a1, pInstsL, List.map_append, List.map_map, List.append_assoc]
        congr 2
        apply List.map_congr_left
        intro x hx
        have hne := pInsts_ne t x hx
        simp only [Function.comp]
        rw [deriveInst_name parent [n] x hne, nameInst_cons _ _ _ hne]
      · simp only [a1, pConnsL, List.map_append, List.map_map, List.append_assoc]
        congr 2
      · simp only [a1, pAliasesL, List.map_append, List.append_assoc]
      · simp only [a1, pSettingsL, List.map_append, List.map_map, List.append_assoc]
        congr 2
    · constructor
      · exact hk.val
      · intro k hkm
        apply hk.key
        simp only [knownNames, pImm, pInstsL, List.map_append, List.map_cons, List.mem_append,
          List.mem_cons, List.map_map, List.mem_map] at hkm
        simp only [keys1, knownNames, List.mem_append, List.mem_map, List.map_append, List.mem_singleton]
        rcases hkm with hkm | (rfl | ⟨x, hx, rfl⟩) | ⟨x, hx, rfl⟩ | ⟨x, hx, rfl⟩
        · exact .inl (.inl (.inl hkm))
        · exact .inl (.inr rfl)
        · exact .inr (.inl ⟨x, hx, rfl⟩)
        · exact .inl (.inl (.inr ⟨x, hx, rfl⟩))
        · exact .inr (.inr ⟨x, hx, rfl⟩)
end

end Verif.Hierarchy
