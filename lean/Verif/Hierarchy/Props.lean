import Verif.Hierarchy.Lemmas

namespace Verif.Hierarchy
open Spec
variable {F V : Type}

/-! ### Dotted names of paths are unambiguous -/

def DotFree (p : Path) : Prop := ∀ n ∈ p, '.' ∉ n

theorem append_dot_inj {a b x y : Str} (ha : '.' ∉ a) (hb : '.' ∉ b)
    (h : a ++ '.' :: x = b ++ '.' :: y) : a = b ∧ x = y := by
  induction a generalizing b with
  | nil =>
    cases b with
    | nil => simpa using h
    | cons c b => simp at h; exact absurd (by rw [← h.1]; simp) hb
  | cons c a ih =>
    cases b with
    | nil => simp at h; exact absurd (by simp [h.1]) ha
    | cons d b =>
      simp at h ha hb
      obtain ⟨h1, h2⟩ := ih ha.2 hb.2 h.2
      exact ⟨by simp [h.1, h1], h2⟩

theorem dotted_inj {p q : Path} (hp : p ≠ []) (hq : q ≠ []) (fp : DotFree p) (fq : DotFree q)
    (h : dotted p = dotted q) : p = q := by
  induction p generalizing q with
  | nil => contradiction
  | cons a p ih =>
    cases q with
    | nil => contradiction
    | cons b q =>
      have fa : '.' ∉ a := fp a (by simp)
      have fb : '.' ∉ b := fq b (by simp)
      by_cases hp' : p = [] <;> by_cases hq' : q = []
      · subst hp' hq'; simpa [dotted] using h
      · subst hp'; rw [dotted_cons b q hq'] at h
        exact absurd (by simp [dotted] at h; simp [h]) fa
      · subst hq'; rw [dotted_cons a p hp'] at h
        exact absurd (by simp [dotted] at h; simp [← h]) fb
      · rw [dotted_cons a p hp', dotted_cons b q hq'] at h
        obtain ⟨h1, h2⟩ := append_dot_inj fa fb h
        rw [h1, ih hp' hq' (fun n hn => fp n (by simp [hn])) (fun n hn => fq n (by simp [hn])) h2]

theorem Spec.WellFormed.resolved {root : Comp F V} (h : WellFormed root) : Resolved root :=
  ⟨h.ends, h.sources⟩

theorem compAt_dotFree {root : Comp F V} (h : WellFormed root) {p : Path} {c : Comp F V}
    (hc : CompAt root p c) : DotFree p := by
  have h2 := h.dotFree
  clear h
  induction hc with
  | here => intro n hn; cases hn
  | down c n sp t p d hi hd ih =>
    intro m hm
    rcases List.mem_cons.mp hm with rfl | hm
    · exact h2 [] c (.here c) _ hi
    · exact ih (fun q e he => h2 (n :: q) e (.down _ _ _ _ _ _ hi he)) m hm

theorem instAt_dotFree {root : Comp F V} (h : WellFormed root) {p : Path} {n sp : Str} {t : Comp F V}
    (hi : InstAt root p n sp t) : DotFree (p ++ [n]) := by
  obtain ⟨c, hc, hm⟩ := hi
  intro m hm'
  rcases List.mem_append.mp hm' with h1 | h1
  · exact compAt_dotFree h hc m h1
  · simp at h1; subst h1; exact h.dotFree p c hc _ hm

theorem compAt_snoc {root : Comp F V} {p : Path} {c : Comp F V} (hc : CompAt root p c) {n sp : Str}
    {t : Comp F V} (hm : (n, sp, t) ∈ insts c) : CompAt root (p ++ [n]) t := by
  induction hc with
  | here => exact .down _ n sp t [] t hm (.here t)
  | down c' n' sp' t' p' d hi hd ih => exact .down _ _ _ _ _ _ hi (ih hm)

theorem mem_unique {l : List (Str × Str × Comp F V)} (h : (l.map (·.1)).Nodup) {n : Str}
    {a b : Str × Comp F V} (ha : (n, a) ∈ l) (hb : (n, b) ∈ l) : a = b := by
  induction l with
  | nil => cases ha
  | cons x l ih =>
    simp only [List.map_cons, List.nodup_cons] at h
    rcases List.mem_cons.mp ha with ha' | ha' <;> rcases List.mem_cons.mp hb with hb' | hb'
    · rw [← ha'] at hb'; exact (Prod.mk.inj hb').2.symm
    · rw [← ha'] at h; exact absurd (List.mem_map.mpr ⟨_, hb', rfl⟩) h.1
    · rw [← hb'] at h; exact absurd (List.mem_map.mpr ⟨_, ha', rfl⟩) h.1
    · exact ih h.2 ha' hb'

theorem compAt_unique {root : Comp F V} (h : ∀ p c, CompAt root p c → ((insts c).map (·.1)).Nodup)
    {p : Path} {c d : Comp F V} (hc : CompAt root p c) (hd : CompAt root p d) : c = d := by
  induction hc with
  | here => cases hd; rfl
  | down c' n sp t p e hi hc ih =>
    cases hd with
    | down _ _ sp' t' _ _ hi' hd =>
      have := mem_unique (h [] c' (.here c')) hi hi'
      cases this
      exact ih (fun q x hx => h (n :: q) x (.down _ _ _ _ _ _ hi hx)) hd

mutual
theorem pInsts_nodup (c : Comp F V) (h : ∀ p d, CompAt c p d → ((insts d).map (·.1)).Nodup) :
    ((pInsts c).map (·.1)).Nodup := by
  cases c with
  | mk is cs es ss dc =>
    have h0 : ((instList is).map (·.1)).Nodup := h [] _ (.here _)
    have hL := pInstsL_nodup is h0 (fun n sp t hi p d hd => h (n :: p) d (.down _ n sp t p d hi hd))
    simp only [pInsts, List.map_append]
    rw [List.nodup_append]
    refine ⟨pImm_nodup is h0, hL, ?_⟩
    intro a ha b hb
    rw [List.mem_map] at ha hb
    obtain ⟨x, hx, rfl⟩ := ha
    obtain ⟨y, hy, rfl⟩ := hb
    obtain ⟨i, _, rfl⟩ := mem_pImm.mp hx
    obtain ⟨n, sp, t, p, m, _, hp, _⟩ := (mem_pInstsL is y).mp hy
    simp [hp]
theorem pInstsL_nodup (is : Insts F V) (h0 : ((instList is).map (·.1)).Nodup)
    (h : ∀ n sp t, (n, sp, t) ∈ instList is → ∀ p d, CompAt t p d → ((insts d).map (·.1)).Nodup) :
    ((pInstsL is).map (·.1)).Nodup := by
  cases is with
  | nil => simp [pInstsL]
  | cons n sp t rest =>
    simp only [instList, List.map_cons, List.nodup_cons] at h0
    have h1 := pInsts_nodup t (h n sp t (by simp [instList]))
    have h2 := pInstsL_nodup rest h0.2 (fun n sp t hi => h n sp t (by simp [instList, hi]))
    simp only [pInstsL, List.map_append, List.map_map]
    rw [List.nodup_append]
    refine ⟨?_, h2, ?_⟩
    · have he : (pInsts t).map ((fun x : Path × Str × Comp F V => x.1) ∘ fun x => (n :: x.1, x.2)) =
          ((pInsts t).map (·.1)).map (fun p => n :: p) := by rw [List.map_map]; rfl
      rw [he]
      exact List.Pairwise.map _ (fun a b hab hc => hab (by simpa using hc)) h1
    · intro a ha b hb
      rw [List.mem_map] at ha hb
      obtain ⟨x, hx, rfl⟩ := ha
      obtain ⟨y, hy, rfl⟩ := hb
      obtain ⟨n', sp', t', p, m, hi, hp, _⟩ := (mem_pInstsL rest y).mp hy
      rw [hp]
      simp only [Function.comp]
      intro hc
      have : n = n' := (List.cons.inj hc).1
      subst this
      exact h0.1 (List.mem_map_of_mem (f := (·.1)) hi)
theorem pImm_nodup (is : Insts F V) (h0 : ((instList is).map (·.1)).Nodup) :
    ((pImm is).map (·.1)).Nodup := by
  cases is with
  | nil => simp [pImm]
  | cons n sp t rest =>
    simp only [instList, List.map_cons, List.nodup_cons] at h0
    have h2 := pImm_nodup rest h0.2
    simp only [pImm, List.map_cons, List.nodup_cons]
    refine ⟨?_, h2⟩
    intro hm
    rw [List.mem_map] at hm
    obtain ⟨x, hx, he⟩ := hm
    obtain ⟨i, hi, rfl⟩ := mem_pImm.mp hx
    simp at he
    subst he
    exact h0.1 (List.mem_map_of_mem (f := (·.1)) hi)
end

/-! ### Alias lookup -/

theorem lookupLast_map {α β γ δ : Type} [DecidableEq α] [DecidableEq γ] (f : α → γ) (g : β → δ)
    (l : List (α × β)) (x : α) (inj : ∀ y ∈ l.map Prod.fst, f y = f x → y = x) :
    lookupLast (l.map fun p => (f p.1, g p.2)) (f x) = (lookupLast l x).map g := by
  induction l with
  | nil => rfl
  | cons p l ih =>
    have ih' := ih (fun y hy => inj y (by simp only [List.map_cons, List.mem_cons]; exact .inr hy))
    simp only [List.map_cons, lookupLast, ih']
    cases lookupLast l x with
    | some v => rfl
    | none =>
      simp only [Option.map]
      by_cases hk : p.1 = x
      · simp [hk]
      · have : f p.1 ≠ f x := fun e => hk (inj p.1 (by simp) e)
        simp [hk, this]

theorem lookupLast_none {α β : Type} [DecidableEq α] (l : List (α × β)) (x : α) (h : x ∉ l.map Prod.fst) :
    lookupLast l x = none := by
  cases hl : lookupLast l x with
  | none => rfl
  | some v => exact absurd ((lookupLast_isSome l x).mp ⟨v, hl⟩) h

/-- The own exports of a component, as the dict it builds. -/
def exportOf [DecidableEq F] (es : List (Export F)) (f : F) : Option (Str × F) :=
  lookupLast (es.map fun e => (e.dest, (e.srcInst, e.srcIface))) f

theorem exportOf_none [DecidableEq F] (es : List (Export F)) (f : F) :
    exportOf es f = none ↔ ∀ x ∈ es, x.dest ≠ f := by
  constructor
  · intro h x hx he
    obtain ⟨v, hv⟩ := (lookupLast_isSome (es.map fun e => (e.dest, (e.srcInst, e.srcIface))) f).mpr
      (by simp only [List.map_map, List.mem_map]; exact ⟨x, hx, he⟩)
    unfold exportOf at h
    rw [h] at hv; cases hv
  · intro h
    apply lookupLast_none
    simp only [List.map_map, List.mem_map, Function.comp]
    rintro ⟨x, hx, he⟩
    exact h x hx he

theorem exportOf_some [DecidableEq F] (es : List (Export F)) (f : F) (i : Str) (g : F) :
    exportOf es f = some (i, g) ↔
      ∃ pre post, es = pre ++ ⟨i, g, f⟩ :: post ∧ ∀ x ∈ post, x.dest ≠ f := by
  induction es with
  | nil => simp [exportOf, lookupLast]
  | cons e es ih =>
    have hstep : exportOf (e :: es) f = (match exportOf es f with
      | some w => some w | none => if e.dest = f then some (e.srcInst, e.srcIface) else none) := by
      simp only [exportOf, List.map_cons, lookupLast]
      cases lookupLast (List.map (fun e => (e.dest, e.srcInst, e.srcIface)) es) f <;> rfl
    rw [hstep]
    cases h : exportOf es f with
    | some w =>
      simp only [Option.some.injEq]
      rw [h] at ih
      simp only [Option.some.injEq] at ih
      rw [ih]
      constructor
      · rintro ⟨pre, post, rfl, hp⟩; exact ⟨e :: pre, post, rfl, hp⟩
      · rintro ⟨pre, post, he, hp⟩
        cases pre with
        | nil =>
          simp at he
          obtain ⟨rfl, rfl⟩ := he
          have := (exportOf_none es f).mpr hp
          rw [h] at this; cases this
        | cons a pre =>
          simp at he
          exact ⟨pre, post, he.2, hp⟩
    | none =>
      have hno := (exportOf_none es f).mp h
      constructor
      · intro hc
        simp only at hc
        split at hc
        · rename_i hd
          obtain ⟨a, b, c⟩ := e
          simp at hc hd
          obtain ⟨rfl, rfl⟩ := hc
          subst hd
          exact ⟨[], es, rfl, hno⟩
        · cases hc
      · rintro ⟨pre, post, he, hp⟩
        cases pre with
        | nil => simp at he; obtain ⟨rfl, rfl⟩ := he; simp
        | cons a pre =>
          simp at he
          exact absurd rfl (hno ⟨i, g, f⟩ (by rw [he.2]; simp))

mutual
theorem lookup_pAliases [DecidableEq F] (c : Comp F V)
    (h : ∀ p d, CompAt c p d → ((insts d).map (·.1)).Nodup) (q : Path) (d : Comp F V)
    (hd : CompAt c q d) (f : F) :
    lookupLast (pAliases c) (q, f) = (exportOf (exports d) f).map (fun x => (q ++ [x.1], x.2)) := by
  cases c with
  | mk is cs es ss dc =>
    simp only [pAliases]
    rw [lookupLast_append]
    cases hd with
    | here =>
      have hL : lookupLast (pAliasesL is) (([] : Path), f) = none := by
        apply lookupLast_none
        intro hm
        rw [List.mem_map] at hm
        obtain ⟨x, hx, he⟩ := hm
        have := pAliasesL_key is x hx
        rw [he] at this; simp at this
      have hE : lookupLast (es.map (fun e => ((([] : Path), e.dest), ([e.srcInst], e.srcIface))))
          (([] : Path), f) = (exportOf es f).map (fun x => ([x.1], x.2)) := by
        unfold exportOf
        rw [← lookupLast_map (fun y : F => (([] : Path), y)) (fun x : Str × F => ([x.1], x.2))
          (es.map fun e => (e.dest, (e.srcInst, e.srcIface))) f (by intro y _ hy; simpa using hy)]
        rw [List.map_map]; rfl
      rw [hE, hL]
      simp only [exports]
      cases exportOf es f <;> rfl
    | down _ n sp t p _ hi hd =>
      have hE : lookupLast (es.map (fun e => ((([] : Path), e.dest), ([e.srcInst], e.srcIface))))
          ((n :: p), f) = none := by
        apply lookupLast_none
        simp
      rw [hE]
      exact lookup_pAliasesL is (h [] _ (.here _))
        (fun n sp t hi p d hd => h (n :: p) d (.down _ n sp t p d hi hd)) n sp t hi p d hd f
theorem lookup_pAliasesL [DecidableEq F] (is : Insts F V) (h0 : ((instList is).map (·.1)).Nodup)
    (h : ∀ n sp t, (n, sp, t) ∈ instList is → ∀ p d, CompAt t p d → ((insts d).map (·.1)).Nodup)
    (n sp : Str) (t : Comp F V) (hi : (n, sp, t) ∈ instList is) (p : Path) (d : Comp F V)
    (hd : CompAt t p d) (f : F) :
    lookupLast (pAliasesL is) (n :: p, f) =
      (exportOf (exports d) f).map (fun x => (n :: p ++ [x.1], x.2)) := by
  cases is with
  | nil => simp [instList] at hi
  | cons n' sp' t' rest =>
    simp only [instList, List.map_cons, List.nodup_cons] at h0
    simp only [pAliasesL]
    rw [lookupLast_append]
    rcases List.mem_cons.mp hi with hi | hi
    · cases hi
      have hR : lookupLast (pAliasesL rest) (n :: p, f) = none := by
        apply lookupLast_none
        intro hm
        rw [List.mem_map] at hm
        obtain ⟨x, hx, he⟩ := hm
        obtain ⟨m, hm1, hm2⟩ := pAliasesL_key rest x hx
        rw [he] at hm2
        obtain ⟨r, hr⟩ := hm2
        have : n = m := (List.cons.inj hr).1
        subst this
        exact h0.1 hm1
      rw [hR]
      simp only
      have ih := lookup_pAliases t (h n sp t (by simp [instList])) p d hd f
      have := lookupLast_map (fun y : Path × F => (n :: y.1, y.2)) (fun y : Path × F => (n :: y.1, y.2))
        (pAliases t) (p, f) (by intro y _ hy; simpa [Prod.ext_iff] using hy)
      simp only at this
      rw [this, ih]
      cases exportOf (exports d) f <;> rfl
    · have ih := lookup_pAliasesL rest h0.2 (fun n sp t hi => h n sp t (by simp [instList, hi]))
        n sp t hi p d hd f
      have hT : lookupLast ((pAliases t').map (fun x => ((n' :: x.1.1, x.1.2), (n' :: x.2.1, x.2.2))))
          (n :: p, f) = none := by
        apply lookupLast_none
        intro hm
        simp only [List.map_map, List.mem_map, Function.comp] at hm
        obtain ⟨x, _, he⟩ := hm
        have : n' = n := by simp at he; exact he.1.1
        subst this
        exact h0.1 (List.mem_map_of_mem (f := (·.1)) hi)
      rw [ih, hT]
      cases exportOf (exports d) f <;> rfl
theorem pAliasesL_key (is : Insts F V) (x : (Path × F) × (Path × F)) (hx : x ∈ pAliasesL is) :
    ∃ m, m ∈ (instList is).map (·.1) ∧ ∃ r, x.1.1 = m :: r := by
  cases is with
  | nil => simp [pAliasesL] at hx
  | cons n sp t rest =>
    simp only [pAliasesL, List.mem_append, List.mem_map] at hx
    rcases hx with ⟨y, hy, rfl⟩ | hx
    · exact ⟨n, by simp [instList], _, rfl⟩
    · obtain ⟨m, h1, h2⟩ := pAliasesL_key rest x hx
      exact ⟨m, by simp only [instList, List.map_cons, List.mem_cons]; exact .inr h1, h2⟩
end

theorem compAt_ne_of_export {root : Comp F V} (h : WellFormed root) {p : Path} {c : Comp F V}
    (hc : CompAt root p c) {x : Export F} (hx : x ∈ exports c) : p ≠ [] := by
  rintro rfl
  cases hc
  rw [h.rootExports] at hx; cases hx

/-- Lookup in the alias dict of the whole assembly. -/
theorem lookup_aliases [DecidableEq F] {root : Comp F V} (h : WellFormed root) {p : Path} (hp : p ≠ [])
    {c : Comp F V} (hc : CompAt root p c) (f : F) :
    lookupLast ((pAliases root).map (nameAlias [])) (dotted p, f) =
      (exportOf (exports c) f).map (fun x => (dotted (p ++ [x.1]), x.2)) := by
  have := lookupLast_map (namePtr (F := F) []) (namePtr (F := F) []) (pAliases root) (p, f) (by
    intro y hy he
    rw [List.mem_map] at hy
    obtain ⟨x, hx, rfl⟩ := hy
    obtain ⟨d, hd, i, hi1, hi2⟩ := mem_pAliases root h.resolved x hx
    have hne : x.1.1 ≠ [] := by
      intro h0
      obtain ⟨⟨a, b⟩, e⟩ := x
      simp at h0; subst h0
      cases root with
      | mk is cs es ss dc =>
        have : es = [] := h.rootExports
        subst this
        simp only [pAliases, List.map_nil, List.append_nil] at hx
        obtain ⟨m, _, r, hr⟩ := pAliasesL_key is _ hx
        cases hr
    simp only [namePtr, List.nil_append, Prod.mk.injEq] at he
    have := dotted_inj hne hp (compAt_dotFree h hd) (compAt_dotFree h hc) he.1
    exact Prod.ext this he.2)
  simp only [namePtr, List.nil_append] at this
  rw [lookup_pAliases root h.distinct p c hc f] at this
  have he : (pAliases root).map (nameAlias []) =
      (pAliases root).map (fun p => ((dotted p.1.1, p.1.2), (dotted p.2.1, p.2.2))) := by
    apply List.map_congr_left; intro x _; simp [nameAlias, namePtr]
  rw [he, this]
  cases exportOf (exports c) f <;> rfl

theorem chase_mono [DecidableEq F] (al : Aliases F) {n m : Nat} (hnm : n ≤ m) {p r : Ptr F}
    (h : chase al n p = some r) : chase al m p = some r := by
  induction n generalizing m p with
  | zero => simp [chase] at h
  | succ n ih =>
    obtain ⟨m, rfl⟩ : ∃ k, m = k + 1 := ⟨m - 1, by omega⟩
    simp only [chase] at h ⊢
    split at h <;> rename_i hl
    · exact h
    · exact ih (by omega) h

theorem sizeOf_instList (is : Insts F V) {n sp : Str} {t : Comp F V} (h : (n, sp, t) ∈ instList is) :
    sizeOf t < sizeOf is := by
  cases is with
  | nil => cases h
  | cons n' sp' t' rest =>
    rcases List.mem_cons.mp h with h | h
    · cases h; simp; omega
    · have := sizeOf_instList rest h
      simp; omega

/-- Following aliases from an existing interface ends at its underlying interface. -/
theorem chase_underlying [DecidableEq F] {root : Comp F V} (h : WellFormed root) :
    ∀ (k : Nat) (c : Comp F V), sizeOf c ≤ k → ∀ p, p ≠ [] → CompAt root p c → ∀ f,
      ∃ n q g, q ≠ [] ∧ chase ((pAliases root).map (nameAlias [])) n (dotted p, f) = some (dotted q, g) ∧
        Underlying root p f q g := by
  intro k
  induction k with
  | zero =>
    intro c hk
    cases c
    simp at hk
  | succ k ih =>
    intro c hk p hp hc f
    have hl := lookup_aliases h hp hc f
    cases he : exportOf (exports c) f with
    | none =>
      rw [he] at hl
      exact ⟨1, p, f, hp, by simp [chase, hl], .done p f c hc ((exportOf_none _ _).mp he)⟩
    | some x =>
      obtain ⟨i, g⟩ := x
      rw [he] at hl
      have hex : ExportedAs c f i g := (exportOf_some _ _ _ _).mp he
      have hmem : (⟨i, g, f⟩ : Export F) ∈ exports c := by
        obtain ⟨pre, post, heq, _⟩ := hex; rw [heq]; simp
      have hi := h.sources p c hc _ hmem
      rw [List.mem_map] at hi
      obtain ⟨⟨n, sp, t⟩, hm, rfl⟩ := hi
      have hsz : sizeOf t ≤ k := by
        cases c with
        | mk is cs es ss dc =>
          have := sizeOf_instList is hm
          simp at hk; omega
      obtain ⟨m, q, g', hq, h1, h2⟩ := ih t hsz (p ++ [n]) (by simp) (compAt_snoc hc hm) g
      exact ⟨m + 1, q, g', hq, by simp [chase, hl, h1], .export p f c n g q g' hc hex h2⟩

theorem underlying_unique {root : Comp F V} (h : WellFormed root) {p : Path} {f : F} {q q' : Path}
    {g g' : F} (h1 : Underlying root p f q g) (h2 : Underlying root p f q' g') : q = q' ∧ g = g' := by
  induction h1 with
  | done p f c hc hno =>
    cases h2 with
    | done => exact ⟨rfl, rfl⟩
    | «export» _ _ c' i g q h hc' hex _ =>
      have := compAt_unique h.distinct hc hc'
      subst this
      obtain ⟨pre, post, he, _⟩ := hex
      exact absurd rfl (hno (⟨i, _, _⟩ : Export F) (by rw [he]; exact List.mem_append_right _ List.mem_cons_self))
  | «export» p f c i k q g hc hex _ ih =>
    cases h2 with
    | done _ _ c' hc' hno =>
      have := compAt_unique h.distinct hc hc'
      subst this
      obtain ⟨pre, post, he, _⟩ := hex
      exact absurd rfl (hno (⟨i, _, _⟩ : Export F) (by rw [he]; exact List.mem_append_right _ List.mem_cons_self))
    | «export» _ _ c' i' k' _ _ hc' hex' h2' =>
      have := compAt_unique h.distinct hc hc'
      subst this
      classical
      have e1 := (exportOf_some _ _ _ _).mpr hex
      have e2 := (exportOf_some _ _ _ _).mpr hex'
      rw [e1] at e2
      cases e2
      exact ih h2'

theorem endPath {root : Comp F V} (h : WellFormed root) {p : Path} {c : Comp F V} (hc : CompAt root p c)
    {k : Conn F} (hk : k ∈ conns c) {e : End F} (he : e ∈ k.froms ++ k.tos) :
    p ++ e.inst.toList ≠ [] ∧ ∃ d, CompAt root (p ++ e.inst.toList) d := by
  cases hi : e.inst with
  | none =>
    simp only [Option.toList, List.append_nil]
    refine ⟨?_, c, hc⟩
    rintro rfl
    cases hc
    exact h.rootEnds k hk e he hi
  | some i =>
    refine ⟨by simp, ?_⟩
    have := h.ends p c hc k hk e he i hi
    rw [List.mem_map] at this
    obtain ⟨⟨n, sp, t⟩, hm, rfl⟩ := this
    exact ⟨t, compAt_snoc hc hm⟩

theorem chaseEnds_ok [DecidableEq F] {root : Comp F V} (h : WellFormed root) {p : Path}
    (es : List (End F)) (hes : ∀ e ∈ es, p ++ e.inst.toList ≠ [] ∧ ∃ d, CompAt root (p ++ e.inst.toList) d) :
    ∃ N, ∀ fuel, N ≤ fuel → ∃ es', chaseEnds ((pAliases root).map (nameAlias [])) fuel (es.map (nameEnd p)) =
      some es' ∧ EndsMean root p es es' := by
  induction es with
  | nil => exact ⟨0, fun _ _ => ⟨[], rfl, .nil⟩⟩
  | cons e es ih =>
    obtain ⟨N, hN⟩ := ih (fun e he => hes e (by simp [he]))
    obtain ⟨hne, d, hd⟩ := hes e (by simp)
    obtain ⟨n, q, g, _, h1, h2⟩ := chase_underlying h (sizeOf d) d (Nat.le_refl _) _ hne hd e.iface
    refine ⟨max N n, fun fuel hf => ?_⟩
    obtain ⟨es', h3, h4⟩ := hN fuel (by omega)
    refine ⟨⟨some (dotted q), g⟩ :: es', ?_, .cons _ _ _ _ ⟨q, g, h2, rfl⟩ h4⟩
    simp only [List.map_cons, chaseEnds, nameEnd]
    rw [chase_mono _ (show n ≤ fuel by omega) h1]
    simp only [h3]

theorem chaseConns_ok [DecidableEq F] {root : Comp F V} (h : WellFormed root) (xs : List (Path × Conn F))
    (hxs : ∀ x ∈ xs, ∃ c, CompAt root x.1 c ∧ x.2 ∈ conns c) :
    ∃ N, ∀ fuel, N ≤ fuel → ∃ cs', chaseConns ((pAliases root).map (nameAlias [])) fuel (xs.map (nameConn [])) =
      some cs' ∧ (∀ k', k' ∈ cs' → ∃ x ∈ xs, ConnMeans root x.1 x.2 k') ∧
        (∀ x ∈ xs, ∃ k' ∈ cs', ConnMeans root x.1 x.2 k') ∧ cs'.length = xs.length := by
  induction xs with
  | nil => exact ⟨0, fun _ _ => ⟨[], rfl, by simp, by simp, rfl⟩⟩
  | cons x xs ih =>
    obtain ⟨N, hN⟩ := ih (fun x hx => hxs x (by simp [hx]))
    obtain ⟨c, hc, hk⟩ := hxs x (by simp)
    obtain ⟨N1, hN1⟩ := chaseEnds_ok h (p := x.1) x.2.froms (fun e he => endPath h hc hk (by simp [he]))
    obtain ⟨N2, hN2⟩ := chaseEnds_ok h (p := x.1) x.2.tos (fun e he => endPath h hc hk (by simp [he]))
    refine ⟨max N (max N1 N2), fun fuel hf => ?_⟩
    obtain ⟨cs', h1, h2, h3, h4⟩ := hN fuel (by omega)
    obtain ⟨fs, f1, f2⟩ := hN1 fuel (by omega)
    obtain ⟨ts, t1, t2⟩ := hN2 fuel (by omega)
    have hm : ConnMeans root x.1 x.2 ⟨dotted (x.1 ++ [x.2.name]), x.2.type, fs, ts⟩ := ⟨rfl, rfl, f2, t2⟩
    refine ⟨⟨dotted (x.1 ++ [x.2.name]), x.2.type, fs, ts⟩ :: cs', ?_, ?_, ?_, by simp [h4]⟩
    · simp only [List.map_cons, chaseConns, nameConn, List.nil_append, f1, t1, h1]
    · intro k' hk'
      rcases List.mem_cons.mp hk' with rfl | hk'
      · exact ⟨x, by simp, hm⟩
      · obtain ⟨y, hy, hy2⟩ := h2 k' hk'; exact ⟨y, by simp [hy], hy2⟩
    · intro y hy
      rcases List.mem_cons.mp hy with rfl | hy
      · exact ⟨_, by simp, hm⟩
      · obtain ⟨k', hk', hy2⟩ := h3 y hy; exact ⟨k', by simp [hk'], hy2⟩

/-- The flattening of a well-formed hierarchy, in full. -/
theorem transform_ok [DecidableEq F] (root : Comp F V) (h : WellFormed root) :
    ∃ N, ∀ fuel, N ≤ fuel → ∃ out, transform fuel root = some (.ok out) ∧
      out.insts = (pInsts root).map (nameInst []) ∧ out.settings = (pSettings root).map (nameSetting []) ∧
      (∀ k' ∈ out.conns, ∃ x ∈ pConns root, ConnMeans root x.1 x.2 k') ∧
      (∀ x ∈ pConns root, ∃ k' ∈ out.conns, ConnMeans root x.1 x.2 k') ∧
      out.conns.length = (pConns root).length := by
  have hi := inferAll_eq root none h.resolved (fun _ => ⟨h.rootEnds, h.rootExports⟩)
  obtain ⟨N, hN⟩ := chaseConns_ok h (pConns root) (fun x hx => (mem_pConns root x).mp hx)
  refine ⟨N, fun fuel hf => ?_⟩
  obtain ⟨cs', h1, h2, h3, h4⟩ := hN fuel hf
  refine ⟨⟨(pInsts root).map (nameInst []), cs', (pSettings root).map (nameSetting [])⟩, ?_, rfl, rfl, h2, h3, h4⟩
  simp only [transform, hi, Option.toList, h1]

/-! ### The properties -/

/-- C13: flattening succeeds; the instances of the result are exactly the instances reachable in
the hierarchy, each once, named by its dotted path, with the address space qualified by the path
of the enclosing component, and all names are distinct. -/
theorem instances_flattened [DecidableEq F] (root : Comp F V) (h : WellFormed root) :
    ∃ N, ∀ fuel, N ≤ fuel → ∃ out, transform fuel root = some (.ok out) ∧
      (∀ x, x ∈ out.insts ↔ ∃ p n sp t, InstAt root p n sp t ∧
        x = ⟨dotted (p ++ [n]), dotted (p ++ [sp]), t⟩) ∧
      (out.insts.map (·.name)).Nodup := by
  obtain ⟨N, hN⟩ := transform_ok root h
  refine ⟨N, fun fuel hf => ?_⟩
  obtain ⟨out, h1, h2, _⟩ := hN fuel hf
  refine ⟨out, h1, ?_, ?_⟩
  · intro x
    rw [h2, List.mem_map]
    constructor
    · rintro ⟨⟨q, sp, t⟩, hy, rfl⟩
      obtain ⟨p, n, hp, hat⟩ := (mem_pInsts root _).mp hy
      simp only at hp hat
      subst hp
      exact ⟨p, n, sp, t, hat, by simp [nameInst]⟩
    · rintro ⟨p, n, sp, t, hat, rfl⟩
      exact ⟨(p ++ [n], sp, t), (mem_pInsts root _).mpr ⟨p, n, rfl, hat⟩, by simp [nameInst]⟩
  · rw [h2, List.map_map]
    have hnd := pInsts_nodup root h.distinct
    have hdf : ∀ x ∈ pInsts root, x.1 ≠ [] ∧ DotFree x.1 := by
      intro x hx
      obtain ⟨p, n, hp, hat⟩ := (mem_pInsts root x).mp hx
      rw [hp]
      exact ⟨by simp, instAt_dotFree h hat⟩
    revert hnd hdf
    generalize pInsts root = l
    intro hnd hdf
    induction l with
    | nil => simp
    | cons a l ih =>
      simp only [List.map_cons, List.nodup_cons] at hnd ⊢
      refine ⟨?_, ih hnd.2 (fun x hx => hdf x (by simp [hx]))⟩
      intro hm
      rw [List.mem_map] at hm
      obtain ⟨b, hb, he⟩ := hm
      simp only [Function.comp, nameInst, List.nil_append] at he
      have ha := hdf a (by simp)
      have hb' := hdf b (by simp [hb])
      have := dotted_inj hb'.1 ha.1 hb'.2 ha.2 he
      exact hnd.1 (by rw [← this]; exact List.mem_map_of_mem (f := (·.1)) hb)

/-- C14: every connection written anywhere in the hierarchy appears in the result under its
dotted name, with each end replaced by the underlying interface found by following the exports,
and there are no other connections. -/
theorem connections_flattened [DecidableEq F] (root : Comp F V) (h : WellFormed root) :
    ∃ N, ∀ fuel, N ≤ fuel → ∃ out, transform fuel root = some (.ok out) ∧
      (∀ k' ∈ out.conns, ∃ p c k, CompAt root p c ∧ k ∈ conns c ∧ ConnMeans root p k k') ∧
      (∀ p c k, CompAt root p c → k ∈ conns c → ∃ k' ∈ out.conns, ConnMeans root p k k') := by
  obtain ⟨N, hN⟩ := transform_ok root h
  refine ⟨N, fun fuel hf => ?_⟩
  obtain ⟨out, h1, _, _, h2, h3, _⟩ := hN fuel hf
  refine ⟨out, h1, ?_, ?_⟩
  · intro k' hk'
    obtain ⟨x, hx, hm⟩ := h2 k' hk'
    obtain ⟨c, hc, hk⟩ := (mem_pConns root x).mp hx
    exact ⟨x.1, c, x.2, hc, hk, hm⟩
  · intro p c k hc hk
    exact h3 (p, k) ((mem_pConns root (p, k)).mpr ⟨c, hc, hk⟩)

/-- C14: the underlying interface always exists, is unique, and is not itself exported from
elsewhere. -/
theorem underlying_exists_unique [DecidableEq F] (root : Comp F V) (h : WellFormed root) (p : Path)
    (hp : p ≠ []) (c : Comp F V) (hc : CompAt root p c) (f : F) :
    ∃ q g, Underlying root p f q g ∧ (∀ q' g', Underlying root p f q' g' → q' = q ∧ g' = g) ∧
      ∃ d, CompAt root q d ∧ ∀ x ∈ exports d, x.dest ≠ g := by
  obtain ⟨_, q, g, h1, h2, hu⟩ := chase_underlying h (sizeOf c) c (Nat.le_refl _) p hp hc f
  refine ⟨q, g, hu, fun q' g' h' => underlying_unique h h' hu, ?_⟩
  clear hp hc h1 h2
  induction hu with
  | done p f c hc hno => exact ⟨c, hc, hno⟩
  | «export» _ _ _ _ _ _ _ _ _ _ ih => exact ih

/-- C15: the settings of the result are exactly the settings written anywhere in the hierarchy,
with the instance and any referenced attribute qualified by the path of the component they were
written in. -/
theorem settings_flattened [DecidableEq F] (root : Comp F V) (h : WellFormed root) :
    ∃ N, ∀ fuel, N ≤ fuel → ∃ out, transform fuel root = some (.ok out) ∧
      ∀ s', s' ∈ out.settings ↔ ∃ p c s, CompAt root p c ∧ s ∈ settings c ∧ s' = qualify p s := by
  obtain ⟨N, hN⟩ := transform_ok root h
  refine ⟨N, fun fuel hf => ?_⟩
  obtain ⟨out, h1, _, h2, _⟩ := hN fuel hf
  refine ⟨out, h1, fun s' => ?_⟩
  rw [h2, List.mem_map]
  constructor
  · rintro ⟨x, hx, rfl⟩
    obtain ⟨c, hc, hs⟩ := (mem_pSettings root x).mp hx
    exact ⟨x.1, c, x.2, hc, hs, by simp [nameSetting]⟩
  · rintro ⟨p, c, s, hc, hs, rfl⟩
    exact ⟨(p, s), (mem_pSettings root (p, s)).mpr ⟨c, hc, hs⟩, by simp [nameSetting]⟩

/-- C14: an assembly with a connection end that names no instance is rejected. -/
theorem top_level_end_rejected [DecidableEq F] (is : Insts F V) (cs : List (Conn F)) (es : List (Export F))
    (ss : List (Setting V)) (dc : Decl F V) (hr : Resolved (Comp.mk is cs es ss dc))
    (hbad : ∃ k ∈ cs, ∃ e ∈ k.froms ++ k.tos, e.inst = none) (fuel : Nat) :
    transform fuel (.mk is cs es ss dc) = some (.error .parseError) := by
  obtain ⟨d, hd, hk⟩ := inferInsts_eq is none ⟨[], [], [], [], [], []⟩ [] ⟨by simp, by simp⟩
    (fun n sp t hi => hr.down (c := .mk is cs es ss dc) hi)
  have himm : ∀ i ∈ (instList is).map (·.1), i ∈ [] ++ knownNames is := by
    intro i hi
    obtain ⟨sp, t, hat⟩ := instAt_of_comp (CompAt.here (.mk is cs es ss dc)) hi
    simpa [dotted] using known_of_path hat
  have hends : ∀ l : List (End F), (∀ e ∈ l, ∀ i, e.inst = some i → i ∈ [] ++ knownNames is) →
      (∃ e ∈ l, e.inst = none) → mapEnds none d l = .error .parseError := by
    intro l
    induction l with
    | nil => simp
    | cons e l ih =>
      intro hl hb
      obtain ⟨inst, f⟩ := e
      cases inst with
      | none => rfl
      | some i =>
        obtain ⟨e, he, hn⟩ := hb
        rcases List.mem_cons.mp he with rfl | he
        · cases hn
        · have hh := hk.lookup (hl ⟨some i, f⟩ (by simp) i rfl)
          have := ih (fun e he => hl e (by simp [he])) ⟨e, he, hn⟩
          simp [mapEnds, hh, this]
  have hconns : ∀ l m : List (Conn F), (∀ k ∈ l, ∀ e ∈ k.froms ++ k.tos, ∀ i, e.inst = some i →
      i ∈ [] ++ knownNames is) → (∃ k ∈ l, ∃ e ∈ k.froms ++ k.tos, e.inst = none) →
      mapConns none d (l ++ m) = .error .parseError := by
    intro l m
    induction l with
    | nil => simp
    | cons k l ih =>
      intro hl hb
      by_cases hf : ∃ e ∈ k.froms, e.inst = none
      · have := hends k.froms (fun e he => hl k (by simp) e (by simp [he])) hf
        simp [mapConns, this]
      · have hf' := mapEnds_own hk k.froms (fun e he => hl k (by simp) e (by simp [he]))
          (fun _ e he hn => hf ⟨e, he, hn⟩)
        by_cases ht : ∃ e ∈ k.tos, e.inst = none
        · have := hends k.tos (fun e he => hl k (by simp) e (by simp [he])) ht
          simp [mapConns, this, hf']
        · have ht' := mapEnds_own hk k.tos (fun e he => hl k (by simp) e (by simp [he]))
            (fun _ e he hn => ht ⟨e, he, hn⟩)
          have hb' : ∃ k ∈ l, ∃ e ∈ k.froms ++ k.tos, e.inst = none := by
            obtain ⟨k', hk', e, he, hn⟩ := hb
            rcases List.mem_cons.mp hk' with rfl | hk'
            · rcases List.mem_append.mp he with he | he
              · exact absurd ⟨e, he, hn⟩ hf
              · exact absurd ⟨e, he, hn⟩ ht
            · exact ⟨k', hk', e, he, hn⟩
          have := ih (fun k hk => hl k (by simp [hk])) hb'
          simp [mapConns, hf', ht', this]
  have := hconns cs ((pConnsL is).map (nameConn []))
    (fun k hkm e he i hie => himm i (hr.ends [] _ (.here _) k hkm e he i hie)) hbad
  simp only [List.nil_append] at hd
  simp [transform, inferAll, hd, this]

/-! ### A concrete hierarchy

`Inner` has interface 0; `Outer` contains `Inner i`, exports `i.0` as its own interface 1 and
configures `i.a` from `i.b`; the assembly has `Outer o`, `Outer q` and connects `o.1` to `q.1`. -/

def inner : Comp Nat Nat := .mk .nil [] [] [] {}
def outer : Comp Nat Nat := .mk (.cons ['i'] ['s'] inner .nil)
  [⟨['k'], ['t'], [⟨none, 2⟩], [⟨some ['i'], 0⟩]⟩] [⟨['i'], 0, 1⟩] [⟨['i'], ['a'], .ref ['i', '.', 'b'] [['z']]⟩] {}
def demo : Comp Nat Nat := .mk (.cons ['o'] ['o'] outer (.cons ['q'] ['z'] outer .nil))
  [⟨['c'], ['u'], [⟨some ['o'], 1⟩], [⟨some ['q'], 1⟩]⟩] [] [⟨['o'], ['x'], .lit 7⟩] {}

example : ∃ out, transform 5 demo = some (.ok out) ∧
    out.insts.map (fun i => (i.name, i.space)) =
      [("o".toList, "o".toList), ("q".toList, "z".toList), ("o.i".toList, "o.s".toList),
       ("q.i".toList, "q.s".toList)] ∧
    out.conns = [⟨"c".toList, ['u'], [⟨some "o.i".toList, 0⟩], [⟨some "q.i".toList, 0⟩]⟩,
      ⟨"o.k".toList, ['t'], [⟨some "o".toList, 2⟩], [⟨some "o.i".toList, 0⟩]⟩,
      ⟨"q.k".toList, ['t'], [⟨some "q".toList, 2⟩], [⟨some "q.i".toList, 0⟩]⟩] ∧
    out.settings = [⟨"o".toList, ['x'], .lit 7⟩, ⟨"o.i".toList, ['a'], .ref "o.i.b".toList [['z']]⟩,
      ⟨"q.i".toList, ['a'], .ref "q.i.b".toList [['z']]⟩] :=
  ⟨_, rfl, rfl, rfl, rfl⟩

theorem demo_cases {p : Path} {c : Comp Nat Nat} (h : CompAt demo p c) :
    (p = [] ∧ c = demo) ∨ (p ≠ [] ∧ c = outer) ∨ (p ≠ [] ∧ c = inner) := by
  cases h with
  | here => exact .inl ⟨rfl, rfl⟩
  | down _ n sp t p d hi hd =>
    right
    have ht : t = outer := by
      simp [demo, insts, instList] at hi
      rcases hi with ⟨_, _, rfl⟩ | ⟨_, _, rfl⟩ <;> rfl
    subst ht
    cases hd with
    | here => exact .inl ⟨by simp, rfl⟩
    | down _ n2 sp2 t2 p2 d2 hi2 hd2 =>
      have ht : t2 = inner := by
        simp [outer, insts, instList] at hi2; exact hi2.2.2
      subst ht
      cases hd2 with
      | here => exact .inr ⟨by simp, rfl⟩
      | down _ n3 sp3 t3 p3 d3 hi3 hd3 => simp [inner, insts, instList] at hi3

/-- The hypotheses are met by the concrete hierarchy. -/
theorem demo_wellFormed : WellFormed demo := by
  constructor
  · intro p c h
    rcases demo_cases h with ⟨_, rfl⟩ | ⟨_, rfl⟩ | ⟨_, rfl⟩ <;> simp [demo, outer, inner, insts, instList]
  · intro p c h
    rcases demo_cases h with ⟨_, rfl⟩ | ⟨_, rfl⟩ | ⟨_, rfl⟩ <;> simp [demo, outer, inner, insts, instList]
  · intro p c h
    rcases demo_cases h with ⟨_, rfl⟩ | ⟨_, rfl⟩ | ⟨_, rfl⟩ <;>
      simp [demo, outer, inner, insts, instList, conns]
  · intro p c h
    rcases demo_cases h with ⟨_, rfl⟩ | ⟨_, rfl⟩ | ⟨_, rfl⟩ <;>
      simp [demo, outer, inner, insts, instList, exports]
  · simp [demo, conns]
  · simp [demo, exports]

/-- Rejection is not vacuous: connecting an interface of the assembly itself. -/
example : transform (F := Nat) (V := Nat) 3
    (.mk (.cons ['o'] ['o'] outer .nil) [⟨['c'], ['t'], [⟨none, 1⟩], [⟨some ['o'], 1⟩]⟩] [] [] {}) =
      some (.error .parseError) := rfl

end Verif.Hierarchy
