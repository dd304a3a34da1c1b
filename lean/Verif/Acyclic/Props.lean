import Verif.Acyclic.Spec
import Batteries.Data.List.Perm

/-!
# C10: self-containing components are rejected, and only those
-/

namespace Verif.Acyclic
open Spec

section Graph
variable {N : Type} [DecidableEq N] (children : N → List N)

/-- `b` is a child of `a`. -/
def Child (a b : N) : Prop := b ∈ children a

theorem Spec.Plus.trans {α : Type} {r : α → α → Prop} {a b c : α} (h : Plus r a b) (k : Plus r b c) :
    Plus r a c := by
  induction h with
  | one a b h => exact .step _ _ _ h k
  | step a b _ h _ ih => exact .step _ _ _ h (ih k)

theorem Spec.Plus.tail {α : Type} {r : α → α → Prop} {a b c : α} (h : Plus r a b) (k : r b c) :
    Plus r a c := h.trans (.one _ _ k)

omit [DecidableEq N] in
theorem forEach_ok {body : N → Option Verdict} {cs : List N} (h : forEach body cs = some .ok) :
    ∀ c ∈ cs, body c = some .ok := by
  induction cs with
  | nil => simp
  | cons c cs ih =>
    simp only [forEach] at h
    split at h
    · rename_i hb
      intro d hd
      rcases List.mem_cons.mp hd with rfl | hd
      · exact hb
      · exact ih h d hd
    · rename_i hb; exact absurd h hb

omit [DecidableEq N] in
theorem forEach_cycle {body : N → Option Verdict} {cs : List N} (h : forEach body cs = some .cycle) :
    ∃ c ∈ cs, body c = some .cycle := by
  induction cs with
  | nil => simp [forEach] at h
  | cons c cs ih =>
    simp only [forEach] at h
    split at h
    · obtain ⟨d, hd, hb⟩ := ih h; exact ⟨d, by simp [hd], hb⟩
    · exact ⟨c, by simp, h⟩

omit [DecidableEq N] in
theorem forEach_none {body : N → Option Verdict} {cs : List N} (h : forEach body cs = none) :
    ∃ c ∈ cs, body c = none := by
  induction cs with
  | nil => simp [forEach] at h
  | cons c cs ih =>
    simp only [forEach] at h
    split at h
    · obtain ⟨d, hd, hb⟩ := ih h; exact ⟨d, by simp [hd], hb⟩
    · exact ⟨c, by simp, h⟩

/-- A reported cycle is one. -/
theorem check_sound (fuel : Nat) (path : List N) (obj : N)
    (hp : ∀ x ∈ path, Plus (Child children) x obj)
    (h : check children fuel path obj = some .cycle) :
    ∃ n, (n = obj ∨ Plus (Child children) obj n) ∧ Plus (Child children) n n := by
  induction fuel generalizing path obj with
  | zero => simp [check] at h
  | succ fuel ih =>
    simp only [check] at h
    split at h
    · rename_i hm; exact ⟨obj, .inl rfl, hp obj hm⟩
    · obtain ⟨c, hc, hb⟩ := forEach_cycle h
      obtain ⟨n, hn, hcyc⟩ := ih (obj :: path) c (by
        intro x hx
        rcases List.mem_cons.mp hx with rfl | hx
        · exact .one _ _ hc
        · exact (hp x hx).tail hc) hb
      refine ⟨n, .inr ?_, hcyc⟩
      rcases hn with rfl | hn
      · exact .one _ _ hc
      · exact .step _ _ _ hc hn

/-- If the check passes, nothing reachable is on the path or on a cycle. -/
theorem check_complete (fuel : Nat) (path : List N) (obj : N)
    (h : check children fuel path obj = some .ok) :
    ∀ n, (n = obj ∨ Plus (Child children) obj n) → n ∉ path ∧ ¬ Plus (Child children) n n := by
  induction fuel generalizing path obj with
  | zero => simp [check] at h
  | succ fuel ih =>
    simp only [check] at h
    split at h
    · cases h
    · rename_i hm
      have hall := forEach_ok h
      have key : ∀ n, Plus (Child children) obj n → n ∉ obj :: path ∧ ¬ Plus (Child children) n n := by
        intro n hn
        cases hn with
        | one _ _ h1 => exact ih _ _ (hall n h1) n (.inl rfl)
        | step _ c _ h1 h2 => exact ih _ _ (hall c h1) n (.inr h2)
      intro n hn
      rcases hn with rfl | hn
      · exact ⟨hm, fun hc => (key n hc).1 (by simp)⟩
      · have := key n hn
        exact ⟨fun hp => this.1 (by simp [hp]), this.2⟩

/-- The recursion depth is bounded by the number of objects. -/
theorem check_total (nodes : List N) (hclosed : ∀ n ∈ nodes, ∀ c ∈ children n, c ∈ nodes)
    (fuel : Nat) (path : List N) (obj : N) (ho : obj ∈ nodes)
    (hp : path.Nodup) (hsub : ∀ x ∈ path, x ∈ nodes) (hf : nodes.length < fuel + path.length) :
    check children fuel path obj ≠ none := by
  induction fuel generalizing path obj with
  | zero =>
    exfalso
    have := (List.subperm_of_subset hp hsub).length_le
    omega
  | succ fuel ih =>
    simp only [check]
    split
    · simp
    · rename_i hm
      intro h
      obtain ⟨c, hc, hb⟩ := forEach_none h
      refine ih (obj :: path) c (hclosed obj ho c hc) (List.nodup_cons.mpr ⟨hm, hp⟩) ?_ ?_ hb
      · intro x hx
        rcases List.mem_cons.mp hx with rfl | hx
        · exact ho
        · exact hsub x hx
      · simp only [List.length_cons]; omega

/-- **C10 (object graph).** On a finite object graph the check terminates, and it raises exactly
when some object reachable from the root contains itself. -/
theorem check_iff_cycle (nodes : List N) (hclosed : ∀ n ∈ nodes, ∀ c ∈ children n, c ∈ nodes)
    (root : N) (hr : root ∈ nodes) (fuel : Nat) (hf : nodes.length < fuel) :
    ∃ v, check children fuel [] root = some v ∧
      (v = .cycle ↔ ∃ n, (n = root ∨ Plus (Child children) root n) ∧ Plus (Child children) n n) := by
  cases hc : check children fuel [] root with
  | none => exact absurd hc (check_total children nodes hclosed fuel [] root hr (by simp) (by simp) (by simpa using hf))
  | some v =>
    refine ⟨v, rfl, ?_⟩
    constructor
    · rintro rfl; exact check_sound children fuel [] root (by simp) hc
    · rintro ⟨n, hn, hcyc⟩
      cases v with
      | cycle => rfl
      | ok => exact absurd hcyc (check_complete children fuel [] root hc n hn).2

end Graph

/-! ### Application to specifications -/

/-- What declaration an object belongs to. -/
inductive Owner
  | root | comp (c : Nat) | struct (s : Nat)

def owner : Node → Owner
  | .root => .root
  | .comp c => .comp c
  | .composition c => .comp c
  | .inst c _ => .comp c
  | .group c _ => .comp c
  | .groupInst c _ _ => .comp c
  | .conn c _ => .comp c
  | .connEnd c _ _ => .comp c
  | .iface c _ => .comp c
  | .attr c _ => .comp c
  | .struct s => .struct s
  | .structAttr s _ => .struct s

def rank : Node → Nat
  | .root => 0
  | .comp _ => 0
  | .composition _ => 1
  | .group _ _ => 2
  | .conn _ _ => 2
  | .connEnd _ _ _ => 3
  | .inst _ _ => 4
  | .groupInst _ _ _ => 4
  | .iface _ _ => 5
  | .attr _ _ => 5
  | .struct _ => 0
  | .structAttr _ _ => 1

def Dep (sp : Specification) : Owner → Owner → Prop
  | .root, .comp _ => True
  | .root, .struct _ => True
  | .comp c, .comp d => Contains sp c d
  | .comp c, .struct s => some s ∈ (sp.comp c).attrs
  | .struct s, .struct t => HasField sp s t
  | _, _ => False

theorem join_mem {α : Type} {l : List (Option α)} {i : Nat} {x : α} (h : x ∈ ((l[i]?).join).toList) :
    some x ∈ l := by
  cases h1 : l[i]? with
  | none => rw [h1] at h; simp at h
  | some o =>
    rw [h1] at h
    cases o with
    | none => simp at h
    | some y =>
      simp at h
      subst h
      exact List.mem_of_getElem? h1

theorem groupInst_contains {sp : Specification} {c g i d : Nat}
    (h : ((sp.comp c).groups.getD g [])[i]? = some d) : Contains sp c d := by
  right
  have hm := List.mem_of_getElem? h
  cases hg : (sp.comp c).groups[g]? with
  | none => rw [List.getD_eq_getElem?_getD, hg] at hm; simp at hm
  | some l =>
    rw [List.getD_eq_getElem?_getD, hg] at hm
    exact ⟨l, List.mem_of_getElem? hg, hm⟩

theorem edge (sp : Specification) (u v : Node) (h : v ∈ kids sp u) :
    (owner u = owner v ∧ rank u < rank v) ∨ Dep sp (owner u) (owner v) := by
  cases u with
  | root =>
    simp only [kids, List.mem_append, List.mem_map] at h
    rcases h with ⟨c, _, rfl⟩ | ⟨s, _, rfl⟩ <;> exact .inr trivial
  | comp c =>
    simp only [kids, List.mem_append, List.mem_map, List.mem_singleton] at h
    rcases h with (⟨a, _, rfl⟩ | ⟨a, _, rfl⟩) | rfl <;> exact .inl ⟨rfl, by simp [rank]⟩
  | composition c =>
    simp only [kids, List.mem_append, List.mem_map] at h
    rcases h with (⟨a, _, rfl⟩ | ⟨a, _, rfl⟩) | ⟨a, _, rfl⟩ <;> exact .inl ⟨rfl, by simp [rank]⟩
  | inst c i =>
    simp only [kids, List.mem_map, Option.mem_toList] at h
    obtain ⟨d, hd, rfl⟩ := h
    exact .inr (.inl (List.mem_of_getElem? hd))
  | group c g =>
    simp only [kids, List.mem_map] at h
    obtain ⟨d, hd, rfl⟩ := h
    exact .inl ⟨rfl, by simp [rank]⟩
  | groupInst c g i =>
    simp only [kids, List.mem_map, Option.mem_toList] at h
    obtain ⟨d, hd, rfl⟩ := h
    exact .inr (groupInst_contains hd)
  | conn c k =>
    simp only [kids, List.mem_map] at h
    obtain ⟨d, hd, rfl⟩ := h
    exact .inl ⟨rfl, by simp [rank]⟩
  | connEnd c k e =>
    simp only [kids] at h
    split at h
    · simp at h
    · simp at h; subst h; exact .inl ⟨rfl, by simp [rank]⟩
    · split at h
      · simp at h
      · rename_i d hd
        simp at h
        rcases h with rfl | rfl
        · exact .inl ⟨rfl, by simp [rank]⟩
        · exact .inr (.inl (List.mem_of_getElem? hd))
  | iface c i => simp [kids] at h
  | attr c a =>
    simp only [kids, List.mem_map] at h
    obtain ⟨d, hd, rfl⟩ := h
    exact .inr (join_mem hd)
  | struct s =>
    simp only [kids, List.mem_map] at h
    obtain ⟨d, hd, rfl⟩ := h
    exact .inl ⟨rfl, by simp [rank]⟩
  | structAttr s a =>
    simp only [kids, List.mem_map] at h
    obtain ⟨d, hd, rfl⟩ := h
    exact .inr (join_mem hd)

theorem path_dep (sp : Specification) (u v : Node) (h : Plus (Child (kids sp)) u v) :
    (owner u = owner v ∧ rank u < rank v) ∨ Plus (Dep sp) (owner u) (owner v) := by
  induction h with
  | one a b h =>
    rcases edge sp a b h with h | h
    · exact .inl h
    · exact .inr (.one _ _ h)
  | step a b c h _ ih =>
    rcases edge sp a b h with ⟨h1, h2⟩ | h <;> rcases ih with ⟨h3, h4⟩ | h3
    · exact .inl ⟨h1.trans h3, by omega⟩
    · exact .inr (by rw [h1]; exact h3)
    · exact .inr (by rw [← h3]; exact .one _ _ h)
    · exact .inr (.step _ _ _ h h3)

theorem dep_cycle (sp : Specification) {o p : Owner} (h : Plus (Dep sp) o p) :
    (∀ c, p = .comp c → o = .root ∨ ∃ b, o = .comp b ∧ Plus (Contains sp) b c) ∧
    (∀ s, o = .struct s → ∃ t, p = .struct t ∧ Plus (HasField sp) s t) ∧ p ≠ .root := by
  induction h with
  | one a b h =>
    refine ⟨?_, ?_, ?_⟩
    · rintro c rfl
      cases a with
      | root => exact .inl rfl
      | comp d => exact .inr ⟨d, rfl, .one _ _ h⟩
      | struct s => exact absurd h (by simp [Dep])
    · rintro s rfl
      cases b with
      | root => exact absurd h (by simp [Dep])
      | comp d => exact absurd h (by simp [Dep])
      | struct t => exact ⟨t, rfl, .one _ _ h⟩
    · rintro rfl; cases a <;> simp [Dep] at h
  | step a b c h _ ih =>
    refine ⟨?_, ?_, ih.2.2⟩
    · rintro d rfl
      rcases ih.1 d rfl with rfl | ⟨e, rfl, he⟩
      · cases a <;> simp [Dep] at h
      · cases a with
        | root => exact .inl rfl
        | comp f => exact .inr ⟨f, rfl, .step _ _ _ h he⟩
        | struct s => exact absurd h (by simp [Dep])
    · rintro s rfl
      cases b with
      | root => exact absurd h (by simp [Dep])
      | comp d => exact absurd h (by simp [Dep])
      | struct t =>
        obtain ⟨u, rfl, hu⟩ := ih.2.1 t rfl
        exact ⟨u, rfl, .step _ _ _ h hu⟩

theorem contains_path (sp : Specification) {c d : Nat} (h : Contains sp c d) :
    Plus (Child (kids sp)) (.comp c) (.comp d) := by
  have h0 : Child (kids sp) (.comp c) (.composition c) := by simp [Child, kids]
  rcases h with h | ⟨g, hg, h⟩
  · obtain ⟨i, hi⟩ := List.mem_iff_getElem?.mp h
    have hl : i < (sp.comp c).instances.length := (List.getElem?_eq_some_iff.mp hi).1
    refine .step _ _ _ h0 (.step _ (.inst c i) _ ?_ (.one _ _ ?_))
    · simp [Child, kids, hl]
    · simp [Child, kids, hi]
  · obtain ⟨k, hk⟩ := List.mem_iff_getElem?.mp hg
    obtain ⟨i, hi⟩ := List.mem_iff_getElem?.mp h
    have hl : k < (sp.comp c).groups.length := (List.getElem?_eq_some_iff.mp hk).1
    have hli : i < g.length := (List.getElem?_eq_some_iff.mp hi).1
    have hgd : (sp.comp c).groups.getD k [] = g := by
      rw [List.getD_eq_getElem?_getD, hk]; rfl
    refine .step _ _ _ h0 (.step _ (.group c k) _ ?_ (.step _ (.groupInst c k i) _ ?_ (.one _ _ ?_)))
    · simp [Child, kids, hl]
    · simp only [Child, kids, hgd]; simp [hli]
    · simp only [Child, kids, hgd]; simp [hi]

theorem field_path (sp : Specification) {s t : Nat} (h : HasField sp s t) :
    Plus (Child (kids sp)) (.struct s) (.struct t) := by
  obtain ⟨i, hi⟩ := List.mem_iff_getElem?.mp h
  have hl : i < (sp.struct s).length := (List.getElem?_eq_some_iff.mp hi).1
  refine .step _ (.structAttr s i) _ ?_ (.one _ _ ?_)
  · simp [Child, kids, hl]
  · simp [Child, kids, hi]

theorem plus_lift {α β : Type} {r : α → α → Prop} {q : β → β → Prop} (f : α → β)
    (h : ∀ a b, r a b → Plus q (f a) (f b)) {a b : α} (hp : Plus r a b) : Plus q (f a) (f b) := by
  induction hp with
  | one a b h1 => exact h a b h1
  | step a b c h1 _ ih => exact (h a b h1).trans ih

/-- A specification has finitely many objects. -/
theorem finite_nodes (sp : Specification) (hcl : Closed sp) :
    ∃ nodes : List Node, .root ∈ nodes ∧ ∀ n ∈ nodes, ∀ c ∈ kids sp n, c ∈ nodes := by
  -- objects by construction depth: closing a finite list under `kids` six times suffices
  -- because every chain of children meets a component or struct after at most five steps
  let base : List Node := .root :: ((List.range sp.comps.length).map .comp ++
    (List.range sp.structs.length).map .struct)
  let comps := List.range sp.comps.length
  let nodes : List Node := base ++
    comps.flatMap (fun c => .composition c ::
      ((List.range (sp.comp c).attrs.length).map (.attr c) ++
       (List.range (sp.comp c).ifaces).map (.iface c) ++
       (List.range (sp.comp c).instances.length).map (.inst c) ++
       (List.range (sp.comp c).groups.length).map (.group c) ++
       (List.range (sp.comp c).groups.length).flatMap (fun g =>
         (List.range ((sp.comp c).groups.getD g []).length).map (.groupInst c g)) ++
       (List.range (sp.comp c).connections.length).map (.conn c) ++
       (List.range (sp.comp c).connections.length).flatMap (fun k =>
         (List.range ((sp.comp c).connections.getD k []).length).map (.connEnd c k)))) ++
    (List.range sp.structs.length).flatMap (fun s =>
      (List.range (sp.struct s).length).map (.structAttr s)) ++
    -- interfaces named by connection ends
    comps.flatMap (fun c => (sp.comp c).connections.flatMap (fun k => k.flatMap (fun e =>
      comps.map (fun d => .iface d e.2))))
  have hmem : ∀ n, n ∈ nodes ↔ (match n with
      | .root => True
      | .comp c => c < sp.comps.length
      | .struct s => s < sp.structs.length
      | .composition c => c < sp.comps.length
      | .attr c a => c < sp.comps.length ∧ a < (sp.comp c).attrs.length
      | .inst c i => c < sp.comps.length ∧ i < (sp.comp c).instances.length
      | .group c g => c < sp.comps.length ∧ g < (sp.comp c).groups.length
      | .groupInst c g i => c < sp.comps.length ∧ g < (sp.comp c).groups.length ∧
          i < ((sp.comp c).groups.getD g []).length
      | .conn c k => c < sp.comps.length ∧ k < (sp.comp c).connections.length
      | .connEnd c k e => c < sp.comps.length ∧ k < (sp.comp c).connections.length ∧
          e < ((sp.comp c).connections.getD k []).length
      | .structAttr s a => s < sp.structs.length ∧ a < (sp.struct s).length
      | .iface d j => (d < sp.comps.length ∧ j < (sp.comp d).ifaces) ∨
          (d < sp.comps.length ∧ ∃ c < sp.comps.length, ∃ k ∈ (sp.comp c).connections, ∃ e ∈ k, e.2 = j)) := by
    intro n
    cases n <;> simp [nodes, base, comps]
    case groupInst c g i =>
      constructor
      · rintro ⟨_, h1, _, h2, _, h3, rfl, rfl, rfl⟩; exact ⟨h1, h2, h3⟩
      · rintro ⟨h1, h2, h3⟩; exact ⟨_, h1, _, h2, _, h3, rfl, rfl, rfl⟩
    case connEnd c g i =>
      constructor
      · rintro ⟨_, h1, _, h2, _, h3, rfl, rfl, rfl⟩; exact ⟨h1, h2, h3⟩
      · rintro ⟨h1, h2, h3⟩; exact ⟨_, h1, _, h2, _, h3, rfl, rfl, rfl⟩
    case iface d j =>
    constructor
    · rintro (h | ⟨c, hc, k, hk, a, b, hab, _, hd, rfl, rfl⟩)
      · exact .inl h
      · exact .inr ⟨hd, c, hc, k, hk, a, hab⟩
    · rintro (h | ⟨hd, c, hc, k, hk, a, hab⟩)
      · exact .inl h
      · exact .inr ⟨c, hc, k, hk, a, j, hab, d, hd, rfl, rfl⟩
  refine ⟨nodes, (hmem _).mpr trivial, ?_⟩
  intro n hn c hc
  rw [hmem] at hn
  cases n with
  | root =>
    simp only [kids, List.mem_append, List.mem_map, List.mem_range] at hc
    rcases hc with ⟨a, h, rfl⟩ | ⟨a, h, rfl⟩ <;> exact (hmem _).mpr h
  | comp a =>
    simp only [kids, List.mem_append, List.mem_map, List.mem_range, List.mem_singleton] at hc
    rcases hc with (⟨b, h, rfl⟩ | ⟨b, h, rfl⟩) | rfl
    · exact (hmem _).mpr ⟨hn, h⟩
    · exact (hmem _).mpr (.inl ⟨hn, h⟩)
    · exact (hmem _).mpr hn
  | composition a =>
    simp only [kids, List.mem_append, List.mem_map, List.mem_range] at hc
    rcases hc with (⟨b, h, rfl⟩ | ⟨b, h, rfl⟩) | ⟨b, h, rfl⟩ <;> exact (hmem _).mpr ⟨hn, h⟩
  | inst a i =>
    simp only [kids, List.mem_map, Option.mem_toList] at hc
    obtain ⟨d, hd, rfl⟩ := hc
    exact (hmem _).mpr (hcl.1 a d (.inl (List.mem_of_getElem? hd)))
  | group a g =>
    simp only [kids, List.mem_map, List.mem_range] at hc
    obtain ⟨d, hd, rfl⟩ := hc
    exact (hmem _).mpr ⟨hn.1, hn.2, hd⟩
  | groupInst a g i =>
    simp only [kids, List.mem_map, Option.mem_toList] at hc
    obtain ⟨d, hd, rfl⟩ := hc
    exact (hmem _).mpr (hcl.1 a d (groupInst_contains hd))
  | conn a k =>
    simp only [kids, List.mem_map, List.mem_range] at hc
    obtain ⟨d, hd, rfl⟩ := hc
    exact (hmem _).mpr ⟨hn.1, hn.2, hd⟩
  | connEnd a k e =>
    have hkm : ∀ x, ((sp.comp a).connections.getD k [])[e]? = some x →
        ∃ k' ∈ (sp.comp a).connections, x ∈ k' := by
      intro x hx
      have hm := List.mem_of_getElem? hx
      have hk := hn.2.1
      refine ⟨(sp.comp a).connections[k], List.getElem_mem hk, ?_⟩
      rw [List.getD_eq_getElem?_getD, List.getElem?_eq_getElem hk] at hm
      exact hm
    simp only [kids] at hc
    split at hc
    · simp at hc
    · rename_i j hj
      simp at hc; subst hc
      obtain ⟨k', hk', hx⟩ := hkm _ hj
      exact (hmem _).mpr (.inr ⟨hn.1, a, hn.1, k', hk', _, hx, rfl⟩)
    · rename_i i j hj
      split at hc
      · simp at hc
      · rename_i d hd
        simp at hc
        obtain ⟨k', hk', hx⟩ := hkm _ hj
        rcases hc with rfl | rfl
        · exact (hmem _).mpr ⟨hn.1, (List.getElem?_eq_some_iff.mp hd).1⟩
        · exact (hmem _).mpr (.inr ⟨hcl.1 a d (.inl (List.mem_of_getElem? hd)), a, hn.1, k', hk', _, hx, rfl⟩)
  | iface a i => simp [kids] at hc
  | attr a i =>
    simp only [kids, List.mem_map] at hc
    obtain ⟨d, hd, rfl⟩ := hc
    exact (hmem _).mpr (hcl.2.2 a d (join_mem hd))
  | struct s =>
    simp only [kids, List.mem_map, List.mem_range] at hc
    obtain ⟨d, hd, rfl⟩ := hc
    exact (hmem _).mpr ⟨hn, hd⟩
  | structAttr s a =>
    simp only [kids, List.mem_map] at hc
    obtain ⟨d, hd, rfl⟩ := hc
    exact (hmem _).mpr (hcl.2.1 s d (join_mem hd))

theorem comp_bound {sp : Specification} {c d : Nat} (h : Contains sp c d) : c < sp.comps.length := by
  refine Nat.lt_of_not_le fun hle => ?_
  have : sp.comp c = ⟨[], 0, [], [], []⟩ := by
    unfold Specification.comp
    rw [List.getD_eq_getElem?_getD, List.getElem?_eq_none hle]; rfl
  unfold Contains at h
  rw [this] at h
  simp at h

theorem struct_bound {sp : Specification} {s t : Nat} (h : HasField sp s t) : s < sp.structs.length := by
  refine Nat.lt_of_not_le fun hle => ?_
  have : sp.struct s = [] := by
    unfold Specification.struct
    rw [List.getD_eq_getElem?_getD, List.getElem?_eq_none hle]; rfl
  unfold HasField at h
  rw [this] at h
  simp at h

theorem plus_first {α : Type} {r : α → α → Prop} {a b : α} (h : Plus r a b) : ∃ c, r a c := by
  cases h with
  | one _ _ h => exact ⟨_, h⟩
  | step _ _ _ h _ => exact ⟨_, h⟩

/-- **C10.** For every specification whose references are resolved, the cycle check terminates
and rejects exactly the specifications in which some component (transitively)
contains an instance of itself or some struct a field of its own type. -/
theorem self_containment_rejected (sp : Specification) (hcl : Closed sp) :
    ∃ bound, ∀ fuel, bound < fuel → ∃ v, check (kids sp) fuel [] .root = some v ∧
      (v = .cycle ↔ (∃ c, Plus (Contains sp) c c) ∨ (∃ s, Plus (HasField sp) s s)) := by
  obtain ⟨nodes, hroot, hclosed⟩ := finite_nodes sp hcl
  refine ⟨nodes.length, fun fuel hf => ?_⟩
  obtain ⟨v, hv, hiff⟩ := check_iff_cycle (kids sp) nodes hclosed .root hroot fuel hf
  refine ⟨v, hv, hiff.trans ?_⟩
  constructor
  · rintro ⟨n, _, hcyc⟩
    have hd : Plus (Dep sp) (owner n) (owner n) := by
      rcases path_dep sp n n hcyc with ⟨_, h⟩ | h
      · omega
      · exact h
    have hc := dep_cycle sp hd
    cases ho : owner n with
    | root => exact absurd ho hc.2.2
    | comp c =>
      rcases hc.1 c ho with h | ⟨b, hb, hp⟩
      · rw [ho] at h; cases h
      · rw [ho] at hb; cases hb; exact .inl ⟨c, hp⟩
    | struct s =>
      obtain ⟨t, ht, hp⟩ := hc.2.1 s ho
      rw [ho] at ht; cases ht; exact .inr ⟨s, hp⟩
  · rintro (⟨c, hc⟩ | ⟨s, hs⟩)
    · refine ⟨.comp c, .inr (.one _ _ ?_), plus_lift Node.comp (fun _ _ h => contains_path sp h) hc⟩
      obtain ⟨d, hd⟩ := plus_first hc
      simp [Child, kids, comp_bound hd]
    · refine ⟨.struct s, .inr (.one _ _ ?_), plus_lift Node.struct (fun _ _ h => field_path sp h) hs⟩
      obtain ⟨d, hd⟩ := plus_first hs
      simp [Child, kids, struct_bound hd]

/-- Non-vacuity: component 0 holds an instance of 1, which holds (in a group) one of 0. -/
def demoCyclic : Specification := ⟨[⟨[], 1, [1], [], [[(some 0, 0)]]⟩, ⟨[some 0], 1, [], [[0]], []⟩], [[none]]⟩
/-- The same without the way back. -/
def demoAcyclic : Specification := ⟨[⟨[], 1, [1], [], [[(some 0, 0)]]⟩, ⟨[some 0], 1, [], [], []⟩], [[none]]⟩

example : check (kids demoCyclic) 20 [] .root = some .cycle := by decide
example : check (kids demoAcyclic) 20 [] .root = some .ok := by decide
theorem demo_closed : Closed demoCyclic := by
  refine ⟨?_, ?_, ?_⟩
  · intro c d h
    rcases c with _ | _ | c <;>
      simp [demoCyclic, Contains, Specification.comp] at h ⊢ <;> omega
  · intro s t h
    rcases s with _ | s <;> simp [demoCyclic, HasField, Specification.struct] at h
  · intro c s h
    rcases c with _ | _ | c <;> simp [demoCyclic, Specification.comp] at h ⊢; omega

end Verif.Acyclic
