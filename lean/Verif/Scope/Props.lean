import Verif.Scope.Spec

/-!
# C08, C09: scopes
-/

namespace Verif.Scope
open Spec

/-! ### Lookup of unqualified names -/

theorem forEach_filter (want : Obj → Bool) (xs : List Obj) :
    forEach xs (fun c => (if want c then [c] else [], none)) = (xs.filter want, none) := by
  induction xs with
  | nil => rfl
  | cons x xs ih =>
    simp only [forEach, ih]
    cases h : want x <;> simp [h]

theorem lookup_single (want : Obj → Bool) (n : String) (s : Stack) :
    lookup want [n] s = ((candidates s n).filter want, none) := forEach_filter want _

theorem mem_cand_filter {want : Obj → Bool} {f : Frame} {n : String} {o : Obj} :
    o ∈ (f.filter fun o => o.name == some n).filter want ↔ Declares want f n o := by
  simp only [Declares, List.mem_filter, beq_iff_eq, and_assoc]

theorem candidates_cons (f : Frame) (s : Stack) (n : String) :
    candidates (f :: s) n = (f.filter fun o => o.name == some n) ++ candidates s n := rfl

theorem cand_head (want : Obj → Bool) (s : Stack) (n : String) (o : Obj) (rest : List Obj)
    (h : (candidates s n).filter want = o :: rest) : Innermost want s n o := by
  induction s with
  | nil => simp [candidates] at h
  | cons f s ih =>
    rw [candidates_cons, List.filter_append] at h
    cases hf : (f.filter fun o => o.name == some n).filter want with
    | nil =>
      rw [hf] at h
      obtain ⟨inner, g, outer, rfl, hd, hn⟩ := ih h
      refine ⟨f :: inner, g, outer, rfl, hd, ?_⟩
      intro g' hg' p hp
      rcases List.mem_cons.mp hg' with rfl | hg'
      · have := mem_cand_filter.mpr hp; rw [hf] at this; simp at this
      · exact hn g' hg' p hp
    | cons p ps =>
      rw [hf] at h
      simp only [List.cons_append, List.cons.injEq] at h
      refine ⟨[], f, s, rfl, ?_, by simp⟩
      rw [← h.1, ← mem_cand_filter, hf]; simp

/-- **C08 (soundness).** The first result of looking up an unqualified name is declared in the
innermost scope that declares anything of that name and kind. -/
theorem lookup_innermost (want : Obj → Bool) (n : String) (s : Stack) (o : Obj) (rest : List Obj)
    (e : Option Err) (h : lookup want [n] s = (o :: rest, e)) : Innermost want s n o := by
  rw [lookup_single] at h
  exact cand_head want s n o rest (Prod.mk.inj h).1

/-- **C08 (failure).** The lookup gives nothing exactly when no visible scope declares the name
with that kind, and it never raises. -/
theorem lookup_none_iff (want : Obj → Bool) (n : String) (s : Stack) :
    lookup want [n] s = ([], none) ↔ ∀ f ∈ s, ∀ o, ¬ Declares want f n o := by
  rw [lookup_single]
  constructor
  · intro h f hf o ho
    have h' := (Prod.mk.inj h).1
    have : o ∈ (candidates s n).filter want := by
      rw [List.mem_filter, candidates, List.mem_flatMap]
      exact ⟨⟨f, hf, by simp [List.mem_filter, ho.1, ho.2.1]⟩, ho.2.2⟩
    rw [h'] at this; simp at this
  · intro h
    have : (candidates s n).filter want = [] := by
      rw [List.filter_eq_nil_iff]
      intro o ho hw
      rw [candidates, List.mem_flatMap] at ho
      obtain ⟨f, hf, hof⟩ := ho
      simp only [List.mem_filter, beq_iff_eq] at hof
      exact h f hf o ⟨hof.1, hof.2, hw⟩
    rw [this]

/-! ### Duplicates -/

theorem sameKind_iff (o p : Obj) (h : o.kind ≠ "group/component") (h' : p.kind ≠ "group/component") :
    SameKind o p ↔ scopeType o.kind = scopeType p.kind := by
  unfold SameKind scopeType
  constructor
  · rintro (h | ⟨h1, h2⟩)
    · rw [h]
    · rw [if_pos h1, if_pos h2]
  · intro he
    split at he <;> split at he
    · rename_i h1 h2; exact .inr ⟨h1, h2⟩
    · exact absurd he.symm h'
    · exact absurd he h
    · exact .inl he

/-- **C08 (duplicates).** Declaring a named object in a scope fails exactly when the scope
already has an object of the same name and kind, and otherwise adds it and
changes nothing else. (`group/component` is not a class name.) -/
theorem register_duplicate_iff (f : Frame) (s : Stack) (o : Obj) (n : String)
    (hn : o.name = some n) (hr : o.kind ≠ "Reference")
    (hk : o.kind ≠ "group/component") (hf : ∀ p ∈ f, p.kind ≠ "group/component") :
    ((∃ p ∈ f, p.name = some n ∧ SameKind p o) → register (f :: s) o = .error (.duplicate n)) ∧
    ((¬ ∃ p ∈ f, p.name = some n ∧ SameKind p o) → register (f :: s) o = .ok ((f ++ [o]) :: s)) := by
  have hany : (f.any (fun p => p.name == some n && scopeType p.kind == scopeType o.kind)) = true ↔
      ∃ p ∈ f, p.name = some n ∧ SameKind p o := by
    simp only [List.any_eq_true, Bool.and_eq_true, beq_iff_eq]
    constructor
    · rintro ⟨p, hp, h1, h2⟩
      exact ⟨p, hp, h1, (sameKind_iff p o (hf p hp) hk).mpr h2⟩
    · rintro ⟨p, hp, h1, h2⟩
      exact ⟨p, hp, h1, (sameKind_iff p o (hf p hp) hk).mp h2⟩
  constructor
  · intro h
    simp only [register, registerFrame, if_neg hr, hn]
    rw [if_pos (hany.mpr h)]
  · intro h
    simp only [register, registerFrame, if_neg hr, hn]
    rw [if_neg (fun h' => h (hany.mp h'))]

/-- No two objects of one scope share name and kind. -/
def FrameOk (f : Frame) : Prop :=
  f.Pairwise fun o p => ¬ (o.name = p.name ∧ scopeType o.kind = scopeType p.kind) 

theorem registerFrame_ok {f f' : Frame} {o : Obj} (hf : FrameOk f) (h : registerFrame f o = .ok f') :
    FrameOk f' := by
  unfold registerFrame at h
  split at h
  · cases h
  · split at h
    · cases h; exact hf
    · rename_i n hn
      split at h
      · cases h
      · rename_i hany
        cases h
        unfold FrameOk
        rw [List.pairwise_append]
        refine ⟨hf, by simp, ?_⟩
        intro a ha b hb
        simp at hb; subst hb
        rintro ⟨h1, h2⟩
        apply hany
        simp only [List.any_eq_true, Bool.and_eq_true, beq_iff_eq]
        exact ⟨a, ha, by rw [h1, hn], h2⟩

/-- **C08 (uniqueness over histories).** Starting from no scopes, after any history of opening,
closing and declaring, no scope holds two objects with the same name and kind,
so "the" object of that kind in the innermost scope is well defined. -/
theorem history_no_duplicates (h : List Op) (s : Stack) (hr : run [] h = .ok s) :
    ∀ f ∈ s, ∀ o ∈ f, ∀ p ∈ f, o.name = p.name → SameKind o p → o = p := by
  have key : ∀ (h : List Op) (s s' : Stack), (∀ f ∈ s, FrameOk f) → run s h = .ok s' →
      ∀ f ∈ s', FrameOk f := by
    intro h
    induction h with
    | nil => intro s s' hs hr; cases hr; exact hs
    | cons op h ih =>
      intro s s' hs hr
      simp only [run] at hr
      cases hst : step s op with
      | error e => rw [hst] at hr; cases hr
      | ok s1 =>
        rw [hst] at hr
        refine ih s1 s' ?_ hr
        cases op with
        | open_ => cases hst; intro f hf; rcases List.mem_cons.mp hf with rfl | hf
                   · exact List.Pairwise.nil
                   · exact hs f hf
        | close =>
          cases s with
          | nil => cases hst
          | cons g s => cases hst; intro f hf; exact hs f (by simp [hf])
        | register o =>
          simp only [step, register] at hst
          cases s with
          | nil => cases hst
          | cons g s =>
            simp only at hst
            cases hg : registerFrame g o with
            | error e => rw [hg] at hst; cases hst
            | ok g' =>
              rw [hg] at hst; cases hst
              intro f hf
              rcases List.mem_cons.mp hf with rfl | hf
              · exact registerFrame_ok (hs g (by simp)) hg
              · exact hs f (by simp [hf])
  intro f hf o ho p hp hname hkind
  have hok := key h [] s (by simp) hr f hf
  have hsc : scopeType o.kind = scopeType p.kind := by
    unfold scopeType
    rcases hkind with h | ⟨h1, h2⟩
    · rw [h]
    · rw [if_pos h1, if_pos h2]
  clear hf hr
  induction f with
  | nil => simp at ho
  | cons a f ih =>
    unfold FrameOk at hok
    rw [List.pairwise_cons] at hok
    rcases List.mem_cons.mp ho with rfl | ho' <;> rcases List.mem_cons.mp hp with rfl | hp'
    · rfl
    · exact absurd ⟨hname, hsc⟩ (hok.1 p hp')
    · exact absurd ⟨hname.symm, hsc.symm⟩ (hok.1 o ho')
    · exact ih ho' hp' hok.2

/-! ### Qualified names -/

theorem registerAll_mem {f f' : Frame} {os : List Obj} (h : registerAll f os = .ok f') (n : String) (p : Obj)
    (hp : p.name = some n) : p ∈ f' ↔ p ∈ f ∨ p ∈ os := by
  induction os generalizing f with
  | nil => cases h; simp
  | cons o os ih =>
    simp only [registerAll] at h
    cases hr : registerFrame f o with
    | error e => rw [hr] at h; cases h
    | ok f1 =>
      rw [hr] at h
      rw [ih h]
      unfold registerFrame at hr
      split at hr
      · cases hr
      · split at hr
        · rename_i hn; cases hr
          have : p ≠ o := by rintro rfl; rw [hp] at hn; cases hn
          simp [this]
        · split at hr
          · cases hr
          · cases hr; simp [or_assoc]

theorem forEach_mem {xs : List Obj} {body : Obj → Yield} {ys : List Obj} (h : forEach xs body = (ys, none))
    (q : Obj) : q ∈ ys ↔ ∃ x ∈ xs, q ∈ (body x).1 := by
  induction xs generalizing ys with
  | nil => simp [forEach] at h; simp [h]
  | cons x xs ih =>
    simp only [forEach] at h
    cases hb : body x with
    | mk a b =>
      rw [hb] at h
      cases b with
      | some e => simp at h
      | none =>
        simp only [Prod.mk.injEq] at h
        obtain ⟨h1, h2⟩ := h
        have := ih (ys := (forEach xs body).1) (Prod.ext rfl h2)
        subst h1
        simp [this, hb]

theorem forEach_none {xs : List Obj} {body : Obj → Yield} {ys : List Obj} (h : forEach xs body = (ys, none)) :
    ∀ x ∈ xs, (body x).2 = none := by
  induction xs generalizing ys with
  | nil => simp
  | cons x xs ih =>
    simp only [forEach] at h
    cases hb : body x with
    | mk a b =>
      rw [hb] at h
      cases b with
      | some e => simp at h
      | none =>
        simp only [Prod.mk.injEq] at h
        intro y hy
        rcases List.mem_cons.mp hy with rfl | hy
        · simp [hb]
        · exact ih (ys := (forEach xs body).1) (Prod.ext rfl h.2) y hy

/-- **C08 (qualified names).** If a lookup of `a.b.c` completes, its results are exactly the
wanted objects reached from a visible declaration of `a` by following member names. -/
theorem lookup_qualified (want : Obj → Bool) (n : String) (path : List String) (s : Stack)
    (ys : List Obj) (h : lookup want (n :: path) s = (ys, none)) (q : Obj) :
    q ∈ ys ↔ want q = true ∧ ∃ f ∈ s, ∃ o ∈ f, o.name = some n ∧ Walk o path q := by
  induction path generalizing n s ys with
  | nil =>
    rw [lookup_single] at h
    obtain ⟨h1, _⟩ := Prod.mk.inj h
    subst h1
    simp only [List.mem_filter, candidates, List.mem_flatMap, beq_iff_eq]
    constructor
    · rintro ⟨⟨f, hf, ho, hn⟩, hw⟩
      exact ⟨hw, f, hf, q, ho, hn, .here q⟩
    · rintro ⟨hw, f, hf, o, ho, hn, hwalk⟩
      cases hwalk
      exact ⟨⟨f, hf, ho, hn⟩, hw⟩
  | cons m path ih =>
    simp only [lookup] at h
    rw [forEach_mem h q]
    have hnone := forEach_none h
    constructor
    · rintro ⟨c, hc, hq⟩
      have hcn := hnone c hc
      simp only [candidates, List.mem_flatMap, List.mem_filter, beq_iff_eq] at hc
      obtain ⟨f, hf, hcf, hname⟩ := hc
      cases hw : within c with
      | error e => simp only [hw] at hcn; cases hcn
      | ok g =>
        simp only [hw] at hq hcn
        rw [List.mem_filter] at hq
        have h2 := (ih m [g] _ (Prod.ext rfl hcn)).mp hq.1
        obtain ⟨hwant, g', hg', o, ho, hom, hwalk⟩ := h2
        simp at hg'; subst hg'
        have := (registerAll_mem hw m o hom).mp ho
        simp at this
        exact ⟨hwant, f, hf, c, hcf, hname, .step c m o path q this hom hwalk⟩
    · rintro ⟨hwant, f, hf, o, ho, hname, hwalk⟩
      have hoc : o ∈ candidates s n := by
        simp only [candidates, List.mem_flatMap, List.mem_filter, beq_iff_eq]
        exact ⟨f, hf, ho, hname⟩
      refine ⟨o, hoc, ?_⟩
      have hcn := hnone o hoc
      cases hw : within o with
      | error e => simp only [hw] at hcn; cases hcn
      | ok g =>
        simp only [hw] at hcn
        simp only [List.mem_filter]
        refine ⟨?_, hwant⟩
        rw [ih m [g] _ (Prod.ext rfl hcn)]
        cases hwalk with
        | step _ _ p _ _ hp hpn hpw =>
          exact ⟨hwant, g, by simp, p, (registerAll_mem hw m p hpn).mpr (.inr hp), hpn, hpw⟩

/-- **C08 (resolution).** Resolving a reference consults the assembly-wide declarations only if
the scopes enclosing it have no answer; a success is always a wanted object. -/
theorem resolve_prefers_context (want : Obj → Bool) (n : String) (ctxt assembly : Stack) (o : Obj)
    (h : resolveRef want [n] ctxt assembly = .ok (some o)) :
    Innermost want ctxt n o ∨
      ((∀ f ∈ ctxt, ∀ p, ¬ Declares want f n p) ∧ Innermost want assembly n o) := by
  unfold resolveRef at h
  split at h
  · rename_i o' rest e he
    cases h
    exact .inl (lookup_innermost want n ctxt _ _ _ he)
  · cases h
  · rename_i he
    right
    refine ⟨(lookup_none_iff want n ctxt).mp he, ?_⟩
    split at h
    · rename_i o' rest e he'
      cases h
      exact lookup_innermost want n assembly _ _ _ he'
    · cases h
    · cases h

theorem resolve_unknown_iff (want : Obj → Bool) (n : String) (ctxt assembly : Stack) :
    resolveRef want [n] ctxt assembly = .ok none ↔
      ∀ f ∈ ctxt ++ assembly, ∀ p, ¬ Declares want f n p := by
  have hA := lookup_none_iff want n ctxt
  have hB := lookup_none_iff want n assembly
  simp only [List.mem_append]
  constructor
  · intro h
    unfold resolveRef at h
    split at h
    · cases h
    · cases h
    · rename_i he
      split at h
      · cases h
      · cases h
      · rename_i he'
        intro f hf
        rcases hf with hf | hf
        · exact hA.mp he f hf
        · exact hB.mp he' f hf
  · intro h
    unfold resolveRef
    rw [hA.mpr (fun f hf => h f (.inl hf)), hB.mpr (fun f hf => h f (.inr hf))]

/-! ### C09 -/

theorem run_append (s : Stack) (h k : List Op) :
    run s (h ++ k) = (match run s h with | .error e => .error e | .ok s' => run s' k) := by
  induction h generalizing s with
  | nil => rfl
  | cons o h ih =>
    simp only [List.cons_append, run]
    cases step s o with
    | error e => rfl
    | ok s' => exact ih s'

/-- A balanced history leaves every scope but the innermost as it was. -/
theorem balanced_tail {h : List Op} (hb : Balanced h) : ∀ (f : Frame) (s s' : Stack),
    run (f :: s) h = .ok s' → ∃ f', s' = f' :: s := by
  induction hb with
  | nil => intro f s s' hr; cases hr; exact ⟨f, rfl⟩
  | register o h _ ih =>
    intro f s s' hr
    simp only [run, step, register] at hr
    cases hg : registerFrame f o with
    | error e => rw [hg] at hr; cases hr
    | ok f1 => rw [hg] at hr; exact ih f1 s s' hr
  | nest h k _ _ ih1 ih2 =>
    intro f s s' hr
    rw [List.cons_append] at hr
    simp only [run, step, openScope] at hr
    rw [run_append] at hr
    cases h1 : run ([] :: f :: s) h with
    | error e => rw [h1] at hr; cases hr
    | ok s1 =>
      rw [h1] at hr
      obtain ⟨f1, rfl⟩ := ih1 [] (f :: s) s1 h1
      simp only [run, step, closeScope] at hr
      exact ih2 f s s' hr

/-- **C09.** Opening a scope, doing anything inside it (including opening and closing further
scopes), and closing it again leaves the context as it was, so every lookup gives the
same answers as before. -/
theorem scope_exit_restores (s s' : Stack) (h : List Op) (hb : Balanced h)
    (hr : run s (.open_ :: h ++ [.close]) = .ok s') :
    s' = s ∧ ∀ want path, lookup want path s' = lookup want path s := by
  have : s' = s := by
    rw [List.cons_append] at hr
    simp only [run, step, openScope] at hr
    rw [run_append] at hr
    cases h1 : run ([] :: s) h with
    | error e => rw [h1] at hr; cases hr
    | ok s1 =>
      rw [h1] at hr
      obtain ⟨f1, rfl⟩ := balanced_tail hb [] s s1 h1
      cases hr; rfl
  exact ⟨this, by subst this; intros; rfl⟩

/-- While the scope is open, an inner declaration hides the outer one; the example also shows
that the hypotheses of the theorems above are satisfiable. -/
example :
    let a := Obj.mk 1 "Component" (some "a") []
    let b := Obj.mk 2 "Component" (some "a") []
    run [] [.open_, .register a, .open_, .register b] = .ok [[b], [a]] ∧
    lookup (fun _ => true) ["a"] [[b], [a]] = ([b, a], none) ∧
    run [[a]] (.open_ :: [.register b] ++ [.close]) = .ok [[a]] ∧
    register [[a]] b = .error (.duplicate "a") ∧ Balanced [.register b] := by
  refine ⟨rfl, rfl, rfl, rfl, .register _ _ .nil⟩

example :
    let i := Obj.mk 2 "Dataport" (some "d") []
    let a := Obj.mk 1 "Instance" (some "a") [i]
    lookup (fun o => o.kind == "Dataport") ["a", "d"] [[a]] = ([i], none) := rfl

end Verif.Scope
