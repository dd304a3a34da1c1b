import Verif.Frozen.Spec
import Mathlib.Tactic.Tauto

namespace Verif.Frozen
open Spec

variable {pre post : Heap → Id → Option Err}

theorem set_same (h : Heap) (o : Id) (x : Obj) : set h o x o = x := by simp [set]
theorem set_other (h : Heap) (o i : Id) (x : Obj) (hi : i ≠ o) : set h o x i = h i := by simp [set, hi]

theorem getField_iff (x : Obj) (f : String) (v : FVal) : getField x.fields f = some v ↔ FieldIs x f v := by
  unfold FieldIs
  generalize x.fields = fs
  induction fs with
  | nil => simp [getField]
  | cons p rest ih =>
    obtain ⟨k, w⟩ := p
    rw [getField]
    by_cases hk : k = f
    · rw [if_pos hk]
      constructor
      · intro h; cases h; exact ⟨[], rest, by rw [hk]; rfl, by simp⟩
      · rintro ⟨pre, post, h1, h2⟩
        cases pre with
        | nil => cases h1; rfl
        | cons q pre => cases h1; exact absurd hk (h2 (k, w) (by simp))
    · rw [if_neg hk, ih]
      constructor
      · rintro ⟨pre, post, h1, h2⟩
        refine ⟨(k, w) :: pre, post, by rw [h1]; rfl, ?_⟩
        intro p hp
        rcases List.mem_cons.mp hp with rfl | hp
        · exact hk
        · exact h2 p hp
      · rintro ⟨pre, post, h1, h2⟩
        cases pre with
        | nil => cases h1; exact absurd rfl hk
        | cons q pre => cases h1; exact ⟨pre, post, rfl, fun p hp => h2 p (by simp [hp])⟩

/-- Objects frozen before are untouched. -/
def Keeps (h h' : Heap) : Prop := ∀ x, (h x).frozen = true → h' x = h x

theorem Keeps.trans {a b c : Heap} (h1 : Keeps a b) (h2 : Keeps b c) : Keeps a c := by
  intro x hx
  have := h1 x hx
  rw [h2 x (by rw [this]; exact hx), this]

theorem keeps_set (h : Heap) (o : Id) (x : Obj) (hf : (h o).frozen = false) : Keeps h (set h o x) := by
  intro i hi
  apply set_other
  rintro rfl
  rw [hf] at hi; cases hi

theorem freezeList_keeps (f : Heap → Id → Heap × Option Err) (hf : ∀ h o, Keeps h (f h o).1) :
    ∀ (l : List Id) (h : Heap), Keeps h (freezeList f l h).1 := by
  intro l
  induction l with
  | nil => intro h x _; rfl
  | cons c rest ih =>
    intro h
    simp only [freezeList]
    have := hf h c
    split
    · rename_i h' e he; rw [he] at this; exact this
    · rename_i h' he; rw [he] at this; exact this.trans (ih h')

theorem freeze_keeps : ∀ (n : Nat) (h : Heap) (o : Id), Keeps h (freeze pre post n h o).1 := by
  intro n
  induction n with
  | zero => intro h o x _; rfl
  | succ n ih =>
    intro h o
    simp only [freeze]
    split
    · intro x _; rfl
    · split
      · split <;> (intro x _; rfl)
      · rename_i hk hf
        have hf' : (h o).frozen = false := by simpa using hf
        split
        · intro x _; rfl
        · have h1 := keeps_set h o (toTuples (h o)) hf'
          have h2 := freezeList_keeps (freeze pre post n) ih (children (toTuples (h o))) (set h o (toTuples (h o)))
          split
          · rename_i h2' e he; rw [he] at h2; exact h1.trans h2
          · rename_i h2' he
            rw [he] at h2
            have h12 := h1.trans h2
            intro x hx
            simp only
            by_cases hxo : x = o
            · subst hxo; rw [hf'] at hx; cases hx
            · rw [set_other _ _ _ _ hxo]; exact h12 x hx

theorem step_keeps (h : Heap) (op : Op) (hop : Op.IsAssignment op) : Keeps h (step pre post h op).1 := by
  cases op with
  | assign o f v ok cf =>
    simp only [step]
    split
    · intro x _; rfl
    · split
      · intro x _; rfl
      · rename_i hf; exact keeps_set _ _ _ (by simpa using hf)
  | unfreeze o => simp only [step]; split <;> (intro x _; rfl)
  | setLocation o l =>
    simp only [step]; split
    · intro x _; rfl
    · rename_i hf; exact keeps_set _ _ _ (by simpa using hf)
  | setParent o p =>
    simp only [step]; split
    · intro x _; rfl
    · rename_i hf; exact keeps_set _ _ _ (by simpa using hf)
  | freeze o n => exact freeze_keeps n h o
  | append o f c => exact absurd hop (by simp [Op.IsAssignment])

/-- C23: whatever attributes of whatever objects a program later assigns or freezes, an object
that is frozen stays as it is, in all its fields, and stays frozen. -/
theorem frozen_immutable (h : Heap) (ops : List Op) (hops : ∀ op ∈ ops, Op.IsAssignment op) (o : Id)
    (hf : (h o).frozen = true) : run pre post h ops o = h o := by
  unfold run
  induction ops generalizing h with
  | nil => rfl
  | cons op ops ih =>
    have h1 := step_keeps (pre := pre) (post := post) h op (hops op (by simp)) o hf
    simp only [List.foldl_cons]
    rw [ih _ (fun p hp => hops p (by simp [hp])) (by rw [h1]; exact hf), h1]

theorem getField_setField (fs : List (String × FVal)) (f g : String) (v : FVal) :
    getField (setField fs f v) g = if f = g then some v else getField fs g := by
  induction fs with
  | nil => simp [setField, getField]
  | cons p fs ih =>
    obtain ⟨k, w⟩ := p
    simp only [setField]
    by_cases hk : k = f
    · subst hk; simp only [if_true, getField]; split <;> rfl
    · simp only [if_neg hk, getField, ih]
      by_cases hm : k = g
      · subst hm; simp only [if_true]; rw [if_neg (fun e => hk e.symm)]
      · simp only [if_neg hm]

/-- C23: a frozen object none of whose fields is a list cannot be changed in place either. -/
theorem frozen_tuples_immutable (h : Heap) (ops : List Op) (o : Id) (hf : (h o).frozen = true)
    (hl : NoLists (h o)) : run pre post h ops o = h o := by
  unfold run
  induction ops generalizing h with
  | nil => rfl
  | cons op ops ih =>
    have h1 : (step pre post h op).1 o = h o := by
      cases op with
      | append p f c =>
        simp only [step]
        by_cases hpo : p = o
        · subst hpo
          split
          · rename_i l hg; exact absurd ((getField_iff _ f _).mp hg) (hl f l)
          · rfl
        · split
          · exact set_other _ _ _ _ (fun e => hpo e.symm)
          · rfl
      | assign a0 a1 a2 a3 a4 => exact step_keeps h (.assign a0 a1 a2 a3 a4) trivial o hf
      | unfreeze a0 => exact step_keeps h (.unfreeze a0) trivial o hf
      | setLocation a0 a1 => exact step_keeps h (.setLocation a0 a1) trivial o hf
      | setParent a0 a1 => exact step_keeps h (.setParent a0 a1) trivial o hf
      | freeze a0 a1 => exact step_keeps h (.freeze a0 a1) trivial o hf
    simp only [List.foldl_cons]
    rw [ih _ (by rw [h1]; exact hf) (by rw [h1]; exact hl), h1]

/-- C23: assigning an attribute of a frozen object, its location or its parent, or unfreezing
it, raises an exception and changes nothing. -/
theorem frozen_assign_raises (h : Heap) (o : Id) (hf : (h o).frozen = true) :
    (∀ f v cf, step pre post h (.assign o f v true cf) = (h, some .typeError)) ∧
    (∀ l, step pre post h (.setLocation o l) = (h, some .typeError)) ∧
    (∀ p, step pre post h (.setParent o p) = (h, some .typeError)) ∧
    step pre post h (.unfreeze o) = (h, some .typeError) := by
  simp [step, hf]

/-! ### Freezing is deep -/

theorem mem_children (x : Obj) (c : Id) : c ∈ children x ↔ Holds x c := by
  unfold children Holds
  simp only [List.mem_flatMap]
  constructor
  · rintro ⟨f, hf, hc⟩
    refine ⟨f, hf, ?_⟩
    cases hg : getField x.fields f with
    | none => rw [hg] at hc; simp at hc
    | some v =>
      rw [hg] at hc
      have hv := (getField_iff x f v).mp hg
      cases v with
      | scalar n => simp [kidsOf] at hc
      | child o =>
        cases o with
        | none => simp [kidsOf] at hc
        | some d => simp only [kidsOf, Option.toList_some, List.mem_singleton] at hc; subst hc; exact .inl hv
      | seq t l => exact .inr ⟨t, l, hv, hc⟩
  · rintro ⟨f, hf, hv | ⟨t, l, hv, hc⟩⟩
    · refine ⟨f, hf, ?_⟩
      rw [(getField_iff x f _).mpr hv]; simp [kidsOf]
    · refine ⟨f, hf, ?_⟩
      rw [(getField_iff x f _).mpr hv]; exact hc

def Closed (h : Heap) : Prop := ∀ o, (h o).frozen = true → ∀ c ∈ children (h o), (h c).frozen = true

theorem children_toTuples (x : Obj) : children (toTuples x) = children x := by
  unfold children
  have key : ∀ (fs : List (String × FVal)) (f : String),
      (match getField (fs.map fun (k, v) => (k, match v with
        | .seq t l => if k ∈ x.tupled then FVal.seq true l else .seq t l
        | w => w)) f with | some v => kidsOf v | none => []) =
      (match getField fs f with | some v => kidsOf v | none => []) := by
    intro fs f
    induction fs with
    | nil => rfl
    | cons p fs ih =>
      obtain ⟨k, v⟩ := p
      simp only [List.map_cons, getField]
      by_cases hk : k = f
      · simp only [hk, if_true]
        cases v with
        | scalar n => rfl
        | child c => rfl
        | seq t l => simp only; split <;> rfl
      · simp only [hk, if_false]; exact ih
  have : (toTuples x).childFields = x.childFields := rfl
  rw [this]
  congr 1
  funext f
  exact key x.fields f

theorem toTuples_frozen (x : Obj) : (toTuples x).frozen = x.frozen := rfl

/-- What `freeze` preserves. -/
structure Good (h h' : Heap) : Prop where
  keeps : Keeps h h'
  closed : Closed h → Closed h'
  kids : ∀ x, children (h' x) = children (h x)

theorem Good.refl (h : Heap) : Good h h := ⟨fun _ _ => rfl, fun h => h, fun _ => rfl⟩
theorem Good.trans {a b c : Heap} (h1 : Good a b) (h2 : Good b c) : Good a c :=
  ⟨h1.keeps.trans h2.keeps, fun h => h2.closed (h1.closed h), fun x => (h2.kids x).trans (h1.kids x)⟩

theorem Good.frozen {a b : Heap} (h : Good a b) {x : Id} (hx : (a x).frozen = true) : (b x).frozen = true := by
  rw [h.keeps x hx]; exact hx

theorem freezeList_good (f : Heap → Id → Heap × Option Err)
    (hf : ∀ h o, Good h (f h o).1 ∧ ((f h o).2 = none → ((f h o).1 o).frozen = true)) :
    ∀ (l : List Id) (h : Heap), Good h (freezeList f l h).1 ∧
      ((freezeList f l h).2 = none → ∀ c ∈ l, ((freezeList f l h).1 c).frozen = true) := by
  intro l
  induction l with
  | nil => intro h; exact ⟨Good.refl h, by simp⟩
  | cons c rest ih =>
    intro h
    simp only [freezeList]
    obtain ⟨g1, g2⟩ := hf h c
    split
    · rename_i h' e he
      rw [he] at g1
      exact ⟨g1, by simp⟩
    · rename_i h' he
      rw [he] at g1 g2
      obtain ⟨g3, g4⟩ := ih h'
      refine ⟨g1.trans g3, ?_⟩
      intro hn d hd
      rcases List.mem_cons.mp hd with rfl | hd
      · exact g3.frozen (g2 rfl)
      · exact g4 hn d hd

theorem freeze_good : ∀ (n : Nat) (h : Heap) (o : Id), Good h (freeze pre post n h o).1 ∧
    ((freeze pre post n h o).2 = none → ((freeze pre post n h o).1 o).frozen = true) := by
  intro n
  induction n with
  | zero => intro h o; exact ⟨Good.refl h, by simp [freeze]⟩
  | succ n ih =>
    intro h o
    simp only [freeze]
    split
    · exact ⟨Good.refl h, by simp⟩
    · split
      · rename_i hf
        split
        · exact ⟨Good.refl h, by simp⟩
        · exact ⟨Good.refl h, fun _ => hf⟩
      · rename_i hk hf
        have hf' : (h o).frozen = false := by simpa using hf
        split
        · exact ⟨Good.refl h, by simp⟩
        · have g1 : Good h (set h o (toTuples (h o))) := by
            refine ⟨keeps_set _ _ _ hf', ?_, ?_⟩
            · intro hc x hx c hcm
              by_cases hxo : x = o
              · subst hxo; rw [set_same, toTuples_frozen, hf'] at hx; cases hx
              · rw [set_other _ _ _ _ hxo] at hx hcm
                have := hc x hx c hcm
                by_cases hco : c = o
                · subst hco; rw [hf'] at this; cases this
                · rw [set_other _ _ _ _ hco]; exact this
            · intro x
              by_cases hxo : x = o
              · subst hxo; rw [set_same, children_toTuples]
              · rw [set_other _ _ _ _ hxo]
          obtain ⟨g2, g3⟩ := freezeList_good (freeze pre post n) ih (children (toTuples (h o)))
            (set h o (toTuples (h o)))
          split
          · rename_i h2 e he
            rw [he] at g2
            exact ⟨g1.trans g2, by simp⟩
          · rename_i h2 he
            rw [he] at g2 g3
            simp only at g2
            have g12 := g1.trans g2
            simp only at g3 ⊢
            refine ⟨g12.trans ⟨?_, ?_, ?_⟩, ?_⟩
            · intro x hx
              by_cases hxo : x = o
              · subst hxo
                rw [set_same]
                cases hh : h2 x
                rw [hh] at hx
                simp only at hx
                simp [hx]
              · exact set_other _ _ _ _ hxo
            · intro hc x hx c hcm
              have hkid : ∀ c ∈ children (h2 o), (h2 c).frozen = true := by
                intro c hcm
                rw [g12.kids o, ← children_toTuples] at hcm
                exact g3 trivial c hcm
              have hset : ∀ c, (h2 c).frozen = true → (set h2 o { h2 o with frozen := true } c).frozen = true := by
                intro c hcf
                by_cases hco : c = o
                · subst hco; rw [set_same]
                · rw [set_other _ _ _ _ hco]; exact hcf
              apply hset
              by_cases hxo : x = o
              · subst hxo; rw [set_same] at hcm; exact hkid c hcm
              · rw [set_other _ _ _ _ hxo] at hx hcm; exact hc x hx c hcm
            · intro x
              by_cases hxo : x = o
              · subst hxo; rw [set_same]; rfl
              · rw [set_other _ _ _ _ hxo]
            · intro _; rw [set_same]

/-- C23: a freeze that raises nothing leaves the object frozen. -/
theorem freeze_freezes (n : Nat) (h : Heap) (o : Id) (hn : (freeze pre post n h o).2 = none) :
    ((freeze pre post n h o).1 o).frozen = true := (freeze_good n h o).2 hn

theorem step_closed (h : Heap) (op : Op) (hop : Op.IsAssignment op) (hc : Closed h) :
    Closed (step pre post h op).1 := by
  have upd : ∀ (o : Id) (x : Obj), (h o).frozen = false → x.frozen = false → Closed (set h o x) := by
    intro o x ho hx y hy c hcm
    by_cases hyo : y = o
    · subst hyo; rw [set_same, hx] at hy; cases hy
    · rw [set_other _ _ _ _ hyo] at hy hcm
      have := hc y hy c hcm
      by_cases hco : c = o
      · subst hco; rw [ho] at this; cases this
      · rw [set_other _ _ _ _ hco]; exact this
  cases op with
  | assign o f v ok cf =>
    simp only [step]
    split
    · exact hc
    · split
      · exact hc
      · rename_i hf; exact upd _ _ (by simpa using hf) (by simpa using hf)
  | unfreeze o => simp only [step]; split <;> exact hc
  | setLocation o l =>
    simp only [step]; split
    · exact hc
    · rename_i hf; exact upd _ _ (by simpa using hf) (by simpa using hf)
  | setParent o p =>
    simp only [step]; split
    · exact hc
    · rename_i hf; exact upd _ _ (by simpa using hf) (by simpa using hf)
  | freeze o n => exact (freeze_good n h o).1.closed hc
  | append o f c => exact absurd hop (by simp [Op.IsAssignment])

/-- C23: in every program that starts with unfrozen objects, at every moment every descendant of
a frozen object is frozen. -/
theorem descendants_frozen (h : Heap) (h0 : ∀ o, (h o).frozen = false) (ops : List Op)
    (hops : ∀ op ∈ ops, Op.IsAssignment op) (o d : Id) (hf : (run pre post h ops o).frozen = true)
    (hd : Descendant (run pre post h ops) o d) : (run pre post h ops d).frozen = true := by
  have hcl : ∀ (ops : List Op) (h : Heap), (∀ op ∈ ops, Op.IsAssignment op) → Closed h → Closed (run pre post h ops) := by
    intro ops
    induction ops with
    | nil => intro h _ hc; exact hc
    | cons op ops ih =>
      intro h hops hc
      exact ih _ (fun p hp => hops p (by simp [hp])) (step_closed h op (hops op (by simp)) hc)
  have hc := hcl ops h hops (by intro o ho; rw [h0] at ho; cases ho)
  induction hd with
  | child c hm => exact hc o hf c ((mem_children _ _).mpr hm)
  | trans c d _ hm ih => exact hc c ih d ((mem_children _ _).mpr hm)

/-! ### Sequences become tuples -/

/-- The fields that the class turns into tuples are tuples. -/
def TupOk (x : Obj) : Prop := ∀ f ∈ x.tupled, ∀ l, getField x.fields f ≠ some (.seq false l)

theorem toTuples_ok (x : Obj) : TupOk (toTuples x) := by
  intro f hf l
  have hf' : f ∈ x.tupled := hf
  show getField (x.fields.map _) f ≠ _
  generalize x.fields = fs
  induction fs with
  | nil => simp [getField]
  | cons p fs ih =>
    obtain ⟨k, v⟩ := p
    simp only [List.map_cons, getField]
    by_cases hk : k = f
    · subst hk
      rw [if_pos rfl]
      cases v with
      | scalar n => simp
      | child c => simp
      | seq t l' => simp [hf']
    · rw [if_neg hk]; exact ih

def Tup (h h' : Heap) : Prop := ∀ x, TupOk (h x) → TupOk (h' x)

theorem tup_set (h : Heap) (o : Id) (x : Obj) (hx : TupOk (h o) → TupOk x) : Tup h (set h o x) := by
  intro y hy
  by_cases hyo : y = o
  · subst hyo; rw [set_same]; exact hx hy
  · rw [set_other _ _ _ _ hyo]; exact hy

/-- Every frozen object has its tuples. -/
def TupClosed (h : Heap) : Prop := ∀ o, (h o).frozen = true → TupOk (h o)

theorem freezeList_tup (f : Heap → Id → Heap × Option Err) (hf : ∀ h o, Tup h (f h o).1 ∧ (TupClosed h → TupClosed (f h o).1)) :
    ∀ (l : List Id) (h : Heap), Tup h (freezeList f l h).1 ∧ (TupClosed h → TupClosed (freezeList f l h).1) := by
  intro l
  induction l with
  | nil => intro h; exact ⟨fun _ hx => hx, fun hc => hc⟩
  | cons c rest ih =>
    intro h
    simp only [freezeList]
    obtain ⟨g1, g2⟩ := hf h c
    split
    · rename_i h' e he
      rw [he] at g1 g2
      exact ⟨g1, g2⟩
    · rename_i h' he
      rw [he] at g1 g2
      obtain ⟨g3, g4⟩ := ih h'
      exact ⟨fun x hx => g3 x (g1 x hx), fun hc => g4 (g2 hc)⟩

theorem freeze_tup : ∀ (n : Nat) (h : Heap) (o : Id), Tup h (freeze pre post n h o).1 ∧ (TupClosed h → TupClosed (freeze pre post n h o).1) := by
  intro n
  induction n with
  | zero => intro h o; exact ⟨fun _ hx => hx, fun hc => hc⟩
  | succ n ih =>
    intro h o
    simp only [freeze]
    split
    · exact ⟨fun _ hx => hx, fun hc => hc⟩
    · split
      · split <;> exact ⟨fun _ hx => hx, fun hc => hc⟩
      · rename_i hk hf
        split
        · exact ⟨fun _ hx => hx, fun hc => hc⟩
        · have g1 : Tup h (set h o (toTuples (h o))) := tup_set _ _ _ (fun _ => toTuples_ok _)
          have c1 : TupClosed h → TupClosed (set h o (toTuples (h o))) := by
            intro hc x hx
            by_cases hxo : x = o
            · subst hxo; rw [set_same]; exact toTuples_ok _
            · rw [set_other _ _ _ _ hxo] at hx ⊢; exact hc x hx
          obtain ⟨g2, c2⟩ := freezeList_tup (freeze pre post n) ih (children (toTuples (h o))) (set h o (toTuples (h o)))
          split
          · rename_i h2 e he
            rw [he] at g2 c2
            exact ⟨fun x hx => g2 x (g1 x hx), fun hc => c2 (c1 hc)⟩
          · rename_i h2 he
            rw [he] at g2 c2
            have ho : TupOk (h2 o) := g2 o (by rw [set_same]; exact toTuples_ok _)
            refine ⟨fun x hx => tup_set h2 o { h2 o with frozen := true } (fun h => h) x (g2 x (g1 x hx)), fun hc x hx => ?_⟩
            dsimp only at hx ⊢
            by_cases hxo : x = o
            · subst hxo; rw [set_same]; exact ho
            · rw [set_other _ _ _ _ hxo] at hx ⊢; exact c2 (c1 hc) x hx

/-- C23: in every program (in-place changes of lists included) that starts with unfrozen objects, the
sequences of a frozen object that its class converts are tuples, which cannot be changed in place. -/
theorem frozen_sequences_tuples (h : Heap) (h0 : ∀ o, (h o).frozen = false) (ops : List Op) (o : Id)
    (hf : (run pre post h ops o).frozen = true) (f : String) (hfm : f ∈ (run pre post h ops o).tupled) (l : List Id) :
    ¬ FieldIs (run pre post h ops o) f (.seq false l) := by
  have hcl : ∀ (ops : List Op) (h : Heap), TupClosed h → TupClosed (run pre post h ops) := by
    intro ops
    induction ops with
    | nil => intro h hc; exact hc
    | cons op ops ih =>
      intro h hc
      refine ih _ ?_
      have upd : ∀ (o : Id) (x : Obj), (h o).frozen = false → x.frozen = false → TupClosed (set h o x) := by
        intro o x ho hx y hy
        by_cases hyo : y = o
        · subst hyo; rw [set_same, hx] at hy; cases hy
        · rw [set_other _ _ _ _ hyo] at hy ⊢; exact hc y hy
      cases op with
      | assign o f v ok cf =>
        simp only [step]
        split
        · exact hc
        · split
          · exact hc
          · rename_i hf; exact upd _ _ (by simpa using hf) (by simpa using hf)
      | unfreeze o => simp only [step]; split <;> exact hc
      | setLocation o l =>
        simp only [step]; split
        · exact hc
        · rename_i hf; exact upd _ _ (by simpa using hf) (by simpa using hf)
      | setParent o p =>
        simp only [step]; split
        · exact hc
        · rename_i hf; exact upd _ _ (by simpa using hf) (by simpa using hf)
      | freeze o n => exact (freeze_tup n h o).2 hc
      | append o f c =>
        simp only [step]
        split
        · rename_i l hg
          dsimp only
          intro y hy
          by_cases hyo : y = o
          · subst hyo
            rw [set_same] at hy ⊢
            have hy' : (h y).frozen = true := hy
            intro g hgm l'
            have hok := hc y hy' g hgm
            show getField (setField (h y).fields f _) g ≠ _
            rw [getField_setField]
            split
            · rename_i hfg; subst hfg; exact absurd hg (hok l)
            · exact hok l'
          · rw [set_other _ _ _ _ hyo] at hy ⊢; exact hc y hy
        · exact hc
  have hc := hcl ops h (by intro o ho; rw [h0] at ho; cases ho)
  intro hfi
  exact hc o hf f hfm l ((getField_iff _ _ _).mpr hfi)

/-- C23 (partial: not for the classes `Composition` and `LiftedAST`, see `refreeze_raises`):
freezing a frozen object again changes nothing. -/
theorem freeze_idempotent_partial (n : Nat) (h : Heap) (o : Id) (hf : (h o).frozen = true) (hk : (h o).kind = .plain) :
    freeze pre post (n + 1) h o = (h, none) := by
  simp [freeze, hf, hk]

/-- C23 is false of compositions and of the lifted AST itself: freezing one a second time raises
an exception. -/
theorem refreeze_raises (n : Nat) (h : Heap) (o : Id) (hf : (h o).frozen = true) (hk : (h o).kind = .strict) :
    freeze pre post (n + 1) h o = (h, some .typeError) := by
  simp [freeze, hf, hk]

/-! ### Concrete case -/

def leaf (k : Kind) : Obj := ⟨k, false, 0, none, [("name", .scalar 1)], [], []⟩
/-- Object 0: a procedure with a list field `methods` (not turned into a tuple); object 2: a
connection with tuple field. -/
def demoHeap : Heap := fun i =>
  if i = 0 then ⟨.plain, false, 0, none, [("methods", .seq false [1])], ["methods"], []⟩
  else if i = 2 then ⟨.plain, false, 0, none, [("from_ends", .seq false [3])], ["from_ends"], ["from_ends"]⟩
  else leaf .plain

def noCheck : Heap → Id → Option Err := fun _ _ => none

example : (run noCheck noCheck demoHeap [.freeze 2 5] 2).frozen = true ∧
    (run noCheck noCheck demoHeap [.freeze 2 5] 3).frozen = true ∧
    (run noCheck noCheck demoHeap [.freeze 2 5] 2).fields = [("from_ends", .seq true [3])] := by decide

/-- A list field that a class does not turn into a tuple (for instance the methods of a
procedure) can still be extended in place after freezing, with objects that are not frozen. -/
theorem list_field_mutable :
    let h := run noCheck noCheck demoHeap [.freeze 0 5, .append 0 "methods" 7]
    (h 0).frozen = true ∧ Holds (h 0) 7 ∧ (h 7).frozen = false := by
  refine ⟨by decide, (mem_children _ _).mp (by decide), by decide⟩

end Verif.Frozen
