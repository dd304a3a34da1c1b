import Verif.TypeCheck.Spec
import Mathlib.Tactic.Tauto

namespace Verif.TypeCheck
open Spec

theorem dget_iff (d : List (String × Val)) (n : String) (v : Val) : dget d n = some v ↔ HasField d n v := by
  unfold HasField
  induction d with
  | nil => simp [dget]
  | cons p rest ih =>
    obtain ⟨k, w⟩ := p
    rw [dget]
    by_cases hk : k = n
    · rw [if_pos hk]
      constructor
      · intro h; cases h; exact ⟨[], rest, by rw [hk]; rfl, by simp⟩
      · rintro ⟨pre, post, h1, h2⟩
        cases pre with
        | nil => cases h1; rfl
        | cons q pre => cases h1; exact absurd hk (h2 (k, w) (by simp))
    · rw [if_neg hk, ih]
      constructor
      · rintro ⟨pre, post, h1, h2⟩
        refine ⟨(k, w) :: pre, post, by rw [h1]; rfl, ?_⟩
        intro p hp
        rcases List.mem_cons.mp hp with rfl | hp
        · exact hk
        · exact h2 p hp
      · rintro ⟨pre, post, h1, h2⟩
        cases pre with
        | nil => cases h1; exact absurd rfl hk
        | cons q pre => cases h1; exact ⟨pre, post, rfl, fun p hp => h2 p (by simp [hp])⟩

theorem find_name {α : Type} (f : α → String) : ∀ (l : List α) (x : α), (l.map f).Nodup → x ∈ l →
    l.find? (fun y => f y = f x) = some x := by
  intro l
  induction l with
  | nil => intro x _ h; cases h
  | cons a l ih =>
    intro x hn hx
    rw [List.map_cons, List.nodup_cons] at hn
    rcases List.mem_cons.mp hx with rfl | hx
    · simp
    · have : f a ≠ f x := fun e => hn.1 (by rw [e]; exact List.mem_map_of_mem hx)
      rw [List.find?_cons_of_neg (by simpa using this)]
      exact ih x hn.2 hx

theorem declOf_of_declares {insts : List Inst} (hd : Distinct insts) {s : Setting} {a : Attr}
    (h : Declares insts s a) : declOf insts s = some a := by
  obtain ⟨i, hi, h1, ha, h2⟩ := h
  unfold declOf
  rw [← h1, ← h2, find_name (·.name) insts i hd.1 hi]
  exact find_name (·.name) i.attrs a (hd.2 i hi) ha

theorem dget_dset (d : List (String × Val)) (n : String) (v : Val) (m : String) :
    dget (dset d n v) m = if n = m then some v else dget d m := by
  induction d with
  | nil => simp [dset, dget]
  | cons p d ih =>
    obtain ⟨k, w⟩ := p
    simp only [dset]
    by_cases hk : k = n
    · subst hk
      simp only [if_true, dget]
      split <;> rfl
    · simp only [if_neg hk, dget, ih]
      by_cases hm : k = m
      · subst hm
        simp only [if_true]
        rw [if_neg (fun e => hk e.symm)]
      · simp only [if_neg hm]

theorem baseOk_iff (t : String) (v : Val) : baseOk t v = true ↔ HasType (.base t) v := by
  constructor
  · intro h
    cases v with
    | int n => simp [baseOk] at h; exact .int _ _ (by simp; tauto)
    | float b => simp [baseOk] at h; exact .float _ _ (by simp; tauto)
    | str s => simp [baseOk] at h; subst h; exact .string _
    | list l => simp [baseOk] at h; subst h; exact .list _
    | dict d => simp [baseOk] at h; subst h; exact .dict _
  · intro h
    cases h with
    | int _ n hm => simp [baseOk] at hm ⊢; tauto
    | float _ b hm => simp [baseOk] at hm ⊢; tauto
    | string s => simp [baseOk]
    | list l => simp [baseOk]
    | dict d => simp [baseOk]

theorem mapE_ok (f : Val → Except Err Val) (P : Val → Prop) (hf : ∀ v v', f v = .ok v' → P v') :
    ∀ (l l' : List Val), mapE f l = .ok l' → ∀ v ∈ l', P v := by
  intro l
  induction l with
  | nil => intro l' h; cases h; simp
  | cons a l ih =>
    intro l' h
    simp only [mapE] at h
    split at h
    · cases h
    · rename_i v' hv
      split at h
      · cases h
      · rename_i r hr
        cases h
        intro v hm
        rcases List.mem_cons.mp hm with rfl | hm
        · exact hf _ _ hv
        · exact ih r hr v hm

/-- Fields not named are left alone. -/
theorem fields_frame : ∀ (fs : Fields) (d d' : List (String × Val)), fields fs d = .ok d' →
    ∀ m, m ∉ names fs → dget d' m = dget d m
  | .nil, d, d', h, m, _ => by simp only [fields] at h; cases h; rfl
  | .cons n ty arr df rest, d, d', h, m, hm => by
    simp only [names, List.mem_cons, not_or] at hm
    simp only [fields] at h
    split at h
    · cases h
    · split at h
      · cases h
      · rename_i v' _
        rw [fields_frame rest _ d' h m hm.2, dget_dset, if_neg (fun e => hm.1 e.symm)]

theorem hasFields_congr : ∀ (fs : Fields) (d d' : List (String × Val)), HasFields fs d →
    (∀ m ∈ names fs, dget d' m = dget d m) → HasFields fs d'
  | .nil, _, _, _, _ => .nil _
  | .cons n ty arr df rest, d, d', h, hc => by
    cases h with
    | scalar _ _ _ _ _ v h1 h2 h3 =>
      refine .scalar _ _ _ _ _ v ?_ h2 (hasFields_congr rest d d' h3 fun m hm => hc m (by simp [names, hm]))
      rw [← dget_iff] at h1 ⊢; rw [hc n (by simp [names])]; exact h1
    | array _ _ _ _ _ l h1 h2 h3 =>
      refine .array _ _ _ _ _ l ?_ h2 (hasFields_congr rest d d' h3 fun m hm => hc m (by simp [names, hm]))
      rw [← dget_iff] at h1 ⊢; rw [hc n (by simp [names])]; exact h1

mutual
theorem one_sound : ∀ (ty : Ty), WfTy ty → ∀ v v', one ty v = .ok v' → HasType ty v'
  | .base t, _, v, v', h => by
    simp only [one] at h
    split at h
    · rename_i hb; cases h; exact (baseOk_iff t v).mp hb
    · cases h
  | .struct fs, hw, v, v', h => by
    cases v with
    | dict d =>
      simp only [one] at h
      split at h
      · cases h
      · rename_i d' hd
        cases h
        cases hw with
        | struct _ hn hwf => exact .struct _ _ (fields_sound fs hn hwf _ _ hd)
    | int n => simp only [one] at h; cases h
    | float n => simp only [one] at h; cases h
    | str n => simp only [one] at h; cases h
    | list n => simp only [one] at h; cases h

theorem fields_sound : ∀ (fs : Fields), (names fs).Nodup → WfFields fs → ∀ d d', fields fs d = .ok d' → HasFields fs d'
  | .nil, _, _, d, d', h => .nil _
  | .cons n ty arr df rest, hn, hw, d, d', h => by
    simp only [names, List.nodup_cons] at hn
    have hwt : WfTy ty := by cases hw; assumption
    have hwr : WfFields rest := by cases hw; assumption
    simp only [fields] at h
    split at h
    · cases h
    · rename_i v hv
      split at h
      · cases h
      · rename_i v' hv'
        have ihr := fields_sound rest hn.2 hwr _ d' h
        have hget : dget d' n = some v' := by
          rw [fields_frame rest _ d' h n hn.1, dget_dset, if_pos rfl]
        have iht := one_sound ty hwt
        cases arr with
        | false =>
          simp only [Bool.false_eq_true, if_false] at hv'
          exact .scalar _ _ _ _ _ v' ((dget_iff _ _ _).mp hget) (iht _ _ hv') ihr
        | true =>
          simp only [if_true] at hv'
          split at hv'
          · rename_i l
            split at hv'
            · cases hv'
            · rename_i l' hl
              cases hv'
              exact .array _ _ _ _ _ l' ((dget_iff _ _ _).mp hget) (mapE_ok _ _ iht l l' hl) ihr
          · cases hv'
end

theorem typesCompatible_sound (a : Attr) (hw : WfTy a.ty) (v v' : Val) (h : typesCompatible v a = .ok v') :
    AttrHas a v' := by
  unfold typesCompatible at h
  split at h
  · rename_i ha
    split at h
    · split at h
      · cases h
      · rename_i l l' hl
        cases h
        exact .inr ⟨ha, _, rfl, mapE_ok _ _ (one_sound a.ty hw) _ _ hl⟩
    · cases h
  · rename_i ha
    exact .inl ⟨by simpa using ha, one_sound a.ty hw v v' h⟩

/-- C24: if the settings of an assembly are accepted, then each setting that names an attribute
of an instance holds a value of that attribute's type. (Struct field names are unique.) -/
theorem settings_typed (insts : List Inst) (settings out : List Setting)
    (hw : ∀ i ∈ insts, ∀ a ∈ i.attrs, WfTy a.ty) (hd : Distinct insts)
    (h : checkSettings insts settings = .ok out) :
    ∀ s ∈ out, ∀ a, Declares insts s a → AttrHas a s.value := by
  suffices ∀ s ∈ out, ∀ a, declOf insts s = some a → AttrHas a s.value from
    fun s hs a ha => this s hs a (declOf_of_declares hd ha)
  have decl_mem : ∀ s a, declOf insts s = some a → WfTy a.ty := by
    intro s a hd
    unfold declOf at hd
    split at hd
    · cases hd
    · rename_i i hi
      exact hw i (List.mem_of_find?_eq_some hi) a (List.mem_of_find?_eq_some hd)
  induction settings generalizing out with
  | nil => simp only [checkSettings] at h; cases h; simp
  | cons s rest ih =>
    simp only [checkSettings] at h
    split at h
    · rename_i hn
      split at h
      · cases h
      · rename_i r hr
        cases h
        intro x hx a ha
        rcases List.mem_cons.mp hx with rfl | hx
        · rw [hn] at ha; cases ha
        · exact ih r hr x hx a ha
    · rename_i b hb
      split at h
      · cases h
      · rename_i v hv
        split at h
        · cases h
        · rename_i r hr
          cases h
          intro x hx a ha
          rcases List.mem_cons.mp hx with rfl | hx
          · have : declOf insts ⟨s.inst, s.attr, v⟩ = declOf insts s := rfl
            rw [this, hb] at ha
            cases ha
            exact typesCompatible_sound b (decl_mem s b hb) _ _ hv
          · exact ih r hr x hx a ha

/-! ### Values are only completed, never changed -/

/-- Every entry of `d` is still in `d'`, possibly completed. -/
def Ext (d d' : List (String × Val)) : Prop :=
  ∀ n v, dget d n = some v → ∃ v', dget d' n = some v' ∧ Completes v v'

theorem fill_get : ∀ (fs : Fields) (d : List (String × Val)) (n : String) (v : Val), dget d n = some v →
    dget (fill fs d) n = some v
  | .nil, d, n, v, h => h
  | .cons m _ _ df rest, d, n, v, h => by
    simp only [fill]
    split
    · rename_i w hw
      apply fill_get
      rw [dget_dset]
      split
      · rename_i hmn; subst hmn; rw [h] at hw; cases hw
      · exact h
    · exact fill_get rest d n v h

theorem mapE_completes (f : Val → Except Err Val) (hf : ∀ v v', f v = .ok v' → Completes v v') :
    ∀ (l l' : List Val), mapE f l = .ok l' → CompletesL l l' := by
  intro l
  induction l with
  | nil => intro l' h; cases h; exact .nil
  | cons a l ih =>
    intro l' h
    simp only [mapE] at h
    split at h
    · cases h
    · rename_i v' hv
      split at h
      · cases h
      · rename_i r hr
        cases h
        exact .cons _ _ _ _ (hf _ _ hv) (ih r hr)

mutual
theorem one_completes : ∀ (ty : Ty), WfTy ty → ∀ v v', one ty v = .ok v' → Completes v v'
  | .base t, _, v, v', h => by
    simp only [one] at h
    split at h
    · cases h; exact .refl _
    · cases h
  | .struct fs, hw, v, v', h => by
    cases v with
    | dict d =>
      simp only [one] at h
      split at h
      · cases h
      · rename_i d' hd
        cases h
        cases hw with
        | struct _ hn hwf =>
          have hext := fields_completes fs hn hwf _ _ hd
          refine .dict _ _ (fun n => (dget d' n).getD (.int 0)) ?_ ?_
          · intro n v hv
            obtain ⟨v', h1, _⟩ := hext n v (fill_get fs d n v ((dget_iff _ _ _).mpr hv))
            rw [h1]; exact (dget_iff _ _ _).mp h1
          · intro n v hv
            obtain ⟨v', h1, h2⟩ := hext n v (fill_get fs d n v ((dget_iff _ _ _).mpr hv))
            rw [h1]; exact h2
    | int n => simp only [one] at h; cases h
    | float n => simp only [one] at h; cases h
    | str n => simp only [one] at h; cases h
    | list n => simp only [one] at h; cases h

theorem fields_completes : ∀ (fs : Fields), (names fs).Nodup → WfFields fs → ∀ d d', fields fs d = .ok d' → Ext d d'
  | .nil, _, _, d, d', h => by
    simp only [fields] at h; cases h
    intro n v hv; exact ⟨v, hv, .refl _⟩
  | .cons n ty arr df rest, hn, hw, d, d', h => by
    simp only [names, List.nodup_cons] at hn
    have hwt : WfTy ty := by cases hw; assumption
    have hwr : WfFields rest := by cases hw; assumption
    simp only [fields] at h
    split at h
    · cases h
    · rename_i v hv
      split at h
      · cases h
      · rename_i v' hv'
        have ihr := fields_completes rest hn.2 hwr _ d' h
        have iht := one_completes ty hwt
        have hcv : Completes v v' := by
          cases arr with
          | false =>
            simp only [Bool.false_eq_true, if_false] at hv'
            exact iht _ _ hv'
          | true =>
            simp only [if_true] at hv'
            split at hv'
            · rename_i l
              split at hv'
              · cases hv'
              · rename_i l' hl
                cases hv'
                exact .list _ _ (mapE_completes _ iht l l' hl)
            · cases hv'
        intro m w hw'
        by_cases hmn : n = m
        · subst hmn
          rw [hv] at hw'; cases hw'
          refine ⟨v', ?_, hcv⟩
          rw [fields_frame rest _ d' h n hn.1, dget_dset, if_pos rfl]
        · exact ihr m w (by rw [dget_dset, if_neg hmn]; exact hw')
end

/-- C24: type checking keeps every setting; a value changes only by gaining struct fields. -/
theorem settings_kept (insts : List Inst) (settings out : List Setting)
    (hw : ∀ i ∈ insts, ∀ a ∈ i.attrs, WfTy a.ty)
    (h : checkSettings insts settings = .ok out) :
    out.length = settings.length ∧ ∀ (k : Nat) (s s' : Setting), settings[k]? = some s → out[k]? = some s' →
      s'.inst = s.inst ∧ s'.attr = s.attr ∧ Completes s.value s'.value := by
  have decl_mem : ∀ s a, declOf insts s = some a → WfTy a.ty := by
    intro s a hd
    unfold declOf at hd
    split at hd
    · cases hd
    · rename_i i hi
      exact hw i (List.mem_of_find?_eq_some hi) a (List.mem_of_find?_eq_some hd)
  induction settings generalizing out with
  | nil => simp only [checkSettings] at h; cases h; simp
  | cons s rest ih =>
    simp only [checkSettings] at h
    split at h
    · split at h
      · cases h
      · rename_i r hr
        cases h
        obtain ⟨h1, h2⟩ := ih r hr
        refine ⟨by simp [h1], ?_⟩
        intro k x y hx hy
        match k with
        | 0 => simp at hx hy; subst hx; subst hy; exact ⟨rfl, rfl, .refl _⟩
        | k + 1 => simp at hx hy; exact h2 k x y hx hy
    · rename_i b hb
      split at h
      · cases h
      · rename_i v hv
        split at h
        · cases h
        · rename_i r hr
          cases h
          obtain ⟨h1, h2⟩ := ih r hr
          refine ⟨by simp [h1], ?_⟩
          intro k x y hx hy
          match k with
          | 0 =>
            simp at hx hy; subst hx; subst hy
            refine ⟨rfl, rfl, ?_⟩
            unfold typesCompatible at hv
            have hwb := decl_mem s b hb
            split at hv
            · split at hv
              · rename_i l hsv
                split at hv
                · cases hv
                · rename_i l' hl
                  cases hv
                  simp only
                  rw [hsv]
                  exact .list _ _ (mapE_completes _ (one_completes b.ty hwb) _ _ hl)
              · cases hv
            · exact one_completes b.ty hwb _ _ hv
          | k + 1 => simp at hx hy; exact h2 k x y hx hy

/-! ### Which settings are accepted -/

/-- What `fields` needs of the (filled) dictionary. -/
def AllF : Fields → List (String × Val) → Prop
  | .nil, _ => True
  | .cons n ty arr _ rest, d => (∃ v, dget d n = some v ∧
      ((arr = false ∧ Fits ty v) ∨ (arr = true ∧ ∃ l, v = .list l ∧ ∀ x ∈ l, Fits ty x))) ∧ AllF rest d

theorem allF_congr : ∀ (fs : Fields) (d d' : List (String × Val)), (∀ m ∈ names fs, dget d' m = dget d m) →
    (AllF fs d' ↔ AllF fs d)
  | .nil, _, _, _ => Iff.rfl
  | .cons n ty arr df rest, d, d', hc => by
    simp only [AllF]
    rw [hc n (by simp [names]), allF_congr rest d d' (fun m hm => hc m (by simp [names, hm]))]

theorem mapE_iff (f : Val → Except Err Val) (P : Val → Prop) (hf : ∀ v, (∃ v', f v = .ok v') ↔ P v) :
    ∀ l, (∃ l', mapE f l = .ok l') ↔ ∀ v ∈ l, P v := by
  intro l
  induction l with
  | nil => simp [mapE]
  | cons a l ih =>
    rw [List.forall_mem_cons, ← ih, ← hf a]
    simp only [mapE]
    cases f a with
    | error e => simp
    | ok v =>
      cases mapE f l with
      | error e => simp
      | ok r => simp

/-- The field after filling in defaults. -/
theorem fill_other : ∀ (fs : Fields) (d : List (String × Val)) (n : String), n ∉ names fs →
    dget (fill fs d) n = dget d n
  | .nil, _, _, _ => rfl
  | .cons m _ _ df rest, d, n, hn => by
    simp only [names, List.mem_cons, not_or] at hn
    simp only [fill]
    split
    · rw [fill_other rest _ n hn.2, dget_dset, if_neg (fun e => hn.1 e.symm)]
    · exact fill_other rest d n hn.2

theorem provides_iff (d : List (String × Val)) (n : String) (df : Option Val) (v : Val) :
    Provides d n df v ↔ (match dget d n with | some w => some w | none => df) = some v := by
  unfold Provides
  simp only [← dget_iff]
  cases dget d n <;> simp

theorem allF_fill : ∀ (fs : Fields), (names fs).Nodup → ∀ (d : List (String × Val)),
    AllF fs (fill fs d) ↔ FitsFields fs d
  | .nil, _, d => ⟨fun _ => .nil d, fun _ => trivial⟩
  | .cons n ty arr df rest, hn, d => by
    simp only [names, List.nodup_cons] at hn
    have hget : ∀ v, dget (fill (.cons n ty arr df rest) d) n = some v ↔ Provides d n df v := by
      intro v
      rw [provides_iff]
      simp only [fill]
      cases hd : dget d n with
      | some w => simp only; rw [fill_other rest d n hn.1, hd]
      | none =>
        cases df with
        | none => simp only; rw [fill_other rest d n hn.1, hd]
        | some w => simp only; rw [fill_other rest _ n hn.1, dget_dset, if_pos rfl]
    have hrest : AllF rest (fill (.cons n ty arr df rest) d) ↔ FitsFields rest d := by
      rw [← allF_fill rest hn.2 d]
      apply allF_congr
      intro m hm
      have hmn : n ≠ m := fun e => hn.1 (e ▸ hm)
      have key : ∀ (fs : Fields) (d d' : List (String × Val)) (m : String), dget d' m = dget d m →
          dget (fill fs d') m = dget (fill fs d) m := by
        intro fs
        induction fs using Fields.rec (motive_1 := fun _ => True) with
        | base _ => trivial
        | struct _ _ => trivial
        | nil => intro d d' m h; exact h
        | cons k ty arr df rest _ ih =>
          intro d d' m h
          by_cases hk : k = m
          · subst hk
            simp only [fill]
            rw [h]
            split
            · exact ih _ _ _ (by rw [dget_dset, dget_dset, if_pos rfl, if_pos rfl])
            · exact ih _ _ _ h
          · have step : ∀ d : List (String × Val), ∃ d2, fill (.cons k ty arr df rest) d = fill rest d2 ∧
                dget d2 m = dget d m := by
              intro d
              simp only [fill]
              split
              · exact ⟨_, rfl, by rw [dget_dset, if_neg hk]⟩
              · exact ⟨_, rfl, rfl⟩
            obtain ⟨a, ha, ha'⟩ := step d
            obtain ⟨b, hb, hb'⟩ := step d'
            rw [ha, hb]
            exact ih _ _ _ (by rw [ha', hb', h])
      simp only [fill]
      split
      · exact key rest d _ m (by rw [dget_dset, if_neg hmn])
      · rfl
    simp only [AllF]
    rw [hrest]
    simp only [hget]
    constructor
    · rintro ⟨⟨v, hv, (⟨ha, hf⟩ | ⟨ha, l, hl, hf⟩)⟩, hr⟩
      · subst ha; exact .scalar _ _ _ _ _ v hv hf hr
      · subst ha; subst hl; exact .array _ _ _ _ _ l hv hf hr
    · intro h
      cases h with
      | scalar _ _ _ _ _ v h1 h2 h3 => exact ⟨⟨v, h1, .inl ⟨rfl, h2⟩⟩, h3⟩
      | array _ _ _ _ _ l h1 h2 h3 => exact ⟨⟨_, h1, .inr ⟨rfl, l, rfl, h2⟩⟩, h3⟩

mutual
theorem one_iff : ∀ (ty : Ty), WfTy ty → ∀ v, (∃ v', one ty v = .ok v') ↔ Fits ty v
  | .base t, _, v => by
    simp only [one]
    constructor
    · rintro ⟨v', h⟩
      split at h
      · rename_i hb; exact .base _ _ ((baseOk_iff t v).mp hb)
      · cases h
    · intro h
      cases h with
      | base _ _ h => rw [if_pos ((baseOk_iff t v).mpr h)]; exact ⟨_, rfl⟩
  | .struct fs, hw, v => by
    have hn : (names fs).Nodup := by cases hw; assumption
    have hwf : WfFields fs := by cases hw; assumption
    cases v with
    | dict d =>
      have hf := fields_iff fs hn hwf (fill fs d)
      rw [allF_fill fs hn d] at hf
      simp only [one]
      constructor
      · rintro ⟨v', h⟩
        split at h
        · cases h
        · rename_i d' hd; exact .struct _ _ (hf.mp ⟨d', hd⟩)
      · intro h
        cases h with
        | struct _ _ h =>
          obtain ⟨d', hd⟩ := hf.mpr h
          rw [hd]; exact ⟨_, rfl⟩
    | int n => simp only [one]; exact ⟨fun ⟨_, h⟩ => (by cases h), fun h => (by cases h)⟩
    | float n => simp only [one]; exact ⟨fun ⟨_, h⟩ => (by cases h), fun h => (by cases h)⟩
    | str n => simp only [one]; exact ⟨fun ⟨_, h⟩ => (by cases h), fun h => (by cases h)⟩
    | list n => simp only [one]; exact ⟨fun ⟨_, h⟩ => (by cases h), fun h => (by cases h)⟩

theorem fields_iff : ∀ (fs : Fields), (names fs).Nodup → WfFields fs → ∀ d, (∃ d', fields fs d = .ok d') ↔ AllF fs d
  | .nil, _, _, d => by simp [fields, AllF]
  | .cons n ty arr df rest, hn, hw, d => by
    simp only [names, List.nodup_cons] at hn
    have hwt : WfTy ty := by cases hw; assumption
    have hwr : WfFields rest := by cases hw; assumption
    have ht := one_iff ty hwt
    have hr : ∀ v', (∃ d', fields rest (dset d n v') = .ok d') ↔ AllF rest d := by
      intro v'
      rw [fields_iff rest hn.2 hwr (dset d n v')]
      apply allF_congr
      intro m hm
      rw [dget_dset, if_neg (fun e => hn.1 (by rw [e]; exact hm))]
    simp only [fields, AllF]
    cases hd : dget d n with
    | none => simp
    | some v =>
      simp only [Option.some.injEq, exists_eq_left']
      cases arr with
      | false =>
        simp only [Bool.false_eq_true, if_false, true_and, false_and, or_false]
        rw [← ht v]
        cases one ty v with
        | error e => simp
        | ok v' => simp [hr v']
      | true =>
        simp only [if_true, Bool.true_eq_false, false_and, false_or, true_and]
        cases v with
        | list l =>
          have hm := mapE_iff (one ty) (Fits ty) ht l
          simp only [Val.list.injEq, exists_eq_left']
          rw [← hm]
          cases mapE (one ty) l with
          | error e => simp
          | ok l' => simp [hr]
        | int n => simp
        | float n => simp
        | str n => simp
        | dict n => simp
end

theorem typesCompatible_iff (a : Attr) (hw : WfTy a.ty) (v : Val) :
    (∃ v', typesCompatible v a = .ok v') ↔ AttrFits a v := by
  unfold typesCompatible AttrFits
  cases ha : a.array with
  | false => simp only [Bool.false_eq_true, if_false, true_and, false_and, or_false]; exact one_iff a.ty hw v
  | true =>
    simp only [if_true, Bool.true_eq_false, false_and, false_or, true_and]
    cases v with
    | list l =>
      have hm := mapE_iff (one a.ty) (Fits a.ty) (one_iff a.ty hw) l
      simp only [Val.list.injEq, exists_eq_left']
      rw [← hm]
      cases mapE (one a.ty) l <;> simp
    | int n => simp
    | float n => simp
    | str n => simp
    | dict n => simp

/-- C24: the settings of an assembly are accepted exactly if the value of every setting of a
declared attribute is acceptable for the attribute's type (once the defaults of missing struct
fields are filled in). -/
theorem accepted_iff (insts : List Inst) (settings : List Setting)
    (hw : ∀ i ∈ insts, ∀ a ∈ i.attrs, WfTy a.ty) (hd : Distinct insts) :
    (∃ out, checkSettings insts settings = .ok out) ↔
      ∀ s ∈ settings, ∀ a, Declares insts s a → AttrFits a s.value := by
  have hdecl : ∀ s a, declOf insts s = some a ↔ Declares insts s a := by
    intro s a
    refine ⟨fun h => ?_, declOf_of_declares hd⟩
    unfold declOf at h
    split at h
    · cases h
    · rename_i i hi
      exact ⟨i, List.mem_of_find?_eq_some hi, by simpa using List.find?_some hi,
        List.mem_of_find?_eq_some h, by simpa using List.find?_some h⟩
  induction settings with
  | nil => simp [checkSettings]
  | cons s rest ih =>
    rw [List.forall_mem_cons]
    refine Iff.trans ?_ (and_congr Iff.rfl ih)
    simp only [← hdecl s, checkSettings]
    cases hs : declOf insts s with
    | none =>
      cases checkSettings insts rest <;> simp
    | some a =>
      obtain ⟨i, hi, _, ha, _⟩ := (hdecl s a).mp hs
      simp only [Option.some.injEq, forall_eq']
      rw [← typesCompatible_iff a (hw i hi a ha) s.value]
      cases typesCompatible s.value a with
      | error e => simp
      | ok v => cases checkSettings insts rest <;> simp

/-! ### Concrete case -/

/-- A struct with an int field, an array of strings, and a defaulted nested struct. -/
def demoTy : Ty := .struct (.cons "n" (.base "int") false none
  (.cons "names" (.base "string") true none
  (.cons "opt" (.struct (.cons "x" (.base "uint64_t") false none .nil)) false (some (.dict [("x", .int 5)])) .nil)))

theorem demoTy_wf : WfTy demoTy := by
  refine .struct _ (by decide) (.cons _ _ _ _ _ (.base _) (.cons _ _ _ _ _ (.base _) (.cons _ _ _ _ _ ?_ .nil)))
  exact .struct _ (by decide) (.cons _ _ _ _ _ (.base _) .nil)

example : Distinct [⟨"i", [⟨"s", demoTy, false⟩]⟩] ∧
    Declares [⟨"i", [⟨"s", demoTy, false⟩]⟩] ⟨"i", "s", .int 0⟩ ⟨"s", demoTy, false⟩ :=
  ⟨⟨by decide, by simp⟩, _, List.mem_cons_self, rfl, List.mem_cons_self, rfl⟩

example : checkSettings [⟨"i", [⟨"s", demoTy, false⟩]⟩]
    [⟨"i", "s", .dict [("n", .int 3), ("names", .list [.str "a", .str "b"])]⟩] =
    .ok [⟨"i", "s", .dict [("n", .int 3), ("names", .list [.str "a", .str "b"]), ("opt", .dict [("x", .int 5)])]⟩] := rfl

example : checkSettings [⟨"i", [⟨"s", demoTy, false⟩]⟩]
    [⟨"i", "s", .dict [("n", .int 3), ("names", .list [.str "a", .int 1])]⟩] = .error .mistyped := rfl

end Verif.TypeCheck
