import Verif.AttrText.Lemmas

/-!
# Theorems: attribute values in the generated code (C78)
-/

namespace Verif.AttrText

/-! ## Values -/

/-- A value that has the type of its attribute and fits is, as an initialiser of C, that value; nothing of what comes after
it is taken for a part of it. Missing: values that do not fit, see `string_right_iff` and `overflow_changed`. -/
theorem value_right_partial (ty : Ty) (array : Bool) (v : Val) (c : CVal) (rest : Text) (hv : attrValue ty array v = some c)
    (hf : AttrFits ty v) (hr : ∀ x, rest.head? = some x → floatChar x = false) :
    ∃ text, showAttr ty v = .ok text ∧ readAttr ty array (text ++ rest) = some (c, rest) := by
  obtain ⟨x, hx, _, hread⟩ := attr ty array v c hv hf
  exact ⟨x, hx, hread rest hr⟩

/-- Such a value can be given in a macro (`#define`): no line of its text ends without a backslash. -/
theorem value_one_line (ty : Ty) (array : Bool) (v : Val) (c : CVal) (text : Text) (hv : attrValue ty array v = some c)
    (hf : AttrFits ty v) (ht : showAttr ty v = .ok text) : oneLine text = true := by
  obtain ⟨x, hx, hs, _⟩ := attr ty array v c hv hf
  rw [hx] at ht
  cases ht
  obtain ⟨_, _, _, _, _, _, _, h⟩ := hs
  exact h

/-- **Disagreement with C78.** A string is, as an initialiser, that string if and only if it has no quote, no backslash and no
end of a line. -/
theorem string_right_iff (s rest : Text) :
    ∃ text, showAttr (.base "string".toList) (.str s) = .ok text ∧
      (readAttr (.base "string".toList) false (text ++ rest) = some (.str s, rest) ↔ Plain s) := by
  refine ⟨'"' :: s ++ ['"'], by rw [showAttr, showOne.eq_def]; simp, ?_⟩
  have h1 : integers.lookup "string".toList = none := by decide
  have h2 : ¬ "string".toList ∈ floats := by decide
  have h3 : readAttr (.base "string".toList) false ('"' :: s ++ ['"'] ++ rest)
      = (readString (s ++ '"' :: rest)).map fun p => (CVal.str p.1, p.2) := by
    unfold readAttr
    simp only [Bool.false_eq_true, if_false]
    rw [readOne.eq_def]
    simp only [readScalar, h1, if_neg h2, if_true]
    rw [show ('"' :: s ++ ['"'] ++ rest : Text) = '"' :: (s ++ '"' :: rest) by simp]
    rw [token_same '"' _ (by decide) (by decide) (by decide)]
  rw [h3]
  constructor
  · intro h
    rw [Option.map_eq_some_iff] at h
    obtain ⟨⟨r, t⟩, hr, he⟩ := h
    simp only [Prod.mk.injEq, CVal.str.injEq] at he
    obtain ⟨rfl, rfl⟩ := he
    exact (readString_length _ _ _ hr).2 (by simp; omega)
  · intro h
    rw [readString_plain s rest h]
    rfl

/-- An integer fits if and only if it is in the range of its type. -/
theorem fits_range (n : Int) :
    (Fits (.base "int".toList) (.int n) ↔ -2 ^ 31 ≤ n ∧ n < 2 ^ 31) ∧
    (Fits (.base "int64_t".toList) (.int n) ↔ -2 ^ 63 ≤ n ∧ n < 2 ^ 63) ∧
    (Fits (.base "uint64_t".toList) (.int n) ↔ 0 ≤ n ∧ n < 2 ^ 64) := by
  have key : ∀ t bits sign, integers.lookup t = some (bits, sign) →
      (Fits (.base t) (.int n) ↔ convert bits sign n = n) := by
    intro t bits sign ht
    rw [Fits.eq_def]
    simp only [ht, Option.some.injEq, Prod.mk.injEq, and_imp]
    constructor
    · intro h; exact h _ _ rfl rfl
    · rintro h _ _ rfl rfl; exact h
  refine ⟨(key _ 32 true (by decide)).trans ?_, (key _ 64 true (by decide)).trans ?_,
    (key _ 64 false (by decide)).trans ?_⟩
  all_goals
    unfold convert
    simp only [true_and, Bool.false_eq_true, false_and, if_false]
    first
      | (constructor
         · intro h; split at h <;> omega
         · intro h; split <;> omega)
      | omega

/-- **Disagreement with C78.** An integer that is not in the range of its type is accepted, and is another number in C. -/
theorem overflow_changed (t : Text) (bits : Nat) (sign : Bool) (n : Int) (rest : Text)
    (ht : integers.lookup t = some (bits, sign)) (hn : convert bits sign n ≠ n)
    (hr : ∀ x, rest.head? = some x → floatChar x = false) :
    ∃ text m, showAttr (.base t) (.int n) = .ok text ∧ readAttr (.base t) false (text ++ rest) = some (.int m, rest) ∧
      m ≠ n := by
  refine ⟨if n < 0 then '-' :: decimal n.natAbs else decimal n.natAbs, convert bits sign n, ?_, ?_, hn⟩
  · unfold showAttr
    simp only
    rw [showOne.eq_def]
    rfl
  unfold readAttr
  simp only [Bool.false_eq_true, if_false]
  rw [readOne.eq_def]
  simp only [readScalar, ht]
  rw [readInt_show n rest hr]
  rfl

/-- The declaration of an attribute has its type, and the number of its elements if it is an array. -/
theorem declared_right (a : Attr) (v : Val) (c : CVal) (h : attrValue a.ty a.array v = some c) :
    declare a (some v) = .ok (ctype a.ty, if a.array then c.size else none) := by
  have hlen : ∀ (f : Val → Option CVal) l cs, all f l = some cs → cs.length = l.length := by
    intro f l
    induction l with
    | nil => intro cs h; cases h; rfl
    | cons v r ih =>
      intro cs h
      rw [all] at h
      split at h
      · rename_i b bs hb hbs
        cases h
        simp [ih bs hbs]
      · cases h
  unfold declare
  unfold attrValue at h
  cases ha : a.array with
  | true =>
    rw [ha] at h
    simp only [if_true] at h ⊢
    cases v with
    | list l =>
      simp only [Option.map_eq_some_iff] at h
      obtain ⟨cs, hcs, rfl⟩ := h
      simp only [CVal.size, hlen _ _ _ hcs, showType_ctype]
    | int _ => cases h
    | float _ => cases h
    | str _ => cases h
    | dict _ => cases h
  | false =>
    simp only [Bool.false_eq_true, if_false, showType_ctype]

/-- **Disagreement with C78.** An array attribute that has no value stops the generation of the code. -/
theorem unset_array_fails (a : Attr) (h : a.array = true) : declare a none = .error .python := by
  unfold declare; rw [if_pos h]

/-! ## Definitions of structs -/

/-- Every struct that an attribute has is defined, and no struct is defined twice. -/
theorem defined_once (attrs : List Attr) (values : List (Text × Val)) (ds : List Def)
    (h : definitions attrs values = .ok ds) :
    (ds.map (·.name)).Nodup ∧ ∀ a ∈ attrs, ∀ n fs, a.ty = .struct n fs → ∃ d ∈ ds, d.name = n := by
  unfold definitions at h
  split at h
  · cases h
  · rename_i l hl
    obtain ⟨_, _, h3⟩ := collectAll_ordered values attrs l hl
    obtain ⟨k1, _, k3, _, _⟩ := draw_spec l [] ds h
    refine ⟨k1, ?_⟩
    intro a ha n fs hn
    obtain ⟨f, hf, rfl⟩ := h3 a ha n fs hn
    rcases k3 f hf with hx | hx
    · cases hx
    · exact hx

/-- A definition has the fields of the struct, with their names and types, in their order, and dimensions for those that are
arrays; the structs that it uses are defined before it. -/
theorem defined_right (attrs : List Attr) (values : List (Text × Val)) (ds : List Def) (hc : Consistent attrs)
    (h : definitions attrs values = .ok ds) (before : List Def) (d : Def) (after : List Def)
    (hd : ds = before ++ d :: after) :
    (∃ a ∈ attrs, ∃ fs, (d.name, fs) ∈ structsIn a.ty) ∧
    ∀ a ∈ attrs, ∀ fs, (d.name, fs) ∈ structsIn a.ty →
      d.fields.map (fun f => (f.name, f.dim.isSome)) = fs.names ∧ d.fields.map (·.type) = fs.types ∧
      ∀ n ∈ fs.uses, ∃ e ∈ before, e.name = n := by
  unfold definitions at h
  split at h
  · cases h
  · rename_i l hl
    obtain ⟨h1, h2, _⟩ := collectAll_ordered values attrs l hl
    obtain ⟨_, _, _, _, k5⟩ := draw_spec l [] ds h
    obtain ⟨p, f, q, rfl, he, hdef, hp⟩ := k5 before d after hd
    have hf := h2 f (by simp)
    obtain ⟨a, ha, hfa⟩ := List.mem_flatMap.1 hf
    have hdecl := define_decls _ _ _ hdef
    refine ⟨⟨a, ha, f.fields, by rw [← he]; exact hfa⟩, ?_⟩
    intro b hb fs hfs
    have heq := hc _ hf (d.name, fs) (List.mem_flatMap.2 ⟨b, hb, hfs⟩) he
    have hfe : f.fields = fs := congrArg Prod.snd heq
    subst hfe
    refine ⟨hdecl.1, hdecl.2, ?_⟩
    intro n hn
    obtain ⟨g, hg, rfl⟩ := h1 p f q rfl n hn
    rcases hp g hg with hx | hx
    · cases hx
    · exact hx

/-- The arrays in the first attribute with a struct have the dimensions of its value. Missing: other attributes with that
struct, and the elements of arrays, see `second_measured_wrong` and `elements_measured_wrong`. -/
theorem measured_right_partial (pre post : List Attr) (a : Attr) (n : Text) (fs : Fields) (values : List (Text × Val))
    (d : List (Text × Val)) (ds : List Def) (ha : a.array = false) (hty : a.ty = .struct n fs)
    (hnew : ∀ p ∈ pre.flatMap (fun b => structsIn b.ty) ++ structsInFields fs, p.1 ≠ n)
    (hval : dget values a.name = some (.dict d)) (hne : d ≠ [])
    (h : definitions (pre ++ a :: post) values = .ok ds) :
    ∃ e ∈ ds, e.name = n ∧ ∀ f ∈ e.fields, ∀ l, dget d f.name = some (.list l) → ∀ k, f.dim = some k → k = l.length := by
  unfold definitions at h
  split at h
  · cases h
  · rename_i l hl
    obtain ⟨p, q, hp, hq, rfl⟩ := collectAll_append values pre (a :: post) l hl
    rw [collectAll] at hq
    split at hq
    · cases hq
    · rename_i x hx
      split at hq
      · cases hq
      · rename_i y hy
        cases hq
        rw [hval, ha, hty, collect.eq_def] at hx
        simp only at hx
        split at hx
        · cases hx
        · rename_i inner hi
          simp only [Bool.false_eq_true, if_false, Except.ok.injEq] at hx
          subst hx
          obtain ⟨_, h2, _⟩ := collectAll_ordered values pre p hp
          obtain ⟨_, i2, _⟩ := collectFields_ordered fs _ inner hi
          obtain ⟨_, _, k3, _, k5⟩ := draw_spec _ _ _ h
          have hfirst : ∀ f ∈ p ++ inner, f.name ≠ n := by
            intro f hf
            rcases List.mem_append.1 hf with hf | hf
            · exact hnew (f.name, f.fields) (List.mem_append_left _ (h2 f hf))
            · exact hnew (f.name, f.fields) (List.mem_append_right _ (i2 f hf))
          obtain ⟨e, he, hen⟩ : ∃ e ∈ ds, e.name = n := by
            rcases k3 ⟨n, fs, some (.dict d)⟩ (by simp) with hx | hx
            · cases hx
            · exact hx
          obtain ⟨b, c, rfl⟩ := List.append_of_mem he
          obtain ⟨p', f, q', hl', hfn, hdef, hbefore⟩ := k5 b e c rfl
          have hnd := (draw_spec _ _ _ h).1
          -- the struct is the one of the attribute
          have hff : f.value = some (.dict d) := by
            have heq : (p ++ inner) ++ (⟨n, fs, some (.dict d)⟩ :: y) = p' ++ f :: q' := by
              rw [← hl']; simp
            rcases List.append_eq_append_iff.1 heq with ⟨c', hc1, hc2⟩ | ⟨c', hc1, hc2⟩
            · cases c' with
              | nil =>
                simp only [List.nil_append, List.cons.injEq] at hc2
                rw [← hc2.1]
              | cons g c' =>
                simp only [List.cons_append, List.cons.injEq] at hc2
                have hgn : g.name = n := by rw [← hc2.1]
                rcases hbefore g (by rw [hc1]; simp) with hx | ⟨e', he', hee⟩
                · cases hx
                · exfalso
                  rw [List.map_append, List.map_cons, List.nodup_append] at hnd
                  exact hnd.2.2 e'.name (List.mem_map_of_mem he') e.name (by simp) (by rw [hee, hgn, hen])
            · cases c' with
              | nil =>
                simp only [List.nil_append, List.cons.injEq] at hc2
                rw [hc2.1]
              | cons g c' =>
                simp only [List.cons_append, List.cons.injEq] at hc2
                exfalso
                exact hfirst f (by rw [hc1, ← hc2.1]; simp) (by rw [hfn, hen])
          rw [hff] at hdef
          exact ⟨e, he, hen, define_dims d _ _ hdef hne⟩

/-- There are definitions if every attribute has a value of its type, and there are no structs in the structs in arrays. -/
theorem defined_ok (attrs : List Attr) (values : List (Text × Val))
    (h : ∀ a ∈ attrs, NoNested a.ty a.array ∧ ∃ v c, dget values a.name = some v ∧ attrValue a.ty a.array v = some c) :
    ∃ ds, definitions attrs values = .ok ds := by
  have key : ∃ l, collectAll values attrs = .ok l ∧ ∀ f ∈ l, Measurable f := by
    induction attrs with
    | nil => exact ⟨[], rfl, by simp⟩
    | cons a rest ih =>
      obtain ⟨hn, v, c, hv, hc⟩ := h a List.mem_cons_self
      obtain ⟨x, hx, hmx⟩ := collect_ok a.ty a.array v c hn hc
      obtain ⟨y, hy, hmy⟩ := ih (fun b hb => h b (List.mem_cons_of_mem _ hb))
      rw [collectAll, hv, hx]
      simp only [hy]
      refine ⟨_, rfl, ?_⟩
      intro f hf
      rcases List.mem_append.1 hf with hf | hf
      · exact hmx f hf
      · exact hmy f hf
  obtain ⟨l, hl, hm⟩ := key
  unfold definitions
  simp only [hl]
  exact draw_ok l [] hm

/-- **Disagreement with C78.** If two attributes have the same struct with an array, the array has the dimension of the first
value; the second value may have more elements, or fewer. -/
theorem second_measured_wrong (a b n x t : Text) (l m : List Val) (hab : a ≠ b) :
    definitions [⟨a, .struct n (.cons x (.base t) true .nil), false⟩, ⟨b, .struct n (.cons x (.base t) true .nil), false⟩]
      [(a, .dict [(x, .list l)]), (b, .dict [(x, .list m)])]
      = .ok [⟨n, [⟨ctype (.base t), x, some l.length⟩]⟩] := by
  have h1 : ∀ v, collect (.struct n (.cons x (.base t) true .nil)) false v
      = .ok [⟨n, .cons x (.base t) true .nil, v⟩] := by
    intro v
    rw [collect.eq_def]
    simp only
    rw [collectFields_flat _ _ rfl]
    rfl
  simp [definitions, collectAll, dget, h1, hab, draw, define, dimension, Except.map, showType_ctype]

/-- **Disagreement with C78.** In an array of structs, their arrays have the dimension of the first element. -/
theorem elements_measured_wrong (a n x t : Text) (l m : List Val) :
    definitions [⟨a, .struct n (.cons x (.base t) true .nil), true⟩]
      [(a, .list [.dict [(x, .list l)], .dict [(x, .list m)]])]
      = .ok [⟨n, [⟨ctype (.base t), x, some l.length⟩]⟩] := by
  have h1 : ∀ v w, collect (.struct n (.cons x (.base t) true .nil)) true (some (.list (v :: w)))
      = .ok [⟨n, .cons x (.base t) true .nil, some v⟩] := by
    intro v w
    rw [collect.eq_def]
    simp only
    rw [collectFields_flat _ _ rfl]
    rfl
  simp [definitions, collectAll, dget, h1, draw, define, dimension, Except.map, showType_ctype]

/-- **Disagreement with C78.** An attribute that is an array of structs with a struct in them, or that has no value and is a
struct with a struct in it, stops the generation of the code. -/
theorem nested_fails (a : Attr) (rest : List Attr) (n m k : Text) (gs fs : Fields) (sub : Bool) (values : List (Text × Val))
    (hty : a.ty = .struct n (.cons m (.struct k gs) sub fs))
    (hval : (∃ l, dget values a.name = some (.list l)) ∨ dget values a.name = none) :
    definitions (a :: rest) values = .error .python := by
  unfold definitions
  rw [collectAll, hty, collect.eq_def]
  simp only
  rw [collectFields.eq_def]
  rcases hval with ⟨l, h⟩ | h <;> rw [h]

/-! ## A component -/

/-- `struct Inner { int k; string names[]; }` and `struct Outer { Inner inner; double x; }` -/
def inner : Ty := .struct "Inner".toList (.cons "k".toList (.base "int".toList) false
  (.cons "names".toList (.base "string".toList) true .nil))
def outer : Ty := .struct "Outer".toList (.cons "inner".toList inner false
  (.cons "x".toList (.base "double".toList) false .nil))

def innerValue (k : Int) (names : List Val) : Val := .dict [("k".toList, .int k), ("names".toList, .list names)]
def outerValue : Val :=
  .dict [("x".toList, .float "1.5e-07".toList), ("inner".toList, innerValue (-12) [.str "a b".toList, .str "c".toList])]

theorem demo_value : (∃ c, attrValue outer false outerValue = some c) ∧ AttrFits outer outerValue := by
  have hn : dget [("x".toList, .float "1.5e-07".toList), ("inner".toList, innerValue (-12) [.str "a b".toList,
      .str "c".toList])] "inner".toList = some (innerValue (-12) [.str "a b".toList, .str "c".toList]) := by rfl
  have hx : dget [("x".toList, .float "1.5e-07".toList), ("inner".toList, innerValue (-12) [.str "a b".toList,
      .str "c".toList])] "x".toList = some (.float "1.5e-07".toList) := by rfl
  have hk : dget [("k".toList, .int (-12)), ("names".toList, .list [.str "a b".toList, .str "c".toList])] "k".toList
      = some (.int (-12)) := by rfl
  have hm : dget [("k".toList, .int (-12)), ("names".toList, .list [.str "a b".toList, .str "c".toList])] "names".toList
      = some (.list [.str "a b".toList, .str "c".toList]) := by rfl
  refine ⟨⟨_, by rfl⟩, ?_⟩
  unfold AttrFits outerValue outer inner
  simp only [Fits, FieldsFit, hn, hx]
  unfold innerValue
  simp only [Fits, FieldsFit, hk, hm]
  refine ⟨⟨?_, ⟨?_, trivial, by unfold Plain; decide⟩, by unfold Plain; decide⟩, ⟨by decide, trivial, by unfold Plain; decide⟩, by unfold Plain; decide⟩
  · exact (fits_range (-12)).1.2 (by decide) |> fun h => by rw [Fits.eq_def] at h; exact h
  · intro v hv
    simp only [List.mem_cons, List.not_mem_nil, or_false] at hv
    rcases hv with rfl | rfl <;> (show Plain _; unfold Plain; decide)

theorem demo_defined : definitions [⟨"o".toList, outer, false⟩] [("o".toList, outerValue)] = .ok
    [⟨"Inner".toList, [⟨"int".toList, "k".toList, none⟩, ⟨"char *".toList, "names".toList, some 2⟩]⟩,
      ⟨"Outer".toList, [⟨"struct Inner".toList, "inner".toList, none⟩, ⟨"double".toList, "x".toList, none⟩]⟩] := by
  rfl

end Verif.AttrText
