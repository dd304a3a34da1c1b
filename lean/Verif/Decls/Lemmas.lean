import Verif.Decls.Spec
import Verif.Lift.Props

namespace Verif.Decls
open Spec

theorem kw_eq (a b : String) : kw a = kw b ↔ a = b := by
  unfold kw; exact String.toList_inj

/-! ### Lists of trees -/

theorem lift_node {h : Head} {ts : List Tree} {os : List Obj} (hd : dontDescend h = false)
    (hts : liftAll ts = .ok os) : lift (.node h ts) = lifter h os := by
  simp [lift, hd, hts]

theorem lift_leaf {h : Head} {ts : List Tree} (hd : dontDescend h = true) :
    lift (.node h ts) = lifter h (ts.map raw) := by
  simp [lift, hd]

theorem liftAll_cons {t : Tree} {ts : List Tree} {o : Obj} {os : List Obj}
    (h1 : lift t = .ok o) (h2 : liftAll ts = .ok os) : liftAll (t :: ts) = .ok (o :: os) := by
  simp [liftAll, h1, h2]

theorem liftAll_nil : liftAll [] = .ok [] := by simp [liftAll]

theorem liftAll_one {t : Tree} {o : Obj} (h1 : lift t = .ok o) : liftAll [t] = .ok [o] :=
  liftAll_cons h1 liftAll_nil

theorem liftAll_two {t u : Tree} {o p : Obj} (h1 : lift t = .ok o) (h2 : lift u = .ok p) :
    liftAll [t, u] = .ok [o, p] :=
  liftAll_cons h1 (liftAll_one h2)

theorem liftAll_append {ts us : List Tree} {os ps : List Obj} (h1 : liftAll ts = .ok os)
    (h2 : liftAll us = .ok ps) : liftAll (ts ++ us) = .ok (os ++ ps) := by
  induction ts generalizing os with
  | nil => simp [liftAll] at h1; subst h1; simpa using h2
  | cons t ts ih =>
    simp only [liftAll] at h1
    cases ht : lift t with
    | error e => simp [ht] at h1
    | ok o =>
      cases hts : liftAll ts with
      | error e => simp [ht, hts] at h1
      | ok os' =>
        simp [ht, hts] at h1
        subst h1
        simp only [List.cons_append]
        exact liftAll_cons ht (ih hts)

theorem liftAll_map {α : Type} {f : α → Tree} {g : α → Obj} {l : List α}
    (h : ∀ x ∈ l, lift (f x) = .ok (g x)) : liftAll (l.map f) = .ok (l.map g) := by
  induction l with
  | nil => simp [liftAll]
  | cons x l ih =>
    simp only [List.map_cons]
    exact liftAll_cons (h x (by simp)) (ih fun y hy => h y (by simp [hy]))

/-! ### Words and strings -/

theorem lift_id (n : Str) : lift (idTree n) = .ok (.str n) := by
  simp [idTree, lift, dontDescend, lifter, collapse, raw]

theorem lift_ids (ns : List Str) : liftAll (ns.map idTree) = .ok (ns.map .str) :=
  liftAll_map fun n _ => lift_id n

theorem strs_map (ns : List Str) : strs (ns.map .str) = .ok ns := by
  induction ns with
  | nil => rfl
  | cons n ns ih => simp [strs, ih]

theorem lift_names (n : Str) (ns : List Str) :
    lift (.node .reference ((n :: ns).map idTree)) = .ok (.ref (n :: ns) none) := by
  rw [lift_node (by rfl) (lift_ids (n :: ns))]
  simp [lifter, liftReference, strs, strs_map]

theorem lift_path (p : Path) : lift p.tree = .ok (.ref p.names none) := lift_names _ _

theorem inner_wrap (a b : Char) (s : Str) : inner (a :: (s ++ [b])) = s := by
  simp [inner]

theorem joinInner_pieces (l : List Str) :
    joinInner (l.map fun s => Obj.str ('"' :: (s ++ ['"']))) = .ok l.flatten := by
  induction l with
  | nil => rfl
  | cons s l ih =>
    simp only [List.map_cons, joinInner, ih, inner_wrap, List.flatten_cons]

theorem lift_piece (s : Str) : lift (pieceTree s) = .ok (.str ('"' :: (s ++ ['"']))) := by
  simp [pieceTree, lift, dontDescend, lifter, collapse, raw]

theorem lift_text (t : Text) : lift t.tree = .ok (.str ('"' :: (t.value ++ ['"']))) := by
  have h := liftAll_map (f := pieceTree) (g := fun s => Obj.str ('"' :: (s ++ ['"'])))
    (l := t.pieces) fun s _ => lift_piece s
  rw [Text.tree, lift_node (by rfl) h]
  simp only [lifter]
  have hj := joinInner_pieces t.pieces
  have hne : t.pieces.map (fun s => Obj.str ('"' :: (s ++ ['"']))) =
      Obj.str ('"' :: (t.first ++ ['"'])) ::
        t.rest.map (fun s => Obj.str ('"' :: (s ++ ['"']))) := rfl
  rw [hne] at hj ⊢
  simp only [liftMultiString, hj, Text.value]

theorem strip_quoted (s : Str) : stripQuotes (.str ('"' :: (s ++ ['"']))) = .ok (.str s) := by
  have h : ('"' :: (s ++ ['"'])).getLast? = some '"' := by
    rw [← List.cons_append, List.getLast?_concat]
  simp only [stripQuotes, h, and_self, if_true, inner_wrap]

/-! ### Keys and values -/

theorem lift_num (n : Num) : lift (.num n.expr) = .ok (.num n.value) := by
  simp [lift, n.evaluates]

/-- A key as it is lifted, before its quotes are taken off. -/
def keyObj : KeyS → Obj
  | .num n => .num n.value
  | .str t => .str ('"' :: (t.value ++ ['"']))

/-- A key without quotes. -/
def keyPlain : KeyS → Obj
  | .num n => .num n.value
  | .str t => .str t.value

theorem lift_key (k : KeyS) : lift k.tree = .ok (keyObj k) := by
  cases k with
  | num n => exact lift_num n
  | str t => exact lift_text t

theorem strip_key (k : KeyS) : stripQuotes (keyObj k) = .ok (keyPlain k) := by
  cases k with
  | num n => rfl
  | str t => exact strip_quoted _

theorem toKey_key (k : KeyS) : toKey (keyPlain k) = .ok k.value := by
  cases k <;> rfl

theorem stripAll_keys (ks : List KeyS) : stripAll (ks.map keyObj) = .ok (ks.map keyPlain) := by
  induction ks with
  | nil => rfl
  | cons k ks ih => simp [stripAll, strip_key, ih]

theorem keys_keys (ks : List KeyS) : keys (ks.map keyPlain) = .ok (ks.map KeyS.value) := by
  induction ks with
  | nil => rfl
  | cons k ks ih => simp [keys, toKey_key, ih]

/-- A value as it is lifted: strings still have their quotes. -/
def itemObj : Item → Obj
  | .str t => .str ('"' :: (t.value ++ ['"']))
  | i => i.value

theorem strip_item (i : Item) : stripQuotes (itemObj i) = .ok i.value := by
  cases i with
  | str t => simp only [itemObj, Item.value]; exact strip_quoted _
  | num n => simp [itemObj, Item.value, stripQuotes]
  | list xs => simp [itemObj, Item.value, stripQuotes]
  | dict xs => simp [itemObj, Item.value, stripQuotes]

/-! ### Dictionaries -/

theorem getLast?_filter_concat (l : List (Key × Obj)) (k k' : Key) (v : Obj) :
    ((l ++ [(k, v)]).filter fun kv => kv.1 == k').getLast? =
      if k = k' then some (k, v) else (l.filter fun kv => kv.1 == k').getLast? := by
  rw [List.filter_append]
  by_cases h : k = k'
  · simp [h, List.filter_cons]
  · simp [h, List.filter_cons]

theorem dictSet_new (d : List (Key × Obj)) (k : Key) (v : Obj) (h : ∀ kv ∈ d, kv.1 ≠ k) :
    Lift.dictSet d k v = d ++ [(k, v)] := by
  induction d with
  | nil => rfl
  | cons kv d ih =>
    obtain ⟨k', v'⟩ := kv
    have h1 : k' ≠ k := h (k', v') (by simp)
    simp [Lift.dictSet, h1, ih fun x hx => h x (by simp [hx])]

theorem dictSet_map (ks : List Key) (f : Key → Obj) (k : Key) (v : Obj) (hn : ks.Nodup)
    (h : k ∈ ks) :
    Lift.dictSet (ks.map fun x => (x, f x)) k v =
      ks.map fun x => (x, if x = k then v else f x) := by
  induction ks with
  | nil => simp at h
  | cons x ks ih =>
    rw [List.nodup_cons] at hn
    by_cases hx : x = k
    · subst hx
      simp only [List.map_cons, Lift.dictSet, if_true, List.cons.injEq, true_and]
      apply List.map_congr_left
      intro y hy
      have : y ≠ x := by rintro rfl; exact hn.1 hy
      simp [this]
    · have hk : k ∈ ks := by
        rcases List.mem_cons.1 h with h | h
        · exact absurd h.symm hx
        · exact h
      simp only [List.map_cons, Lift.dictSet, if_neg hx, ih hn.2 hk]

theorem filterMap_some {ks : List Key} {g : Key → Option Obj} {f : Key → Obj}
    (h : ∀ k ∈ ks, g k = some (f k)) :
    (ks.filterMap fun k => (g k).map fun v => (k, v)) = ks.map fun k => (k, f k) := by
  induction ks with
  | nil => rfl
  | cons k ks ih =>
    simp [h k (by simp), ih fun x hx => h x (by simp [hx])]

/-- The last value written for a key. -/
def lastOf (l : List (Key × Obj)) (k : Key) : Obj :=
  (((l.filter fun kv => kv.1 == k).getLast?).map Prod.snd).getD (.num 0)

theorem lastOf_some {l : List (Key × Obj)} {k : Key} (h : k ∈ l.map Prod.fst) :
    ((l.filter fun kv => kv.1 == k).getLast?).map Prod.snd = some (lastOf l k) := by
  have hne : (l.filter fun kv => kv.1 == k) ≠ [] := by
    obtain ⟨kv, hkv, rfl⟩ := List.mem_map.1 h
    intro h0
    have := List.filter_eq_nil_iff.1 h0 kv hkv
    simp at this
  rw [lastOf, List.getLast?_eq_some_getLast hne]
  rfl

theorem dictOf_eq (l : List (Key × Obj)) :
    dictOf l = (l.map Prod.fst).eraseDups.map fun k => (k, lastOf l k) := by
  have h := filterMap_some (ks := (l.map Prod.fst).eraseDups)
    (g := fun k => ((l.filter fun kv => kv.1 == k).getLast?).map Prod.snd) (f := lastOf l)
    fun k hk => lastOf_some (List.mem_eraseDups.1 hk)
  rw [← h, dictOf]
  congr 1
  funext k
  cases ((l.filter fun kv => kv.1 == k).getLast?) <;> rfl

theorem lastOf_concat (l : List (Key × Obj)) (k k' : Key) (v : Obj) :
    lastOf (l ++ [(k, v)]) k' = if k' = k then v else lastOf l k' := by
  rw [lastOf, getLast?_filter_concat]
  by_cases h : k = k'
  · simp [h]
  · simp [h, Ne.symm h, lastOf]

theorem nodup_eraseDups_aux (n : Nat) (l : List Key) (h : l.length ≤ n) :
    l.eraseDups.Nodup := by
  induction n generalizing l with
  | zero => cases l <;> simp at h ⊢
  | succ n ih =>
    cases l with
    | nil => simp
    | cons a l =>
      rw [List.eraseDups_cons, List.nodup_cons]
      refine ⟨?_, ih _ ?_⟩
      · rw [List.mem_eraseDups]; simp
      · have := List.length_filter_le (fun b => !b == a) l
        simp only [List.length_cons] at h
        omega

theorem nodup_eraseDups (l : List Key) : l.eraseDups.Nodup :=
  nodup_eraseDups_aux _ l (Nat.le_refl _)

theorem dictOf_concat (l : List (Key × Obj)) (k : Key) (v : Obj) :
    dictOf (l ++ [(k, v)]) = Lift.dictSet (dictOf l) k v := by
  rw [dictOf_eq, dictOf_eq, List.map_append, List.eraseDups_append]
  by_cases hk : k ∈ l.map Prod.fst
  · rw [dictSet_map _ _ _ _ (nodup_eraseDups _) (List.mem_eraseDups.2 hk)]
    have h0 : ([(k, v)].map Prod.fst).removeAll (l.map Prod.fst) = [] := by
      rw [List.removeAll, List.filter_eq_nil_iff]
      simp at hk ⊢
      exact hk
    rw [h0]
    simp only [List.eraseDups_nil, List.append_nil]
    apply List.map_congr_left
    intro x _
    rw [lastOf_concat]
  · have h0 : ([(k, v)].map Prod.fst).removeAll (l.map Prod.fst) = [k] := by
      rw [List.removeAll]
      simp at hk
      simp [List.filter_cons, hk]
    have h1 : ∀ x ∈ (l.map Prod.fst).eraseDups, x ≠ k := by
      rintro x hx rfl
      exact hk (List.mem_eraseDups.1 hx)
    rw [h0, dictSet_new]
    · simp only [List.map_append]
      congr 1
      · apply List.map_congr_left
        intro x hx
        rw [lastOf_concat, if_neg (h1 x hx)]
      · simp [List.eraseDups_cons, lastOf_concat]
    · intro kv hkv
      obtain ⟨x, hx, rfl⟩ := List.mem_map.1 hkv
      exact h1 x hx

/-- The lifted children of a dictionary literal. -/
def entryObjs : List (KeyS × Item) → List Obj
  | [] => []
  | (k, v) :: rest => keyObj k :: itemObj v :: entryObjs rest

theorem liftPairs_entries (l : List (Key × Obj)) (kvs : List (KeyS × Item)) :
    liftPairs (dictOf l) (entryObjs kvs) = .ok (dictOf (l ++ Item.entries kvs)) := by
  induction kvs generalizing l with
  | nil => simp [entryObjs, liftPairs, Item.entries]
  | cons kv kvs ih =>
    obtain ⟨k, v⟩ := kv
    simp only [entryObjs, liftPairs, strip_key, strip_item, toKey_key, ← dictOf_concat, ih,
      Item.entries, List.append_assoc, List.singleton_append]

theorem stripAll_items (xs : List Item) : stripAll (xs.map itemObj) = .ok (Item.values xs) := by
  induction xs with
  | nil => simp [stripAll, Item.values]
  | cons x xs ih => simp [stripAll, strip_item, ih, Item.values]

mutual
theorem lift_item : ∀ i : Item, lift i.tree = .ok (itemObj i)
  | .num n => by simp only [Item.tree, itemObj, Item.value]; exact lift_num n
  | .str t => by simp only [Item.tree, itemObj]; exact lift_text t
  | .list xs => by
    rw [Item.tree, lift_node (by rfl) (lift_items xs)]
    simp only [lifter, stripAll_items, itemObj, Item.value]
  | .dict kvs => by
    rw [Item.tree, lift_node (by rfl) (lift_entries kvs)]
    have h := liftPairs_entries [] kvs
    have h0 : dictOf [] = [] := by simp [dictOf]
    rw [h0] at h
    simp only [lifter, h, List.nil_append, itemObj, Item.value]
theorem lift_items : ∀ xs : List Item, liftAll (Item.trees xs) = .ok (xs.map itemObj)
  | [] => by simp [Item.trees, liftAll]
  | x :: xs => by
    rw [Item.trees, List.map_cons]
    exact liftAll_cons (lift_item x) (lift_items xs)
theorem lift_entries : ∀ kvs : List (KeyS × Item),
    liftAll (Item.entryTrees kvs) = .ok (entryObjs kvs)
  | [] => by simp [Item.entryTrees, entryObjs, liftAll]
  | (k, v) :: rest => by
    rw [Item.entryTrees, entryObjs]
    exact liftAll_cons (lift_key k) (liftAll_cons (lift_item v) (lift_entries rest))
end

/-! ### Types and attributes -/

theorem liftAll_toks (ws : List Str) : liftAll (ws.map .tok) = .ok (ws.map .str) :=
  liftAll_map fun w _ => by simp [lift]

theorem normalise_basic (b : Basic) : normaliseType b.value = b.value := by
  have h1 : b.value ≠ (kw "integer") := by cases b <;> simp [Basic.value, kw_eq]
  have h2 : b.value ≠ (kw "signed int") := by cases b <;> simp [Basic.value, kw_eq]
  have h3 : b.value ≠ (kw "unsigned integer") := by
    cases b <;> simp [Basic.value, kw_eq]
  have h4 : b.value ≠ (kw "bool") := by cases b <;> simp [Basic.value, kw_eq]
  rw [normaliseType, if_neg h1, if_neg h2, if_neg h3, if_neg h4]

theorem lift_basic (b : Basic) : lift (.node .type [b.tree]) = .ok (.str b.value) := by
  have h : lift b.tree = .ok (.str b.value) := by
    cases b with
    | int ws => dsimp only [Basic.tree]; rw [lift_leaf (by rfl)]; rfl
    | unsigned ws => dsimp only [Basic.tree]; rw [lift_leaf (by rfl)]; rfl
    | char ws => dsimp only [Basic.tree]; rw [lift_leaf (by rfl)]; rfl
    | signedChar ws => dsimp only [Basic.tree]; rw [lift_leaf (by rfl)]; rfl
    | unsignedChar ws => dsimp only [Basic.tree]; rw [lift_leaf (by rfl)]; rfl
    | string => simp [Basic.tree, Basic.value, lift]
    | int64 ws => dsimp only [Basic.tree]; rw [lift_node (by rfl) (liftAll_toks ws)]; rfl
    | uint64 ws => dsimp only [Basic.tree]; rw [lift_node (by rfl) (liftAll_toks ws)]; rfl
  rw [lift_node (by rfl) (liftAll_one h)]
  simp only [lifter, liftType, normalise_basic]

theorem isValue_item (i : Item) : isValue i.value = true := by
  cases i <;> simp [Item.value, isValue]

/-- Lifting an attribute whose type lifts to `o`. -/
theorem lift_attrTree {t : Tree} {o : Obj} (n : Str) (a : Bool) (d : Option Item)
    (ht : lift (.node .type [t]) = .ok o)
    (ho : liftAttributeScalar [o, .str n] = .ok (.attribute o n false none)) :
    lift (attrTree t n a d) = .ok (.attribute o n a (d.map Item.value)) := by
  have hs : lift (.node .attributeScalarParameter [.node .type [t], idTree n]) =
      .ok (.attribute o n false none) := by
    rw [lift_node (by rfl) (liftAll_two ht (lift_id n))]
    exact ho
  have hp : lift (if a then .node .attributeArrayParameter
      [.node .attributeScalarParameter [.node .type [t], idTree n]]
      else .node .attributeScalarParameter [.node .type [t], idTree n]) =
      .ok (.attribute o n a none) := by
    cases a with
    | false => exact hs
    | true =>
      simp only [if_true]
      rw [lift_node (by rfl) (liftAll_one hs)]
      rfl
  cases d with
  | none =>
    simp only [attrTree]
    rw [lift_node (by rfl) (liftAll_one hp)]
    rfl
  | some i =>
    simp only [attrTree]
    rw [lift_node (by rfl) (liftAll_two hp (lift_item i))]
    simp only [lifter, liftAttribute, strip_item, isValue_item, if_true, Option.map_some]

theorem isAttribute_value (a : AttrS) : isAttribute a.value = true := by
  cases a <;> simp [AttrS.value, isAttribute]

theorem all_isAttribute : ∀ l : List AttrS, (AttrS.values l).all isAttribute = true
  | [] => rfl
  | x :: xs => by simp [AttrS.values, isAttribute_value, all_isAttribute xs]

theorem attrValues_eq : ∀ l : List AttrS, AttrS.values l = l.map AttrS.value
  | [] => rfl
  | x :: xs => by simp [AttrS.values, attrValues_eq xs]

mutual
theorem lift_attr : ∀ a : AttrS, lift a.tree = .ok a.value
  | .basic t n a d => by
    rw [AttrS.tree, AttrS.value]
    refine lift_attrTree n a d (lift_basic t) ?_
    have : startsStruct t.value = false := by
      cases t <;> simp only [startsStruct, Basic.value] <;> (unfold kw; decide)
    simp [liftAttributeScalar, this]
  | .named t n a d => by
    rw [AttrS.tree, AttrS.value]
    refine lift_attrTree n a d ?_ rfl
    have h : lift (.node .structRef [t.tree]) = .ok (.ref t.names (some .struct)) := by
      rw [lift_node (by rfl) (liftAll_one (lift_path t))]
      rfl
    rw [lift_node (by rfl) (liftAll_one h)]
    rfl
  | .anon f r n a d => by
    rw [AttrS.tree, AttrS.value]
    refine lift_attrTree n a d ?_ rfl
    have h0 : lift (.node .structDefn (f.tree :: AttrS.trees r)) =
        .ok (.struct none (f.value :: AttrS.values r)) := by
      rw [lift_node (by rfl) (liftAll_cons (lift_attr f) (lift_attrs r))]
      simp [lifter, liftStructDefn, isAttribute_value, all_isAttribute]
    have h : lift (.node .structRef [.node .structDefn (f.tree :: AttrS.trees r)]) =
        .ok (.struct none (f.value :: AttrS.values r)) := by
      rw [lift_node (by rfl) (liftAll_one h0)]
      rfl
    rw [lift_node (by rfl) (liftAll_one h)]
    rfl
theorem lift_attrs : ∀ l : List AttrS, liftAll (AttrS.trees l) = .ok (AttrS.values l)
  | [] => by simp [AttrS.trees, AttrS.values, liftAll]
  | x :: xs => by
    rw [AttrS.trees, AttrS.values]
    exact liftAll_cons (lift_attr x) (lift_attrs xs)
end

theorem lift_attr_map (l : List AttrS) :
    liftAll (l.map AttrS.tree) = .ok (l.map AttrS.value) :=
  liftAll_map fun a _ => lift_attr a

/-! ### Methods and procedures -/

theorem lift_mty (t : MTy) : ∃ o, lift t.tree = .ok o ∧ methodType o = .ok t.value := by
  cases t with
  | basic b => exact ⟨_, lift_basic b, rfl⟩
  | structKw n =>
    refine ⟨.str (normaliseType ((kw "struct ") ++ n)), ?_, ?_⟩
    · have h : lift (.node .structType [idTree n]) = .ok (.str ((kw "struct ") ++ n)) := by
        rw [lift_node (by rfl) (liftAll_one (lift_id n))]; rfl
      rw [MTy.tree, lift_node (by rfl) (liftAll_one h)]
      rfl
    · simp only [methodType, MTy.value, normaliseType]
      rw [if_neg, if_neg, if_neg, if_neg] <;> (unfold kw; simp)
  | named n hn =>
    refine ⟨.ref [n] (some .struct), ?_, ?_⟩
    · have h0 := lift_names n []
      simp only [List.map_cons, List.map_nil] at h0
      have h : lift (.node .structRef [.node .reference [idTree n]]) =
          .ok (.ref [n] (some .struct)) := by
        rw [lift_node (by rfl) (liftAll_one h0)]; rfl
      rw [MTy.tree, lift_node (by rfl) (liftAll_one h)]
      rfl
    · have h1 : n ≠ (kw "signed int") := by rintro rfl; exact hn.1 (by unfold kw; decide)
      have h2 : n ≠ (kw "unsigned integer") := by rintro rfl; exact hn.1 (by unfold kw; decide)
      simp only [methodType, MTy.value, normaliseType, hn.2, h1, h2, if_false]

theorem isDirection_text (d : Direction) : isDirection d.text = true := by
  cases d <;> simp [isDirection, Direction.text]

theorem lift_param (p : ParamS) : lift p.tree = .ok p.value := by
  obtain ⟨d, t, n, a⟩ := p
  obtain ⟨o, ho, hm⟩ := lift_mty t
  have hs : ∀ dir : Str, isDirection dir = true →
      mkParameter dir o n = .ok (.parameter n dir t.value false) := by
    intro dir h; simp [mkParameter, hm, h]
  have hsc : lift (ParamS.tree ⟨d, t, n, false⟩) = .ok (ParamS.value ⟨d, t, n, false⟩) := by
    cases d with
    | none =>
      simp only [ParamS.tree, ParamS.value, List.nil_append, Bool.false_eq_true, if_false]
      rw [lift_node (by rfl) (liftAll_two ho (lift_id n))]
      simp only [lifter, liftMethodScalar]
      exact hs _ (by simp [isDirection])
    | some d =>
      have h1 : lift (.node .direction [.tok d.text]) = .ok (.str d.text) := by
        rw [lift_leaf (by rfl)]; rfl
      simp only [ParamS.tree, ParamS.value, List.singleton_append, Bool.false_eq_true, if_false]
      rw [lift_node (by rfl) (liftAll_cons h1 (liftAll_two ho (lift_id n)))]
      simp only [lifter, liftMethodScalar]
      exact hs _ (isDirection_text d)
  cases a with
  | false => exact hsc
  | true =>
    have e : ParamS.tree ⟨d, t, n, true⟩ =
      .node .methodArrayParameter [ParamS.tree ⟨d, t, n, false⟩] := rfl
    rw [e, lift_node (by rfl) (liftAll_one hsc)]
    rfl

theorem lift_method (m : MethodS) : lift m.tree = .ok m.value := by
  obtain ⟨r, n, ps⟩ := m
  have hps : liftAll (ps.map ParamS.tree) = .ok (ps.map ParamS.value) :=
    liftAll_map fun p _ => lift_param p
  have hall : (ps.map ParamS.value).all isParameter = true := by
    simp [ParamS.value, isParameter]
  cases r with
  | none =>
    simp only [MethodS.tree, MethodS.value, List.nil_append]
    rw [lift_node (by rfl) (liftAll_cons (lift_id n) hps)]
    cases ps with
    | nil => rfl
    | cons p ps =>
      simp only [List.map_cons] at hall ⊢
      simp only [lifter, liftMethodDecl, mkMethod, ParamS.value] at hall ⊢
      rw [if_pos hall]
      rfl
  | some t =>
    obtain ⟨o, ho, hm⟩ := lift_mty t
    simp only [MethodS.tree, MethodS.value, List.singleton_append]
    rw [lift_node (by rfl) (liftAll_cons ho (liftAll_cons (lift_id n) hps))]
    simp only [lifter, liftMethodDecl, hm, mkMethod, hall, if_true, Option.map_some]

theorem joinTails_pieces (l : List Str) : joinTails (l.map pieceTree) = .ok l.flatten := by
  induction l with
  | nil => rfl
  | cons s l ih =>
    simp only [List.map_cons, pieceTree, joinTails, List.flatten_cons, inner_wrap]
    rw [ih]

theorem lift_incl (i : InclS) : lift i.tree = .ok i.value := by
  cases i with
  | quoted t =>
    rw [InclS.tree, lift_leaf (by rfl)]
    simp only [List.map_cons, List.map_nil, raw, lifter, Text.tree, liftInclude,
      joinTails_pieces, InclS.value, Text.value]
  | angled s =>
    rw [InclS.tree, lift_leaf (by rfl)]
    simp only [List.map_cons, List.map_nil, raw, lifter, liftInclude, inner_wrap, InclS.value]

/-- Filtering lifted items of one kind is picking the written items of that kind. -/
theorem filter_map_eq {α : Type} (l : List α) (v : α → Obj) (p : Obj → Bool)
    (f : α → Option Obj) (h : ∀ x, f x = if p (v x) then some (v x) else none) :
    (l.map v).filter p = l.filterMap f := by
  induction l with
  | nil => rfl
  | cons x l ih =>
    simp only [List.map_cons, List.filter_cons, List.filterMap_cons, h x, ← ih]
    split <;> rfl

/-- A lifted item of a procedure. -/
def procObj : ProcItem → Obj
  | .method m => m.value | .attribute a => a.value | .includes i => i.value

theorem lift_procItem (i : ProcItem) : lift i.tree = .ok (procObj i) := by
  cases i with
  | method m => exact lift_method m
  | «attribute» a => exact lift_attr a
  | includes i => exact lift_incl i

theorem incl_cases (i : InclS) : ∃ s b, i.value = .incl s b := by
  cases i with
  | quoted t => exact ⟨_, _, rfl⟩
  | angled s => exact ⟨_, _, rfl⟩

theorem attr_cases (a : AttrS) : ∃ t n b d, a.value = .attribute t n b d := by
  cases a with
  | basic t n a d => exact ⟨_, _, _, _, by rw [AttrS.value]⟩
  | named t n a d => exact ⟨_, _, _, _, by rw [AttrS.value]⟩
  | anon f r n a d => exact ⟨_, _, _, _, by rw [AttrS.value]⟩

theorem lift_procedureDefn (items : List ProcItem) :
    lift (.node .procedureDefn (items.map ProcItem.tree)) = .ok (procedureOf none items) := by
  have h : liftAll (items.map ProcItem.tree) = .ok (items.map procObj) :=
    liftAll_map fun i _ => lift_procItem i
  rw [lift_node (by rfl) h]
  simp only [lifter, liftProcedureDefn, procedureOf]
  have hm : ∀ m : MethodS, m.value =
    .method m.name (m.returns.map MTy.value) (m.params.map ParamS.value) := fun _ => rfl
  congr 1
  congr 1
  all_goals
    apply filter_map_eq
    intro x
    cases x with
    | method m => simp [procObj, hm, isInclude, isMethod, isAttribute]
    | «attribute» a =>
      obtain ⟨t, n, b, d, e⟩ := attr_cases a
      simp [procObj, e, isInclude, isMethod, isAttribute]
    | includes i =>
      obtain ⟨s, b, e⟩ := incl_cases i
      simp [procObj, e, isInclude, isMethod, isAttribute]

/-! ### Connectors -/

/-- One end of a connector as its lifted arguments. -/
def endObjs (e : EndS) : List Obj :=
  (if e.hardware then [.str (kw "hardware")] else []) ++
  .str (kw (if e.multiple then e.kind.plural else e.kind.singular)) ::
  (match e.threads with | none => [] | some n => [.num n.value])

theorem lift_end (e : EndS) : liftAll e.trees = .ok (endObjs e) := by
  obtain ⟨h, k, m, t, hn⟩ := e
  simp only [EndS.trees, endObjs]
  apply liftAll_append
  · cases h with
    | false => simp [liftAll]
    | true =>
      simp only [if_true]
      refine liftAll_one ?_
      rw [lift_node (by rfl) (liftAll_one (o := .str (kw "hardware")) (by simp [lift]))]
      rfl
  · refine liftAll_cons ?_ ?_
    · rw [lift_leaf (by rfl)]; rfl
    · cases t with
      | none => simp [liftAll]
      | some n => exact liftAll_one (lift_num n)

/-- The end as `Verif.Lift` has it. -/
def EndS.src (e : EndS) : Lift.Spec.EndSrc where
  hardware := e.hardware
  kind := e.kind
  multiple := e.multiple
  threads := e.threads.map Num.value

theorem toArgs_append {a b : List Obj} {x y : List (Lift.Arg Obj)} (h1 : toArgs a = .ok x)
    (h2 : toArgs b = .ok y) : toArgs (a ++ b) = .ok (x ++ y) := by
  induction a generalizing x with
  | nil => simp [toArgs] at h1; subst h1; simpa using h2
  | cons o a ih =>
    simp only [toArgs, List.cons_append] at h1 ⊢
    split at h1
    · cases h1
    · next u hu =>
      split at h1
      · cases h1
      · next w hw =>
        cases h1
        rw [ih hw]
        rfl

theorem ofList_kw (s : String) : String.ofList (kw s) = s := by
  unfold kw; exact String.ofList_toList

theorem toArgs_end (e : EndS) : toArgs (endObjs e) = .ok (Lift.Spec.EndSrc.args (EndS.src e)) := by
  obtain ⟨h, k, m, t, hn⟩ := e
  have hh : ∀ (k : Lift.Spec.Kind) (m : Bool),
      kw (if m then k.plural else k.singular) ≠ kw "hardware" := by
    intro k m; cases k <;> cases m <;> simp [Lift.Spec.Kind.plural, Lift.Spec.Kind.singular, kw_eq]
  cases h <;> cases t <;>
    simp [toArgs, endObjs, EndS.src, Lift.Spec.EndSrc.args, hh, ofList_kw] <;> rfl

theorem toArgs_attrs (l : List AttrS) :
    toArgs (l.map AttrS.value) = .ok ((l.map AttrS.value).map .attr) := by
  induction l with
  | nil => rfl
  | cons a l ih =>
    obtain ⟨t, n, b, d, e⟩ := attr_cases a
    simp [toArgs, e, ih]

theorem src_legal (e : EndS) : (EndS.src e).legal := by
  intro n hn
  obtain ⟨m, hm, rfl⟩ := Option.map_eq_some_iff.1 hn
  exact e.nonneg m hm

theorem src_threads (e : EndS) : (EndS.src e).threadCount = e.threadCount := by
  obtain ⟨h, k, m, t, hn⟩ := e
  cases t <;> rfl

theorem lift_connectorDefn (c : ConnectorS) : lift c.tree = .ok (c.value none) := by
  have h : liftAll (c.fromEnd.trees ++ c.toEnd.trees ++ c.attributes.map AttrS.tree) =
      .ok (endObjs c.fromEnd ++ endObjs c.toEnd ++ c.attributes.map AttrS.value) :=
    liftAll_append (liftAll_append (lift_end _) (lift_end _)) (lift_attr_map _)
  have ha := toArgs_append (toArgs_append (toArgs_end c.fromEnd) (toArgs_end c.toEnd))
    (toArgs_attrs c.attributes)
  rw [ConnectorS.tree, lift_node (by rfl) h]
  simp only [lifter, liftConnectorDefn, ha]
  have hl := Lift.liftDefn_expected (EndS.src c.fromEnd) (EndS.src c.toEnd)
    (c.attributes.map AttrS.value) (src_legal _) (src_legal _)
  rw [Lift.Spec.connectorArgs] at hl
  rw [hl]
  simp only [ofLift, Lift.Spec.expected, src_threads, ConnectorS.value, Option.map_none]
  rfl

theorem lift_connectorDecl (n : Option Str) (c : ConnectorS) :
    lift (.node .connectorDecl (named n c.tree)) = .ok (c.value n) := by
  cases n with
  | none =>
    rw [named, lift_node (by rfl) (liftAll_one (lift_connectorDefn c))]
    rfl
  | some n =>
    rw [named, lift_node (by rfl) (liftAll_two (lift_id n) (lift_connectorDefn c))]
    have hl := Lift.connector_decl_faithful (some (String.ofList n)) (EndS.src c.fromEnd)
      (EndS.src c.toEnd) (c.attributes.map AttrS.value) (src_legal _) (src_legal _)
    rw [Lift.liftDefn_expected _ _ _ (src_legal _) (src_legal _)] at hl
    simp only [lifter, liftConnectorDecl, ConnectorS.value, Option.map_none]
    simp only [Except.bind, Lift.Spec.expected, src_threads] at hl
    have h2 : ∀ x, Lift.liftConnectorDecl (some (String.ofList n)) x = .ok
        { name := some (String.ofList n)
          fromType := c.fromEnd.kind.singular, toType := c.toEnd.kind.singular
          fromMultiple := c.fromEnd.multiple, toMultiple := c.toEnd.multiple
          fromThreads := c.fromEnd.threadCount, toThreads := c.toEnd.threadCount
          fromHardware := c.fromEnd.hardware, toHardware := c.toEnd.hardware
          attributes := c.attributes.map AttrS.value } →
        ofLift (Lift.liftConnectorDecl (some (String.ofList n)) x) =
          .ok (c.value (some n)) := by
      intro x hx
      rw [hx]
      rfl
    exact h2 _ hl

/-! ### Configurations -/

theorem dict_item (kvs : List (KeyS × Item)) : lift (dictTree kvs) = .ok (dictValue kvs) := by
  exact lift_item (.dict kvs)

theorem isDict_value (kvs : List (KeyS × Item)) : ∃ d, dictValue kvs = .dict d :=
  ⟨_, by rw [dictValue, Item.value]⟩

theorem lift_lookup (ks : List KeyS) :
    lift (.node .dictLookup (ks.map KeyS.tree)) = .ok (.lookup (ks.map KeyS.value)) := by
  have h : liftAll (ks.map KeyS.tree) = .ok (ks.map keyObj) := liftAll_map fun k _ => lift_key k
  rw [lift_node (by rfl) h]
  simp only [lifter, liftDictLookup, stripAll_keys, keys_keys]

/-- A lookup as a list of lifted arguments. -/
def lookupObjs : Option (List KeyS) → List Obj
  | none => []
  | some ks => [.lookup (ks.map KeyS.value)]

theorem lift_lookups (l : Option (List KeyS)) : liftAll (lookupTrees l) = .ok (lookupObjs l) := by
  cases l with
  | none => simp [lookupTrees, lookupObjs, liftAll]
  | some ks => exact liftAll_one (lift_lookup ks)

theorem joinDots_eq (ns : List Str) : joinDots ns = List.intercalate ['.'] ns := by
  induction ns with
  | nil => simp [joinDots]
  | cons n ns ih =>
    cases ns with
    | nil => simp [joinDots]
    | cons m ns =>
      rw [joinDots, ih]
      · simp [List.intercalate]
      · simp

theorem lift_query (t : Str) (a : QArgs) (l : Option (List KeyS)) :
    lift (.node .query (idTree t :: a.tree :: lookupTrees l)) =
      .ok (.queryO t a.values (l.map (List.map KeyS.value))) := by
  cases a with
  | one d =>
    rw [QArgs.tree, lift_node (by rfl) (liftAll_cons (lift_id t) (liftAll_cons (dict_item d)
      (lift_lookups l)))]
    obtain ⟨e, he⟩ := isDict_value d
    cases l <;> simp [lifter, lookupObjs, liftQuery, he, QArgs.values]
  | many ds =>
    have hd : lift (.node .dictList (ds.map dictTree)) = .ok (.list (ds.map dictValue)) := by
      rw [lift_node (by rfl) (liftAll_map (g := dictValue) fun d _ => dict_item d)]
      rfl
    have hall : (ds.map dictValue).all isDict = true := by
      rw [List.all_map, List.all_eq_true]
      intro d _
      obtain ⟨e, he⟩ := isDict_value d
      simp [he, isDict]
    rw [QArgs.tree, lift_node (by rfl) (liftAll_cons (lift_id t) (liftAll_cons hd
      (lift_lookups l)))]
    cases l with
    | none => simp only [lifter, lookupObjs, liftQuery, hall, if_true, QArgs.values, Option.map_none]
    | some ks => simp only [lifter, lookupObjs, liftQuery, hall, if_true, QArgs.values, Option.map_some]

theorem lift_attrRef (p : Path) (l : Option (List KeyS)) :
    lift (.node .attributeReference (p.names.map idTree ++ lookupTrees l)) =
      .ok (.attrRef (List.intercalate ['.'] p.names) (l.map (List.map KeyS.value))) := by
  rw [lift_node (by rfl) (liftAll_append (lift_ids p.names) (lift_lookups l))]
  simp only [lifter, liftAttributeReference]
  cases l with
  | none =>
    have hl : ((p.names.map Obj.str) ++ lookupObjs none).getLast? =
        some (.str (p.names.getLast (by simp [Path.names]))) := by
      simp only [lookupObjs, List.append_nil, List.getLast?_map]
      rw [List.getLast?_eq_some_getLast (by simp [Path.names])]
      rfl
    rw [hl]
    simp only [lookupObjs, List.append_nil, strs_map, joinDots_eq, Option.map_none]
  | some ks =>
    simp only [lookupObjs, List.getLast?_concat, List.dropLast_concat, strs_map, joinDots_eq,
      Option.map_some]

theorem settable_item (i : Item) : settable i.value = true := by
  cases i <;> simp [Item.value, settable]

theorem lift_setting (s : SettingS) : lift s.tree = .ok s.value := by
  obtain ⟨i, a, v⟩ := s
  have hv : ∃ o, lift v.tree = .ok o ∧ stripQuotes o = .ok v.value ∧ settable v.value = true := by
    cases v with
    | item i => exact ⟨_, lift_item i, strip_item i, settable_item i⟩
    | query t a l => exact ⟨_, lift_query t a l, rfl, rfl⟩
    | reference p l => exact ⟨_, lift_attrRef p l, rfl, rfl⟩
  obtain ⟨o, ho, hs, hok⟩ := hv
  rw [SettingS.tree, lift_node (by rfl) (liftAll_cons (lift_id i) (liftAll_two (lift_id a) ho))]
  simp only [lifter, liftSetting, hs, hok, if_true, SettingS.value]

theorem lift_config (f : ConfigS) : lift f.tree = .ok f.value := by
  obtain ⟨n, ss⟩ := f
  have hd : lift (.node .configurationDefn (ss.map SettingS.tree)) =
      .ok (.configuration none (ss.map SettingS.value)) := by
    rw [lift_node (by rfl) (liftAll_map (g := SettingS.value) fun s _ => lift_setting s)]
    rfl
  cases n with
  | none => rw [ConfigS.tree, named, lift_node (by rfl) (liftAll_one hd)]; rfl
  | some n => rw [ConfigS.tree, named, lift_node (by rfl) (liftAll_two (lift_id n) hd)]; rfl

theorem lift_configSing (f : ConfigS) :
    lift (.node .configurationSing [f.tree]) = .ok f.value := by
  rw [lift_node (by rfl) (liftAll_one (lift_config f))]
  rfl

/-! ### Items of components -/

/-- A lifted item of a component. -/
def compObj : CompItem → Obj
  | .attribute a => a.value
  | .consumes o t n => .consumes t n o
  | .control => .str (kw "control")
  | .dataport o t n => .dataport t.value n o
  | .emits t n => .emits t n
  | .hardware => .str (kw "hardware")
  | .includes i => i.value
  | .mutexS n => .mutexO n
  | .provides t n => .provides (.ref t.names (some .procedure)) n
  | .semaphore n => .semaphore n
  | .binarySemaphore n => .binarySemaphore n
  | .uses o t n => .uses (.ref t.names (some .procedure)) n o

theorem lift_maybe (o : Bool) :
    liftAll (maybeTree o) = .ok (if o then [.str (kw "maybe")] else []) := by
  cases o with
  | false => simp [maybeTree, liftAll]
  | true =>
    simp only [maybeTree, if_true]
    refine liftAll_one ?_
    rw [lift_leaf (by rfl)]
    rfl

theorem lift_dty (t : DTy) : lift t.tree = .ok (.str t.value) := by
  cases t with
  | named n => rw [DTy.tree, lift_node (by rfl) (liftAll_one (lift_id n))]; rfl
  | buf n h =>
    rw [DTy.tree, lift_node (by rfl) (liftAll_one (lift_num n))]
    have : ¬ n.value ≤ 0 := by omega
    simp only [lifter, liftDataportType, this, if_false, DTy.value]

theorem lift_compItem (i : CompItem) : lift i.tree = .ok (compObj i) := by
  cases i with
  | «attribute» a => exact lift_attr a
  | consumes o t n =>
    rw [CompItem.tree, lift_node (by rfl) (liftAll_append (lift_maybe o)
      (liftAll_two (lift_id t) (lift_id n)))]
    cases o <;> simp [lifter, liftConsumes, compObj]
  | control => rw [CompItem.tree, lift_leaf (by rfl)]; rfl
  | dataport o t n =>
    rw [CompItem.tree, lift_node (by rfl) (liftAll_append (lift_maybe o)
      (liftAll_two (lift_dty t) (lift_id n)))]
    cases o <;> simp [lifter, liftDataport, compObj]
  | emits t n =>
    rw [CompItem.tree, lift_node (by rfl) (liftAll_two (lift_id t) (lift_id n))]; rfl
  | hardware => rw [CompItem.tree, lift_leaf (by rfl)]; rfl
  | includes i => exact lift_incl i
  | mutexS n => rw [CompItem.tree, lift_node (by rfl) (liftAll_one (lift_id n))]; rfl
  | provides t n =>
    rw [CompItem.tree, lift_node (by rfl) (liftAll_two (lift_path t) (lift_id n))]; rfl
  | semaphore n => rw [CompItem.tree, lift_node (by rfl) (liftAll_one (lift_id n))]; rfl
  | binarySemaphore n => rw [CompItem.tree, lift_node (by rfl) (liftAll_one (lift_id n))]; rfl
  | uses o t n =>
    rw [CompItem.tree, lift_node (by rfl) (liftAll_append (lift_maybe o)
      (liftAll_two (lift_path t) (lift_id n)))]
    cases o <;> simp [lifter, liftUses, compObj]

/-- What the tail of a component lifts to. -/
structure TailObjs (os : List Obj) (composition configuration : Option Obj) : Prop where
  compositions : os.filter isComposition = composition.toList
  configurations : os.filter isConfiguration = configuration.toList
  others : ∀ o ∈ os, isComposition o = true ∨ isConfiguration o = true

theorem filter_tail {os : List Obj} (p : Obj → Bool)
    (h : ∀ o ∈ os, isComposition o = true ∨ isConfiguration o = true)
    (hp : ∀ o, p o = true → isComposition o = false ∧ isConfiguration o = false) :
    os.filter p = [] := by
  rw [List.filter_eq_nil_iff]
  intro o ho hpo
  have := hp o hpo
  rcases h o ho with h | h <;> simp_all

theorem any_tail {os : List Obj} (p : Obj → Bool)
    (h : ∀ o ∈ os, isComposition o = true ∨ isConfiguration o = true)
    (hp : ∀ o, p o = true → isComposition o = false ∧ isConfiguration o = false) :
    os.any p = false := by
  rw [List.any_eq_false]
  intro o ho hpo
  have := hp o hpo
  rcases h o ho with h | h <;> simp_all

theorem liftComponentDefn_eq (items : List CompItem) (os : List Obj) (c f : Option Obj)
    (h : TailObjs os c f) :
    liftComponentDefn (items.map compObj ++ os) = .ok (componentOf none items c f) := by
  have hc0 : (items.map compObj).filter isComposition = [] := by
    rw [List.filter_eq_nil_iff]
    intro o ho
    obtain ⟨i, _, rfl⟩ := List.mem_map.1 ho
    cases i with
    | «attribute» a => obtain ⟨t, n, b, d, e⟩ := attr_cases a; simp [compObj, e, isComposition]
    | includes i => obtain ⟨s, b, e⟩ := incl_cases i; simp [compObj, e, isComposition]
    | _ => simp [compObj, isComposition]
  have hf0 : (items.map compObj).filter isConfiguration = [] := by
    rw [List.filter_eq_nil_iff]
    intro o ho
    obtain ⟨i, _, rfl⟩ := List.mem_map.1 ho
    cases i with
    | «attribute» a => obtain ⟨t, n, b, d, e⟩ := attr_cases a; simp [compObj, e, isConfiguration]
    | includes i => obtain ⟨s, b, e⟩ := incl_cases i; simp [compObj, e, isConfiguration]
    | _ => simp [compObj, isConfiguration]
  have hc : (items.map compObj ++ os).filter isComposition = c.toList := by
    rw [List.filter_append, hc0, h.compositions, List.nil_append]
  have hf : (items.map compObj ++ os).filter isConfiguration = f.toList := by
    rw [List.filter_append, hf0, h.configurations, List.nil_append]
  have hl : ∀ x : Option Obj, x.toList.length ≤ 1 := by intro x; cases x <;> simp
  have hh : ∀ x : Option Obj, x.toList.head? = x := by intro x; cases x <;> rfl
  simp only [liftComponentDefn, hc, hf, hl, hh, and_self, if_true, componentOf]
  have key : ∀ (p : Obj → Bool) (g : CompItem → Option Obj),
      (∀ o, p o = true → isComposition o = false ∧ isConfiguration o = false) →
      (∀ x, g x = if p (compObj x) then some (compObj x) else none) →
      (items.map compObj ++ os).filter p = items.filterMap g := by
    intro p g h1 h2
    rw [List.filter_append, filter_tail p h.others h1, List.append_nil]
    exact filter_map_eq _ _ _ _ h2
  have keyAny : ∀ (w : String) (g : CompItem → Bool),
      (∀ x, g x = isStr (kw w) (compObj x)) →
      (items.map compObj ++ os).any (isStr (kw w)) = items.any g := by
    intro w g h2
    rw [List.any_append, any_tail _ h.others, Bool.or_false, List.any_map]
    · congr 1
      funext x
      exact (h2 x).symm
    · intro o; cases o <;> simp [isStr, isComposition, isConfiguration]
  congr 1
  congr 1
  case e_control | e_hardware =>
    apply keyAny
    intro x
    cases x with
    | «attribute» a => obtain ⟨t, n, b, d, e⟩ := attr_cases a; simp [compObj, e, isStr]
    | includes i => obtain ⟨s, b, e⟩ := incl_cases i; simp [compObj, e, isStr]
    | _ => simp [compObj, isStr, kw_eq]
  all_goals
    apply key
    · intro o; cases o <;> simp [isInclude, isProvides, isUses, isEmits, isConsumes, isDataport,
        isAttribute, isMutex, isSemaphore, isBinarySemaphore, isComposition, isConfiguration]
    · intro x
      cases x with
      | «attribute» a =>
        obtain ⟨t, n, b, d, e⟩ := attr_cases a
        simp [compObj, e, isInclude, isProvides, isUses, isEmits, isConsumes, isDataport,
          isAttribute, isMutex, isSemaphore, isBinarySemaphore]
      | includes i =>
        obtain ⟨s, b, e⟩ := incl_cases i
        simp [compObj, e, isInclude, isProvides, isUses, isEmits, isConsumes, isDataport,
          isAttribute, isMutex, isSemaphore, isBinarySemaphore]
      | _ => simp [compObj, isInclude, isProvides, isUses, isEmits, isConsumes, isDataport,
          isAttribute, isMutex, isSemaphore, isBinarySemaphore]

/-! ### Components, compositions and instances -/

theorem lift_cend (e : CEndS) : lift e.tree = .ok e.value := by
  obtain ⟨f, p⟩ := e
  obtain ⟨a, r⟩ := p
  have hp := lift_path ⟨a, r⟩
  have hk : lift (if f then .node .fromKw [.tok (kw "from")] else .node .toKw [.tok (kw "to")]) =
      .ok (.str (kw (if f then "from" else "to"))) := by
    cases f
    · simp only [Bool.false_eq_true, if_false]; rw [lift_leaf (by rfl)]; rfl
    · simp only [if_true]; rw [lift_leaf (by rfl)]; rfl
  rw [CEndS.tree, lift_node (by rfl) (liftAll_two hk hp)]
  cases f <;> cases r <;> simp [lifter, liftConnectionEnd, kw_eq, CEndS.value, Path.names]

theorem lift_connRef (t : ConnRef) : lift t.tree = .ok t.value ∧
    ((∃ ns k, t.value = .ref ns k) ∨ ∃ c, t.value = .connector c) := by
  cases t with
  | named p =>
    refine ⟨?_, .inl ⟨_, _, rfl⟩⟩
    rw [ConnRef.tree, lift_node (by rfl) (liftAll_one (lift_path p))]
    rfl
  | anon c =>
    refine ⟨?_, .inr ⟨_, rfl⟩⟩
    rw [ConnRef.tree, lift_node (by rfl) (liftAll_one (lift_connectorDefn c))]
    rfl

theorem ends_filter (ends : List CEndS) :
    (ends.map CEndS.value).filter isFromEnd = (ends.filter fun e => e.isFrom).map CEndS.value ∧
    (ends.map CEndS.value).filter isToEnd = (ends.filter fun e => !e.isFrom).map CEndS.value := by
  induction ends with
  | nil => exact ⟨rfl, rfl⟩
  | cons e ends ih =>
    obtain ⟨f, p⟩ := e
    cases f <;> simp [List.filter_cons, CEndS.value, isFromEnd, isToEnd, ih.1, ih.2]

theorem lift_connection (t : ConnRef) (n : Str) (ends : List CEndS) :
    lift (.node .connectionDefn (t.tree :: idTree n :: ends.map CEndS.tree)) =
      .ok (.connection t.value n ((ends.filter fun e => e.isFrom).map CEndS.value)
        ((ends.filter fun e => !e.isFrom).map CEndS.value)) := by
  have he : liftAll (ends.map CEndS.tree) = .ok (ends.map CEndS.value) :=
    liftAll_map fun e _ => lift_cend e
  obtain ⟨h1, h2⟩ := lift_connRef t
  rw [lift_node (by rfl) (liftAll_cons h1 (liftAll_cons (lift_id n) he))]
  obtain ⟨e1, e2⟩ := ends_filter ends
  rcases h2 with ⟨ns, k, h⟩ | ⟨c, h⟩ <;>
    simp only [h, lifter, liftConnectionDefn, e1, e2]

theorem lift_export (i : Path) (f : Str) (d : Path) :
    lift (.node .exportStmt [.node .reference ((i.names ++ [f]).map idTree), d.tree]) =
      .ok (.exportO (.ref i.names (some .instanceK)) (.ref (i.names ++ [f]) (some .interface))
        (.ref d.names (some .interface))) := by
  have h : lift (.node .reference ((i.names ++ [f]).map idTree)) =
      .ok (.ref (i.names ++ [f]) none) := lift_names i.first (i.rest ++ [f])
  rw [lift_node (by rfl) (liftAll_two h (lift_path d))]
  have hlen : ¬ (i.names ++ [f]).length < 2 := by simp [Path.names]
  simp only [lifter, liftExport, hlen, if_false, List.dropLast_concat]

theorem instObj (i : InstS) : ∃ t n, i.value = .inst t n := by
  cases i; exact ⟨_, _, by rw [InstS.value]⟩

theorem insts_all : ∀ l : List InstS, (InstS.values l).all isInstance = true
  | [] => by simp [InstS.values]
  | x :: xs => by
    obtain ⟨t, n, h⟩ := instObj x
    simp [InstS.values, h, isInstance, insts_all xs]

/-- A lifted item of a composition. -/
def citemObj : CItem → Obj
  | .instances i => i.value
  | .connection t n ends =>
    .connection t.value n ((ends.filter fun e => e.isFrom).map CEndS.value)
      ((ends.filter fun e => !e.isFrom).map CEndS.value)
  | .group n is => .group n (InstS.values is)
  | .exports i f d =>
    .exportO (.ref i.names (some .instanceK)) (.ref (i.names ++ [f]) (some .interface))
      (.ref d.names (some .interface))

theorem citems (l : List CItem) :
    (l.map citemObj).filter isInstance = CItem.instancesOf l ∧
    (l.map citemObj).filter isConnection = CItem.connectionsOf l ∧
    (l.map citemObj).filter isGroup = CItem.groupsOf l ∧
    (l.map citemObj).filter isExport = CItem.exportsOf l := by
  induction l with
  | nil =>
    simp [CItem.instancesOf, CItem.connectionsOf, CItem.groupsOf, CItem.exportsOf]
  | cons x l ih =>
    obtain ⟨h1, h2, h3, h4⟩ := ih
    cases x with
    | instances i =>
      obtain ⟨t, n, h⟩ := instObj i
      simp [List.filter_cons, citemObj, h, isInstance, isConnection, isGroup, isExport, h1, h2, h3, h4,
        CItem.instancesOf, CItem.connectionsOf, CItem.groupsOf, CItem.exportsOf]
    | _ =>
      simp [List.filter_cons, citemObj, isInstance, isConnection, isGroup, isExport, h1, h2, h3, h4,
        CItem.instancesOf, CItem.connectionsOf, CItem.groupsOf, CItem.exportsOf]

theorem compositionCases (c : CompositionS) : ∃ n is cs gs es, c.value = .composition n is cs gs es := by
  cases c; exact ⟨_, _, _, _, _, by rw [CompositionS.value]⟩

theorem lift_sing {c : CompositionS} (h : lift c.tree = .ok c.value) :
    lift (.node .compositionSing [c.tree]) = .ok c.value := by
  rw [lift_node (by rfl) (liftAll_one h)]
  obtain ⟨n, is, cs, gs, es, e⟩ := compositionCases c
  rw [e]
  rfl

theorem componentCases (n : Option Str) (c : CompS) :
    ∃ is ct hw p u e cs d a m s b comp conf,
      c.value n = .component n is ct hw p u e cs d a m s b comp conf := by
  cases c
  exact ⟨_, _, _, _, _, _, _, _, _, _, _, _, _, _, by rw [CompS.value]; rfl⟩

mutual
theorem lift_comp : ∀ c : CompS, lift c.tree = .ok (c.value none)
  | .mk items tail => by
    obtain ⟨os, h, ho⟩ := lift_tail tail
    rw [CompS.tree, CompS.value, lift_node (by rfl) (liftAll_append
      (liftAll_map (g := compObj) fun i _ => lift_compItem i) h)]
    exact liftComponentDefn_eq items os _ _ ho
theorem lift_tail : ∀ t : TailS, ∃ os, liftAll t.trees = .ok os ∧
    TailObjs os t.compositionOf t.configurationOf
  | .none => by
    refine ⟨[], by simp [TailS.trees, liftAll], ?_, ?_, ?_⟩ <;>
      simp [TailS.compositionOf, TailS.configurationOf]
  | .composition c => by
    have h := lift_sing (lift_composition c)
    obtain ⟨n, is, cs, gs, es, e⟩ := compositionCases c
    refine ⟨[c.value], by rw [TailS.trees]; exact liftAll_one h, ?_, ?_, ?_⟩ <;>
      simp [List.filter_cons, TailS.compositionOf, TailS.configurationOf, e, isComposition, isConfiguration]
  | .compositionFirst c f => by
    have h := lift_sing (lift_composition c)
    obtain ⟨n, is, cs, gs, es, e⟩ := compositionCases c
    refine ⟨[c.value, f.value], by
      rw [TailS.trees]; exact liftAll_two h (lift_configSing f), ?_, ?_, ?_⟩ <;>
      simp [List.filter_cons, TailS.compositionOf, TailS.configurationOf, e, isComposition, isConfiguration,
        ConfigS.value]
  | .configurationFirst f c => by
    have h := lift_sing (lift_composition c)
    obtain ⟨n, is, cs, gs, es, e⟩ := compositionCases c
    refine ⟨[f.value, c.value], by
      rw [TailS.trees]; exact liftAll_two (lift_configSing f) h, ?_, ?_, ?_⟩ <;>
      simp [List.filter_cons, TailS.compositionOf, TailS.configurationOf, e, isComposition, isConfiguration,
        ConfigS.value]
theorem lift_composition : ∀ c : CompositionS, lift c.tree = .ok c.value
  | .mk n items => by
    have hd : lift (.node .compositionDefn (CItem.trees items)) =
        .ok (.composition none (CItem.instancesOf items) (CItem.connectionsOf items)
          (CItem.groupsOf items) (CItem.exportsOf items)) := by
      rw [lift_node (by rfl) (lift_citems items)]
      obtain ⟨h1, h2, h3, h4⟩ := citems items
      simp only [lifter, liftCompositionDefn, h1, h2, h3, h4]
    rw [CompositionS.tree, CompositionS.value]
    cases n with
    | none => rw [named, lift_node (by rfl) (liftAll_one hd)]; rfl
    | some n => rw [named, lift_node (by rfl) (liftAll_two (lift_id n) hd)]; rfl
theorem lift_citem : ∀ i : CItem, lift i.tree = .ok (citemObj i)
  | .instances i => by rw [CItem.tree, citemObj]; exact lift_inst i
  | .connection t n ends => by rw [CItem.tree, citemObj]; exact lift_connection t n ends
  | .group n is => by
    have hd : lift (.node .groupDefn (InstS.trees is)) = .ok (.group none (InstS.values is)) := by
      rw [lift_node (by rfl) (lift_insts is)]
      simp only [lifter, liftGroupDefn, insts_all, if_true]
    rw [CItem.tree, citemObj]
    cases n with
    | none => rw [named, lift_node (by rfl) (liftAll_one hd)]; rfl
    | some n => rw [named, lift_node (by rfl) (liftAll_two (lift_id n) hd)]; rfl
  | .exports i f d => by rw [CItem.tree, citemObj]; exact lift_export i f d
theorem lift_citems : ∀ l : List CItem, liftAll (CItem.trees l) = .ok (l.map citemObj)
  | [] => by simp [CItem.trees, liftAll]
  | x :: xs => by
    rw [CItem.trees, List.map_cons]
    exact liftAll_cons (lift_citem x) (lift_citems xs)
theorem lift_inst : ∀ i : InstS, lift i.tree = .ok i.value
  | .mk t n => by
    obtain ⟨h, hc⟩ := lift_cref t
    rw [InstS.tree, InstS.value, lift_node (by rfl) (liftAll_two h (lift_id n))]
    rcases hc with ⟨ns, k, e⟩ | ⟨is, ct, hw, p, u, em, cs, d, a, m, s, b, comp, conf, e⟩ <;>
      rw [e] <;> rfl
theorem lift_insts : ∀ l : List InstS, liftAll (InstS.trees l) = .ok (InstS.values l)
  | [] => by simp [InstS.trees, InstS.values, liftAll]
  | x :: xs => by
    rw [InstS.trees, InstS.values]
    exact liftAll_cons (lift_inst x) (lift_insts xs)
theorem lift_cref : ∀ t : CRef, lift t.tree = .ok t.value ∧
    ((∃ ns k, t.value = .ref ns k) ∨ ∃ is ct hw p u e cs d a m s b comp conf,
      t.value = .component none is ct hw p u e cs d a m s b comp conf)
  | .named p => by
    refine ⟨?_, .inl ⟨_, _, by rw [CRef.value]⟩⟩
    rw [CRef.tree, CRef.value, lift_node (by rfl) (liftAll_one (lift_path p))]
    rfl
  | .anon c => by
    have h := lift_comp c
    obtain ⟨is, ct, hw, p, u, em, cs, d, a, m, s, b, comp, conf, e⟩ := componentCases none c
    refine ⟨?_, .inr ⟨is, ct, hw, p, u, em, cs, d, a, m, s, b, comp, conf, by
      rw [CRef.value]; exact e⟩⟩
    rw [CRef.tree, CRef.value, lift_node (by rfl) (liftAll_one h), e]
    rfl
end

theorem value_name (n : Option Str) (c : CompS) :
    ∃ is ct hw p u e cs d a m s b comp conf,
      c.value none = .component none is ct hw p u e cs d a m s b comp conf ∧
      c.value n = .component n is ct hw p u e cs d a m s b comp conf := by
  cases c
  exact ⟨_, _, _, _, _, _, _, _, _, _, _, _, _, _, by rw [CompS.value]; rfl,
    by rw [CompS.value]; rfl⟩

theorem lift_compDecl (n : Option Str) (c : CompS) :
    lift (.node .componentDecl (named n c.tree)) = .ok (c.value n) := by
  obtain ⟨is, ct, hw, p, u, em, cs, d, a, m, s, b, comp, conf, e, e'⟩ := value_name n c
  cases n with
  | none =>
    rw [named, lift_node (by rfl) (liftAll_one (lift_comp c)), e]
    rfl
  | some n =>
    rw [named, lift_node (by rfl) (liftAll_two (lift_id n) (lift_comp c)), e, e']
    rfl

/-! ### Assemblies -/

theorem lift_slot (s : SlotS) : lift s.tree = .ok s.value := by
  obtain ⟨d, n, u⟩ := s
  have h : ∀ k : Int, lift (.num (.number k)) = .ok (.num k) := by
    intro k; simp [lift, NumExpr.lift]
  cases u with
  | none =>
    simp only [SlotS.tree, List.append_nil]
    rw [lift_node (by rfl) (liftAll_two (h d) (h n))]
    rfl
  | some u =>
    have hu : lift (.node .scheduleUnit [.tok (kw (if u then "ticks" else "us"))]) =
        .ok (.unit u) := by
      rw [lift_node (by rfl) (liftAll_one (o := .str (kw (if u then "ticks" else "us")))
        (by simp [lift]))]
      cases u <;> simp [lifter, liftScheduleUnit, kw_eq]
    have ht : SlotS.tree ⟨d, n, some u⟩ = .node .scheduleItem
        ([.num (.number d), .num (.number n)] ++
          [.node .scheduleUnit [.tok (kw (if u then "ticks" else "us"))]]) := by
      cases u <;> rfl
    rw [ht, lift_node (by rfl) (liftAll_append (liftAll_two (h d) (h n)) (liftAll_one hu))]
    rfl

/-- A lifted item of an assembly. -/
def aitemObj : AItem → Obj
  | .composition c => c.value
  | .configuration f => f.value
  | .schedule ss => .schedule (ss.map SlotS.value)

theorem lift_aitem (i : AItem) : lift i.tree = .ok (aitemObj i) := by
  cases i with
  | composition c => exact lift_sing (lift_composition c)
  | configuration f => exact lift_configSing f
  | schedule ss =>
    rw [AItem.tree, lift_node (by rfl) (liftAll_map (g := SlotS.value) fun s _ => lift_slot s)]
    have : (ss.map SlotS.value).all isSlot = true := by simp [SlotS.value, isSlot]
    simp only [lifter, liftSchedule, this, if_true, aitemObj]

theorem aitems (l : List AItem) :
    (l.map aitemObj).filter isComposition = (compositionsIn l).map CompositionS.value ∧
    (l.map aitemObj).filter isConfiguration = (configurationsIn l).map ConfigS.value ∧
    (l.map aitemObj).filter isSchedule =
      (schedulesIn l).map fun s => .schedule (s.map SlotS.value) := by
  induction l with
  | nil => exact ⟨rfl, rfl, rfl⟩
  | cons x l ih =>
    obtain ⟨h1, h2, h3⟩ := ih
    cases x with
    | composition c =>
      obtain ⟨n, is, cs, gs, es, e⟩ := compositionCases c
      simp_all [List.filter_cons, aitemObj, isComposition, isConfiguration, isSchedule, compositionsIn,
        configurationsIn, schedulesIn]
    | configuration f =>
      simp_all [List.filter_cons, aitemObj, ConfigS.value, isComposition, isConfiguration, isSchedule,
        compositionsIn, configurationsIn, schedulesIn]
    | schedule ss =>
      simp_all [List.filter_cons, aitemObj, isComposition, isConfiguration, isSchedule, compositionsIn,
        configurationsIn, schedulesIn]

theorem lift_aitems (l : List AItem) :
    lift (.node .assemblyDefn (l.map AItem.tree)) = liftAssemblyDefn (l.map aitemObj) := by
  rw [lift_node (by rfl) (liftAll_map (g := aitemObj) fun i _ => lift_aitem i)]
  rfl

theorem lift_assemblyDefn (items : List AItem) (c : CompositionS)
    (hc : compositionsIn items = [c]) (hf : (configurationsIn items).length ≤ 1)
    (hs : (schedulesIn items).length ≤ 1) :
    lift (.node .assemblyDefn (items.map AItem.tree)) = .ok (.assembly none c.value
      (settingsOf (configurationsIn items)) (slotsOf (schedulesIn items))) := by
  obtain ⟨h1, h2, h3⟩ := aitems items
  rw [lift_aitems]
  simp only [liftAssemblyDefn, h1, h2, h3, hc, List.map_cons, List.map_nil, List.length_map, hf,
    hs, and_self, if_true]
  cases configurationsIn items <;> cases schedulesIn items <;> rfl

theorem lift_node_error {h : Head} {ts : List Tree} {e : Err} (hd : dontDescend h = false)
    (hl : liftAll ts = .error e) : lift (.node h ts) = .error e := by
  simp [lift, hd, hl]

theorem liftAll_one_error {t : Tree} {e : Err} (h : lift t = .error e) :
    liftAll [t] = .error e := by
  simp [liftAll, h]

theorem liftAll_two_error {t u : Tree} {o : Obj} {e : Err} (ht : lift t = .ok o)
    (h : lift u = .error e) : liftAll [t, u] = .error e := by
  simp [liftAll, h, ht]

end Verif.Decls
