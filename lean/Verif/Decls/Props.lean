import Verif.Decls.Lemmas

/-!
# C82: a declaration becomes the object that was written
-/

namespace Verif.Decls
open Spec

/-- **C82.** Every declaration of the language (`Spec.Decl`, nested to any depth) lifts to
the object it stands for: each item that was written is there exactly once, with everything
that was written about it, among its kind and in the order written, and nothing else. Missing
is that a composition or a configuration can be given by name and that every mistake is a
parse error (below). -/
theorem declaration_partial (d : Decl) (o : Obj) (h : Means d o) : lift d.tree = .ok o := by
  cases h with
  | component n c => exact lift_compDecl n c
  | composition c => exact lift_composition c
  | configuration f => exact lift_config f
  | connector n c => exact lift_connectorDecl n c
  | procedure n items =>
    have hd := lift_procedureDefn items
    cases n with
    | none => rw [Decl.tree, named, lift_node (by rfl) (liftAll_one hd)]; rfl
    | some n => rw [Decl.tree, named, lift_node (by rfl) (liftAll_two (lift_id n) hd)]; rfl
  | struct n f r =>
    have hd : lift (.node .structDefn (f.tree :: r.map AttrS.tree)) =
        .ok (.struct none (f.value :: r.map AttrS.value)) := by
      rw [lift_node (by rfl) (liftAll_cons (lift_attr f) (lift_attr_map r))]
      have := all_isAttribute r
      rw [attrValues_eq] at this
      simp only [lifter, liftStructDefn, List.isEmpty_cons, Bool.false_eq_true, if_false,
        List.all_cons, isAttribute_value, this, Bool.and_self, if_true]
    rw [Decl.tree, lift_node (by rfl) (liftAll_two (lift_id n) hd)]
    rfl
  | assembly n items c fs ss hc hf hfs hs hss =>
    subst hf hs
    have hd := lift_assemblyDefn items c hc hfs hss
    cases n with
    | none => rw [Decl.tree, named, lift_node (by rfl) (liftAll_one hd)]; rfl
    | some n => rw [Decl.tree, named, lift_node (by rfl) (liftAll_two (lift_id n) hd)]; rfl

/-- **C82 (files).** A file lifts to its declarations, all of them, in their order. -/
theorem file_partial (ds : List Decl) (os : List Obj) (h : List.Forall₂ Means ds os) :
    liftAll (ds.map Decl.tree) = .ok os := by
  induction h with
  | nil => simp [liftAll]
  | cons hd _ ih => exact liftAll_cons (declaration_partial _ _ hd) ih

/-- **C82 (assemblies).** An assembly lifts exactly if it has one composition and at most one
configuration and schedule; otherwise it is refused. (The refusal is an assertion failure,
not a parse error with a location.) -/
theorem assembly_refused (n : Option Str) (items : List AItem)
    (h : (compositionsIn items).length ≠ 1 ∨ 1 < (configurationsIn items).length ∨
      1 < (schedulesIn items).length) :
    lift (Decl.tree (.assembly n items)) = .error .assertion := by
  have hd : lift (.node .assemblyDefn (items.map AItem.tree)) = .error .assertion := by
    obtain ⟨h1, h2, h3⟩ := aitems items
    rw [lift_aitems, liftAssemblyDefn, h1, h2, h3]
    cases hc : compositionsIn items with
    | nil => rfl
    | cons c cs =>
      cases cs with
      | nil =>
        rw [hc] at h
        simp only [List.length_singleton, ne_eq, not_true_eq_false, false_or] at h
        simp only [List.map_cons, List.map_nil, List.length_map]
        rw [if_neg (by omega)]
      | cons c' cs => rfl
  cases n with
  | none => exact lift_node_error (by rfl) (liftAll_one_error hd)
  | some n => exact lift_node_error (by rfl) (liftAll_two_error (lift_id n) hd)

/-- `u` is `t` or written somewhere inside it (not inside a rule that is taken as it is, like
`include`). -/
inductive Inside (u : Tree) : Tree → Prop
  | self : Inside u u
  | child {h : Head} {ts : List Tree} {t : Tree} (hd : dontDescend h = false) (ht : t ∈ ts)
      (hu : Inside u t) : Inside u (.node h ts)

theorem liftAll_error {ts : List Tree} {t : Tree} {e : Err} (ht : t ∈ ts)
    (h : lift t = .error e) : ∃ e', liftAll ts = .error e' := by
  induction ts with
  | nil => simp at ht
  | cons x ts ih =>
    cases hx : lift x with
    | error e' => exact ⟨e', by simp [liftAll, hx]⟩
    | ok o =>
      rcases List.mem_cons.1 ht with rfl | ht
      · rw [h] at hx; cases hx
      · obtain ⟨e', he⟩ := ih ht
        exact ⟨e', by simp [liftAll, hx, he]⟩

/-- **C82 (no mistake is skipped).** If anything inside a declaration is refused, so is the
declaration: no error is lost and no half of a declaration is kept. -/
theorem mistakes_stop {t u : Tree} {e : Err} (hi : Inside u t) (h : lift u = .error e) :
    ∃ e', lift t = .error e' := by
  induction hi with
  | self => exact ⟨e, h⟩
  | child hd ht _ ih =>
    obtain ⟨e1, h1⟩ := ih
    obtain ⟨e', h'⟩ := liftAll_error ht h1
    exact ⟨e', by simp [lift, hd, h']⟩

/-- **C82 (no mistake is skipped).** One declaration that is refused stops the file. -/
theorem file_stops {ts : List Tree} {t : Tree} {e : Err} (ht : t ∈ ts)
    (h : lift t = .error e) : ∃ e', liftAll ts = .error e' := liftAll_error ht h

/-- **C82 (refused).** The size of a buffer must be positive. -/
theorem buffer_size_positive (n : Num) (h : n.value ≤ 0) :
    lift (.node .dataportType [.num n.expr]) = .error .parse := by
  rw [lift_node (by rfl) (liftAll_one (lift_num n))]
  simp only [lifter, liftDataportType, h, if_true]

/-- **C82 (refused).** The source of an export must be qualified. -/
theorem export_qualified (i : Str) (d : Path) :
    lift (.node .exportStmt [.node .reference [idTree i], d.tree]) = .error .parse := by
  have h := lift_names i []
  simp only [List.map_cons, List.map_nil] at h
  rw [lift_node (by rfl) (liftAll_two h (lift_path d))]
  rfl

/-- **C82 (refused).** An attribute cannot be written with `struct name`. -/
theorem attribute_struct_refused (s n : Str) :
    lift (.node .attributeScalarParameter
      [.node .type [.node .structType [idTree s]], idTree n]) = .error .parse := by
  have h : lift (.node .structType [idTree s]) = .ok (.str (kw "struct " ++ s)) := by
    rw [lift_node (by rfl) (liftAll_one (lift_id s))]; rfl
  have hn : normaliseType (kw "struct " ++ s) = kw "struct " ++ s := by
    rw [normaliseType, if_neg, if_neg, if_neg, if_neg] <;> (unfold kw; simp)
  have h2 : lift (.node .type [.node .structType [idTree s]]) =
      .ok (.str (kw "struct " ++ s)) := by
    rw [lift_node (by rfl) (liftAll_one h)]
    simp only [lifter, liftType, hn]
  rw [lift_node (by rfl) (liftAll_two h2 (lift_id n))]
  have : startsStruct (kw "struct " ++ s) = true := by
    simp [startsStruct]
  simp only [lifter, liftAttributeScalar, this, if_true]

/-- **C82 (refused).** The type of a parameter cannot be a qualified name. -/
theorem parameter_type_single (d : Option Direction) (p : Path) (hp : p.rest ≠ []) (n : Str) :
    lift (.node .methodScalarParameter
      ((match d with | none => [] | some d => [.node .direction [.tok d.text]]) ++
        [.node .type [.node .structRef [p.tree]], idTree n])) = .error .parse := by
  have h : lift (.node .structRef [p.tree]) = .ok (.ref p.names (some .struct)) := by
    rw [lift_node (by rfl) (liftAll_one (lift_path p))]; rfl
  have h2 : lift (.node .type [.node .structRef [p.tree]]) =
      .ok (.ref p.names (some .struct)) := by
    rw [lift_node (by rfl) (liftAll_one h)]; rfl
  have hm : methodType (.ref p.names (some .struct)) = .error .parse := by
    obtain ⟨a, r⟩ := p
    cases r with
    | nil => exact absurd rfl hp
    | cons b r => rfl
  cases d with
  | none =>
    simp only [List.nil_append]
    rw [lift_node (by rfl) (liftAll_two h2 (lift_id n))]
    simp only [lifter, liftMethodScalar, mkParameter, hm]
  | some d =>
    have h1 : lift (.node .direction [.tok d.text]) = .ok (.str d.text) := by
      rw [lift_leaf (by rfl)]; rfl
    simp only [List.singleton_append]
    rw [lift_node (by rfl) (liftAll_cons h1 (liftAll_two h2 (lift_id n)))]
    simp only [lifter, liftMethodScalar, mkParameter, hm]

/-- **C82 (refused).** A query without arguments is refused. -/
theorem query_needs_arguments (t : Str) : lift (.node .query [idTree t]) = .error .parse := by
  rw [lift_node (by rfl) (liftAll_one (lift_id t))]
  rfl

/-! ### Disagreements -/

/-- `composition name;`, camkes.g:86. -/
def compositionByName (p : Path) : Tree := .node .compositionSing [p.tree]
/-- `configuration name;`, camkes.g:89. -/
def configurationByName (p : Path) : Tree := .node .configurationSing [p.tree]

theorem lift_compositionByName (p : Path) :
    lift (compositionByName p) = .ok (.ref p.names (some .composition)) := by
  rw [compositionByName, lift_node (by rfl) (liftAll_one (lift_path p))]; rfl

theorem lift_configurationByName (p : Path) :
    lift (configurationByName p) = .ok (.ref p.names (some .configuration)) := by
  rw [configurationByName, lift_node (by rfl) (liftAll_one (lift_path p))]; rfl

theorem liftComponentDefn_ref (items : List CompItem) (os : List Obj)
    (h : ∀ o ∈ os, ∃ ns k, o = .ref ns k) :
    liftComponentDefn (items.map compObj ++ os) = .ok (componentOf none items none none) := by
  have h0 := liftComponentDefn_eq items [] none none ⟨rfl, rfl, by simp⟩
  rw [List.append_nil] at h0
  rw [← h0]
  have hf : ∀ p : Obj → Bool, (∀ ns k, p (.ref ns k) = false) →
      (items.map compObj ++ os).filter p = (items.map compObj).filter p := by
    intro p hp
    rw [List.filter_append]
    have : os.filter p = [] := by
      rw [List.filter_eq_nil_iff]
      intro o ho
      obtain ⟨ns, k, rfl⟩ := h o ho
      simp [hp]
    rw [this, List.append_nil]
  have ha : ∀ w, (items.map compObj ++ os).any (isStr w) = (items.map compObj).any (isStr w) := by
    intro w
    rw [List.any_append]
    have : os.any (isStr w) = false := by
      rw [List.any_eq_false]
      intro o ho
      obtain ⟨ns, k, rfl⟩ := h o ho
      simp [isStr]
    rw [this, Bool.or_false]
  simp only [liftComponentDefn]
  rw [hf isComposition fun _ _ => rfl, hf isConfiguration fun _ _ => rfl,
    hf isInclude fun _ _ => rfl, hf isProvides fun _ _ => rfl, hf isUses fun _ _ => rfl,
    hf isEmits fun _ _ => rfl, hf isConsumes fun _ _ => rfl, hf isDataport fun _ _ => rfl,
    hf isAttribute fun _ _ => rfl, hf isMutex fun _ _ => rfl, hf isSemaphore fun _ _ => rfl,
    hf isBinarySemaphore fun _ _ => rfl, ha, ha]

/-- **Disagreement with C82.** A component that takes its composition (and configuration) by
name, as the grammar allows, lifts without any error to a component that has neither: what
was written is dropped. -/
theorem named_parts_dropped (n : Str) (items : List CompItem) (p q : Path) :
    lift (.node .componentDecl [idTree n, .node .componentDefn
      (items.map CompItem.tree ++ [compositionByName p, configurationByName q])]) =
      .ok (componentOf (some n) items none none) := by
  have h : lift (.node .componentDefn
      (items.map CompItem.tree ++ [compositionByName p, configurationByName q])) =
      .ok (componentOf none items none none) := by
    rw [lift_node (by rfl) (liftAll_append (liftAll_map (g := compObj) fun i _ => lift_compItem i)
      (liftAll_two (lift_compositionByName p) (lift_configurationByName q)))]
    exact liftComponentDefn_ref items _ (by
      intro o ho
      simp only [List.mem_cons, List.not_mem_nil, or_false] at ho
      rcases ho with rfl | rfl <;> exact ⟨_, _, rfl⟩)
  rw [lift_node (by rfl) (liftAll_two (lift_id n) h)]
  rfl

/-- **Disagreement with C82.** An assembly that names its configuration lifts to one with an
empty configuration: the settings are dropped. -/
theorem named_configuration_dropped (n : Str) (c : CompositionS) (q : Path) :
    lift (.node .assemblyDecl [idTree n, .node .assemblyDefn
      [.node .compositionSing [c.tree], configurationByName q]]) =
      .ok (.assembly (some n) c.value (.configuration none []) (.schedule [])) := by
  obtain ⟨m, is, cs, gs, es, e⟩ := compositionCases c
  have h : lift (.node .assemblyDefn [.node .compositionSing [c.tree], configurationByName q]) =
      .ok (.assembly none c.value (.configuration none []) (.schedule [])) := by
    rw [lift_node (by rfl) (liftAll_two (lift_sing (lift_composition c))
      (lift_configurationByName q)), e]
    rfl
  rw [lift_node (by rfl) (liftAll_two (lift_id n) h)]
  rfl

/-- **Disagreement with C82.** An assembly that names its composition is an assertion
failure. -/
theorem named_composition_fails (n : Str) (p : Path) :
    lift (.node .assemblyDecl [idTree n, .node .assemblyDefn [compositionByName p]]) =
      .error .assertion := by
  have h : lift (.node .assemblyDefn [compositionByName p]) = .error .assertion := by
    rw [lift_node (by rfl) (liftAll_one (lift_compositionByName p))]
    rfl
  exact lift_node_error (by rfl) (liftAll_two_error (lift_id n) h)

/-- **Disagreement with C82.** An empty struct, which the grammar allows (camkes.g:106), is an
assertion failure and not a parse error. -/
theorem empty_struct_fails (n : Str) :
    lift (.node .structDecl [idTree n, .node .structDefn []]) = .error .assertion := by
  simp [lift, dontDescend, liftAll, lift_id, lifter, liftStructDefn]

/-- **Disagreement with C82.** A query with a lookup and no arguments (camkes.g:227) is an
assertion failure and not a parse error. -/
theorem query_lookup_fails (t : Str) (ks : List KeyS) :
    lift (.node .query [idTree t, .node .dictLookup (ks.map KeyS.tree)]) =
      .error .assertion := by
  rw [lift_node (by rfl) (liftAll_two (lift_id t) (lift_lookup ks))]
  rfl

/-! ### A description with everything in it -/

/-- The number `n`. -/
def num (n : Int) : Num := ⟨.number n, n, by simp [NumExpr.lift]⟩

/-- `dataport Buf(4096) d; uses Lock l; maybe uses Lock m; control; attribute int x = 3;` -/
def demoItems : List CompItem :=
  [.dataport false (.buf (num 4096) (by decide)) ['d'], .uses false ⟨['L'], []⟩ ['l'],
    .uses true ⟨['L'], []⟩ ['m'], .control,
    .attribute (.basic (.int []) ['x'] false (some (.num (num 3))))]

/-- A nested component with an inner composition and a configuration. -/
def demoComp : CompS :=
  .mk demoItems (.compositionFirst
    (.mk none [.instances (.mk (.anon (.mk [.hardware] .none)) ['h']),
      .exports ⟨['h'], []⟩ ['i'] ⟨['l'], []⟩])
    ⟨none, [⟨['h'], ['x'], .item (.list [.str ⟨['a'], [['b']]⟩, .num (num 2)])⟩]⟩)

/-- An assembly: two instances, a connection, a group, a configuration and a schedule. -/
def demoItemsA : List AItem :=
  [.schedule [⟨0, 10, none⟩, ⟨1, 20, some true⟩],
    .composition (.mk none [.instances (.mk (.named ⟨['C'], []⟩) ['a']),
      .connection (.named ⟨['R'], []⟩) ['c'] [⟨true, ⟨['a'], [['l']]⟩⟩, ⟨false, ⟨['b'], [['p']]⟩⟩],
      .group (some ['g']) [.mk (.anon demoComp) ['b']]])]

/-- The assembly has a meaning, with an empty configuration. -/
example : ∃ o, Means (.assembly (some ['A']) demoItemsA) o :=
  ⟨_, .assembly _ demoItemsA _ [] [[⟨0, 10, none⟩, ⟨1, 20, some true⟩]]
    rfl rfl (by simp) rfl (by simp)⟩

/-- And it lifts to it. -/
example : ∃ c, lift (Decl.tree (.assembly (some ['A']) demoItemsA)) =
    .ok (.assembly (some ['A']) c (.configuration none [])
      (.schedule [.slot 0 10 none, .slot 1 20 (some true)])) :=
  ⟨_, declaration_partial _ _ (.assembly _ demoItemsA _ [] [[⟨0, 10, none⟩, ⟨1, 20, some true⟩]]
    rfl rfl (by simp) rfl (by simp))⟩

/-- The uses of the component, in order and with their `maybe`. -/
example : ∃ is c h p e cs d a m s b comp conf,
    lift (Decl.tree (.component (some ['C']) demoComp)) =
    .ok (.component (some ['C']) is c h p
      [.uses (.ref [['L']] (some .procedure)) ['l'] false,
        .uses (.ref [['L']] (some .procedure)) ['m'] true] e cs d a m s b comp conf) :=
  ⟨_, _, _, _, _, _, _, _, _, _, _, _, _, declaration_partial _ _ (.component _ _)⟩

/-- A file of two declarations. -/
example : ∃ os, List.Forall₂ Means [.component (some ['C']) demoComp,
    .procedure (some ['L']) [.method ⟨none, ['f'], [⟨none, .basic .string, ['s'], true⟩]⟩]] os :=
  ⟨_, .cons (.component _ _) (.cons (.procedure _ _) .nil)⟩

/-- The assembly without its composition meets the hypothesis of `assembly_refused`. -/
example : (compositionsIn [AItem.schedule []]).length ≠ 1 := by simp [compositionsIn]

/-- A negative buffer size deep inside a component. -/
example : ∃ e, lift (.node .componentDecl [idTree ['C'], .node .componentDefn
    [.node .dataport [.node .dataportType [.num (num (-1)).expr], idTree ['d']]]]) = .error e :=
  mistakes_stop
    (.child rfl (List.mem_cons_of_mem _ (List.mem_cons_self ..))
      (.child rfl (List.mem_cons_self ..) (.child rfl (List.mem_cons_self ..) .self)))
    (buffer_size_positive (num (-1)) (by decide))

end Verif.Decls
