import Verif.FdtQuery.Spec
import Mathlib.Data.List.Infix
import Mathlib.Data.List.TakeWhile
import Mathlib.Tactic.Tauto
import Mathlib.Tactic.ByContra

namespace Verif.FdtQuery
open Spec

/-! ### Keys -/

def strip (l : List Char) : List Char := ((l.dropWhile (· = ' ')).reverse.dropWhile (· = ' ')).reverse

theorem dropWhile_split (l : List Char) :
    ∃ a, l = List.replicate a ' ' ++ l.dropWhile (· = ' ') ∧ (l.dropWhile (· = ' ')).head? ≠ some ' ' := by
  induction l with
  | nil => exact ⟨0, by simp, by simp⟩
  | cons c cs ih =>
    by_cases h : c = ' '
    · obtain ⟨a, h1, h2⟩ := ih
      refine ⟨a + 1, ?_, ?_⟩
      · simp only [h, List.dropWhile_cons, decide_true, if_true, List.replicate_succ, List.cons_append]
        rw [← h1]
      · simpa [h, List.dropWhile_cons] using h2
    · exact ⟨0, by simp [h], by simp [h]⟩

theorem strip_padded (l : List Char) : Padded l (strip l) := by
  obtain ⟨a, h1, h2⟩ := dropWhile_split l
  obtain ⟨b, h3, h4⟩ := dropWhile_split (l.dropWhile (· = ' ')).reverse
  have h5 : l.dropWhile (· = ' ') = strip l ++ List.replicate b ' ' := by
    have := congrArg List.reverse h3
    rw [List.reverse_reverse, List.reverse_append, List.reverse_replicate] at this
    exact this
  refine ⟨a, b, ?_, ?_, ?_⟩
  · rw [List.append_assoc, ← h5]; exact h1
  · rw [h5] at h2
    cases hs : strip l with
    | nil => simp
    | cons c cs => rw [hs] at h2; simpa using h2
  · unfold strip
    rw [List.getLast?_reverse]
    exact h4

theorem dropWhile_replicate (a : Nat) (l : List Char) (h : l.head? ≠ some ' ') :
    (List.replicate a ' ' ++ l).dropWhile (· = ' ') = l := by
  induction a with
  | zero =>
    cases l with
    | nil => simp
    | cons c cs =>
      have : c ≠ ' ' := by simpa using h
      simp [this]
  | succ a ih => simpa [List.replicate_succ, List.dropWhile_cons] using ih

theorem padded_strip {s core : List Char} (h : Padded s core) : strip s = core := by
  obtain ⟨a, b, h1, h2, h3⟩ := h
  unfold strip
  rw [h1, List.append_assoc]
  cases core with
  | nil =>
    have : List.replicate a ' ' ++ ([] ++ List.replicate b ' ') = List.replicate (a + b) ' ' ++ [] := by
      rw [List.nil_append, List.append_nil, List.replicate_append_replicate]
    rw [this, dropWhile_replicate _ _ (by simp)]
    simp
  | cons c cs =>
    rw [dropWhile_replicate _ _ (by simpa using h2), List.reverse_append, List.reverse_replicate,
      dropWhile_replicate _ _ (by rw [List.head?_reverse]; exact h3), List.reverse_reverse]

theorem takeWhile_stop (c : Char) (a b : List Char) (h : c ∉ a) :
    (a ++ c :: b).takeWhile (· ≠ c) = a ∧ (a ++ c :: b).dropWhile (· ≠ c) = c :: b := by
  induction a with
  | nil => simp
  | cons x xs ih =>
    simp only [List.mem_cons, not_or] at h
    obtain ⟨i1, i2⟩ := ih h.2
    simp only [ne_eq, decide_not] at i1 i2
    have hx : x ≠ c := fun e => h.1 e.symm
    constructor <;> simp [hx, i1, i2]

theorem dropWhile_nil_iff (c : Char) (l : List Char) : l.dropWhile (· ≠ c) = [] ↔ c ∉ l := by
  rw [List.dropWhile_eq_nil_iff]
  constructor
  · intro h hc; simpa using h c hc
  · intro h x hx
    simp only [ne_eq, decide_not, Bool.not_eq_true', decide_eq_false_iff_not]
    rintro rfl; exact h hx

theorem takeWhile_not_mem (c : Char) (l : List Char) : c ∉ l.takeWhile (· ≠ c) := by
  intro h
  have := List.mem_takeWhile_imp h
  simp at this

theorem dropWhile_cons_split (c : Char) (l : List Char) {x : Char} {r : List Char}
    (h : l.dropWhile (· ≠ c) = x :: r) : x = c ∧ l = l.takeWhile (· ≠ c) ++ c :: r := by
  have hh := List.head?_dropWhile_not (fun y => decide (y ≠ c)) l
  have hx : x = c := by
    rw [h] at hh
    simpa using hh
  refine ⟨hx, ?_⟩
  conv_lhs => rw [← List.takeWhile_append_dropWhile (p := (· ≠ c)) (l := l), h, hx]

/-- The index of the model as an index of the specification. -/
def toIdx (i : Int) : Option Nat := if i < 0 then none else some i.toNat

/-- C29: how a key of a query is read. -/
theorem parseKey_means (env : Env) (key name : String) (i : Int) (h : parseKey env key = .ok (name, i)) :
    KeyMeans env.parseInt key name (toIdx i) := by
  unfold parseKey at h
  simp only [] at h
  split at h
  · rename_i hd
    cases h
    exact .simple _ ((dropWhile_nil_iff _ _).mp hd)
  · rename_i x rest hd
    obtain ⟨rfl, hsplit⟩ := dropWhile_cons_split _ _ hd
    split at h
    · rename_i hr
      cases hd2 : rest.dropWhile (· ≠ ']') with
      | nil => exact absurd hr ((dropWhile_nil_iff _ _).mp hd2)
      | cons y rest2 =>
        obtain ⟨rfl, hsplit2⟩ := dropWhile_cons_split _ _ hd2
        have hk : key.toList = key.toList.takeWhile (· ≠ '[') ++ '[' :: rest.takeWhile (· ≠ ']') ++ ']' :: rest2 := by
          rw [List.append_assoc, List.cons_append, ← hsplit2]; exact hsplit
        have hpad := strip_padded (rest.takeWhile (· ≠ ']'))
        split at h
        · rename_i hs
          cases h
          refine .all key _ _ _ rest2 hk (takeWhile_not_mem _ _) (takeWhile_not_mem _ _) hpad (.inl ?_)
          have := congrArg String.toList hs
          rw [String.toList_ofList] at this
          exact this
        · rename_i hs
          split at h
          · rename_i n hn
            cases h
            by_cases hneg : i < 0
            · have : toIdx i = none := by simp [toIdx, hneg]
              rw [this]
              exact .all key _ _ _ rest2 hk (takeWhile_not_mem _ _) (takeWhile_not_mem _ _) hpad (.inr ⟨i, hneg, hn⟩)
            · have : toIdx i = some i.toNat := by simp [toIdx, hneg]
              rw [this]
              refine .index key _ _ _ rest2 i.toNat hk (takeWhile_not_mem _ _) (takeWhile_not_mem _ _) hpad ?_ ?_
              · intro hstar
                apply hs
                change String.ofList (strip _) = _
                rw [hstar]
              · have : ((i.toNat : Nat) : Int) = i := by omega
                rw [this]; exact hn
          · cases h
    · cases h

/-- Reading a key is deterministic. -/
theorem split_unique (c : Char) {a b a' b' : List Char} (h : a ++ c :: b = a' ++ c :: b') (ha : c ∉ a) (ha' : c ∉ a') :
    a = a' ∧ b = b' := by
  have h1 := takeWhile_stop c a b ha
  have h2 := takeWhile_stop c a' b' ha'
  rw [h] at h1
  refine ⟨h1.1.symm.trans h2.1, ?_⟩
  have := h1.2.symm.trans h2.2
  simpa using this

theorem KeyMeans_unique {pi : String → Option Int} {key n1 n2 : String} {i1 i2 : Option Nat}
    (h1 : KeyMeans pi key n1 i1) (h2 : KeyMeans pi key n2 i2) : n1 = n2 ∧ i1 = i2 := by
  have bracket : ∀ {name i rest name' i' rest' : List Char}, key.toList = name ++ '[' :: i ++ ']' :: rest →
      '[' ∉ name → ']' ∉ i → key.toList = name' ++ '[' :: i' ++ ']' :: rest' → '[' ∉ name' → ']' ∉ i' →
      name = name' ∧ i = i' := by
    intro name i rest name' i' rest' hk hn hi hk' hn' hi'
    rw [List.append_assoc, List.cons_append] at hk hk'
    obtain ⟨e1, e2⟩ := split_unique '[' (hk.symm.trans hk') hn hn'
    exact ⟨e1, (split_unique ']' e2 hi hi').1⟩
  cases h1 with
  | simple hk =>
    cases h2 with
    | simple _ => exact ⟨rfl, rfl⟩
    | all name i core rest e => exact absurd (by rw [e]; simp) hk
    | index name i core rest n e => exact absurd (by rw [e]; simp) hk
  | all name i core rest e hn hi hp hc =>
    cases h2 with
    | simple hk => exact absurd (by rw [e]; simp) hk
    | all name' i' core' rest' e' hn' hi' hp' hc' =>
      obtain ⟨rfl, rfl⟩ := bracket e hn hi e' hn' hi'
      exact ⟨rfl, rfl⟩
    | index name' i' core' rest' n' e' hn' hi' hp' hc' hv' =>
      obtain ⟨rfl, rfl⟩ := bracket e hn hi e' hn' hi'
      have : core = core' := (padded_strip hp).symm.trans (padded_strip hp')
      subst this
      rcases hc with hc | ⟨n, hneg, hv⟩
      · exact absurd hc hc'
      · rw [hv] at hv'; cases hv'; omega
  | index name i core rest n e hn hi hp hc hv =>
    cases h2 with
    | simple hk => exact absurd (by rw [e]; simp) hk
    | all name' i' core' rest' e' hn' hi' hp' hc' =>
      obtain ⟨rfl, rfl⟩ := bracket e hn hi e' hn' hi'
      have : core = core' := (padded_strip hp).symm.trans (padded_strip hp')
      subst this
      rcases hc' with hc' | ⟨n', hneg, hv'⟩
      · exact absurd hc' hc
      · rw [hv'] at hv; cases hv; omega
    | index name' i' core' rest' n' e' hn' hi' hp' hc' hv' =>
      obtain ⟨rfl, rfl⟩ := bracket e hn hi e' hn' hi'
      have : core = core' := (padded_strip hp).symm.trans (padded_strip hp')
      subst this
      rw [hv] at hv'
      cases hv'
      exact ⟨rfl, rfl⟩

/-! ### Values -/

theorem compareProp_agrees (p : Property) (i : Int) (v : AVal) (b : Bool) (h : compareProp p i v = .ok b) :
    b = true ↔ ValueAgrees p.val (toIdx i) v := by
  have nilS : ∀ (l m : List String), (decide (l.length = m.length) && l == m) = true ↔ l = m := by
    intro l m; simp only [Bool.and_eq_true, decide_eq_true_eq, beq_iff_eq]
    constructor
    · exact fun h => h.2
    · rintro rfl; exact ⟨rfl, rfl⟩
  have nilI : ∀ (l m : List Int), (decide (l.length = m.length) && l == m) = true ↔ l = m := by
    intro l m; simp only [Bool.and_eq_true, decide_eq_true_eq, beq_iff_eq]
    constructor
    · exact fun h => h.2
    · rintro rfl; exact ⟨rfl, rfl⟩
  have ints : ∀ (l : List Int) (byte : Bool), compareInts l i v byte = .ok b →
      (b = true ↔ (match toIdx i with
        | some i => ∃ n, v = .int n ∧ l[i]? = some n
        | none => v = .ints l ∨ (v = .strs [] ∧ l = []))) := by
    intro l byte h
    unfold compareInts at h
    by_cases hi : i < 0
    · have hx : toIdx i = none := by simp [toIdx, hi]
      rw [hx]
      rw [if_pos hi] at h
      cases v with
      | ints m =>
        simp only [] at h
        split at h
        · cases h
        · cases h
          rw [nilI]
          simp only [AVal.ints.injEq, reduceCtorEq, false_and, or_false]
          exact eq_comm
      | strs m =>
        simp only [] at h
        split at h
        · cases h
        · cases h
          simp only [Bool.and_eq_true, decide_eq_true_eq, List.isEmpty_iff, reduceCtorEq, AVal.strs.injEq, false_or]
          constructor
          · rintro ⟨h1, rfl⟩
            exact ⟨List.length_eq_zero_iff.mp h1.symm, rfl⟩
          · rintro ⟨rfl, rfl⟩; exact ⟨rfl, rfl⟩
      | str s => cases h
      | int n => cases h
    · have hx : toIdx i = some i.toNat := by simp [toIdx, hi]
      rw [hx]
      rw [if_neg hi] at h
      cases v with
      | int n =>
        simp only [] at h
        split at h
        · cases h; simp
        · rename_i hl
          cases h
          have : l[i.toNat]? = none := by rw [List.getElem?_eq_none_iff]; omega
          simp [this]
      | _ => cases h
  unfold compareProp at h
  cases hp : p.val with
  | words l => rw [hp] at h; have := ints l false h; cases ht : toIdx i <;> rw [ht] at this <;> exact this
  | bytes l => rw [hp] at h; have := ints l true h; cases ht : toIdx i <;> rw [ht] at this <;> exact this
  | plain => rw [hp] at h; cases h
  | strings l =>
    rw [hp] at h
    simp only [compareStrings] at h
    by_cases hi : i < 0
    · have hx : toIdx i = none := by simp [toIdx, hi]
      rw [hx]
      rw [if_pos hi] at h
      cases v with
      | strs m =>
        cases h
        rw [nilS]
        simp only [ValueAgrees, AVal.strs.injEq, reduceCtorEq, false_and, or_false]
        exact eq_comm
      | ints m =>
        cases h
        simp only [Bool.and_eq_true, decide_eq_true_eq, List.isEmpty_iff, ValueAgrees, reduceCtorEq, AVal.ints.injEq, false_or]
        constructor
        · rintro ⟨h1, rfl⟩
          exact ⟨List.length_eq_zero_iff.mp h1.symm, rfl⟩
        · rintro ⟨rfl, rfl⟩; exact ⟨rfl, rfl⟩
      | str s => cases h
      | int n => cases h
    · have hx : toIdx i = some i.toNat := by simp [toIdx, hi]
      rw [hx]
      rw [if_neg hi] at h
      cases v with
      | str s =>
        simp only [] at h
        split at h
        · cases h; simp [ValueAgrees]
        · rename_i hl
          cases h
          have : l[i.toNat]? = none := by rw [List.getElem?_eq_none_iff]; omega
          simp [ValueAgrees, this]
      | _ => cases h

/-! ### Nodes -/

theorem matchingProp_spec (props : List Property) (name : String) :
    (matchingProp props name = .ok none → ∀ p ∈ props, p.name ≠ name) ∧
    (∀ p, matchingProp props name = .ok (some p) → p ∈ props ∧ p.name = name ∧ ∀ p' ∈ props, p'.name = name → p' = p) := by
  unfold matchingProp
  constructor
  · intro h p hp hn
    have hm : p ∈ props.filter (fun p => p.name = name) := by simp [hp, hn]
    split at h
    · rename_i he; rw [he] at hm; simp at hm
    · cases h
    · cases h
  · intro p h
    split at h
    · cases h
    · rename_i q he
      cases h
      have hm : p ∈ props.filter (fun p => p.name = name) := by rw [he]; simp
      simp only [List.mem_filter, decide_eq_true_eq] at hm
      refine ⟨hm.1, hm.2, ?_⟩
      intro p' hp' hn
      have : p' ∈ props.filter (fun p => p.name = name) := by simp [hp', hn]
      rw [he] at this
      simpa using this
    · cases h

theorem matchNode_spec (env : Env) (n : Node) : ∀ (attrs : List (String × AVal)) (b : Bool),
    matchNode env n attrs = .ok b → (b = true ↔ ∀ a ∈ attrs, Holds env.parseInt n a.1 a.2) := by
  intro attrs
  induction attrs with
  | nil => intro b h; cases h; simp
  | cons a attrs ih =>
    obtain ⟨key, v⟩ := a
    intro b h
    simp only [matchNode] at h
    cases hk : parseKey env key with
    | error e => rw [hk] at h; cases h
    | ok ni =>
      obtain ⟨name, i⟩ := ni
      rw [hk] at h
      simp only [] at h
      have hmeans := parseKey_means env key name i hk
      obtain ⟨m1, m2⟩ := matchingProp_spec n.props name
      cases hp : matchingProp n.props name with
      | error e => rw [hp] at h; cases h
      | ok op =>
        rw [hp] at h
        cases op with
        | none =>
          cases h
          simp only [Bool.false_eq_true, false_iff]
          intro hall
          obtain ⟨name', i', p, hm, hpm, hpn, _⟩ := hall (key, v) (by simp)
          obtain ⟨rfl, _⟩ := KeyMeans_unique hm hmeans
          exact m1 hp p hpm hpn
        | some p =>
          simp only [] at h
          obtain ⟨p1, p2, p3⟩ := m2 p hp
          cases hc : compareProp p i v with
          | error e => rw [hc] at h; cases h
          | ok c =>
            rw [hc] at h
            have hag := compareProp_agrees p i v c hc
            have hholds : Holds env.parseInt n key v ↔ ValueAgrees p.val (toIdx i) v := by
              constructor
              · rintro ⟨name', i', p', hm, hpm, hpn, hv⟩
                obtain ⟨rfl, rfl⟩ := KeyMeans_unique hm hmeans
                rw [← p3 p' hpm hpn]; exact hv
              · exact fun hv => ⟨name, _, p, hmeans, p1, p2, hv⟩
            cases c with
            | false =>
              cases h
              simp only [Bool.false_eq_true, false_iff] at hag ⊢
              intro hall
              exact hag (hholds.mp (hall (key, v) (by simp)))
            | true =>
              rw [ih b h]
              have hv := hholds.mpr (hag.mp rfl)
              constructor
              · intro hall a ha
                rcases List.mem_cons.mp ha with rfl | ha
                · exact hv
                · exact hall a ha
              · exact fun hall a ha => hall a (by simp [ha])

theorem filterNodes_spec (env : Env) (attrs : List (String × AVal)) : ∀ (ns l : List Node),
    filterNodes env attrs ns = .ok l →
    l.Sublist ns ∧ ∀ n, n ∈ l ↔ n ∈ ns ∧ ∀ a ∈ attrs, Holds env.parseInt n a.1 a.2 := by
  intro ns
  induction ns with
  | nil => intro l h; cases h; simp
  | cons n ns ih =>
    intro l h
    simp only [filterNodes] at h
    cases hm : matchNode env n attrs with
    | error e => rw [hm] at h; cases h
    | ok b =>
      rw [hm] at h
      have hb := matchNode_spec env n attrs b hm
      cases hr : filterNodes env attrs ns with
      | error e => rw [hr] at h; cases h
      | ok r =>
        rw [hr] at h
        obtain ⟨i1, i2⟩ := ih r hr
        cases b with
        | false =>
          cases h
          refine ⟨.cons _ i1, fun x => ?_⟩
          simp only [Bool.false_eq_true, if_false]
          rw [i2, List.mem_cons]
          constructor
          · rintro ⟨h1, h2⟩; exact ⟨.inr h1, h2⟩
          · rintro ⟨rfl | h1, h2⟩
            · exact absurd (hb.mpr h2) (by simp)
            · exact ⟨h1, h2⟩
        | true =>
          cases h
          refine ⟨.cons_cons _ i1, fun x => ?_⟩
          simp only [if_true, List.mem_cons, i2]
          constructor
          · rintro (rfl | ⟨h1, h2⟩)
            · exact ⟨.inl rfl, hb.mp rfl⟩
            · exact ⟨.inr h1, h2⟩
          · rintro ⟨rfl | h1, h2⟩
            · exact .inl rfl
            · exact .inr ⟨h1, h2⟩

/-! ### The properties -/

theorem given_none {s : Option String} (h : given s = none) : ∀ p, s = some p → p = "" := by
  rintro p rfl
  by_contra hp
  simp [given, hp] at h

theorem given_some {s : Option String} {p : String} (h : given s = some p) : s = some p ∧ p ≠ "" := by
  cases s with
  | none => simp [given] at h
  | some q =>
    simp only [given, Option.filter] at h
    split at h
    · rename_i hq; cases h; exact ⟨rfl, by simpa using hq⟩
    · cases h

theorem given_of_empty {s : Option String} (h : ∀ p, s = some p → p = "") : given s = none := by
  cases hs : s with
  | none => rfl
  | some p => simp [given, Option.filter, h p hs]

/-- C29: a query with a path or properties, and without alias or chosen entry, returns exactly
the device nodes that satisfy all its conditions, in the order of the tree. Partial: it is assumed
that the path, if one is given, matches some node. -/
theorem query_exact_partial (env : Env) (t : Tree) (q : Query) (l : List Node)
    (ha : ∀ a, q.aliasName = some a → a = "") (hc : ∀ c, q.chosenName = some c → c = "")
    (hq : (∃ p, q.path = some p ∧ p ≠ "") ∨ ∃ attrs, q.properties = some attrs ∧ attrs ≠ [])
    (hpath : ∀ p, q.path = some p → p ≠ "" → ∀ f, env.search p = some f → ∃ n ∈ t.nodes, f n.path = true)
    (h : matchQuery env t q = .ok l) :
    l.Sublist t.nodes ∧ ∀ n, n ∈ l ↔ n ∈ t.nodes ∧ Satisfies env q n := by
  replace ha := given_of_empty ha
  replace hc := given_of_empty hc
  replace hpath : ∀ p, given q.path = some p → ∀ f, env.search p = some f → ∃ n ∈ t.nodes, f n.path = true :=
    fun p hp => hpath p (given_some hp).1 (given_some hp).2
  replace hq : given q.path ≠ none ∨ ∃ attrs, q.properties = some attrs ∧ attrs ≠ [] := by
    rcases hq with ⟨p, hp, hne⟩ | hq
    · left; intro hn; exact hne (given_none hn p hp)
    · exact .inr hq
  simp only [matchQuery, ha, hc] at h
  cases hp : given q.path with
  | none =>
    rw [hp] at h
    simp only [] at h
    have hq' : ∃ attrs, q.properties = some attrs ∧ attrs ≠ [] := by
      rcases hq with hq | hq
      · exact absurd hp hq
      · exact hq
    obtain ⟨attrs, h1, h2⟩ := hq'
    have he : attrs.isEmpty = false := by cases attrs with | nil => exact absurd rfl h2 | cons _ _ => rfl
    rw [h1] at h
    simp only [he, matchByAttrs, List.isEmpty_nil, if_true, Bool.false_eq_true, if_false] at h
    obtain ⟨s1, s2⟩ := filterNodes_spec env attrs _ _ h
    refine ⟨s1, fun n => ?_⟩
    rw [s2, Satisfies]
    constructor
    · rintro ⟨g1, g2⟩
      refine ⟨g1, ?_, ?_⟩
      · intro p hp' hne; exact absurd (given_none hp p hp') hne
      · intro attrs' h'; rw [h1] at h'; cases h'; exact g2
    · rintro ⟨g1, _, g2⟩; exact ⟨g1, g2 attrs h1⟩
  | some p =>
    rw [hp] at h
    simp only [] at h
    obtain ⟨hsp, hne⟩ := given_some hp
    unfold matchByPath at h
    cases hs : env.search p with
    | none => rw [hs] at h; cases h
    | some f =>
      rw [hs] at h
      simp only [] at h
      have hpathiff : ∀ n : Node, (∀ p', q.path = some p' → p' ≠ "" → ∃ f, env.search p' = some f ∧ f n.path = true) ↔
          f n.path = true := by
        intro n
        constructor
        · intro hall
          obtain ⟨f', h1, h2⟩ := hall p hsp hne
          rw [hs] at h1; cases h1; exact h2
        · intro hf p' hp' _
          rw [hsp] at hp'; cases hp'
          exact ⟨f, hs, hf⟩
      have plain : (∀ attrs, q.properties = some attrs → attrs = []) → l = t.nodes.filter (fun n => f n.path) →
          l.Sublist t.nodes ∧ ∀ n, n ∈ l ↔ n ∈ t.nodes ∧ Satisfies env q n := by
        rintro hno rfl
        refine ⟨List.filter_sublist, fun n => ?_⟩
        rw [List.mem_filter, Satisfies, hpathiff]
        constructor
        · rintro ⟨g1, g2⟩
          refine ⟨g1, g2, ?_⟩
          intro attrs h' a ha'
          rw [hno attrs h'] at ha'; simp at ha'
        · rintro ⟨g1, g2, _⟩; exact ⟨g1, g2⟩
      cases hprop : q.properties with
      | none =>
        rw [hprop] at h
        cases h
        exact plain (by simp [hprop]) rfl
      | some attrs =>
        rw [hprop] at h
        simp only [] at h
        by_cases he : attrs.isEmpty
        · rw [if_pos he] at h
          cases h
          refine plain ?_ rfl
          intro attrs' h'
          rw [hprop] at h'; cases h'
          exact List.isEmpty_iff.mp he
        · rw [if_neg he] at h
          obtain ⟨n0, hn0, hf0⟩ := hpath p hp f hs
          have hne2 : (t.nodes.filter (fun n => f n.path)).isEmpty = false := by
            cases hf : t.nodes.filter (fun n => f n.path) with
            | nil =>
              have : n0 ∈ t.nodes.filter (fun n => f n.path) := by simp [hn0, hf0]
              rw [hf] at this; simp at this
            | cons _ _ => rfl
          simp only [matchByAttrs, he, Bool.false_eq_true, if_false, hne2] at h
          obtain ⟨s1, s2⟩ := filterNodes_spec env attrs _ _ h
          refine ⟨s1.trans List.filter_sublist, fun n => ?_⟩
          rw [s2, List.mem_filter, Satisfies, hpathiff]
          constructor
          · rintro ⟨⟨g1, g2⟩, g3⟩
            refine ⟨g1, g2, ?_⟩
            intro attrs' h'; rw [hprop] at h'; cases h'; exact g3
          · rintro ⟨g1, g2, g3⟩; exact ⟨⟨g1, g2⟩, g3 attrs hprop⟩

theorem nodeForPath_spec (t : Tree) (s : String) (l : List Node) (h : nodeForPath t s = .ok l) :
    ∃ n, l = [n] ∧ n ∈ t.nodes ∧ literalSearch s n.path = true ∧
      ∀ m ∈ t.nodes, literalSearch s m.path = true → m = n := by
  unfold nodeForPath at h
  split at h
  · cases h
  · rename_i n hf
    cases h
    have hm : n ∈ t.nodes.filter (fun n => literalSearch s n.path) := by rw [hf]; simp
    rw [List.mem_filter] at hm
    refine ⟨n, rfl, hm.1, hm.2, ?_⟩
    intro m hm' hs
    have : m ∈ t.nodes.filter (fun n => literalSearch s n.path) := by simp [hm', hs]
    rw [hf] at this
    simpa using this
  · cases h

theorem infixB_iff (a : List Char) : ∀ b, infixB a b = true ↔ a <:+: b := by
  intro b
  induction b with
  | nil => simp [infixB]
  | cons c cs ih => simp only [infixB, Bool.or_eq_true, ih, List.isPrefixOf_iff_prefix, List.infix_cons_iff]

theorem singleString_spec {node : Option (List Property)} {name s : String} (h : singleString node name = .ok s) :
    Says node name s := by
  unfold singleString at h
  cases hal : node with
  | none => rw [hal] at h; cases h
  | some props =>
    rw [hal] at h
    simp only [] at h
    cases hf : props.find? (fun p => p.name = name) with
    | none => rw [hf] at h; cases h
    | some p =>
      rw [hf] at h
      simp only [] at h
      split at h
      · rename_i s' hv
        cases h
        exact ⟨props, p, rfl, List.mem_of_find?_eq_some hf, by simpa using List.find?_some hf, hv⟩
      · cases h

theorem nodeForPath_onlyNode {t : Tree} {s : String} {l : List Node} (h : nodeForPath t s = .ok l) :
    ∃ n, l = [n] ∧ OnlyNodeAt t s n := by
  obtain ⟨n, h1, h2, h3, h4⟩ := nodeForPath_spec t s l h
  exact ⟨n, h1, h2, (infixB_iff _ _).mp h3, fun m hm hi => h4 m hm ((infixB_iff _ _).mpr hi)⟩

theorem byAlias_sound {t : Tree} {a : String} {l : List Node} (h : byAlias t a = .ok l) :
    ∃ s n, Says t.aliases a s ∧ l = [n] ∧ OnlyNodeAt t s n := by
  unfold byAlias at h
  cases hs : singleString t.aliases a with
  | error e => rw [hs] at h; cases h
  | ok s =>
    rw [hs] at h
    obtain ⟨n, h1, h2⟩ := nodeForPath_onlyNode h
    exact ⟨s, n, singleString_spec hs, h1, h2⟩

/-- C29: an alias query returns one node, and it is the only one whose path contains the path that
the alias stands for (letter case ignored). -/
theorem alias_sound (env : Env) (t : Tree) (q : Query) (a : String) (l : List Node)
    (ha : q.aliasName = some a) (hne : a ≠ "") (h : matchQuery env t q = .ok l) :
    ∃ s n, Says t.aliases a s ∧ l = [n] ∧ OnlyNodeAt t s n := by
  have hg : given q.aliasName = some a := by simp [ha, given, Option.filter, hne]
  simp only [matchQuery, hg] at h
  exact byAlias_sound h

/-- C29: a query for a chosen entry returns one node, and it is the only one whose path contains
the path that the entry stands for: its text up to a colon, if that is an absolute path, and
otherwise the path that the alias of that name stands for. -/
theorem chosen_sound (env : Env) (t : Tree) (q : Query) (c : String) (l : List Node)
    (ha : ∀ a, q.aliasName = some a → a = "") (hc : q.chosenName = some c) (hne : c ≠ "")
    (h : matchQuery env t q = .ok l) :
    ∃ s target n, Says t.chosen c s ∧ BeforeColon s target ∧ l = [n] ∧
      ((target.toList.head? = some '/' ∧ OnlyNodeAt t target n) ∨
       (target.toList.head? ≠ some '/' ∧ ∃ s', Says t.aliases target s' ∧ OnlyNodeAt t s' n)) := by
  have hg : given q.chosenName = some c := by simp [hc, given, Option.filter, hne]
  have hga := given_of_empty ha
  simp only [matchQuery, hga, hg, byChosen] at h
  cases hs : singleString t.chosen c with
  | error e => rw [hs] at h; cases h
  | ok s =>
    rw [hs] at h
    simp only [] at h
    refine ⟨s, String.ofList (s.toList.takeWhile (· ≠ ':')), ?_⟩
    have hb : BeforeColon s (String.ofList (s.toList.takeWhile (· ≠ ':'))) := by
      refine ⟨by simpa using fun hm => by simpa using List.mem_takeWhile_imp hm, ?_⟩
      rw [String.toList_ofList]
      cases hd : s.toList.dropWhile (· ≠ ':') with
      | nil =>
        left
        have := List.takeWhile_append_dropWhile (p := (· ≠ ':')) (l := s.toList)
        rw [hd, List.append_nil] at this
        exact this.symm
      | cons x rest =>
        right
        have h1 := List.takeWhile_append_dropWhile (p := (· ≠ ':')) (l := s.toList)
        have hx : x = ':' := by
          have := List.head?_dropWhile_not (· ≠ ':') s.toList
          rw [hd] at this
          simpa using this
        rw [hd, hx] at h1
        exact ⟨rest, h1.symm⟩
    split at h
    · rename_i hh
      obtain ⟨n, h1, h2⟩ := nodeForPath_onlyNode h
      exact ⟨n, singleString_spec hs, hb, h1, .inl ⟨hh, h2⟩⟩
    · rename_i hh
      obtain ⟨s', n, h0, h1, h2⟩ := byAlias_sound h
      exact ⟨n, singleString_spec hs, hb, h1, .inr ⟨hh, s', h0, h2⟩⟩

/-- C29: the results of a list of queries are the results of its elements, in order. -/
theorem query_each (env : Env) (t : Tree) : ∀ (qs : List Query) (rs : List (List Node)), query env t qs = .ok rs →
    rs.length = qs.length ∧ ∀ i (h : i < qs.length) (h' : i < rs.length), matchQuery env t qs[i] = .ok rs[i] := by
  intro qs
  induction qs with
  | nil => intro rs h; cases h; simp
  | cons q qs ih =>
    intro rs h
    simp only [query] at h
    cases hq : matchQuery env t q with
    | error e => rw [hq] at h; cases h
    | ok r =>
      rw [hq] at h
      cases hr : query env t qs with
      | error e => rw [hr] at h; cases h
      | ok rs' =>
        rw [hr] at h
        cases h
        obtain ⟨i1, i2⟩ := ih rs' hr
        refine ⟨by simp [i1], ?_⟩
        intro i hi hi'
        cases i with
        | zero => exact hq
        | succ i => simpa using i2 i (by simpa using hi) (by simpa using hi')

/-! ### Concrete cases -/

def demoEnv : Env where
  search := fun p => some (fun path => literalSearch p path)
  parseInt := fun s => if s = "1" then some 1 else none

def uart (n : String) : Node := ⟨"/soc/uart@" ++ n, [⟨"compatible", .strings ["ns16550", "uart"]⟩, ⟨"reg", .words [1, 2]⟩]⟩

def demoTree : Tree where
  nodes := [uart "1", ⟨"/soc/timer", [⟨"compatible", .strings ["timer"]⟩]⟩, uart "10"]
  aliases := some [⟨"serial0", .strings ["/soc/uart@1"]⟩]
  chosen := some [⟨"stdout-path", .strings ["/soc/timer:115200"]⟩]

def demoQuery (path : String) : Query := ⟨none, none, some path, some [("compatible[1]", .str "uart"), ("reg[*]", .ints [1, 2])]⟩

/-- The hypotheses of `query_exact_partial` can be met. -/
example : matchQuery demoEnv demoTree (demoQuery "@10") = .ok [uart "10"] := by rfl

/-- The hypotheses of `chosen_sound` can be met. -/
example : matchQuery demoEnv demoTree ⟨none, some "stdout-path", none, none⟩ =
    .ok [⟨"/soc/timer", [⟨"compatible", .strings ["timer"]⟩]⟩] := by rfl

/-- C29 does not hold in full: if the path matches no node, nodes elsewhere in the tree are
returned. -/
theorem path_miss_returns_others :
    ∃ l n, matchQuery demoEnv demoTree (demoQuery "/no/such/node") = .ok l ∧ n ∈ l ∧
      ¬ Satisfies demoEnv (demoQuery "/no/such/node") n := by
  refine ⟨[uart "1", uart "10"], uart "1", by rfl, by simp, ?_⟩
  intro h
  obtain ⟨f, h1, h2⟩ := h.1 "/no/such/node" rfl (by decide)
  cases h1
  revert h2
  decide

/-- An alias that stands for an existing node is rejected if the path of the node is also a part
of the path of another node. -/
theorem alias_prefix_ambiguous :
    matchQuery demoEnv demoTree ⟨some "serial0", none, none, none⟩ = .error "resolves to multiple results" := by rfl

end Verif.FdtQuery
