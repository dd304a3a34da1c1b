import Verif.Lift.Spec

/-!
# C05, C06 and lifting of strings, dataport types, exports and connection ends
-/

namespace Verif.Lift
open Spec

variable {α : Type} [DecidableEq α]

omit [DecidableEq α] in
theorem stripQuotes_source (l : Lit α) : stripQuotes (source l) = .ok l := by
  cases l with
  | other a => rfl
  | str s => simp [source, quoted, stripQuotes, List.getLast?_cons]

omit [DecidableEq α] in
theorem pairwise_dictArgs (ps : List (Lit α × Lit α)) :
    pairwise (dictArgs ps) = ps.map fun p => (source p.1, source p.2) := by
  induction ps with
  | nil => rfl
  | cons p ps ih => simp [dictArgs, pairwise, ih]

theorem dictGet_set {κ ν : Type} [DecidableEq κ] (d : List (κ × ν)) (k k' : κ) (v : ν) :
    dictGet (dictSet d k v) k' = if k = k' then some v else dictGet d k' := by
  induction d with
  | nil => simp [dictSet, dictGet]
  | cons p d ih =>
    obtain ⟨a, b⟩ := p
    simp only [dictSet]
    split
    · subst a; simp only [dictGet]; split <;> simp_all
    · simp only [dictGet, ih]; split <;> split <;> simp_all

theorem dictSet_keys {κ ν : Type} [DecidableEq κ] (d : List (κ × ν)) (k : κ) (v : ν) :
    (dictSet d k v).map Prod.fst = if k ∈ d.map Prod.fst then d.map Prod.fst else d.map Prod.fst ++ [k] := by
  induction d with
  | nil => simp [dictSet]
  | cons p d ih =>
    obtain ⟨a, b⟩ := p
    simp only [dictSet]
    split
    · subst a; simp
    · rename_i h
      simp only [List.map_cons, ih, List.mem_cons]
      have : ¬ k = a := fun e => h e.symm
      simp only [this, false_or]
      split <;> simp

theorem dictSet_nodup {κ ν : Type} [DecidableEq κ] (d : List (κ × ν)) (k : κ) (v : ν)
    (h : (d.map Prod.fst).Nodup) : ((dictSet d k v).map Prod.fst).Nodup := by
  rw [dictSet_keys]
  split
  · exact h
  · rename_i hk
    rw [List.nodup_append]
    refine ⟨h, by simp, ?_⟩
    intro a ha b hb
    simp at hb
    subst hb
    rintro rfl
    exact hk ha

theorem liftPairs_source (d ps : List (Lit α × Lit α)) :
    liftPairs d (ps.map fun p => (source p.1, source p.2)) =
      .ok (ps.foldl (fun d p => dictSet d p.1 p.2) d) := by
  induction ps generalizing d with
  | nil => rfl
  | cons p ps ih => simp [liftPairs, stripQuotes_source, ih]

theorem foldl_nodup (ps d : List (Lit α × Lit α)) (h : (d.map Prod.fst).Nodup) :
    ((ps.foldl (fun d p => dictSet d p.1 p.2) d).map Prod.fst).Nodup := by
  induction ps generalizing d with
  | nil => exact h
  | cons p ps ih => exact ih _ (dictSet_nodup d p.1 p.2 h)

theorem foldl_get (ps d : List (Lit α × Lit α)) (k v : Lit α) :
    dictGet (ps.foldl (fun d p => dictSet d p.1 p.2) d) k = some v ↔
      (∃ pre post, ps = pre ++ (k, v) :: post ∧ ∀ p ∈ post, p.1 ≠ k) ∨
      ((∀ p ∈ ps, p.1 ≠ k) ∧ dictGet d k = some v) := by
  induction ps generalizing d with
  | nil => simp
  | cons p ps ih =>
    obtain ⟨a, b⟩ := p
    simp only [List.foldl_cons, ih, dictGet_set]
    constructor
    · rintro (⟨pre, post, rfl, h⟩ | ⟨h1, h2⟩)
      · exact .inl ⟨(a, b) :: pre, post, rfl, h⟩
      · split at h2
        · rename_i hak; subst hak
          cases h2
          exact .inl ⟨[], ps, rfl, h1⟩
        · rename_i hak
          exact .inr ⟨by simpa [hak] using h1, h2⟩
    · rintro (⟨pre, post, heq, h⟩ | ⟨h1, h2⟩)
      · cases pre with
        | nil =>
          simp only [List.nil_append, List.cons.injEq, Prod.mk.injEq] at heq
          obtain ⟨⟨rfl, rfl⟩, rfl⟩ := heq
          exact .inr ⟨h, by simp⟩
        | cons q pre =>
          simp only [List.cons_append, List.cons.injEq] at heq
          obtain ⟨rfl, rfl⟩ := heq
          exact .inl ⟨pre, post, rfl, h⟩
      · simp only [List.mem_cons, forall_eq_or_imp] at h1
        exact .inr ⟨h1.2, by simp [h1.1, h2]⟩

/-- **C05.** A dict literal lifts to a mapping whose value at `k` is the value of the last pair
with key `k`, that has no other keys, and lists each key once. String keys and
values lose exactly their quotes. -/
theorem dict_last_wins (ps : List (Lit α × Lit α)) :
    ∃ d, liftDict (dictArgs ps) = .ok d ∧ (d.map Prod.fst).Nodup ∧
      ∀ k v, dictGet d k = some v ↔
        ∃ pre post, ps = pre ++ (k, v) :: post ∧ ∀ p ∈ post, p.1 ≠ k := by
  refine ⟨_, ?_, foldl_nodup ps [] (by simp), fun k v => ?_⟩
  · rw [liftDict, pairwise_dictArgs, liftPairs_source]
  · rw [foldl_get]; simp [dictGet]

/-- Non-vacuity: `{"a": 1, "b": 2, "a": 3}`. -/
example : liftDict (α := Nat) (dictArgs
    [(.str ['a'], .other 1), (.str ['b'], .other 2), (.str ['a'], .other 3)]) =
    .ok [(.str ['a'], .other 3), (.str ['b'], .other 2)] := rfl

omit [DecidableEq α] in
/-- **C05 (lists).** A list literal lifts to the values of its items in order. -/
theorem list_faithful (ls : List (Lit α)) : liftList (ls.map source) = .ok ls := by
  induction ls with
  | nil => rfl
  | cons l ls ih => simp [liftList, stripQuotes_source, ih]

omit [DecidableEq α] in
/-- **C05 (strings).** Adjacent string literals are concatenated; the result is again a
quoted string with exactly the concatenated text between the quotes. -/
theorem multi_string_concat (ss : List Str) (hne : ss ≠ []) :
    liftMultiString (ss.map quoted) = .ok (quoted ss.flatten) ∧
    stripQuotes (α := α) (.str (quoted ss.flatten)) = .ok (.str ss.flatten) := by
  refine ⟨?_, stripQuotes_source (.str ss.flatten)⟩
  have hin : (ss.map quoted).map inner = ss := by
    rw [List.map_map]
    conv => rhs; rw [← List.map_id ss]
    apply List.map_congr_left
    intro s _
    simp [inner, quoted]
  have hne' : ss.map quoted ≠ [] := by simpa using hne
  unfold liftMultiString
  split
  · contradiction
  · rw [hin]; rfl

example : liftMultiString ([['a', 'b'], ['c']].map quoted) = .ok (quoted ['a', 'b', 'c']) := rfl

/-! ### C06 -/

theorem translation_src (k : Kind) (m : Bool) :
    translation (if m then k.plural else k.singular) = some k.singular := by
  cases k <;> cases m <;> rfl

theorem isPlural_src (k : Kind) (m : Bool) :
    isPlural (if m then k.plural else k.singular) = m := by
  cases k <;> cases m <;> rfl

theorem plural_append (k : Kind) : k.singular ++ "s" = k.plural := by cases k <;> rfl

theorem takeAttrs_map {A : Type} (as : List A) : takeAttrs (as.map .attr) = .ok as := by
  induction as with
  | nil => rfl
  | cons a as ih => simp [takeAttrs, ih]

theorem liftDefn_expected {A : Type} (f t : EndSrc) (attrs : List A) (hf : f.legal) (ht : t.legal) :
    liftConnectorDefn (connectorArgs f t attrs) = .ok (expected none f t attrs) := by
  obtain ⟨fh, fk, fm, fth⟩ := f
  obtain ⟨th, tk, tm, tth⟩ := t
  have h1 : ∀ k : Int, 0 ≤ k → threadCount k = .ok k.toNat := by
    intro k hk; simp [threadCount]; omega
  cases attrs with
  | nil =>
    cases fh <;> cases th <;> cases fth <;> cases tth <;>
      simp [EndSrc.legal] at hf ht <;>
      simp [connectorArgs, EndSrc.args, liftConnectorDefn, h1, hf, ht, takeAttrs, mkConnector,
        translation_src, isPlural_src, expected, EndSrc.threadCount]
  | cons a attrs =>
    have htk := takeAttrs_map attrs
    cases fh <;> cases th <;> cases fth <;> cases tth <;>
      simp [EndSrc.legal] at hf ht <;>
      simp [connectorArgs, EndSrc.args, liftConnectorDefn, h1, hf, ht, takeAttrs, htk, mkConnector,
        translation_src, isPlural_src, expected, EndSrc.threadCount]

/-- **C06.** A connector declaration, named or not, lifts to a connector with exactly the
written interface kinds, multiplicities, thread counts, hardware flags and attributes. -/
theorem connector_decl_faithful {A : Type} (id : Option String) (f t : EndSrc) (attrs : List A)
    (hf : f.legal) (ht : t.legal) :
    (liftConnectorDefn (connectorArgs f t attrs)).bind (liftConnectorDecl id) =
      .ok (expected id f t attrs) := by
  rw [liftDefn_expected f t attrs hf ht]
  cases id with
  | none => rfl
  | some id =>
    simp only [Except.bind, liftConnectorDecl, expected, plural_append, mkConnector,
      translation_src, isPlural_src]

/-- **C06 (errors).** A negative thread count on either end is rejected with a parse error. -/
theorem connector_negative_threads {A : Type} (f t : EndSrc) (attrs : List A)
    (h : ¬ f.legal ∨ ¬ t.legal) :
    liftConnectorDefn (connectorArgs f t attrs) = .error .parseError := by
  obtain ⟨fh, fk, fm, fth⟩ := f
  obtain ⟨th, tk, tm, tth⟩ := t
  have h1 : ∀ k : Int, 0 ≤ k → threadCount k = .ok k.toNat := by
    intro k hk; simp [threadCount]; omega
  have h2 : ∀ k : Int, k < 0 → threadCount k = .error .parseError := by
    intro k hk; simp [threadCount, hk]
  cases fth with
  | none =>
    cases tth with
    | none => simp [EndSrc.legal] at h
    | some n =>
      simp [EndSrc.legal] at h
      cases fh <;> cases th <;>
        simp [connectorArgs, EndSrc.args, liftConnectorDefn, h2, h]
  | some m =>
    rcases Int.lt_or_le m 0 with hm | hm
    · cases fh <;>
        simp [connectorArgs, EndSrc.args, liftConnectorDefn, h2, hm]
    · cases tth with
      | none => simp [EndSrc.legal] at h; omega
      | some n =>
        have hn : n < 0 := by simp [EndSrc.legal] at h; omega
        cases fh <;> cases th <;>
          simp [connectorArgs, EndSrc.args, liftConnectorDefn, h1, h2, hm, hn]

/-- Non-vacuity: `connector C { from Procedures; to hardware Event with 2 threads; }`. -/
example : (liftConnectorDefn (A := Nat) (connectorArgs ⟨false, .procedure, true, none⟩
      ⟨true, .event, false, some 2⟩ [])).bind (liftConnectorDecl (some "C")) =
    .ok ⟨some "C", "Procedure", "Event", true, false, 1, 2, false, true, []⟩ :=
  connector_decl_faithful _ _ _ _ (by simp [EndSrc.legal]) (by simp [EndSrc.legal])

/-! ### Dataport types, exports, connection ends -/

/-- A dataport size is accepted iff positive; distinct sizes give distinct types. -/
theorem dataport_type_sizes :
    (∀ n : Int, (∃ s, liftDataportType (.inr n) = .ok s) ↔ 0 < n) ∧
    (∀ (m n : Int) (s : String), liftDataportType (.inr m) = .ok s → liftDataportType (.inr n) = .ok s →
      m = n) := by
  constructor
  · intro n
    simp only [liftDataportType]
    split
    · simp; omega
    · simp; omega
  · intro m n s hm hn
    simp only [liftDataportType] at hm hn
    by_cases h1 : m ≤ 0
    · rw [if_pos h1] at hm; cases hm
    by_cases h2 : n ≤ 0
    · rw [if_pos h2] at hn; cases hn
    rw [if_neg h1] at hm
    rw [if_neg h2] at hn
    have := hm.trans hn.symm
    simp only [Except.ok.injEq] at this
    have : Nat.toDigits 10 m.toNat = Nat.toDigits 10 n.toNat := by
      have h := congrArg String.toList this
      simpa [String.toList_append] using h
    have : m.toNat = n.toNat := by
      have h := congrArg (fun l => Nat.ofDigitChars 10 l 0) this
      simpa [Nat.ofDigitChars_toDigits] using h
    omega

/-- An export `a.b.c -> d` names instance `a.b` and interface `a.b.c`; unqualified sources
are parse errors. -/
theorem export_split (src dst : List String) :
    liftExport src dst = (if 2 ≤ src.length then .ok (src.dropLast, src, dst) else .error .parseError) ∧
    (∀ i s d, liftExport src dst = .ok (i, s, d) → i ≠ [] ∧ ∃ last, s = i ++ [last]) := by
  constructor
  · unfold liftExport; split <;> split <;> first | rfl | omega
  · intro i s d h
    unfold liftExport at h
    split at h
    · cases h
    · rename_i hl
      cases h
      have hne : src ≠ [] := by rintro rfl; simp at hl
      refine ⟨?_, src.getLast hne, (List.dropLast_concat_getLast hne).symm⟩
      intro hd
      have := congrArg List.length hd
      simp at this
      omega

/-- The ends of a connection keep their order within each side, and none is lost. -/
theorem connection_ends_partition {E : Type} (ends : List (Bool × E)) :
    (liftConnectionEnds ends).1.length + (liftConnectionEnds ends).2.length = ends.length ∧
    (∀ e, e ∈ (liftConnectionEnds ends).1 ↔ (true, e) ∈ ends) ∧
    (∀ e, e ∈ (liftConnectionEnds ends).2 ↔ (false, e) ∈ ends) := by
  refine ⟨?_, ?_, ?_⟩
  · induction ends with
    | nil => rfl
    | cons p ends ih =>
      obtain ⟨b, e⟩ := p
      simp only [liftConnectionEnds, List.length_map] at ih ⊢
      cases b <;> simp_all <;> omega
  · intro e; simp [liftConnectionEnds]
  · intro e; simp [liftConnectionEnds]

/-- **C05 (strings, exactly).** A string is taken for a literal exactly if it is in quotes; a single quote counts as both. -/
theorem string_literal_iff {α : Type} (s t : Str) :
    stripQuotes (α := α) (.str s) = .ok (.str t) ↔ s = quoted t ∨ (s = ['"'] ∧ t = []) := by
  constructor
  · intro h
    cases s with
    | nil => cases h
    | cons c s =>
      rw [stripQuotes] at h
      split at h
      · rename_i hc
        obtain ⟨rfl, hl⟩ := hc
        cases h
        cases s with
        | nil => exact .inr ⟨rfl, rfl⟩
        | cons d s =>
          left
          rw [List.getLast?_cons_cons] at hl
          have hne : d :: s ≠ [] := by simp
          rw [List.getLast?_eq_some_getLast hne] at hl
          have := List.dropLast_concat_getLast hne
          rw [Option.some.inj hl] at this
          unfold quoted
          rw [this]
      · cases h
  · rintro (rfl | ⟨rfl, rfl⟩)
    · exact stripQuotes_source (.str t)
    · rfl

theorem takeAttrs_only {A : Type} : ∀ (l : List (Arg A)) (as : List A), takeAttrs l = .ok as → l = as.map .attr
  | [], as, h => by rw [takeAttrs] at h; cases h; rfl
  | .attr a :: l, as, h => by
    rw [takeAttrs] at h
    split at h
    · cases h
    · rename_i bs hb
      cases h
      rw [takeAttrs_only l bs hb]
      rfl
  | .hardware :: l, as, h => by cases h
  | .endType t :: l, as, h => by cases h
  | .num t :: l, as, h => by cases h

theorem translation_only {x y : String} (h : translation x = some y) : ∃ (k : Kind) (m : Bool), x = if m then k.plural else k.singular := by
  unfold translation at h
  split at h
  · exact ⟨.event, false, rfl⟩
  · exact ⟨.event, true, rfl⟩
  · exact ⟨.procedure, false, rfl⟩
  · exact ⟨.procedure, true, rfl⟩
  · exact ⟨.dataport, false, rfl⟩
  · exact ⟨.dataport, true, rfl⟩
  · cases h

/-- The optional keyword. -/
def hwPart {A : Type} : List (Arg A) → Bool × List (Arg A)
  | .hardware :: rest => (true, rest)
  | args => (false, args)

/-- The optional number. -/
def numPart {A : Type} : List (Arg A) → Except Err (Nat × List (Arg A))
  | .num n :: rest => (match threadCount n with | .error e => .error e | .ok k => .ok (k, rest))
  | args => .ok (1, args)

theorem defn_parts {A : Type} (args : List (Arg A)) : liftConnectorDefn args =
    match (hwPart args).2 with
    | [] => .error .parseError
    | .endType fromType :: rest =>
      match numPart rest with
      | .error e => .error e
      | .ok (fromThreads, rest) =>
        match (hwPart rest).2 with
        | [] => .error .parseError
        | .endType toType :: more =>
          match numPart more with
          | .error e => .error e
          | .ok (toThreads, more) =>
            match takeAttrs more with
            | .error e => .error e
            | .ok attrs => mkConnector none fromType toType fromThreads toThreads (hwPart args).1 (hwPart rest).1 attrs
        | _ => .error .assertion
    | _ => .error .assertion := by
  rfl

theorem hwPart_only {A : Type} (l : List (Arg A)) : l = (if (hwPart l).1 then [.hardware] else []) ++ (hwPart l).2 := by
  unfold hwPart
  split <;> rfl

theorem numPart_only {A : Type} {l r : List (Arg A)} {k : Nat} (h : numPart l = .ok (k, r)) :
    ∃ th : Option Int, l = (match th with | none => [] | some n => [.num n]) ++ r ∧ ∀ n, th = some n → 0 ≤ n := by
  unfold numPart at h
  split at h
  · rename_i n rest
    cases ht : threadCount n with
    | error e => rw [ht] at h; cases h
    | ok k' =>
      rw [ht] at h
      cases h
      refine ⟨some n, rfl, fun m hm => ?_⟩
      cases hm
      unfold threadCount at ht
      split at ht
      · cases ht
      · omega
  · cases h
    exact ⟨none, rfl, by simp⟩

/-- **C06 (nothing else).** If a connector is made from the parts of a declaration, they are those of two ends, written with known kinds
and with thread counts that are not negative, and of attributes, in this order, with nothing else between or after them. -/
theorem connector_decl_only {A : Type} (args : List (Arg A)) (c : Connector A) (h : liftConnectorDefn args = .ok c) :
    ∃ f t attrs, args = connectorArgs f t attrs ∧ f.legal ∧ t.legal ∧ c = expected none f t attrs := by
  have key : ∃ f t attrs, args = connectorArgs f t attrs ∧ f.legal ∧ t.legal := by
    have e1 := hwPart_only args
    rw [defn_parts] at h
    cases h1 : (hwPart args).2 with
    | nil => rw [h1] at h; cases h
    | cons a l2 =>
      rw [h1] at h e1
      cases a with
      | endType ft =>
        simp only at h
        cases h2 : numPart l2 with
        | error e => rw [h2] at h; cases h
        | ok p =>
          obtain ⟨k1, l3⟩ := p
          rw [h2] at h
          simp only at h
          obtain ⟨th1, e3, p1⟩ := numPart_only h2
          have e4 := hwPart_only l3
          cases h4 : (hwPart l3).2 with
          | nil => rw [h4] at h; cases h
          | cons b l5 =>
            rw [h4] at h e4
            cases b with
            | endType tt =>
              simp only at h
              cases h5 : numPart l5 with
              | error e => rw [h5] at h; cases h
              | ok q =>
                obtain ⟨k2, l6⟩ := q
                rw [h5] at h
                simp only at h
                obtain ⟨th2, e6, p2⟩ := numPart_only h5
                cases h6 : takeAttrs l6 with
                | error e => rw [h6] at h; cases h
                | ok attrs =>
                  rw [h6] at h
                  simp only at h
                  have e7 := takeAttrs_only l6 attrs h6
                  unfold mkConnector at h
                  split at h
                  · rename_i x y hx hy
                    obtain ⟨fk, fm, rfl⟩ := translation_only hx
                    obtain ⟨tk, tm, rfl⟩ := translation_only hy
                    clear h h1 h4 h2 h5 h6
                    generalize (hwPart args).1 = fa at e1
                    generalize (hwPart l3).1 = ta at e4
                    refine ⟨⟨fa, fk, fm, th1⟩, ⟨ta, tk, tm, th2⟩, attrs, ?_, p1, p2⟩
                    rw [e1, e3, e4, e6, e7]
                    cases th1 <;> cases th2 <;> simp [connectorArgs, EndSrc.args]
                  · cases h
            | _ => cases h
      | _ => cases h
  obtain ⟨f, t, attrs, rfl, hf, ht⟩ := key
  refine ⟨f, t, attrs, rfl, hf, ht, ?_⟩
  rw [liftDefn_expected f t attrs hf ht] at h
  cases h
  rfl

/-- **C05 (the end of a connection).** A name alone is an interface of the surrounding component; otherwise all but the last name are the
instance. -/
theorem connection_end_split (inst : List String) (i : String) :
    liftConnectionEnd (inst ++ [i]) = (if inst = [] then none else some inst, inst ++ [i]) := by
  unfold liftConnectionEnd
  rw [List.dropLast_concat]
  cases inst <;> simp

/-- An end with its instance; a word after the end types is refused. -/
example : liftConnectionEnd ["c", "p"] = (some ["c"], ["c", "p"]) := rfl

example : (liftConnectorDefn (A := Nat) (connectorArgs ⟨false, .procedure, true, none⟩ ⟨true, .procedure, false, some 2⟩ [7] ++ [.hardware])).toOption = none := rfl

end Verif.Lift
