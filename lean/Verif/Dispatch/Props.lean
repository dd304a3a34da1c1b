import Verif.Dispatch.Spec
import Verif.Marshal.Props
import Verif.Badges.Props
import Mathlib.Data.List.Nodup
import Mathlib.Data.List.Perm.Subperm

/-!
# C109: a server with several clients
-/

namespace Verif.Dispatch

open Verif.Marshal (Env Ty Val Byte Out)
open Spec (types NamesApart BadgesApart OneType OwnTypes ResultOk Sensible CallOk Answers)

/-! ### The dictionary of types -/

theorem addEnd_keys (t : Proc) (i : Nat) (d : List (Proc × List Nat)) :
    (addEnd t i d).map (·.1) = if t ∈ d.map (·.1) then d.map (·.1) else d.map (·.1) ++ [t] := by
  induction d with
  | nil => simp [addEnd]
  | cons e d ih =>
    obtain ⟨u, l⟩ := e
    by_cases h : u = t
    · simp [addEnd, h]
    · have h' : ¬ t = u := fun x => h x.symm
      rw [addEnd, if_neg h]
      simp only [List.map_cons, List.mem_cons, h', false_or, ih]
      split <;> simp

theorem addEnd_sum (t : Proc) (i : Nat) (d : List (Proc × List Nat)) :
    ((addEnd t i d).map (·.2.length)).sum = (d.map (·.2.length)).sum + 1 := by
  induction d with
  | nil => simp [addEnd]
  | cons e d ih =>
    obtain ⟨u, l⟩ := e
    by_cases h : u = t
    · simp [addEnd, h]; omega
    · rw [addEnd, if_neg h]
      simp only [List.map_cons, List.sum_cons, ih]
      omega

theorem addEnd_ne (t : Proc) (i : Nat) (d : List (Proc × List Nat)) (h : ∀ e ∈ d, e.2 ≠ []) :
    ∀ e ∈ addEnd t i d, e.2 ≠ [] := by
  induction d with
  | nil => simp [addEnd]
  | cons e d ih =>
    obtain ⟨u, l⟩ := e
    have h2 : ∀ e ∈ d, e.2 ≠ [] := fun e he => h e (by simp [he])
    by_cases hu : u = t
    · rw [addEnd, if_pos hu]
      intro e he
      rcases List.mem_cons.1 he with rfl | he
      · simp
      · exact h2 e he
    · rw [addEnd, if_neg hu]
      intro e he
      rcases List.mem_cons.1 he with rfl | he
      · exact h _ (by simp)
      · exact ih h2 e he

theorem addEnd_new (t : Proc) (i : Nat) (d : List (Proc × List Nat)) (h : t ∉ d.map (·.1)) :
    addEnd t i d = d ++ [(t, [i])] := by
  induction d with
  | nil => rfl
  | cons e d ih =>
    obtain ⟨u, l⟩ := e
    simp only [List.map_cons, List.mem_cons, not_or] at h
    rw [addEnd, if_neg (fun x => h.1 x.symm), ih h.2]
    rfl

/-- What is known of the dictionary, in any case. -/
structure Dict (ts : List Proc) (d : List (Proc × List Nat)) : Prop where
  keys : (d.map (·.1)).Nodup
  mem : ∀ t, t ∈ d.map (·.1) ↔ t ∈ ts
  ne : ∀ e ∈ d, e.2 ≠ []
  sum : (d.map (·.2.length)).sum = ts.length

theorem dict_from (ts ts0 : List Proc) (i : Nat) (d : List (Proc × List Nat)) (h : Dict ts0 d) :
    Dict (ts0 ++ ts) (typeDictFrom i ts d) := by
  induction ts generalizing ts0 i d with
  | nil => simpa [typeDictFrom] using h
  | cons t ts ih =>
    rw [typeDictFrom, show ts0 ++ t :: ts = (ts0 ++ [t]) ++ ts by simp]
    refine ih (ts0 ++ [t]) (i + 1) _ ⟨?_, ?_, addEnd_ne t i d h.ne, ?_⟩
    · rw [addEnd_keys]
      split
      · exact h.keys
      · next hn =>
        rw [List.nodup_append]
        exact ⟨h.keys, by simp, fun x hx y hy e => hn (List.mem_singleton.1 hy ▸ e ▸ hx)⟩
    · intro u
      rw [addEnd_keys]
      have hu := h.mem u
      split
      · next hm =>
        simp only [List.mem_append, List.mem_singleton, ← hu]
        constructor
        · exact .inl
        · rintro (hx | rfl)
          · exact hx
          · exact hm
      · simp only [List.mem_append, List.mem_singleton, ← hu]
    · rw [addEnd_sum, h.sum]; simp

theorem dict_types (cs : List Client) : Dict (types cs) (typeDict cs) := by
  have := dict_from (types cs) [] 0 [] ⟨by simp, by simp, by simp, by simp⟩
  simpa [typeDict, types] using this

theorem dict_own_from (ts : List Proc) (i : Nat) (d : List (Proc × List Nat))
    (h : (d.map (·.1) ++ ts).Nodup) :
    typeDictFrom i ts d = d ++ (ts.zipIdx i).map (fun x => (x.1, [x.2])) := by
  induction ts generalizing i d with
  | nil => simp [typeDictFrom]
  | cons t ts ih =>
    have hn : t ∉ d.map (·.1) := by
      intro hm
      rw [List.nodup_append] at h
      exact h.2.2 t hm t (by simp) rfl
    rw [typeDictFrom, addEnd_new t i d hn, ih]
    · simp [List.zipIdx_cons]
    · simpa using h

theorem dict_own (cs : List Client) (h : OwnTypes cs) :
    typeDict cs = ((types cs).zipIdx).map (fun x => (x.1, [x.2])) := by
  have := dict_own_from (types cs) 0 [] (by simpa [OwnTypes] using h)
  simpa [typeDict, types] using this

theorem dict_one (cs : List Client) (h : OneType cs) : (typeDict cs).length ≤ 1 := by
  have hd := dict_types cs
  have hk : ∀ t ∈ (typeDict cs).map (·.1), ∀ u ∈ (typeDict cs).map (·.1), t = u :=
    fun t ht u hu => h t ((hd.mem t).1 ht) u ((hd.mem u).1 hu)
  have hn := hd.keys
  generalize typeDict cs = d at hk hn
  match d with
  | [] => simp
  | [a] => simp
  | a :: b :: l =>
    exfalso
    simp only [List.map_cons, List.nodup_cons, List.mem_cons, not_or] at hn
    exact hn.1.1 (hk a.1 (by simp) b.1 (by simp))

theorem dict_many (cs : List Client) (h : ¬ OneType cs) : 1 < (typeDict cs).length := by
  have hd := dict_types cs
  by_contra hle
  apply h
  intro t ht u hu
  have ht' := (hd.mem t).2 ht
  have hu' := (hd.mem u).2 hu
  generalize typeDict cs = d at ht' hu' hle
  match d with
  | [] => simp at ht'
  | [a] =>
    simp only [List.map_cons, List.map_nil, List.mem_singleton] at ht' hu'
    rw [ht', hu']
  | a :: b :: l => simp at hle

theorem dict_singles (cs : List Client) :
    (∀ e ∈ typeDict cs, e.2.length = 1) ↔ OwnTypes cs := by
  have hd := dict_types cs
  constructor
  · intro h
    have hs : ((typeDict cs).map (·.2.length)).sum = (typeDict cs).length := by
      generalize typeDict cs = d at h
      induction d with
      | nil => rfl
      | cons e d ih =>
        rw [List.map_cons, List.sum_cons, h e (by simp), ih (fun x hx => h x (by simp [hx])),
          List.length_cons]
        omega
    have hlen : ((typeDict cs).map (·.1)).length = (types cs).length := by
      rw [List.length_map, ← hd.sum, hs]
    have hsub : ((typeDict cs).map (·.1)).Subperm (types cs) :=
      hd.keys.subperm fun t ht => (hd.mem t).1 ht
    have hperm := hsub.perm_of_length_le (by omega)
    exact hperm.nodup_iff.1 hd.keys
  · intro h e he
    rw [dict_own cs h] at he
    obtain ⟨x, _, rfl⟩ := List.mem_map.1 he
    rfl

/-! ### What compiles -/

theorem matched_labels (bs : List Nat) (l : List Nat) (k : Nat) (rest : List Tok) :
    matched k (l.flatMap (fun i => [.label ((bs[i]?).getD 0), .open_]) ++ rest)
      = matched (k + l.length) rest := by
  induction l generalizing k with
  | nil => simp
  | cons i l ih =>
    simp only [List.flatMap_cons, List.cons_append, List.nil_append, List.length_cons]
    rw [matched, matched, ih]
    · congr 1; omega
    all_goals simp

theorem matched_block (bs : List Nat) (e : Proc × List Nat) (he : e.2 ≠ []) (k : Nat)
    (rest : List Tok) : matched k (block bs e ++ rest) = matched (k + (e.2.length - 1)) rest := by
  have hl := List.length_pos_of_ne_nil he
  rw [block, List.append_assoc, matched_labels]
  simp only [List.cons_append, List.nil_append]
  obtain ⟨n, hn⟩ : ∃ n, k + e.2.length = n + 1 := ⟨k + e.2.length - 1, by omega⟩
  rw [hn, matched, matched, matched]
  · congr 1; omega
  all_goals simp

theorem matched_blocks (bs : List Nat) (d : List (Proc × List Nat)) (hd : ∀ e ∈ d, e.2 ≠ [])
    (k : Nat) (rest : List Tok) :
    matched k (d.flatMap (block bs) ++ rest)
      = matched (k + (d.map (fun e => e.2.length - 1)).sum) rest := by
  induction d generalizing k with
  | nil => simp
  | cons e d ih =>
    rw [List.flatMap_cons, List.append_assoc, matched_block bs e (hd e (by simp)),
      ih (fun x hx => hd x (by simp [hx]))]
    simp only [List.map_cons, List.sum_cons]
    congr 1; omega

theorem matched_program (cs : List Client) :
    matched 0 (program cs) = true ↔ OneType cs ∨ OwnTypes cs := by
  have hd := dict_types cs
  unfold program
  simp only
  by_cases h1 : OneType cs
  · have := dict_one cs h1
    rw [if_neg (by omega)]
    refine ⟨fun _ => .inl h1, fun _ => ?_⟩
    generalize typeDict cs = d
    induction d with
    | nil => rfl
    | cons e d ih => rw [List.map_cons, matched] <;> first | exact ih | simp
  · rw [if_pos (dict_many cs h1), List.append_assoc]
    simp only [List.cons_append, List.nil_append]
    rw [matched, matched, matched_blocks _ _ hd.ne]
    rotate_left
    · simp
    · simp
    · simp
    have hfin : ∀ n, matched (1 + n) [.otherwise, .report, .leave, .close_] = true ↔ n = 0 := by
      intro n
      rw [Nat.add_comm]
      simp [matched]
    rw [hfin, List.sum_eq_zero_iff_forall_eq_nat]
    constructor
    · intro h
      right
      rw [← dict_singles]
      intro e he
      have h2 := h _ (List.mem_map.2 ⟨e, he, rfl⟩)
      have h3 := List.length_pos_of_ne_nil (hd.ne e he)
      omega
    · rintro (h | h)
      · exact absurd h h1
      · rw [← dict_singles] at h
        intro x hx
        obtain ⟨e, he, rfl⟩ := List.mem_map.1 hx
        rw [h e he]

theorem badges_length (cs : List Client) : (badges cs).length = cs.length := by
  rw [badges, List.length_map, (Badges.allocate_spec _).1, List.length_map]

theorem badges_nodup (cs : List Client) : (badges cs).Nodup ↔ BadgesApart cs := by
  obtain ⟨h1, h2, h3, h4⟩ := Badges.allocate_spec (cs.map (·.explicit))
  have hex : ∀ (i b : Nat), (cs[i]?.bind Client.explicit) = some b
      ↔ (cs.map (·.explicit))[i]? = some (some b) := by
    intro i b
    rw [List.getElem?_map]
    cases cs[i]? <;> simp
  have hget : ∀ (i b : Nat), (Badges.allocateBadges (cs.map (·.explicit)))[i]? = some (some b)
      ↔ (badges cs)[i]? = some b := by
    intro i b
    rw [badges, List.getElem?_map]
    cases hx : (Badges.allocateBadges (cs.map (·.explicit)))[i]? with
    | none => simp
    | some o =>
      cases o with
      | none => exact absurd hx (h2 i)
      | some c => simp
  constructor
  · intro hn i j b hi hj
    have e1 := (hget i b).1 (h3 i b ((hex i b).1 hi))
    have e2 := (hget j b).1 (h3 j b ((hex j b).1 hj))
    obtain ⟨l1, g1⟩ := List.getElem?_eq_some_iff.1 e1
    obtain ⟨l2, g2⟩ := List.getElem?_eq_some_iff.1 e2
    exact (List.Nodup.getElem_inj_iff hn).1 (g1.trans g2.symm)
  · intro h
    have hn := Badges.allocate_distinct_partial (cs.map (·.explicit))
      (fun i j b hi hj => h i j b ((hex i b).2 hi) ((hex j b).2 hj))
    rw [badges]
    refine hn.map_on ?_
    intro x hx y hy hxy
    obtain ⟨i, hi⟩ := List.mem_iff_getElem?.1 hx
    obtain ⟨j, hj⟩ := List.mem_iff_getElem?.1 hy
    cases x with
    | none => exact absurd hi (h2 i)
    | some a =>
      cases y with
      | none => exact absurd hj (h2 j)
      | some b => simpa using hxy

theorem labels_append (a b : List Tok) : labels (a ++ b) = labels a ++ labels b := by
  simp [labels]

theorem labels_own (bs : List Nat) (ts : List Proc) (i : Nat) (hi : i + ts.length ≤ bs.length) :
    labels (((ts.zipIdx i).map (fun x => (x.1, [x.2]))).flatMap (block bs))
      = (bs.drop i).take ts.length := by
  induction ts generalizing i with
  | nil => simp [labels]
  | cons t ts ih =>
    simp only [List.length_cons] at hi
    have hlt : i < bs.length := by omega
    rw [List.zipIdx_cons, List.map_cons, List.flatMap_cons, labels_append, ih (i + 1) (by omega),
      List.drop_eq_getElem_cons hlt, List.length_cons, List.take_succ_cons]
    simp [block, labels, hlt]

theorem program_own (cs : List Client) (h : OwnTypes cs) (h1 : ¬ OneType cs) :
    program cs = [.switch, .open_]
      ++ (((types cs).zipIdx).map (fun x => (x.1, [x.2]))).flatMap (block (badges cs))
      ++ [.otherwise, .report, .leave, .close_] := by
  unfold program
  simp only
  rw [if_pos (dict_many cs h1), dict_own cs h]

theorem labels_program (cs : List Client) :
    (OneType cs → labels (program cs) = [])
    ∧ (OwnTypes cs → ¬ OneType cs → labels (program cs) = badges cs) := by
  constructor
  · intro h
    have := dict_one cs h
    unfold program
    simp only
    rw [if_neg (by omega)]
    generalize typeDict cs = d
    induction d with
    | nil => rfl
    | cons e d ih => simp [labels]
  · intro h h1
    rw [program_own cs h h1, labels_append, labels_append, labels_own _ _ _ (by
      rw [badges_length]; simp [types])]
    have : (badges cs).length = (types cs).length := by rw [badges_length]; simp [types]
    rw [← this]
    simp [labels]

theorem append_last_ne (a b : String) : a ++ "_unmarshal_inputs" ≠ b ++ "_marshal_outputs" := by
  intro h
  have h2 := congrArg (fun s : String => s.toList.reverse) h
  simp only [String.toList_append, List.reverse_append, String.reduceToList, List.reverse_cons,
    List.reverse_nil, List.nil_append, List.cons_append] at h2
  simp only [List.cons.injEq] at h2
  exact absurd h2.2.2.2.2.1 (by decide)

theorem append_right_inj' (a b c : String) (h : a ++ c = b ++ c) : a = b := by
  have h2 := congrArg String.toList h
  simp only [String.toList_append, List.append_cancel_right_eq] at h2
  exact String.toList_inj.1 h2

theorem fns_nodup (ms : List Method) :
    (ms.flatMap fun m => [m.name ++ "_unmarshal_inputs", m.name ++ "_marshal_outputs"]).Nodup
      ↔ (ms.map (·.name)).Nodup := by
  induction ms with
  | nil => simp
  | cons m ms ih =>
    have e2 : ((m :: ms).map (·.name)).Nodup
        ↔ m.name ∉ ms.map (·.name) ∧ (ms.map (·.name)).Nodup := by
      rw [List.map_cons, List.nodup_cons]
    rw [List.flatMap_cons, List.nodup_append, ih, e2]
    constructor
    · rintro ⟨_, h2, h3⟩
      refine ⟨fun hm => ?_, h2⟩
      obtain ⟨n, hn, hnm⟩ := List.mem_map.1 hm
      exact h3 (m.name ++ "_unmarshal_inputs") (by simp) (n.name ++ "_unmarshal_inputs")
        (List.mem_flatMap.2 ⟨n, hn, by simp⟩) (by rw [hnm])
    · rintro ⟨h1, h2⟩
      refine ⟨by simp [append_last_ne m.name m.name], h2, ?_⟩
      rintro a ha b hb rfl
      obtain ⟨n, hn, hb⟩ := List.mem_flatMap.1 hb
      apply h1
      refine List.mem_map.2 ⟨n, hn, ?_⟩
      simp only [List.mem_cons, List.not_mem_nil, or_false] at ha hb
      rcases ha with rfl | rfl <;> rcases hb with hb | hb
      · exact (append_right_inj' _ _ _ hb).symm
      · exact absurd hb (append_last_ne _ _)
      · exact absurd hb.symm (append_last_ne _ _)
      · exact (append_right_inj' _ _ _ hb).symm

theorem functions_nodup (cs : List Client) : (functions cs).Nodup ↔ NamesApart cs := by
  have hd := dict_types cs
  have e : functions cs = (((typeDict cs).map (·.1)).flatMap (·.methods)).flatMap
      fun m => [m.name ++ "_unmarshal_inputs", m.name ++ "_marshal_outputs"] := by
    simp [functions, List.flatMap_assoc, List.flatMap_map]
  rw [e, fns_nodup]
  have key : ∀ ks : List Proc, ks.Nodup → (((ks.flatMap (·.methods)).map (·.name)).Nodup
      ↔ (∀ t ∈ ks, (t.methods.map (·.name)).Nodup)
        ∧ ∀ t ∈ ks, ∀ u ∈ ks, t ≠ u → ∀ m ∈ t.methods, ∀ n ∈ u.methods, m.name ≠ n.name) := by
    intro ks hks
    induction ks with
    | nil => simp
    | cons k ks ih =>
      rw [List.nodup_cons] at hks
      rw [List.flatMap_cons, List.map_append, List.nodup_append, ih hks.2]
      constructor
      · rintro ⟨h1, ⟨h2, h3⟩, h4⟩
        have h4' : ∀ u ∈ ks, ∀ m ∈ k.methods, ∀ n ∈ u.methods, m.name ≠ n.name := by
          intro u hu m hm n hn
          exact h4 m.name (List.mem_map.2 ⟨m, hm, rfl⟩) n.name
            (List.mem_map.2 ⟨n, List.mem_flatMap.2 ⟨u, hu, hn⟩, rfl⟩)
        refine ⟨?_, ?_⟩
        · intro t ht
          rcases List.mem_cons.1 ht with rfl | ht
          · exact h1
          · exact h2 t ht
        · intro t ht u hu hne m hm n hn
          rcases List.mem_cons.1 ht with ht' | ht' <;> rcases List.mem_cons.1 hu with hu' | hu'
          · exact absurd (ht'.trans hu'.symm) hne
          · exact h4' u hu' m (ht' ▸ hm) n hn
          · exact fun e => h4' t ht' n (hu' ▸ hn) m hm e.symm
          · exact h3 t ht' u hu' hne m hm n hn
      · rintro ⟨h1, h2⟩
        refine ⟨h1 k (by simp), ⟨fun t ht => h1 t (by simp [ht]), fun t ht u hu =>
          h2 t (by simp [ht]) u (by simp [hu])⟩, ?_⟩
        rintro a ha b hb rfl
        obtain ⟨m, hm, rfl⟩ := List.mem_map.1 ha
        obtain ⟨n, hn, hnm⟩ := List.mem_map.1 hb
        obtain ⟨u, hu, hn⟩ := List.mem_flatMap.1 hn
        exact h2 k (by simp) u (by simp [hu]) (fun e => hks.1 (e ▸ hu)) m hm n hn hnm.symm
  rw [key _ hd.keys]
  unfold NamesApart
  simp only [hd.mem]

/-- **C109.**  The generated server compiles exactly if the names of methods tell them apart and
either all clients have the same type, or no two have the same type and no badge is configured
twice. -/
theorem compiles_iff (cs : List Client) :
    compiles cs = true ↔ NamesApart cs ∧ (OneType cs ∨ OwnTypes cs ∧ BadgesApart cs) := by
  unfold compiles
  simp only [Bool.and_eq_true, decide_eq_true_eq, matched_program, functions_nodup]
  obtain ⟨h1, h2⟩ := labels_program cs
  constructor
  · rintro ⟨⟨ha | ha, hb⟩, hc⟩
    · exact ⟨hc, .inl ha⟩
    · by_cases ho : OneType cs
      · exact ⟨hc, .inl ho⟩
      · rw [h2 ha ho, badges_nodup] at hb
        exact ⟨hc, .inr ⟨ha, hb⟩⟩
  · rintro ⟨hc, ha | ⟨ha, hb⟩⟩
    · exact ⟨⟨.inl ha, by rw [h1 ha]; simp⟩, hc⟩
    · by_cases ho : OneType cs
      · exact ⟨⟨.inl ho, by rw [h1 ho]; simp⟩, hc⟩
      · exact ⟨⟨.inr ha, by rw [h2 ha ho, badges_nodup]; exact hb⟩, hc⟩

/-! ### Where messages get to -/

theorem after_own (bs : List Nat) (ts : List Proc) (i j : Nat) (t : Proc) (b : Nat)
    (hi : i + ts.length ≤ bs.length) (hn : bs.Nodup) (hj : i ≤ j) (ht : ts[j - i]? = some t)
    (hb : bs[j]? = some b) (rest : List Tok) :
    ∃ r, after (.label b) (((ts.zipIdx i).map (fun x => (x.1, [x.2]))).flatMap (block bs) ++ rest)
      = some (.open_ :: .body t :: r) := by
  induction ts generalizing i with
  | nil => simp at ht
  | cons u ts ih =>
    simp only [List.length_cons] at hi
    have hlt : i < bs.length := by omega
    rw [List.zipIdx_cons, List.map_cons, List.flatMap_cons, List.append_assoc]
    by_cases hij : j = i
    · subst hij
      obtain rfl : u = t := by simpa using ht
      have : bs[j]?.getD 0 = b := by rw [hb]; rfl
      refine ⟨.leave :: .close_ :: (((ts.zipIdx (j + 1)).map (fun x => (x.1, [x.2]))).flatMap (block bs) ++ rest), ?_⟩
      simp only [block, List.flatMap_cons, List.flatMap_nil, List.append_nil, List.cons_append,
        List.nil_append, this]
      rw [after, if_pos rfl]
    · have hne : bs[i]?.getD 0 ≠ b := by
        intro e
        have hi' : bs[i]? = some b := by
          rw [List.getElem?_eq_getElem hlt] at e ⊢
          simpa using e
        obtain ⟨l1, g1⟩ := List.getElem?_eq_some_iff.1 hi'
        obtain ⟨l2, g2⟩ := List.getElem?_eq_some_iff.1 hb
        exact hij ((List.Nodup.getElem_inj_iff hn).1 (g2.trans g1.symm))
      obtain ⟨r, hr⟩ := ih (i + 1) (by omega) (by omega) (by
        have : j - i = (j - (i + 1)) + 1 := by omega
        rw [this] at ht
        simpa using ht)
      refine ⟨r, ?_⟩
      simp only [block, List.flatMap_cons, List.flatMap_nil, List.append_nil, List.cons_append,
        List.nil_append]
      simp only [after, reduceCtorEq, if_false, Tok.label.injEq, hne]
      exact hr

theorem after_none (b : Nat) (l : List Tok) (h : b ∉ labels l) : after (.label b) l = none := by
  induction l with
  | nil => rfl
  | cons t l ih =>
    rw [after, if_neg, ih]
    · intro hm
      apply h
      cases t <;> simp_all [labels]
    · rintro rfl
      exact h (by simp [labels])

/-- **C109.**  In a server that compiles the messages of a client get to the code for its own
type. -/
theorem reached_own (cs : List Client) (hc : compiles cs = true) (j : Nat) (cl : Client)
    (hj : cs[j]? = some cl) :
    reached ((badges cs)[j]?.getD 0) (program cs) = .body cl.type := by
  rw [compiles_iff] at hc
  have hjl : j < cs.length := (List.getElem?_eq_some_iff.1 hj).1
  have htm : cl.type ∈ types cs := by
    exact List.mem_map.2 ⟨cl, List.mem_of_getElem? hj, rfl⟩
  by_cases ho : OneType cs
  · have hd := dict_types cs
    have h1 := dict_one cs ho
    unfold program
    simp only
    rw [if_neg (by omega)]
    have hm := (hd.mem cl.type).2 htm
    generalize typeDict cs = d at h1 hm
    match d with
    | [] => simp at hm
    | [a] =>
      simp only [List.map_cons, List.map_nil, List.mem_singleton] at hm
      rw [hm]
      rfl
    | a :: b :: l => simp at h1
  · obtain ⟨hown, hb⟩ := hc.2.resolve_left ho
    rw [program_own cs hown ho]
    have hbl : j < (badges cs).length := by rw [badges_length]; exact hjl
    have hbj : (badges cs)[j]? = some ((badges cs)[j]?.getD 0) := by
      rw [List.getElem?_eq_getElem hbl]; rfl
    obtain ⟨r, hr⟩ := after_own (badges cs) (types cs) 0 j cl.type ((badges cs)[j]?.getD 0)
      (by rw [badges_length]; simp [types]) ((badges_nodup cs).2 hb) (by omega)
      (by simp [types, List.getElem?_map, hj]) hbj [.otherwise, .report, .leave, .close_]
    rw [List.append_assoc, List.cons_append, reached]
    simp only [List.cons_append, List.nil_append]
    rw [after, if_neg (by simp), hr]
    rfl

theorem after_blocks (bs : List Nat) (d : List (Proc × List Nat)) (rest : List Tok) :
    after .otherwise (d.flatMap (block bs) ++ rest) = after .otherwise rest := by
  have h1 : ∀ (l : List Nat) rest, after .otherwise
      (l.flatMap (fun i => [.label ((bs[i]?).getD 0), .open_]) ++ rest) = after .otherwise rest := by
    intro l rest
    induction l with
    | nil => rfl
    | cons i l ih => simpa [after] using ih
  induction d with
  | nil => rfl
  | cons e d ih =>
    rw [List.flatMap_cons, List.append_assoc, block, List.append_assoc, h1]
    simpa [after] using ih

/-- **C109.**  Where clients have several types, a message with a badge of no client is an error. -/
theorem reached_unknown (cs : List Client) (hc : compiles cs = true) (ho : ¬ OneType cs) (b : Nat)
    (hb : b ∉ badges cs) : reached b (program cs) = .unknown := by
  rw [compiles_iff] at hc
  obtain ⟨hown, -⟩ := hc.2.resolve_left ho
  have hl := (labels_program cs).2 hown ho
  have h2 : b ∉ labels (program cs) := by rw [hl]; exact hb
  rw [program_own cs hown ho, List.append_assoc, List.cons_append] at h2 ⊢
  rw [reached, after_none]
  · simp only [List.nil_append, List.cons_append]
    rw [after, if_neg (by simp), after_blocks]
    rfl
  · intro hm
    apply h2
    simpa [labels] using hm

/-! ### Calls -/

variable {σ : Type}

theorem typed_ok (v : Env' σ) (m : Method) (r : Option Val × List Val) (h : ResultOk v m r) :
    (typed m r).1.map (·.1) = m.ret ∧ (typed m r).2.map (·.1) = m.outs
    ∧ ((typed m r).1.toList ++ (typed m r).2).map (·.2) = r.1.toList ++ r.2
    ∧ (∀ p ∈ (typed m r).1.toList ++ (typed m r).2, Marshal.Proper v.env p.1 p.2) := by
  have hz1 : (m.outs.zip r.2).map (·.1) = m.outs := List.map_fst_zip (by rw [h.len])
  have hz2 : (m.outs.zip r.2).map (·.2) = r.2 := List.map_snd_zip (by rw [h.len])
  unfold typed
  cases hm : m.ret with
  | none =>
    have := h.noRet hm
    refine ⟨by simp, by simpa using hz1, by simpa [this] using hz2, ?_⟩
    intro p hp
    exact h.outs p (by simpa using hp)
  | some t =>
    obtain ⟨x, hx, hpx⟩ := h.ret t hm
    refine ⟨by simp [hx], by simpa using hz1, by simpa [hx] using hz2, ?_⟩
    intro p hp
    simp only [hx, Option.bind_some, Option.map_some, Option.toList_some, List.cons_append,
      List.nil_append, List.mem_cons] at hp
    rcases hp with rfl | hp
    · exact hpx
    · exact h.outs p hp

/-- A call of a method that the client has, with arguments that fit, is executed and answered. -/
theorem call_once (v : Env' σ) (cs : List Client) (hc : compiles cs = true) (hv : Sensible v cs)
    (s : St σ) (c : Call) (m : Method) (h : CallOk v cs c m) :
    ∃ s', callOnce v cs s c = (s', .returned ((v.impl s.comp m.name (c.args.map (·.2))).2.1.toList
          ++ (v.impl s.comp m.name (c.args.map (·.2))).2.2))
      ∧ s'.comp = (v.impl s.comp m.name (c.args.map (·.2))).1
      ∧ s'.log = s.log ++ [((badges cs)[c.client]?.getD 0, m.name, c.args.map (·.2))] := by
  obtain ⟨cl, hcl, hm⟩ := h.method
  have htm : cl.type ∈ types cs := List.mem_map.2 ⟨cl, List.mem_of_getElem? hcl, rfl⟩
  have hmm : m ∈ cl.type.methods := List.mem_of_getElem? hm
  obtain ⟨o, ho, -, -⟩ := (Marshal.marshalInputs_spec hv.env cl.type.methods.length c.index v.size
    hv.size ⟨c.buf, 0⟩ c.args h.proper).1 (h.fits cl hcl)
  have hlen : (cl.type.methods.map (·.ins)).length = cl.type.methods.length := List.length_map _
  have hrec := Marshal.inputs_round_trip hv.env v.malloc v.trailing (cl.type.methods.map (·.ins))
    (by rw [hlen]; exact hv.count _ htm) c.index c.args
    (by rw [List.getElem?_map, hm, h.types]; rfl) h.proper v.size hv.size hv.words ⟨c.buf, 0⟩ o _
    (by rw [hlen]; exact ho)
  have hrec := hrec.resolve_right (by rintro ⟨_, n, hn⟩; rw [hv.memory n] at hn; cases hn)
  have hres := hv.results _ htm m hmm s.comp (c.args.map (·.2))
  obtain ⟨t1, t2, t3, t4⟩ := typed_ok v m _ hres
  have hmsg : request v c.buf cl.type c.index c.args = some (transfer v.env v.trailing v.size o
      (Marshal.wireIndex cl.type.methods.length c.index
        ++ c.args.flatMap (fun p => Marshal.wire v.env p.2)).length) := by
    rw [request, ho]
  unfold callOnce
  simp only [hcl, hm, hmsg]
  unfold step
  simp only [reached_own cs hc c.client cl hcl]
  rw [transfer, hrec]
  simp only [hm]
  unfold serve
  simp only
  obtain ⟨o2, ho2, -, -⟩ := (Marshal.marshalOutputs_spec hv.env v.size hv.size
    ⟨(Marshal.memcpy ⟨s.mem, 0⟩ 0 (Marshal.bytesOf o (Marshal.sentLength v.env v.trailing v.size
      (Marshal.wireIndex cl.type.methods.length c.index
        ++ c.args.flatMap (fun p => Marshal.wire v.env p.2)).length))).mem, 0⟩ _ _ t4).1 (by
      have hf := hres.fits
      rw [← t3, List.flatMap_map] at hf
      exact hf)
  rw [ho2]
  simp only
  have hout := Marshal.outputs_round_trip hv.env v.malloc v.trailing _ _ t4 v.size hv.size hv.words
    _ _ _ ho2
  have hout := hout.resolve_right (by rintro ⟨_, n, hn⟩; rw [hv.memory n] at hn; cases hn)
  rw [t1, t2, t3] at hout
  rw [transfer, hout]
  exact ⟨_, rfl, rfl, rfl⟩

/-- **C109.**  In a server that compiles every call of a method that a client has is executed exactly
once, in order and on the arguments of the call, and the results come back to it; whatever the types
of the clients, and whatever was in the buffers. -/
theorem served_partial (v : Env' σ) (cs : List Client) (hc : compiles cs = true)
    (hv : Sensible v cs) (s : St σ) (l : List Call) (hl : ∀ c ∈ l, ∃ m, CallOk v cs c m) :
    ∃ s' lg, Answers v cs s.comp l s'.comp lg (calls v cs s l).2
      ∧ (calls v cs s l).1 = s' ∧ s'.log.map (·.2) = s.log.map (·.2) ++ lg := by
  induction l generalizing s with
  | nil => exact ⟨s, [], .nil _, rfl, by simp⟩
  | cons c l ih =>
    obtain ⟨m, hm⟩ := hl c (by simp)
    obtain ⟨s1, h1, h2, h3⟩ := call_once v cs hc hv s c m hm
    obtain ⟨s', lg, h4, h5, h6⟩ := ih s1 (fun x hx => hl x (by simp [hx]))
    refine ⟨s', (m.name, c.args.map (·.2)) :: lg, ?_, ?_, ?_⟩
    · rw [calls, h1]
      exact .cons _ _ _ _ _ _ _ hm (h2 ▸ h4)
    · rw [calls, h1]
      exact h5
    · rw [h6, h3]
      simp

/-- **C109.**  A call whose arguments do not fit fails at the caller; the server does not learn of
it. -/
theorem not_sent (v : Env' σ) (cs : List Client) (he : Marshal.EnvOk v.env)
    (hsz : v.size + 1 < v.env.U) (s : St σ) (c : Call) (cl : Client) (m : Method)
    (hcl : cs[c.client]? = some cl) (hm : cl.type.methods[c.index]? = some m)
    (hp : ∀ p ∈ c.args, Marshal.Proper v.env p.1 p.2)
    (hf : v.size < (Marshal.wireIndex cl.type.methods.length c.index
      ++ c.args.flatMap (fun p => Marshal.wire v.env p.2)).length) :
    callOnce v cs s c = (s, .notSent) := by
  obtain ⟨o, ho, -⟩ := (Marshal.marshalInputs_spec he cl.type.methods.length c.index v.size hsz
    ⟨c.buf, 0⟩ c.args hp).2 hf
  unfold callOnce
  simp only [hcl, hm, request, ho]

/-! ### Clients that send what they like -/

/-- What a message does to the component: a method of the sender's own type is called, once, or
nothing at all. -/
theorem step_effect (v : Env' σ) (cs : List Client) (hc : compiles cs = true) (s : St σ) (j : Nat)
    (cl : Client) (hj : cs[j]? = some cl) (msg : List Byte) :
    (∃ i args m, Marshal.receive v.env v.malloc v.trailing (cl.type.methods.map (·.ins)) msg
        = .ok (i, args) ∧ cl.type.methods[i]? = some m
      ∧ (step v (program cs) s ((badges cs)[j]?.getD 0) msg).1.log
        = s.log ++ [((badges cs)[j]?.getD 0, m.name, args)]
      ∧ (step v (program cs) s ((badges cs)[j]?.getD 0) msg).1.comp
        = (v.impl s.comp m.name args).1)
    ∨ ((∀ i args, Marshal.receive v.env v.malloc v.trailing (cl.type.methods.map (·.ins)) msg
        = .ok (i, args) → cl.type.methods[i]? = none)
      ∧ (step v (program cs) s ((badges cs)[j]?.getD 0) msg).1.log = s.log
      ∧ (step v (program cs) s ((badges cs)[j]?.getD 0) msg).1.comp = s.comp) := by
  have hprob : ∀ (s : St σ) p, (problem v s p).1 = s := by
    intro s p
    unfold problem
    split
    · rfl
    · rfl
    · split
      · split <;> rfl
      · rfl
  unfold step
  simp only [reached_own cs hc j cl hj]
  cases hr : Marshal.receive v.env v.malloc v.trailing (cl.type.methods.map (·.ins)) msg with
  | error f =>
    right
    refine ⟨(by intro i args h; cases h), ?_, ?_⟩ <;> cases f <;> simp only [hprob]
  | ok p =>
    obtain ⟨i, args⟩ := p
    cases hm : cl.type.methods[i]? with
    | none =>
      right
      refine ⟨?_, ?_, ?_⟩
      · intro i' args' h
        cases h
        exact hm
      · simp only [hm, hprob]
      · simp only [hm, hprob]
    | some m =>
      left
      refine ⟨i, args, m, rfl, hm, ?_, ?_⟩
      · simp only [hm, serve]
        split
        · rfl
        · split <;> rfl
      · simp only [hm, serve]
        split
        · rfl
        · split <;> rfl

/-- **C109.**  Whatever clients send, and in any order: only methods of the sender's own type are
called, with as many arguments as they have, and at most one for each message, in the order of the
messages. -/
theorem isolated (v : Env' σ) (cs : List Client) (hc : compiles cs = true)
    (he : Marshal.EnvOk v.env) (s : St σ) (l : List (Nat × List Byte))
    (hl : ∀ p ∈ l, p.1 < cs.length ∧ p.2.length + 1 < v.env.U) :
    ∃ lg, (messages v cs s l).log = s.log ++ lg
      ∧ (lg.map (·.1)).Sublist (l.map fun p => (badges cs)[p.1]?.getD 0)
      ∧ ∀ e ∈ lg, ∃ p ∈ l, e.1 = (badges cs)[p.1]?.getD 0 ∧ ∃ cl m, cs[p.1]? = some cl
          ∧ m ∈ cl.type.methods ∧ e.2.1 = m.name ∧ e.2.2.length = m.ins.length := by
  induction l generalizing s with
  | nil => exact ⟨[], by simp [messages], by simp, by simp⟩
  | cons p l ih =>
    obtain ⟨j, msg⟩ := p
    obtain ⟨hj, hlen⟩ := hl (j, msg) (by simp)
    have hcl : cs[j]? = some cs[j] := List.getElem?_eq_getElem hj
    obtain ⟨lg, h1, h2, h3⟩ := ih (step v (program cs) s ((badges cs)[j]?.getD 0) msg).1
      (fun x hx => hl x (by simp [hx]))
    rcases step_effect v cs hc s j _ hcl msg with ⟨i, args, m, hr, hm, hlog, -⟩ | ⟨-, hlog, -⟩
    · refine ⟨((badges cs)[j]?.getD 0, m.name, args) :: lg, ?_, ?_, ?_⟩
      · rw [messages, h1, hlog]
        simp
      · simpa using h2
      · intro e hmem
        rcases List.mem_cons.1 hmem with rfl | hmem
        · refine ⟨(j, msg), by simp, rfl, _, m, hcl, List.mem_of_getElem? hm, rfl, ?_⟩
          obtain ⟨ts, ht, hn, -⟩ := (Marshal.receive_sound_partial he v.malloc v.trailing _ msg hlen).1
            i args hr
          rw [List.getElem?_map, hm] at ht
          simp only [Option.map_some, Option.some.injEq] at ht
          rw [hn, ← ht]
        · obtain ⟨q, hq, h4⟩ := h3 e hmem
          exact ⟨q, by simp [hq], h4⟩
    · refine ⟨lg, ?_, ?_, ?_⟩
      · rw [messages, h1, hlog]
      · exact h2.trans (List.sublist_cons_self _ _)
      · intro e hmem
        obtain ⟨q, hq, h4⟩ := h3 e hmem
        exact ⟨q, by simp [hq], h4⟩

/-- **C109.**  With an error handler that discards, a request that cannot be decoded is dropped; one
that aborts stops the component. -/
theorem refused (v : Env' σ) (cs : List Client) (hc : compiles cs = true) (s : St σ) (j : Nat)
    (cl : Client) (hj : cs[j]? = some cl) (msg : List Byte) (f : Marshal.Fail)
    (hr : Marshal.receive v.env v.malloc v.trailing (cl.type.methods.map (·.ins)) msg = .error f) :
    ((∀ p, v.act p = .discard) →
      (step v (program cs) s ((badges cs)[j]?.getD 0) msg).2 = .dropped)
    ∧ ((∀ p, v.act p = .abort) →
      (step v (program cs) s ((badges cs)[j]?.getD 0) msg).2 = .aborted) := by
  unfold step
  simp only [reached_own cs hc j cl hj, hr]
  cases f <;> refine ⟨fun h => ?_, fun h => ?_⟩ <;> simp only [problem, h]

/-- **C109.**  Where clients have several types, a message with a badge of no client executes nothing
and is not answered, unless the error handler ignores errors. -/
theorem unknown_refused (v : Env' σ) (cs : List Client) (hc : compiles cs = true) (ho : ¬ OneType cs)
    (s : St σ) (b : Nat) (hb : b ∉ badges cs) (msg : List Byte) :
    (step v (program cs) s b msg).1.comp = s.comp ∧ (step v (program cs) s b msg).1.log = s.log
    ∧ (v.act .unknownBadge = .discard → (step v (program cs) s b msg).2 = .dropped)
    ∧ (v.act .unknownBadge = .abort → (step v (program cs) s b msg).2 = .aborted)
    ∧ (v.act .unknownBadge = .ignore → s.length = some 0 → v.trailing = false → 0 < v.env.wb →
        (step v (program cs) s b msg).2 = .reply []) := by
  unfold step
  simp only [reached_unknown cs hc ho b hb, problem]
  cases hact : v.act .unknownBadge
  · exact ⟨rfl, rfl, fun _ => rfl, fun h => (by cases h), fun h => (by cases h)⟩
  · simp only [or_true, if_true]
    refine ⟨by split <;> rfl, by split <;> rfl, fun h => (by cases h), fun h => (by cases h), ?_⟩
    intro _ hl ht hw
    rw [hl]
    simp only [transfer, Marshal.sentLength, ht, Bool.false_eq_true, if_false, Nat.zero_add]
    rw [Nat.div_eq_of_lt (by omega)]
    simp [Marshal.bytesOf]
  · exact ⟨rfl, rfl, fun h => (by cases h), fun _ => rfl, fun h => (by cases h)⟩

/-- **C109.**  Before the first reply an ignored error is answered with an empty message. -/
theorem ignored_at_start (v : Env' σ) (cs : List Client) (hc : compiles cs = true) (c : σ)
    (mem : Nat → Byte) (j : Nat) (cl : Client) (hj : cs[j]? = some cl) (msg : List Byte)
    (hbad : Marshal.receive v.env v.malloc v.trailing (cl.type.methods.map (·.ins)) msg
      = .error .invalidMethod) (hact : v.act .invalidMethod = .ignore) (ht : v.trailing = false)
    (hw : 0 < v.env.wb) :
    (step v (program cs) (start c mem) ((badges cs)[j]?.getD 0) msg).2 = .reply [] := by
  unfold step
  simp only [reached_own cs hc j cl hj, hbad, problem, hact, start, true_or, if_true]
  simp only [transfer, Marshal.sentLength, ht, Bool.false_eq_true, if_false, Nat.zero_add]
  rw [Nat.div_eq_of_lt (by omega)]
  simp [Marshal.bytesOf]

/-- **C109.**  Where the results of a method do not fit into the buffer, the method has been executed,
and the request is not answered, or the component stops. -/
theorem too_long (v : Env' σ) (cs : List Client) (hc : compiles cs = true)
    (he : Marshal.EnvOk v.env) (hsz : v.size + 1 < v.env.U) (s : St σ) (j : Nat)
    (cl : Client) (hj : cs[j]? = some cl) (msg : List Byte) (i : Nat) (args : List Val) (m : Method)
    (hr : Marshal.receive v.env v.malloc v.trailing (cl.type.methods.map (·.ins)) msg = .ok (i, args))
    (hm : cl.type.methods[i]? = some m)
    (hp : ∀ p ∈ (typed m (v.impl s.comp m.name args).2).1.toList
      ++ (typed m (v.impl s.comp m.name args).2).2, Marshal.Proper v.env p.1 p.2)
    (hf : v.size < (((typed m (v.impl s.comp m.name args).2).1.toList
      ++ (typed m (v.impl s.comp m.name args).2).2).flatMap
        (fun p => Marshal.wire v.env p.2)).length) :
    (step v (program cs) s ((badges cs)[j]?.getD 0) msg).2
      = if v.act .tooLong = .abort then .aborted else .dropped := by
  unfold step
  simp only [reached_own cs hc j cl hj, hr, hm, serve]
  obtain ⟨o, ho, -⟩ := (Marshal.marshalOutputs_spec he v.size hsz
    ⟨(Marshal.memcpy ⟨s.mem, 0⟩ 0 msg).mem, 0⟩ _ _ hp).2 hf
  rw [ho]
  simp only
  split
  · next h => rw [if_pos h]
  · next h => rw [if_neg (fun e => h e)]

/-! ### Disagreements -/

/-- **Disagreement with C109.**  Clients of several types of which two share a type: the generated
server does not compile, since a brace is opened for each of the clients and only one is closed. -/
theorem shared_type_broken (cs : List Client) (i j k : Nat) (a b c : Client) (hij : i < j)
    (hi : cs[i]? = some a) (hj : cs[j]? = some b) (hk : cs[k]? = some c) (hab : a.type = b.type)
    (hac : a.type ≠ c.type) : compiles cs = false := by
  rw [Bool.eq_false_iff]
  intro h
  rw [Ne, compiles_iff] at *
  rcases h.2 with h | ⟨h, -⟩
  · exact hac (h _ (List.mem_map.2 ⟨a, List.mem_of_getElem? hi, rfl⟩) _
      (List.mem_map.2 ⟨c, List.mem_of_getElem? hk, rfl⟩))
  · have e1 : (types cs)[i]? = some a.type := by simp [types, hi]
    have e2 : (types cs)[j]? = some a.type := by simp [types, hj, hab]
    obtain ⟨l1, g1⟩ := List.getElem?_eq_some_iff.1 e1
    obtain ⟨l2, g2⟩ := List.getElem?_eq_some_iff.1 e2
    have := (List.Nodup.getElem_inj_iff h).1 (g1.trans g2.symm)
    omega

/-- **Disagreement with C109.**  Two types with a method of the same name: the generated server does
not compile, since the functions for it are defined twice. -/
theorem shared_name_broken (cs : List Client) (a b : Client) (m n : Method) (ha : a ∈ cs)
    (hb : b ∈ cs) (hab : a.type ≠ b.type) (hm : m ∈ a.type.methods) (hn : n ∈ b.type.methods)
    (hname : m.name = n.name) : compiles cs = false := by
  rw [Bool.eq_false_iff]
  intro h
  rw [Ne, compiles_iff] at *
  exact h.1.2 _ (List.mem_map.2 ⟨a, ha, rfl⟩) _ (List.mem_map.2 ⟨b, hb, rfl⟩) hab m hm n hn hname

theorem reply_bytes (v : Env' σ) (prog : List Tok) (s s' : St σ) (b : Nat) (msg bytes : List Byte)
    (h : step v prog s b msg = (s', .reply bytes)) :
    ∃ len, s'.length = some len
      ∧ bytes = (List.range (Marshal.sentLength v.env v.trailing v.size len)).map s'.mem := by
  have hprob : ∀ (s : St σ) p, problem v s p = (s', .reply bytes) → ∃ len, s'.length = some len
      ∧ bytes = (List.range (Marshal.sentLength v.env v.trailing v.size len)).map s'.mem := by
    intro s p hp
    unfold problem at hp
    split at hp
    · cases hp
    · cases hp
    · split at hp
      · split at hp
        · next hlen => cases hp; exact ⟨_, hlen, rfl⟩
        · cases hp
      · cases hp
  unfold step at h
  simp only at h
  split at h
  · exact hprob _ _ h
  · split at h
    · next hlen => cases h; exact ⟨_, hlen, rfl⟩
    · cases h
  · split at h
    · exact hprob _ _ h
    · exact hprob _ _ h
    · split at h
      · unfold serve at h
        simp only at h
        split at h
        · cases h
          exact ⟨_, rfl, rfl⟩
        · split at h <;> cases h
      · exact hprob _ _ h

/-- **Disagreement with C109.**  Where the error handler ignores errors, a request with a method index
that does not exist is answered with what is left of the reply that was sent before, whoever it was
sent to. -/
theorem ignored_leaks (v : Env' σ) (cs : List Client) (hc : compiles cs = true) (s s1 : St σ)
    (j k : Nat) (cl : Client) (hk : cs[k]? = some cl) (msg msg' bytes : List Byte)
    (h1 : step v (program cs) s ((badges cs)[j]?.getD 0) msg = (s1, .reply bytes))
    (hbad : Marshal.receive v.env v.malloc v.trailing (cl.type.methods.map (·.ins)) msg'
      = .error .invalidMethod) (hact : v.act .invalidMethod = .ignore) :
    ∃ s2 bytes', step v (program cs) s1 ((badges cs)[k]?.getD 0) msg' = (s2, .reply bytes')
      ∧ bytes'.length = bytes.length ∧ bytes'.drop msg'.length = bytes.drop msg'.length := by
  obtain ⟨len, hlen, rfl⟩ := reply_bytes v _ _ _ _ _ _ h1
  unfold step
  simp only [reached_own cs hc k cl hk, hbad, problem, hact, hlen]
  refine ⟨_, _, rfl, by simp [transfer, Marshal.bytesOf], ?_⟩
  apply List.ext_getElem?
  intro i
  simp only [transfer, Marshal.bytesOf, List.getElem?_drop, List.getElem?_map]
  by_cases hi : msg'.length + i < Marshal.sentLength v.env v.trailing v.size len
  · rw [List.getElem?_range hi]
    simp [Marshal.memcpy]
  · rw [List.getElem?_eq_none (by simpa using hi)]
    rfl

/-! ### Examples -/

/-- An account with a secret, and a log book with two methods. -/
def account : Proc := ⟨"Account", [⟨"pin", [], some (.scalar 8), []⟩]⟩

def book : Proc :=
  ⟨"Book", [⟨"note", [.scalar 4], none, []⟩, ⟨"count", [], some (.scalar 4), [.scalar 4]⟩]⟩

def demoClients : List Client := [⟨none, account⟩, ⟨some 7, book⟩]

def demoImpl (s : Nat) (m : String) (_ : List Val) : Nat × (Option Val × List Val) :=
  if m = "pin" then (s, some (.scalar [1, 2, 3, 4, 5, 6, 7, 8]), [])
  else if m = "note" then (s + 1, none, [])
  else (s, some (.scalar [UInt8.ofNat s, 0, 0, 0]), [.scalar [9, 9, 9, 9]])

def demoEnv (a : Action) : Env' Nat :=
  ⟨Marshal.machine, fun _ => true, false, 64, demoImpl, fun _ => a⟩

theorem demo_types (t : Proc) (h : t ∈ types demoClients) : t = account ∨ t = book := by
  simpa [types, demoClients] using h

theorem demo_compiles : compiles demoClients = true ∧ badges demoClients = [1, 7]
    ∧ ¬ OneType demoClients := by
  refine ⟨by decide +kernel, by decide +kernel, ?_⟩
  intro h
  exact absurd (h account (by simp [types, demoClients]) book (by simp [types, demoClients]))
    (by decide +kernel)

theorem demo_sensible (a : Action) : Sensible (demoEnv a) demoClients where
  env := Marshal.machine_ok
  memory _ := rfl
  size := by show 64 + 1 < Marshal.machine.U; decide
  words := by show Marshal.machine.wb ∣ 64; decide
  count t h := by rcases demo_types t h with rfl | rfl <;> decide
  results t h m hm s args := by
    have h64 : ∀ n, n ≤ 64 → n ≤ (demoEnv a).size := fun _ h => h
    rcases demo_types t h with rfl | rfl
    · simp only [account, List.mem_singleton] at hm
      subst hm
      have e : (demoEnv a).impl s "pin" args = (s, some (.scalar [1, 2, 3, 4, 5, 6, 7, 8]), []) := rfl
      simp only [e]
      exact ⟨fun t ht => ⟨_, rfl, (by cases ht; rfl)⟩, fun h => (by cases h), rfl, (by simp),
        h64 _ (by simp [Marshal.wire])⟩
    · simp only [book, List.mem_cons, List.not_mem_nil, or_false] at hm
      rcases hm with rfl | rfl
      · have e : (demoEnv a).impl s "note" args = (s + 1, none, []) := rfl
        simp only [e]
        exact ⟨fun t ht => (by cases ht), fun _ => rfl, rfl, (by simp), h64 _ (by simp)⟩
      · have e : (demoEnv a).impl s "count" args
            = (s, some (.scalar [UInt8.ofNat s, 0, 0, 0]), [.scalar [9, 9, 9, 9]]) := rfl
        simp only [e]
        refine ⟨fun t ht => ⟨_, rfl, (by cases ht; rfl)⟩, fun h => (by cases h), rfl, ?_,
          h64 _ (by simp [Marshal.wire])⟩
        intro p hp
        simp only [List.zip_cons_cons, List.zip_nil_left, List.mem_singleton] at hp
        subst hp
        rfl

/-- Calls of both clients. -/
def demoCalls : List Call :=
  [⟨1, 0, [(.scalar 4, .scalar [1, 0, 0, 0])], fun _ => 3⟩, ⟨0, 0, [], fun _ => 4⟩,
    ⟨1, 1, [], fun _ => 5⟩]

theorem demo_callOk (a : Action) : ∀ c ∈ demoCalls, ∃ m, CallOk (demoEnv a) demoClients c m := by
  have h64 : ∀ n, n ≤ 64 → n ≤ (demoEnv a).size := fun _ h => h
  intro c hc
  simp only [demoCalls, List.mem_cons, List.not_mem_nil, or_false] at hc
  rcases hc with rfl | rfl | rfl
  · refine ⟨_, ⟨⟨_, rfl, rfl⟩, rfl, ?_, ?_⟩⟩
    · intro p hp
      simp only [List.mem_singleton] at hp
      subst hp
      rfl
    · intro cl hcl
      cases hcl
      exact h64 _ (by cases a <;> decide +kernel)
  · refine ⟨_, ⟨⟨_, rfl, rfl⟩, rfl, by simp, ?_⟩⟩
    intro cl hcl
    cases hcl
    exact h64 _ (by cases a <;> decide +kernel)
  · refine ⟨_, ⟨⟨_, rfl, rfl⟩, rfl, by simp, ?_⟩⟩
    intro cl hcl
    cases hcl
    exact h64 _ (by cases a <;> decide +kernel)

theorem demo_calls :
    (calls (demoEnv .discard) demoClients (start 0 (fun _ => 0)) demoCalls).2
      = [.returned [], .returned [.scalar [1, 2, 3, 4, 5, 6, 7, 8]],
          .returned [.scalar [1, 0, 0, 0], .scalar [9, 9, 9, 9]]] := by
  decide +kernel

/-- A request with a method index that does not exist. -/
theorem demo_bad : Marshal.receive Marshal.machine (fun _ => true) false (book.methods.map (·.ins)) [2]
    = .error .invalidMethod := by rfl

/-- The secret of the account gets to the client of the book. -/
theorem demo_leak :
    let v := demoEnv .ignore
    let s1 := step v (program demoClients) (start 0 (fun _ => 0)) 1 []
    (step v (program demoClients) s1.1 7 [2]).2 = .reply [2, 2, 3, 4, 5, 6, 7, 8]
    ∧ (step (demoEnv .discard) (program demoClients) s1.1 7 [2]).2 = .dropped
    ∧ (step (demoEnv .discard) (program demoClients) s1.1 5 [2]).2 = .dropped := by
  decide +kernel

/-- A third client, with a book as well: the program has an open brace too many.  With a badge that is
configured twice it has a label twice. -/
theorem demo_broken : compiles (demoClients ++ [⟨none, book⟩]) = false
    ∧ program (demoClients ++ [⟨none, book⟩]) = [.switch, .open_, .label 1, .open_, .body account,
        .leave, .close_, .label 7, .open_, .label 2, .open_, .body book, .leave, .close_, .otherwise,
        .report, .leave, .close_]
    ∧ compiles [⟨some 7, account⟩, ⟨some 7, book⟩] = false
    ∧ compiles [⟨some 7, book⟩, ⟨none, book⟩] = true
    ∧ compiles [⟨none, book⟩, ⟨none, ⟨"Other", [⟨"note", [], none, []⟩]⟩⟩] = false := by
  decide +kernel

/-- A method whose result does not fit. -/
theorem demo_long :
    let cs : List Client := [⟨none, ⟨"T", [⟨"pin", [], some (.scalar 8), []⟩]⟩⟩]
    let v : Env' Nat := { demoEnv .discard with size := 0 }
    (step v (program cs) (start 0 (fun _ => 0)) 1 []).2 = .dropped
    ∧ (step { v with act := fun _ => .abort } (program cs) (start 0 (fun _ => 0)) 1 []).2 = .aborted := by
  decide +kernel

end Verif.Dispatch
