import Verif.Queries.Spec
import Verif.QueryKeys.Props
import Mathlib.Tactic.ByContra
import Mathlib.Data.List.Nodup

/-!
# Properties: queries in settings (C101)
-/

namespace Verif.Queries

open QueryKeys (Key)

theorem loop_spec {isWord : Char → Bool} {queries : List (String × Engine)} {ss : List Setting} : ∀ {out : List Setting} {used : List String},
    loop isWord queries ss = .ok (out, used) →
    out.length = ss.length ∧
    (∀ (i : Nat) s, ss[i]? = some s → ∃ s' : Setting, out[i]? = some s' ∧ s'.inst = s.inst ∧ s'.attr = s.attr ∧
      ((∀ q, ¬ Asks s q) → s' = s) ∧
      ∀ q, Asks s q → ∃ e v, queries.lookup q.type = some e ∧ answer isWord e q = .ok v ∧ s'.value = .val v) ∧
    ∀ t, t ∈ used ↔ ∃ s ∈ ss, ∃ q, Asks s q ∧ q.type = t := by
  induction ss with
  | nil =>
    intro out used h
    cases h
    exact ⟨rfl, by intro i s h; simp at h, by simp⟩
  | cons s rest ih =>
    intro out used h
    simp only [loop] at h
    split at h
    · rename_i q hq
      split at h
      · cases h
      · rename_i e he
        split at h
        · cases h
        · rename_i v hv
          split at h
          · cases h
          · rename_i ss' used' hl
            cases h
            obtain ⟨h1, h2, h3⟩ := ih hl
            refine ⟨by simp [h1], ?_, ?_⟩
            · intro i s' hi
              cases i with
              | zero =>
                simp only [List.getElem?_cons_zero, Option.some.injEq] at hi
                subst hi
                refine ⟨_, rfl, rfl, rfl, fun hn => absurd hq (hn q), ?_⟩
                intro q' hq'
                unfold Asks at hq'
                rw [hq] at hq'
                cases hq'
                exact ⟨e, v, he, hv, rfl⟩
              | succ i => exact h2 i s' hi
            · intro t
              simp only [List.mem_cons, h3]
              constructor
              · rintro (rfl | ⟨x, hx, q', hq', ht⟩)
                · exact ⟨s, .inl rfl, q, hq, rfl⟩
                · exact ⟨x, .inr hx, q', hq', ht⟩
              · rintro ⟨x, rfl | hx, q', hq', ht⟩
                · unfold Asks at hq'
                  rw [hq] at hq'
                  cases hq'
                  exact .inl ht.symm
                · exact .inr ⟨x, hx, q', hq', ht⟩
    · rename_i hq
      split at h
      · cases h
      · rename_i ss' used' hl
        cases h
        obtain ⟨h1, h2, h3⟩ := ih hl
        refine ⟨by simp [h1], ?_, ?_⟩
        · intro i s' hi
          cases i with
          | zero =>
            simp only [List.getElem?_cons_zero, Option.some.injEq] at hi
            subst hi
            exact ⟨s, rfl, rfl, rfl, fun _ => rfl, fun q hs => absurd hs (hq q)⟩
          | succ i => exact h2 i s' hi
        · intro t
          rw [h3]
          constructor
          · rintro ⟨x, hx, q', hq', ht⟩
            exact ⟨x, by simp [hx], q', hq', ht⟩
          · rintro ⟨x, hx, q', hq', ht⟩
            rcases List.mem_cons.1 hx with rfl | hx
            · exact absurd hq' (hq q')
            · exact ⟨x, hx, q', hq', ht⟩

theorem resolve_loop {isWord queries read ss out read'} (h : resolve isWord queries read ss = .ok (out, read')) :
    ∃ used, loop isWord queries ss = .ok (out, used) ∧
      read' = read ++ used.flatMap fun t => ((queries.lookup t).map Engine.deps).getD [] := by
  unfold resolve at h
  split at h
  · cases h
  · rename_i ss' used hl
    cases h
    exact ⟨used, hl, rfl⟩

/-- C101: the settings are the same ones in the same order; one that is not a query keeps its value, and no query is left. -/
theorem settings_kept (isWord : Char → Bool) (queries : List (String × Engine)) (read read' : List String) (ss out : List Setting)
    (h : resolve isWord queries read ss = .ok (out, read')) :
    out.length = ss.length ∧
    (∀ (i : Nat) s, ss[i]? = some s → ∃ s' : Setting, out[i]? = some s' ∧ s'.inst = s.inst ∧ s'.attr = s.attr ∧ ((∀ q, s.value ≠ .query q) → s' = s)) ∧
    ∀ s ∈ out, ∀ q, s.value ≠ .query q := by
  obtain ⟨used, hl, -⟩ := resolve_loop h
  obtain ⟨h1, h2, -⟩ := loop_spec hl
  refine ⟨h1, ?_, ?_⟩
  · intro i s hi
    obtain ⟨s', a, b, c, d, -⟩ := h2 i s hi
    exact ⟨s', a, b, c, d⟩
  · intro s hs q hq
    obtain ⟨i, hi⟩ := List.getElem?_of_mem hs
    have hlt : i < ss.length := by
      rw [← h1]
      by_contra hc
      rw [List.getElem?_eq_none (by omega)] at hi
      cases hi
    obtain ⟨s', a, -, -, d, e⟩ := h2 i _ (List.getElem?_eq_getElem hlt)
    rw [hi] at a
    cases a
    by_cases hx : ∃ q, Asks ss[i] q
    · obtain ⟨q', hq'⟩ := hx
      obtain ⟨_, v, -, -, hv⟩ := e q' hq'
      rw [hv] at hq
      cases hq
    · have := d (fun q hc => hx ⟨q, hc⟩)
      rw [this] at hq
      exact hx ⟨q, hq⟩

theorem int_cases (n : Int) : (∃ m : Nat, n = m) ∨ ∃ m : Nat, n = -((m : Int) + 1) := by
  by_cases h : 0 ≤ n
  · exact .inl ⟨n.toNat, by omega⟩
  · exact .inr ⟨(-n - 1).toNat, by omega⟩

theorem index_iff (v k w : Val) : index v k = .ok w ↔ Has v k w := by
  have neg : ∀ {α : Type} (l : List α) (m : Nat),
      (if -((m : Int) + 1) < 0 then (if -(-((m : Int) + 1)) ≤ l.length then l[(l.length + -((m : Int) + 1)).toNat]? else none)
        else l[(-((m : Int) + 1)).toNat]?) = l.reverse[m]? := by
    intro α l m
    rw [if_pos (by omega)]
    by_cases hm : m < l.length
    · rw [if_pos (by omega), List.getElem?_reverse hm]
      congr 1
      omega
    · rw [if_neg (by omega), List.getElem?_eq_none (by simp; omega)]
  have pos : ∀ {α : Type} (l : List α) (m : Nat),
      (if (m : Int) < 0 then (if -(m : Int) ≤ l.length then l[(l.length + (m : Int)).toNat]? else none) else l[(m : Int).toNat]?) = l[m]? := by
    intro α l m
    rw [if_neg (by omega)]
    rfl
  constructor
  · intro h
    cases v with
    | int n => cases h
    | str s =>
      cases k with
      | int n =>
        simp only [index] at h
        rcases int_cases n with ⟨m, rfl⟩ | ⟨m, rfl⟩
        · rw [pos] at h
          split at h
          · rename_i c hc; cases h; exact .char s m c hc
          · cases h
        · rw [neg] at h
          split at h
          · rename_i c hc; cases h; exact .lastChar s m c hc
          · cases h
      | _ => cases h
    | list l =>
      cases k with
      | int n =>
        simp only [index] at h
        rcases int_cases n with ⟨m, rfl⟩ | ⟨m, rfl⟩
        · rw [pos] at h
          split at h
          · rename_i c hc; cases h; exact .item l m _ hc
          · cases h
        · rw [neg] at h
          split at h
          · rename_i c hc; cases h; exact .last l m _ hc
          · cases h
      | _ => cases h
    | dict d =>
      cases k with
      | str k =>
        simp only [index] at h
        split at h
        · rename_i v hv; cases h; exact .entry d k _ hv
        · cases h
      | _ => cases h
  · intro h
    cases h with
    | entry d k w h => simp only [index, h]
    | item l n w h => simp only [index, pos, h]
    | last l n w h => simp only [index, neg, h]
    | char s n c h => simp only [index, pos, h]
    | lastChar s n c h => simp only [index, neg, h]

theorem follow_iff (ks : List Val) : ∀ v w, follow v ks = .ok w ↔ Path v ks w := by
  induction ks with
  | nil =>
    intro v w
    constructor
    · intro h; cases h; exact .here v
    · intro h; cases h; rfl
  | cons k ks ih =>
    intro v w
    simp only [follow]
    constructor
    · intro h
      split at h
      · cases h
      · rename_i x hx
        exact .step v x w k ks ((index_iff v k x).1 hx) ((ih x w).1 h)
    · intro h
      cases h with
      | step _ x _ _ _ h1 h2 =>
        rw [(index_iff v k x).2 h1]
        exact (ih x w).2 h2

theorem followAll_spec {ks : List Val} {l : List Val} : ∀ {out}, followAll ks l = .ok out → out.length = l.length ∧
    ∀ (i : Nat) v, l[i]? = some v → ∃ w, out[i]? = some w ∧ Path v ks w := by
  induction l with
  | nil => intro out h; cases h; exact ⟨rfl, by intro i v h; simp at h⟩
  | cons v vs ih =>
    intro out h
    simp only [followAll] at h
    split at h
    · cases h
    · rename_i w hw
      split at h
      · cases h
      · rename_i ws hws
        cases h
        obtain ⟨h1, h2⟩ := ih hws
        refine ⟨by simp [h1], ?_⟩
        intro i v' hi
        cases i with
        | zero =>
          simp only [List.getElem?_cons_zero, Option.some.injEq] at hi
          subst hi
          exact ⟨w, rfl, (follow_iff ks _ _).1 hw⟩
        | succ i => exact h2 i v' hi

theorem followAll_ok {ks : List Val} {l : List Val} (h : ∀ v ∈ l, ∃ w, Path v ks w) : ∃ out, followAll ks l = .ok out := by
  induction l with
  | nil => exact ⟨[], rfl⟩
  | cons v vs ih =>
    obtain ⟨w, hw⟩ := h v (by simp)
    obtain ⟨out, ho⟩ := ih (fun x hx => h x (by simp [hx]))
    exact ⟨w :: out, by simp only [followAll, (follow_iff ks v w).2 hw, ho]⟩

/-- C101: a query with keys behind it gives, for each dictionary that the query finds, in order, what is in it under these keys. -/
theorem looked_up (isWord : Char → Bool) (queries : List (String × Engine)) (read read' : List String) (ss out : List Setting)
    (h : resolve isWord queries read ss = .ok (out, read')) (i : Nat) (s : Setting) (hs : ss[i]? = some s) (q : Query)
    (hq : s.value = .query q) (ks : List Val) (hk : q.lookup = some ks) :
    ∃ (s' : Setting) (e : Engine) (result : List (Key × Val)) (found values : List Val), out[i]? = some s' ∧ queries.lookup q.type = some e ∧ e.resolve q.args = .ok result ∧
      QueryKeys.get result "query".toList = some (.list found) ∧ s'.value = .val (.list values) ∧ values.length = found.length ∧
      ∀ (j : Nat) v, found[j]? = some v → ∃ w, values[j]? = some w ∧ Path v ks w := by
  obtain ⟨used, hl, -⟩ := resolve_loop h
  obtain ⟨-, h2, -⟩ := loop_spec hl
  obtain ⟨s', a, -, -, -, e⟩ := h2 i s hs
  obtain ⟨eng, v, h3, h4, h5⟩ := e q hq
  unfold answer at h4
  split at h4
  · cases h4
  · rename_i result hr
    simp only [hk] at h4
    split at h4
    · cases h4
    · rename_i l hrows
      split at h4
      · cases h4
      · rename_i values hv
        cases h4
        obtain ⟨k1, k2⟩ := followAll_spec hv
        refine ⟨s', eng, result, l, values, a, h3, hr, ?_, h5, k1, k2⟩
        unfold rows at hrows
        split at hrows
        · rename_i l' hg; cases hrows; exact hg
        · cases hrows
        · cases hrows

theorem cleanAll_spec {isWord : Char → Bool} {l : List (List (Key × Val))} (hp : ∀ r ∈ l, Proper r) :
    ∃ l' : List (List (Key × Val)), cleanAll isWord (l.map .dict) = .ok (l'.map .dict) ∧ l'.length = l.length ∧
      ∀ (i : Nat) r, l[i]? = some r → ∃ r' : List (Key × Val), l'[i]? = some r' ∧ Cleaned isWord r r' := by
  induction l with
  | nil => exact ⟨[], rfl, rfl, by intro i r h; simp at h⟩
  | cons r rs ih =>
    obtain ⟨l', h1, h2, h3⟩ := ih (fun x hx => hp x (by simp [hx]))
    obtain ⟨hn, hnl⟩ := hp r (by simp)
    obtain ⟨r', k1, k2⟩ := QueryKeys.update_lookup_partial isWord r hn hnl
    refine ⟨r' :: l', ?_, by simp [h2], ?_⟩
    · simp only [List.map_cons, cleanAll, cleanItem, k1, h1]
    · intro i x hi
      cases i with
      | zero =>
        simp only [List.getElem?_cons_zero, Option.some.injEq] at hi
        subst hi
        exact ⟨r', rfl, k2⟩
      | succ i => exact h3 i x hi

theorem lastValue_query {isWord : Char → Bool} {d : List (Key × Val)} {v : Val} (hn : (d.map (·.1)).Nodup)
    (hw : QueryKeys.Spec.normal isWord "query".toList = "query".toList)
    (hg : QueryKeys.get d "query".toList = some v) (ho : ∀ e ∈ d, QueryKeys.Spec.normal isWord e.1 = "query".toList → e.1 = "query".toList) :
    QueryKeys.Spec.lastValue isWord d "query".toList = some v := by
  generalize "query".toList = key at *
  have hmem : (key, v) ∈ d := by
    unfold QueryKeys.get at hg
    cases hf : d.find? (fun e => decide (e.1 = key)) with
    | none => rw [hf] at hg; cases hg
    | some e =>
      rw [hf] at hg
      simp only [Option.map_some, Option.some.injEq] at hg
      have h1 := List.find?_some hf
      have h2 := List.mem_of_find?_eq_some hf
      simp only [decide_eq_true_eq] at h1
      rw [← h1, ← hg]
      exact h2
  unfold QueryKeys.Spec.lastValue
  cases hf : d.reverse.find? (fun e => decide (QueryKeys.Spec.normal isWord e.1 = key)) with
  | none =>
    rw [List.find?_eq_none] at hf
    exact absurd hw (by simpa using hf (key, v) (by simpa using hmem))
  | some e =>
    have h1 := List.find?_some hf
    have h2 := List.mem_of_find?_eq_some hf
    simp only [decide_eq_true_eq] at h1
    rw [List.mem_reverse] at h2
    have h3 := ho e h2 h1
    have : e = (key, v) := by
      have hinj := List.inj_on_of_nodup_map hn
      exact hinj h2 hmem h3
    rw [this]; rfl

/-- C101: a query without keys gives the whole result, with keys that are identifiers, in it and in each dictionary found. -/
theorem whole_result (isWord : Char → Bool) (e : Engine) (q : Query) (hk : q.lookup = none) (result : List (Key × Val))
    (found : List (List (Key × Val))) (hw : ∀ c ∈ "query".toList, isWord c = true) (hr : e.resolve q.args = .ok result)
    (hg : GoodResult isWord result found) :
    ∃ (d : List (Key × Val)) (found' : List (List (Key × Val))), answer isWord e q = .ok (.dict d) ∧ QueryKeys.get d "query".toList = some (.list (found'.map .dict)) ∧
      found'.length = found.length ∧
      (∀ (i : Nat) r, found[i]? = some r → ∃ r', found'[i]? = some r' ∧ Cleaned isWord r r') ∧
      ∀ k, k ≠ "query".toList → QueryKeys.get d k = QueryKeys.Spec.lastValue isWord result k := by
  obtain ⟨⟨hn, hnl⟩, hq, hrows, honly⟩ := hg
  obtain ⟨d, h1, h2⟩ := QueryKeys.update_lookup_partial isWord result hn hnl
  have hnorm : QueryKeys.Spec.normal isWord "query".toList = "query".toList := by
    unfold QueryKeys.Spec.normal
    conv_rhs => rw [← List.map_id "query".toList]
    apply List.map_congr_left
    intro c hc
    simp [hw c hc]
  have hdq : QueryKeys.get d "query".toList = some (.list (found.map .dict)) := by
    rw [h2]; exact lastValue_query hn hnorm hq honly
  obtain ⟨found', k1, k2, k3⟩ := cleanAll_spec (isWord := isWord) hrows
  refine ⟨QueryKeys.put d "query".toList (.list (found'.map .dict)), found', ?_, ?_, k2, k3, ?_⟩
  · simp only [answer, hr, hk, h1, rows, hdq, k1]
  · rw [QueryKeys.put_get, if_pos rfl]
  · intro k hkq
    rw [QueryKeys.put_get, if_neg hkq, h2]

/-- C101: the value of a query in the specification is the value of that query alone. -/
theorem answered (isWord : Char → Bool) (queries : List (String × Engine)) (read read' : List String) (ss out : List Setting)
    (h : resolve isWord queries read ss = .ok (out, read')) (i : Nat) (s : Setting) (hs : ss[i]? = some s) (q : Query)
    (hq : s.value = .query q) : ∃ (s' : Setting) (e : Engine) (v : Val), out[i]? = some s' ∧ queries.lookup q.type = some e ∧ answer isWord e q = .ok v ∧ s'.value = .val v := by
  obtain ⟨used, hl, -⟩ := resolve_loop h
  obtain ⟨-, h2, -⟩ := loop_spec hl
  obtain ⟨s', a, -, -, -, e⟩ := h2 i s hs
  obtain ⟨eng, v, h3, h4, h5⟩ := e q hq
  exact ⟨s', eng, v, a, h3, h4, h5⟩

/-- C101: the files that were read are those from before and the files of the queries that are used, no others. -/
theorem dependencies (isWord : Char → Bool) (queries : List (String × Engine)) (read read' : List String) (ss out : List Setting)
    (h : resolve isWord queries read ss = .ok (out, read')) (f : String) :
    f ∈ read' ↔ f ∈ read ∨ ∃ s ∈ ss, ∃ q e, s.value = .query q ∧ queries.lookup q.type = some e ∧ f ∈ e.deps := by
  obtain ⟨used, hl, rfl⟩ := resolve_loop h
  obtain ⟨-, -, h3⟩ := loop_spec hl
  simp only [List.mem_append, List.mem_flatMap]
  constructor
  · rintro (hf | ⟨t, ht, hf⟩)
    · exact .inl hf
    · obtain ⟨s, hs, q, hq, rfl⟩ := (h3 t).1 ht
      cases he : queries.lookup q.type with
      | none => rw [he] at hf; cases hf
      | some e => rw [he] at hf; exact .inr ⟨s, hs, q, e, hq, he, hf⟩
  · rintro (hf | ⟨s, hs, q, e, hq, he, hf⟩)
    · exact .inl hf
    · exact .inr ⟨q.type, (h3 _).2 ⟨s, hs, q, hq, rfl⟩, by rw [he]; exact hf⟩

theorem loop_ok {isWord : Char → Bool} {queries : List (String × Engine)} {ss : List Setting}
    (h : ∀ s ∈ ss, ∀ q, Asks s q → ∃ e v, queries.lookup q.type = some e ∧ answer isWord e q = .ok v) :
    ∃ r, loop isWord queries ss = .ok r := by
  induction ss with
  | nil => exact ⟨_, rfl⟩
  | cons s rest ih =>
    obtain ⟨⟨out, used⟩, hr⟩ := ih (fun x hx => h x (by simp [hx]))
    simp only [loop]
    split
    · rename_i q hq
      obtain ⟨e, v, h1, h2⟩ := h s (by simp) q hq
      simp only [h1, h2, hr]
      exact ⟨_, rfl⟩
    · simp only [hr]
      exact ⟨_, rfl⟩

/-- C101: a specification fails here only if a query does: its type is unknown, or it has no answer. -/
theorem succeeds (isWord : Char → Bool) (queries : List (String × Engine)) (read : List String) (ss : List Setting)
    (h : ∀ s ∈ ss, ∀ q, s.value = .query q → ∃ e v, queries.lookup q.type = some e ∧ answer isWord e q = .ok v) :
    ∃ r, resolve isWord queries read ss = .ok r := by
  obtain ⟨⟨out, used⟩, hr⟩ := loop_ok (isWord := isWord) (queries := queries) (ss := ss) h
  exact ⟨_, by unfold resolve; rw [hr]⟩

/-- C101: and then a query with keys has an answer when everything found has a value under them. -/
theorem looked_up_answer (isWord : Char → Bool) (e : Engine) (q : Query) (ks : List Val) (hk : q.lookup = some ks) (result : List (Key × Val))
    (found : List Val) (hr : e.resolve q.args = .ok result) (hq : QueryKeys.get result "query".toList = some (.list found))
    (hf : ∀ v ∈ found, ∃ w, Path v ks w) : ∃ v, answer isWord e q = .ok v := by
  obtain ⟨out, ho⟩ := followAll_ok hf
  refine ⟨.list out, ?_⟩
  simp only [answer, hr, hk, rows, hq, ho]

theorem loop_unknown {isWord : Char → Bool} {queries : List (String × Engine)} {ss : List Setting} {t : String}
    (hq : ∀ e ∈ queries, ∀ a x, e.2.resolve a = .error x → ∃ m, x = .query m)
    (h : loop isWord queries ss = .error (.unknown t)) : queries.lookup t = none ∧ ∃ s ∈ ss, ∃ q, Asks s q ∧ q.type = t := by
  have noUnknown : ∀ e ∈ queries, ∀ q : Query, answer isWord e.2 q ≠ .error (.unknown t) := by
    have fo : ∀ ks v, follow v ks ≠ .error (.unknown t) := by
      intro ks
      induction ks with
      | nil => intro v h; cases h
      | cons k ks ih =>
        intro v h
        simp only [follow] at h
        split at h
        · rename_i x hx
          cases h
          unfold index at hx
          split at hx
          · split at hx <;> cases hx
          · cases hx
          · cases hx
          · split at hx <;> cases hx
          · cases hx
          · split at hx <;> cases hx
          · cases hx
          · cases hx
        · exact ih _ h
    have fa : ∀ ks l, followAll ks l ≠ .error (.unknown t) := by
      intro ks l
      induction l with
      | nil => intro h; cases h
      | cons v vs ih =>
        intro h
        simp only [followAll] at h
        split at h
        · rename_i x hx; cases h; exact fo ks v hx
        · split at h
          · rename_i x hx; cases h; exact ih hx
          · cases h
    have ca : ∀ l, cleanAll isWord l ≠ .error (.unknown t) := by
      intro l
      induction l with
      | nil => intro h; cases h
      | cons v vs ih =>
        intro h
        simp only [cleanAll] at h
        split at h
        · rename_i x hx
          cases h
          unfold cleanItem at hx
          split at hx
          · split at hx <;> cases hx
          · cases hx
        · split at h
          · rename_i x hx; cases h; exact ih hx
          · cases h
    have ro : ∀ d, rows d ≠ .error (.unknown t) := by
      intro d h
      unfold rows at h
      split at h <;> cases h
    intro e he q h
    unfold answer at h
    split at h
    · rename_i x hx
      cases h
      obtain ⟨m, hm⟩ := hq e he _ _ hx
      cases hm
    · split at h
      · split at h
        · cases h
        · split at h
          · rename_i hx; cases h; exact ro _ hx
          · split at h
            · rename_i hx; cases h; exact ca _ hx
            · cases h
      · split at h
        · rename_i hx; cases h; exact ro _ hx
        · split at h
          · rename_i hx; cases h; exact fa _ _ hx
          · cases h
  have memLookup : ∀ {l : List (String × Engine)} {k e}, l.lookup k = some e → ∃ k', (k', e) ∈ l := by
    intro l
    induction l with
    | nil => intro k e h; cases h
    | cons p l ih =>
      intro k e h
      obtain ⟨a, b⟩ := p
      rw [List.lookup_cons] at h
      split at h
      · cases h; exact ⟨a, by simp⟩
      · obtain ⟨k', hk'⟩ := ih h
        exact ⟨k', by simp [hk']⟩
  induction ss with
  | nil => cases h
  | cons s rest ih =>
    simp only [loop] at h
    split at h
    · rename_i q hqs
      split at h
      · rename_i hn
        cases h
        exact ⟨hn, s, by simp, q, hqs, rfl⟩
      · rename_i e he
        split at h
        · rename_i x hx
          cases h
          obtain ⟨k', hk'⟩ := memLookup he
          exact absurd hx (noUnknown _ hk' q)
        · split at h
          · rename_i x hx
            cases h
            obtain ⟨h1, s', hs', hrest⟩ := ih hx
            exact ⟨h1, s', by simp [hs'], hrest⟩
          · cases h
    · split at h
      · rename_i x hx
        cases h
        obtain ⟨h1, s', hs', hrest⟩ := ih hx
        exact ⟨h1, s', by simp [hs'], hrest⟩
      · cases h

/-- C101: a type is called unknown only if a setting uses it and nothing answers it. -/
theorem unknown_reason (isWord : Char → Bool) (queries : List (String × Engine)) (read : List String) (ss : List Setting) (t : String)
    (hq : ∀ e ∈ queries, ∀ a x, e.2.resolve a = .error x → ∃ m, x = .query m)
    (h : resolve isWord queries read ss = .error (.unknown t)) : queries.lookup t = none ∧ ∃ s ∈ ss, ∃ q, s.value = .query q ∧ q.type = t := by
  unfold resolve at h
  split at h
  · rename_i x hx
    cases h
    exact loop_unknown hq hx
  · cases h

/-- C101: and a specification with such a setting is not accepted. -/
theorem unknown_refused (isWord : Char → Bool) (queries : List (String × Engine)) (read : List String) (ss : List Setting) (s : Setting)
    (q : Query) (hs : s ∈ ss) (hq : s.value = .query q) (ht : queries.lookup q.type = none) : ∀ r, resolve isWord queries read ss ≠ .ok r := by
  rintro ⟨out, read'⟩ h
  obtain ⟨i, hi⟩ := List.getElem?_of_mem hs
  obtain ⟨_, e, _, _, he, _⟩ := answered isWord queries read read' ss out h i s hi q hq
  rw [ht] at he
  cases he

/-- C101: a query with arguments is what was written. -/
theorem lifted_partial (type : String) (d : List (Key × Val)) (l : List (List (Key × Val))) (ks : List Val) :
    liftQuery type [.dict d] = .ok ⟨type, [d], none⟩ ∧ liftQuery type [.dicts l] = .ok ⟨type, l, none⟩ ∧
    liftQuery type [.dict d, .lookup ks] = .ok ⟨type, [d], some ks⟩ ∧ liftQuery type [.dicts l, .lookup ks] = .ok ⟨type, l, some ks⟩ :=
  ⟨rfl, rfl, rfl, rfl⟩

/-- **Disagreement with C101.** A query without arguments, which the grammar allows, is an error of the tool, with keys and without. -/
theorem no_arguments_fails (type : String) (ks : List Val) :
    liftQuery type [] = .error .type ∧ liftQuery type [.lookup ks] = .error .assertion := ⟨rfl, rfl⟩

/-- **Disagreement with C101.** A query that finds nothing for one of its arguments gives an empty dictionary for it; with keys that is an
error of the tool, not a message about the specification. -/
theorem nothing_found_fails (isWord : Char → Bool) (e : Engine) (q : Query) (k : Key) (ks : List Val) (hk : q.lookup = some (.str k :: ks))
    (result : List (Key × Val)) (found : List Val) (hr : e.resolve q.args = .ok result)
    (hq : QueryKeys.get result "query".toList = some (.list (.dict [] :: found))) : answer isWord e q = .error .key := by
  simp only [answer, hr, hk, rows, hq, followAll, follow, index]
  rfl

/-! ### Example -/

def word (c : Char) : Bool := c.isAlphanum || c == '_'

def demoEngine : Engine where
  resolve _ := .ok [("query".toList, .list [.dict [("reg-size".toList, .list [.int 7, .int 9])]]), ("dtb-size".toList, .list [.int 4])]
  deps := ["board.dtb"]

def demo : List Setting :=
  [⟨"a", "x", .val (.int 1)⟩, ⟨"a", "y", .query ⟨"dtb", [[]], some [.str "reg-size".toList, .int (-1)]⟩⟩, ⟨"b", "x", .query ⟨"dtb", [[]], none⟩⟩]

/-- Values as text, to compare them. -/
def Val.num : Val → List Int
  | .int n => [n]
  | .list [.int n] => [n]
  | _ => []

example : ∃ out read', resolve word [("dtb", demoEngine)] ["app.camkes"] demo = .ok (out, read') ∧ read' = ["app.camkes", "board.dtb", "board.dtb"] ∧
    (out[1]?.map fun s => s.value) = some (.val (.list [.int 9])) := ⟨_, _, rfl, rfl, rfl⟩

example : GoodResult word [("query".toList, .list [.dict [("reg-size".toList, .list [.int 7, .int 9])]]), ("dtb-size".toList, .list [.int 4])]
    [[("reg-size".toList, .list [.int 7, .int 9])]] := by
  refine ⟨⟨by decide, by decide⟩, rfl, ?_, by decide⟩
  intro r hr
  rw [List.mem_singleton.1 hr]
  exact ⟨by decide, by decide⟩

example : resolve word [] [] demo = .error (.unknown "dtb") := by rfl

end Verif.Queries
