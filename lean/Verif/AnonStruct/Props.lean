import Verif.AnonStruct.Spec
import Verif.AttrText.Props

/-!
# C142: a struct without a name gets one of its own
-/

namespace Verif.AnonStruct

open Verif.AttrText

/-! ### Names are not used twice -/

theorem anonName_inj {a b : Nat} (h : anonName a = anonName b) : a = b := by
  unfold anonName at h
  have h' := List.append_cancel_left h
  rw [← number_decimal a, ← number_decimal b, h']

/-- All structs so far are in a table in which no name stands for two. -/
structure Good (T : List (Text × Fields)) (n : Nat) (env : Env) : Prop where
  one : ∀ p ∈ T, ∀ q ∈ T, p.1 = q.1 → p = q
  keys : ∀ p ∈ T, p.1 ∈ env.map (·.1) ∨ ∃ k, k < n ∧ p.1 = anonName k
  closed : ∀ p ∈ env, p ∈ T ∧ ∀ q ∈ structsInFields p.2, q ∈ T
  free : ∀ p ∈ env, ¬ Reserved p.1

theorem lookup_mem : ∀ {env : Env} {x : Text} {fs : Fields}, env.lookup x = some fs → (x, fs) ∈ env
  | [], _, _, h => by cases h
  | (k, v) :: env, x, fs, h => by
    rw [List.lookup_cons] at h
    by_cases hk : x = k
    · subst hk
      simp only [beq_self_eq_true] at h
      cases h
      exact List.mem_cons_self
    · have : (x == k) = false := by simpa using hk
      rw [this] at h
      exact List.mem_cons_of_mem _ (lookup_mem h)

theorem lookup_key : ∀ {env : Env} {x : Text}, x ∈ env.map (·.1) → (env.lookup x).isSome = true
  | [], _, h => by cases h
  | (k, v) :: env, x, h => by
    rw [List.lookup_cons]
    by_cases hk : x = k
    · subst hk; simp
    · have : (x == k) = false := by simpa using hk
      rw [this]
      rcases List.mem_cons.mp h with h | h
      · exact absurd h hk
      · exact lookup_key h

theorem Good.add {T : List (Text × Fields)} {n : Nat} {env : Env} (h : Good T n env) (fs : Fields) :
    Good ((anonName n, fs) :: T) (n + 1) env := by
  have hnew : ∀ p ∈ T, p.1 ≠ anonName n := by
    intro p hp he
    rcases h.keys p hp with hk | ⟨k, hk, hk'⟩
    · obtain ⟨q, hq, hq'⟩ := List.mem_map.mp hk
      exact h.free q hq ⟨n, hq'.trans he⟩
    · have := anonName_inj (hk'.symm.trans he)
      omega
  refine ⟨?_, ?_, ?_, h.free⟩
  · intro p hp q hq he
    rcases List.mem_cons.mp hp with rfl | hp <;> rcases List.mem_cons.mp hq with rfl | hq
    · rfl
    · exact absurd he.symm (hnew q hq)
    · exact absurd he (hnew p hp)
    · exact h.one p hp q hq he
  · intro p hp
    rcases List.mem_cons.mp hp with rfl | hp
    · exact .inr ⟨n, Nat.lt_succ_self n, rfl⟩
    · rcases h.keys p hp with hk | ⟨k, hk, hk'⟩
      · exact .inl hk
      · exact .inr ⟨k, Nat.lt_succ_of_lt hk, hk'⟩
  · intro p hp
    exact ⟨List.mem_cons_of_mem _ (h.closed p hp).1, fun q hq => List.mem_cons_of_mem _ ((h.closed p hp).2 q hq)⟩

mutual
theorem lift_good (env : Env) : ∀ (src : Src) (n m : Nat) (t : Ty) (T : List (Text × Fields)), Good T n env →
    lift env n src = .ok (m, t) → ∃ T', (∀ p ∈ T, p ∈ T') ∧ Good T' m env ∧ ∀ p ∈ structsIn t, p ∈ T'
  | .base b, n, m, t, T, hg, h => by
    rw [lift] at h
    cases h
    exact ⟨T, fun _ h => h, hg, fun p hp => by rw [structsIn] at hp; cases hp⟩
  | .ref r, n, m, t, T, hg, h => by
    rw [lift] at h
    split at h
    · rename_i fs hl
      cases h
      refine ⟨T, fun _ h => h, hg, ?_⟩
      intro p hp
      rw [structsIn] at hp
      obtain ⟨h1, h2⟩ := hg.closed _ (lookup_mem hl)
      rcases List.mem_cons.mp hp with rfl | hp
      · exact h1
      · exact h2 p hp
    · cases h
  | .anon fs, n, m, t, T, hg, h => by
    rw [lift] at h
    split at h
    · cases h
    · rename_i k gs hl
      split at h
      · cases h
      · cases h
        obtain ⟨T', h1, h2, h3⟩ := liftFields_good env fs n k gs T hg hl
        refine ⟨(anonName k, gs) :: T', fun p hp => List.mem_cons_of_mem _ (h1 p hp), h2.add gs, ?_⟩
        intro p hp
        rw [structsIn] at hp
        rcases List.mem_cons.mp hp with rfl | hp
        · exact List.mem_cons_self
        · exact List.mem_cons_of_mem _ (h3 p hp)

theorem liftFields_good (env : Env) : ∀ (src : SrcFields) (n m : Nat) (t : Fields) (T : List (Text × Fields)), Good T n env →
    liftFields env n src = .ok (m, t) → ∃ T', (∀ p ∈ T, p ∈ T') ∧ Good T' m env ∧ ∀ p ∈ structsInFields t, p ∈ T'
  | .nil, n, m, t, T, hg, h => by
    rw [liftFields] at h
    cases h
    exact ⟨T, fun _ h => h, hg, fun p hp => by rw [structsInFields] at hp; cases hp⟩
  | .cons x ty a rest, n, m, t, T, hg, h => by
    rw [liftFields] at h
    split at h
    · cases h
    · rename_i k u hl
      split at h
      · cases h
      · rename_i j fs hr
        cases h
        obtain ⟨T1, a1, a2, a3⟩ := lift_good env ty n k u T hg hl
        obtain ⟨T2, b1, b2, b3⟩ := liftFields_good env rest k m fs T1 a2 hr
        refine ⟨T2, fun p hp => b1 p (a1 p hp), b2, ?_⟩
        intro p hp
        rw [structsInFields, List.mem_append] at hp
        rcases hp with hp | hp
        · exact b1 p (a3 p hp)
        · exact b3 p hp
end

/-- The invariant of the parser. -/
def Inv (s : State) : Prop := ∃ T, Good T s.count s.env ∧ ∀ a ∈ s.attrs, ∀ p ∈ structsIn a.ty, p ∈ T

theorem step_inv {s s' : State} {i : Item} (hi : Inv s) (h : step s i = .ok s') (hf : ∀ x fs, i = .decl x fs → ¬ Reserved x) : Inv s' := by
  obtain ⟨T, hg, ha⟩ := hi
  cases i with
  | decl x fs =>
    simp only [step] at h
    split at h
    · cases h
    · rename_i m gs hl
      split at h
      · cases h
      · split at h
        · cases h
        · rename_i hx
          cases h
          have hfree := hf x fs rfl
          obtain ⟨T', h1, h2, h3⟩ := liftFields_good s.env fs s.count m gs T hg hl
          have hnew : ∀ p ∈ T', p.1 ≠ x := by
            intro p hp he
            rcases h2.keys p hp with hk | ⟨k, _, hk⟩
            · rw [he] at hk
              exact hx (lookup_key hk)
            · exact hfree ⟨k, he.symm.trans hk⟩
          refine ⟨(x, gs) :: T', ⟨?_, ?_, ?_, ?_⟩, ?_⟩
          · intro p hp q hq he
            rcases List.mem_cons.mp hp with rfl | hp <;> rcases List.mem_cons.mp hq with rfl | hq
            · rfl
            · exact absurd he.symm (hnew q hq)
            · exact absurd he (hnew p hp)
            · exact h2.one p hp q hq he
          · intro p hp
            rcases List.mem_cons.mp hp with rfl | hp
            · exact .inl List.mem_cons_self
            · rcases h2.keys p hp with hk | ⟨k, hk, hk'⟩
              · exact .inl (List.mem_cons_of_mem _ hk)
              · exact .inr ⟨k, Nat.lt_succ_of_lt hk, hk'⟩
          · intro p hp
            rcases List.mem_cons.mp hp with rfl | hp
            · exact ⟨List.mem_cons_self, fun q hq => List.mem_cons_of_mem _ (h3 q hq)⟩
            · exact ⟨List.mem_cons_of_mem _ (h2.closed p hp).1, fun q hq => List.mem_cons_of_mem _ ((h2.closed p hp).2 q hq)⟩
          · intro p hp
            rcases List.mem_cons.mp hp with rfl | hp
            · exact hfree
            · exact h2.free p hp
          · intro a haa p hp
            exact List.mem_cons_of_mem _ (h1 p (ha a haa p hp))
  | attr x ty array =>
    simp only [step] at h
    split at h
    · cases h
    · rename_i m t hl
      cases h
      obtain ⟨T', h1, h2, h3⟩ := lift_good s.env ty s.count m t T hg hl
      refine ⟨T', h2, ?_⟩
      intro a haa p hp
      rcases List.mem_append.mp haa with haa | haa
      · exact h1 p (ha a haa p hp)
      · rw [List.mem_singleton] at haa
        subst haa
        exact h3 p hp

theorem parse_inv : ∀ (items : List Item) {s s' : State}, Inv s → parse s items = .ok s' → (∀ x ∈ declared items, ¬ Reserved x) → Inv s'
  | [], s, s', hi, h, _ => by rw [parse] at h; cases h; exact hi
  | i :: rest, s, s', hi, h, hf => by
    rw [parse] at h
    split at h
    · cases h
    · rename_i s1 hs
      refine parse_inv rest (step_inv hi hs ?_) h ?_
      · rintro x fs rfl
        exact hf x (by simp [declared])
      · intro x hx
        apply hf
        unfold declared at hx ⊢
        rw [List.filterMap_cons]
        split
        · exact hx
        · exact List.mem_cons_of_mem _ hx

/-- C142: in all files of a specification together, no two different structs have the same name, if the user does not give a name of the
form that the tool makes up. -/
theorem one_struct_per_name_partial (items : List Item) (s : State) (h : parse start items = .ok s)
    (hf : ∀ x ∈ declared items, ¬ Reserved x) : Consistent s.attrs := by
  have h0 : Inv start := ⟨[], ⟨by simp, by simp, by simp [start], by simp [start]⟩, by simp [start]⟩
  obtain ⟨T, hg, ha⟩ := parse_inv items h0 h hf
  intro p hp q hq he
  obtain ⟨a, haa, hpa⟩ := List.mem_flatMap.mp hp
  obtain ⟨b, hbb, hqb⟩ := List.mem_flatMap.mp hq
  exact hg.one p (ha a haa p hpa) q (ha b hbb q hqb) he

/-- C142: then the header of a component defines each struct of its attributes with exactly the fields of that struct, after those that
it uses. -/
theorem header_right_partial (items : List Item) (s : State) (h : parse start items = .ok s) (hf : ∀ x ∈ declared items, ¬ Reserved x)
    (attrs : List Attr) (hsub : ∀ a ∈ attrs, a ∈ s.attrs) (values : List (Text × Val)) (ds : List Def) (hd : definitions attrs values = .ok ds) :
    ∀ a ∈ attrs, ∀ n fs, a.ty = .struct n fs → ∃ before d after, ds = before ++ d :: after ∧ d.name = n ∧
      d.fields.map (fun f => (f.name, f.dim.isSome)) = fs.names ∧ d.fields.map (·.type) = fs.types ∧
      ∀ x ∈ fs.uses, ∃ e ∈ before, e.name = x := by
  intro a ha n fs hty
  have hc : Consistent attrs := by
    have := one_struct_per_name_partial items s h hf
    intro p hp q hq he
    obtain ⟨a, haa, hpa⟩ := List.mem_flatMap.mp hp
    obtain ⟨b, hbb, hqb⟩ := List.mem_flatMap.mp hq
    exact this p (List.mem_flatMap.mpr ⟨a, hsub a haa, hpa⟩) q (List.mem_flatMap.mpr ⟨b, hsub b hbb, hqb⟩) he
  obtain ⟨d, hdm, hdn⟩ := (defined_once attrs values ds hd).2 a ha n fs hty
  obtain ⟨before, after, hds⟩ := List.append_of_mem hdm
  refine ⟨before, d, after, hds, hdn, ?_⟩
  refine (defined_right attrs values ds hc hd before d after hds).2 a ha fs ?_
  rw [hty, structsIn, hdn]
  exact List.mem_cons_self

/-! ### Nothing else changes -/

mutual
theorem lift_means (env : Env) : ∀ (src : Src) (n m : Nat) (t : Ty), lift env n src = .ok (m, t) → Means (fun x => env.lookup x) src t
  | .base b, n, m, t, h => by
    rw [lift] at h; cases h; rw [Means]
  | .ref r, n, m, t, h => by
    rw [lift] at h
    split at h
    · rename_i fs hl
      cases h; rw [Means]; exact ⟨rfl, hl⟩
    · cases h
  | .anon fs, n, m, t, h => by
    rw [lift] at h
    split at h
    · cases h
    · rename_i k gs hl
      split at h
      · cases h
      · cases h
        rw [Means]
        exact ⟨⟨k, rfl⟩, liftFields_means env fs n k gs hl⟩

theorem liftFields_means (env : Env) : ∀ (src : SrcFields) (n m : Nat) (t : Fields), liftFields env n src = .ok (m, t) →
    MeansFields (fun x => env.lookup x) src t
  | .nil, n, m, t, h => by
    rw [liftFields] at h; cases h; rw [MeansFields]; trivial
  | .cons x ty a rest, n, m, t, h => by
    rw [liftFields] at h
    split at h
    · cases h
    · rename_i k u hl
      split at h
      · cases h
      · rename_i j fs hr
        cases h
        rw [MeansFields]
        exact ⟨rfl, rfl, lift_means env ty n k u hl, liftFields_means env rest k m fs hr⟩
end

mutual
theorem Means.mono {e f : Text → Option Fields} (h : ∀ x fs, e x = some fs → f x = some fs) : ∀ (s : Src) (t : Ty), Means e s t → Means f s t
  | .base b, .base c, hm => by rw [Means] at hm ⊢; exact hm
  | .ref r, .struct x fs, hm => by rw [Means] at hm ⊢; exact ⟨hm.1, h _ _ hm.2⟩
  | .anon fs, .struct x gs, hm => by rw [Means] at hm ⊢; exact ⟨hm.1, MeansFields.mono h fs gs hm.2⟩
  | .base b, .struct x fs, hm => by simp [Means] at hm
  | .ref b, .base c, hm => by simp [Means] at hm
  | .anon b, .base c, hm => by simp [Means] at hm

theorem MeansFields.mono {e f : Text → Option Fields} (h : ∀ x fs, e x = some fs → f x = some fs) : ∀ (s : SrcFields) (t : Fields),
    MeansFields e s t → MeansFields f s t
  | .nil, .nil, hm => by rw [MeansFields]; trivial
  | .cons x s a rest, .cons y t b more, hm => by
    rw [MeansFields] at hm ⊢
    exact ⟨hm.1, hm.2.1, Means.mono h s t hm.2.2.1, MeansFields.mono h rest more hm.2.2.2⟩
  | .nil, .cons .., hm => by simp [MeansFields] at hm
  | .cons .., .nil, hm => by simp [MeansFields] at hm
end

theorem step_grows {s s' : State} {i : Item} (h : step s i = .ok s') (x : Text) (fs : Fields) (hx : s.env.lookup x = some fs) :
    s'.env.lookup x = some fs := by
  cases i with
  | decl y gs =>
    simp only [step] at h
    split at h
    · cases h
    · split at h
      · cases h
      · split at h
        · cases h
        · rename_i hy
          cases h
          show List.lookup x (_ :: _) = _
          rw [List.lookup_cons]
          have : (x == y) = false := by
            rw [beq_eq_false_iff_ne]
            rintro rfl
            rw [hx] at hy
            exact hy rfl
          rw [this]
          exact hx
  | attr y ty a =>
    simp only [step] at h
    split at h
    · cases h
    · cases h
      exact hx

theorem parse_grows : ∀ (items : List Item) {s s' : State}, parse s items = .ok s' → ∀ x fs, s.env.lookup x = some fs →
    s'.env.lookup x = some fs
  | [], s, s', h, x, fs, hx => by rw [parse] at h; cases h; exact hx
  | i :: rest, s, s', h, x, fs, hx => by
    rw [parse] at h
    split at h
    · cases h
    · rename_i s1 hs
      exact parse_grows rest h x fs (step_grows hs x fs hx)

theorem parse_right : ∀ (items : List Item) {s s' : State}, parse s items = .ok s' →
    (∃ new, s'.attrs = s.attrs ++ new ∧
      List.Forall₂ (fun (w : Text × Src × Bool) (a : Attr) => a.name = w.1 ∧ a.array = w.2.2 ∧ Means (fun x => s'.env.lookup x) w.2.1 a.ty)
        (written items) new) ∧
    ∀ x fs, .decl x fs ∈ items → ∃ gs, s'.env.lookup x = some gs ∧ MeansFields (fun x => s'.env.lookup x) fs gs
  | [], s, s', h => by
    rw [parse] at h; cases h
    exact ⟨⟨[], by simp, .nil⟩, by simp⟩
  | i :: rest, s, s', h => by
    rw [parse] at h
    split at h
    · cases h
    · rename_i s1 hs
      obtain ⟨⟨new, h1, h2⟩, h3⟩ := parse_right rest h
      have hgrow := parse_grows rest h
      cases i with
      | decl y gs =>
        simp only [step] at hs
        split at hs
        · cases hs
        · rename_i m ks hl
          split at hs
          · cases hs
          · split at hs
            · cases hs
            · rename_i hy
              cases hs
              refine ⟨⟨new, h1, h2⟩, ?_⟩
              intro x fs hm
              rcases List.mem_cons.mp hm with hm | hm
              · cases hm
                have hmono : ∀ z zs, s.env.lookup z = some zs → s'.env.lookup z = some zs := by
                  intro z zs hz
                  apply hgrow
                  show List.lookup z (_ :: _) = _
                  rw [List.lookup_cons]
                  have : (z == y) = false := by
                    rw [beq_eq_false_iff_ne]
                    rintro rfl
                    rw [hz] at hy
                    exact hy rfl
                  rw [this]
                  exact hz
                refine ⟨ks, ?_, MeansFields.mono hmono _ _ (liftFields_means _ _ _ _ _ hl)⟩
                apply hgrow
                show List.lookup y (_ :: _) = _
                rw [List.lookup_cons]
                simp
              · exact h3 x fs hm
      | attr y ty a =>
        simp only [step] at hs
        split at hs
        · cases hs
        · rename_i m t hl
          cases hs
          refine ⟨⟨⟨y, t, a⟩ :: new, by rw [h1]; simp, .cons ⟨rfl, rfl, ?_⟩ h2⟩, ?_⟩
          · exact Means.mono (fun z zs hz => hgrow z zs hz) _ _ (lift_means _ _ _ _ _ hl)
          · intro x fs hm
            rcases List.mem_cons.mp hm with hm | hm
            · cases hm
            · exact h3 x fs hm

/-- C142: every attribute has the name and the type that was written: a struct that was declared has the fields of its declaration, and one
that was written in place has the fields that are there, with a made-up name. -/
theorem attributes_right (items : List Item) (s : State) (h : parse start items = .ok s) :
    List.Forall₂ (fun (w : Text × Src × Bool) (a : Attr) => a.name = w.1 ∧ a.array = w.2.2 ∧ Means (fun x => s.env.lookup x) w.2.1 a.ty)
      (written items) s.attrs ∧
    ∀ x fs, .decl x fs ∈ items → ∃ gs, s.env.lookup x = some gs ∧ MeansFields (fun x => s.env.lookup x) fs gs := by
  obtain ⟨⟨new, h1, h2⟩, h3⟩ := parse_right items h
  rw [show start.attrs = [] from rfl, List.nil_append] at h1
  rw [h1]
  exact ⟨h2, h3⟩

/-! ### A name that the user took -/

/-- **Disagreement with C142.** If the user declares a struct with a name that the tool makes up later, both structs get this name, and the
header defines only the first: the attribute `q` is declared with the fields of another struct. -/
theorem taken_name (a t b u p q : Text) (values : List (Text × Val)) (hab : a ≠ b) :
    ∃ s, parse start [.decl (anonName 1) (.cons a (.base t) false .nil), .attr p (.ref (anonName 1)) false,
        .attr q (.anon (.cons b (.base u) false .nil)) false] = .ok s ∧
      s.attrs = [⟨p, .struct (anonName 1) (.cons a (.base t) false .nil), false⟩, ⟨q, .struct (anonName 1) (.cons b (.base u) false .nil), false⟩] ∧
      ¬ Consistent s.attrs ∧
      definitions s.attrs values = .ok [⟨anonName 1, [⟨ctype (.base t), a, none⟩]⟩] := by
  refine ⟨⟨2, [(anonName 1, .cons a (.base t) false .nil)],
    [⟨p, .struct (anonName 1) (.cons a (.base t) false .nil), false⟩, ⟨q, .struct (anonName 1) (.cons b (.base u) false .nil), false⟩]⟩, ?_, rfl, ?_, ?_⟩
  · simp [parse, step, liftFields, lift, start, SrcFields.isNil]
  · intro hc
    have := hc (anonName 1, .cons a (.base t) false .nil) (by simp [structsIn]) (anonName 1, .cons b (.base u) false .nil) (by simp [structsIn]) rfl
    simp only [Prod.mk.injEq, Fields.cons.injEq, true_and] at this
    exact hab this.1
  · have hs : showType (.base t) = ctype (.base t) := showType_ctype _
    simp [definitions, collectAll, collect, collectFields, draw, define, hs]

/-! ### A concrete case -/

/-- A struct with a struct in it, both without names, next to a declared one that is used twice. -/
def demoItems : List Item :=
  [.decl "Pair".toList (.cons "a".toList (.base "int".toList) false .nil),
   .attr "x".toList (.anon (.cons "inner".toList (.anon (.cons "p".toList (.ref "Pair".toList) true .nil)) false .nil)) false,
   .attr "y".toList (.ref "Pair".toList) false]

theorem demo_parse : ∃ s, parse start demoItems = .ok s ∧ s.attrs.map (fun a => (structsIn a.ty).map (·.1)) =
    [["camkes_anon_struct_2".toList, "camkes_anon_struct_1".toList, "Pair".toList], ["Pair".toList]] := by
  refine ⟨_, rfl, ?_⟩
  decide +kernel

theorem demo_free : ∀ x ∈ declared demoItems, ¬ Reserved x := by
  intro x hx
  have : x = "Pair".toList := List.mem_singleton.mp hx
  subst this
  rintro ⟨n, hn⟩
  exact absurd (congrArg List.head? hn) (fun h => absurd (Option.some.inj h) (by decide))

end Verif.AnonStruct
