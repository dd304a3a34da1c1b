import Verif.GenFiles.Spec
import Verif.Runner.Props
import Mathlib.Data.List.Nodup
import Mathlib.Data.List.Forall2
import Mathlib.Tactic.ByContra

/-!
# Theorems: the files that are generated for a build
-/

namespace Verif.GenFiles

open Spec
open Verif.Runner (Text)

/-! ### Lists of CMake -/

theorem semis_clean : ∀ (t cur : Text), ';' ∉ t → semis cur t = [cur ++ t] := by
  intro t
  induction t with
  | nil => intro cur _; simp [semis]
  | cons c t ih =>
    intro cur h
    have hc : c ≠ ';' := fun e => h (by simp [e])
    simp only [semis, hc, ↓reduceIte]
    rw [ih _ (fun hm => h (List.mem_cons_of_mem _ hm))]
    simp

theorem expand_clean (t : Text) (h : Clean t) : expand [t] = [t] := by
  have : t.isEmpty = false := by cases t with | nil => exact absurd rfl h.1 | cons => rfl
  simp [expand, semis_clean t [] h.2, this]

theorem append_clean (l : List Text) (t : Text) (h : Clean t) : append l [t] = l ++ [t] := by
  simp [append, expand_clean t h]

theorem semis_no : ∀ (t cur : Text), ';' ∉ cur → ∀ x ∈ semis cur t, ';' ∉ x := by
  intro t
  induction t with
  | nil => intro cur h x hx; simp [semis] at hx; rw [hx]; exact h
  | cons c t ih =>
    intro cur h x hx
    simp only [semis] at hx
    split at hx
    · rcases List.mem_cons.1 hx with rfl | hx
      · exact h
      · exact ih [] (by simp) x hx
    · rename_i hc
      exact ih _ (by simp; exact ⟨h, fun e => hc e.symm⟩) x hx

theorem expand_all (l : List Text) : ∀ x ∈ expand l, Clean x := by
  intro x hx
  simp only [expand, List.mem_filter, List.mem_flatMap] at hx
  obtain ⟨⟨t, _, ht⟩, hne⟩ := hx
  refine ⟨?_, semis_no t [] (by simp) x ht⟩
  rintro rfl
  simp at hne

/-! ### The calls of an instance -/

instance (t : Text) : Decidable (Clean t) := inferInstanceAs (Decidable (_ ∧ _))

/-- The options of the call give the file its kind. -/
def HasKind (flags : List Text) (k : Kind) : Prop :=
  (∃ b, parseFlags flags = some ⟨decide (k ≠ .used), decide (k = .cakeml), b⟩) ∧ ∀ t ∈ flags, Clean t

/-- The call makes the file. -/
def Makes (c : Call) (f : File) : Prop :=
  c.out = f.path ∧ c.item = f.item ∧ c.template = expand [f.template] ∧ HasKind c.flags f.kind

theorem kind_c : HasKind cSource .c := ⟨⟨true, by decide +kernel⟩, by decide +kernel⟩
theorem kind_ml : HasKind mlSource .cakeml := ⟨⟨false, by decide +kernel⟩, by decide +kernel⟩
theorem kind_h : HasKind cHeader .used := ⟨⟨true, by decide +kernel⟩, by decide +kernel⟩
theorem kind_nil : HasKind [] .used := ⟨⟨false, by decide +kernel⟩, by decide +kernel⟩

theorem enumFrom_mem {α : Type} : ∀ (l : List α) (n : Nat) (x : Nat × α),
    x ∈ enumFrom n l ↔ n ≤ x.1 ∧ l[x.1 - n]? = some x.2 := by
  intro l
  induction l with
  | nil => intro n x; simp [enumFrom]
  | cons y l ih =>
    intro n x
    obtain ⟨k, z⟩ := x
    simp only [enumFrom, List.mem_cons, ih, Prod.mk.injEq]
    constructor
    · rintro (⟨rfl, rfl⟩ | ⟨h1, h2⟩)
      · simp
      · refine ⟨by omega, ?_⟩
        have : k - n = (k - (n + 1)) + 1 := by omega
        rw [this]; simpa using h2
    · rintro ⟨h1, h2⟩
      by_cases hk : k = n
      · subst hk; simp at h2; exact .inl ⟨rfl, h2.symm⟩
      · right
        have : k - n = (k - (n + 1)) + 1 := by omega
        rw [this] at h2
        exact ⟨by omega, by simpa using h2⟩

theorem enum_mem {α : Type} (l : List α) (k : Nat) (z : α) : (k, z) ∈ enumFrom 0 l ↔ l[k]? = some z := by
  rw [enumFrom_mem]; simp

theorem isC_iff (i : Inst) : environmentOf i = "c".toList ↔ IsC i := by
  unfold environmentOf IsC lower
  cases h : i.environment with
  | none => simp
  | some t => simp

theorem isCakeML_iff (i : Inst) : environmentOf i = "cakeml".toList ↔ IsCakeML i := by
  unfold environmentOf IsCakeML lower
  cases h : i.environment with
  | none => simp
  | some t => simp

theorem isCakeML_iff' (i : Inst) : lower (i.environment.getD []) = "cakeml".toList ↔ IsCakeML i := by
  unfold IsCakeML lower
  cases h : i.environment with
  | none => simp
  | some t => simp

theorem not_both (i : Inst) (h1 : IsC i) (h2 : IsCakeML i) : False := by
  have := ((isC_iff i).2 h1).symm.trans ((isCakeML_iff i).2 h2)
  exact absurd this (by decide +kernel)

/-- Calls and files correspond. -/
def Covers (cs : List Call) (p : File → Prop) : Prop :=
  (∀ c ∈ cs, ∃ f, p f ∧ Makes c f) ∧ (∀ f, p f → ∃ c ∈ cs, Makes c f)

/-- The headers that calls include. -/
def Includes (cs : List Call) (p : Text → Prop) : Prop := ∀ x, x ∈ cs.filterMap (·.include_) ↔ p x

theorem exp_lit (s : String) (h : Clean s.toList) : [s.toList] = expand [s.toList] := (expand_clean _ h).symm

theorem environmentCalls_spec (env : Env) (a : Asm) (i : Inst) :
    (environmentCalls env i = none ↔ ¬ IsC i ∧ ¬ IsCakeML i) ∧
    ∀ es, environmentCalls env i = some es →
      es.filterMap (·.include_) = [] ∧
      ((IsC i ∧ es = [fixed env i "camkes.environment.c" "component.environment.c" cSource none]) ∨
       (IsCakeML i ∧ es = [fixed env i "camkesStartScript.sml" "component.environment.start.cakeml" mlSource none,
          fixed env i "camkesConstants.sml" "camkesConstants.sml" mlSource none,
          fixed env i "camkesEndScript.sml" "component.environment.end.cakeml" mlSource none])) := by
  unfold environmentCalls
  by_cases h1 : IsC i
  · rw [if_pos ((isC_iff i).2 h1)]
    simp only [h1]
    refine ⟨by simp, fun es he => ?_⟩
    cases he
    exact ⟨rfl, .inl ⟨trivial, rfl⟩⟩
  · by_cases h2 : IsCakeML i
    · rw [if_neg (fun e => h1 ((isC_iff i).1 e)), if_pos ((isCakeML_iff' i).2 h2)]
      simp only [h1, h2]
      refine ⟨by simp, fun es he => ?_⟩
      cases he
      exact ⟨rfl, .inr ⟨trivial, rfl⟩⟩
    · rw [if_neg (fun e => h1 ((isC_iff i).1 e)), if_neg (fun e => h2 ((isCakeML_iff' i).1 e))]
      simp only [h1, h2]
      exact ⟨by simp, fun es he => by cases he⟩

theorem makes_fixed (env : Env) (i : Inst) (file template : String) (flags : List Text) (inc : Option Text) (k : Kind)
    (ht : Clean template.toList) (hk : HasKind flags k) :
    Makes (fixed env i file template flags inc) ⟨place env i file.toList, ofInst i, template.toList, k⟩ :=
  ⟨rfl, rfl, exp_lit _ ht, hk⟩

theorem from_mem (env : Env) (i : Inst) (c : Conn) (k : Nat) (e : CEnd) (x : Call) :
    x ∈ fromCalls env i c k e ↔ e.inst = i.name ∧
      (x = ⟨place env i (stem e.iface c.type k ++ ".c".toList), ofEnd c "from" k,
          expand [(env.connector c.type).from_], cSource, none⟩ ∨
       (env.connector c.type).fromHeader ≠ [] ∧
        x = ⟨place env i ("include/".toList ++ stem e.iface c.type k ++ ".h".toList), ofEnd c "from" k,
          expand [(env.connector c.type).fromHeader], cHeader, some (stem e.iface c.type k ++ ".h".toList)⟩) := by
  unfold fromCalls sourceCall headerCall
  split
  · rename_i h
    split
    · rename_i h2
      simp only [List.append_nil, List.mem_singleton, h, true_and, h2, ne_eq, not_true_eq_false, false_and, or_false]
      exact Iff.rfl
    · rename_i h2
      simp only [List.mem_append, List.mem_singleton, h, true_and, h2, ne_eq, not_false_eq_true]
      exact Iff.rfl
  · rename_i h; simp [h]

theorem to_mem (env : Env) (i : Inst) (c : Conn) (k : Nat) (e : CEnd) (x : Call) :
    x ∈ toCalls env i c k e ↔ e.inst = i.name ∧
      ((¬ IsCakeML i ∨ (env.connector c.type).cakemlTo = []) ∧
        x = ⟨place env i (stem e.iface c.type k ++ ".c".toList), ofEnd c "to" k,
          expand [(env.connector c.type).to_], cSource, none⟩ ∨
       (¬ IsCakeML i ∧ (env.connector c.type).toHeader ≠ []) ∧
        x = ⟨place env i ("include/".toList ++ stem e.iface c.type k ++ ".h".toList), ofEnd c "to" k,
          expand [(env.connector c.type).toHeader], cHeader, some (stem e.iface c.type k ++ ".h".toList)⟩ ∨
       (IsCakeML i ∧ (env.connector c.type).cakemlTo ≠ []) ∧
        x = ⟨place env i "connectorScript.sml".toList, ofEnd c "to" k,
          expand [(env.connector c.type).cakemlTo], mlSource, none⟩) := by
  unfold toCalls sourceCall headerCall
  by_cases h : e.inst = i.name
  · rw [if_pos h]
    by_cases h1 : IsCakeML i
    · rw [if_pos ((isCakeML_iff i).2 h1)]
      by_cases h2 : (env.connector c.type).cakemlTo = []
      · simp only [h, h1, h2, ↓reduceIte, List.mem_singleton, not_true_eq_false, false_or, true_and, ne_eq, false_and,
          and_false, or_false]
        exact Iff.rfl
      · simp only [h, h1, h2, ↓reduceIte, List.mem_singleton, not_true_eq_false, false_or, true_and, ne_eq, false_and,
          not_false_eq_true]
        exact Iff.rfl
    · rw [if_neg (fun e => h1 ((isCakeML_iff i).1 e))]
      by_cases h2 : (env.connector c.type).toHeader = []
      · simp only [h, h1, h2, ↓reduceIte, List.append_nil, List.mem_singleton, not_false_eq_true, true_or, true_and, ne_eq,
          not_true_eq_false, and_false, false_and, or_false]
        exact Iff.rfl
      · simp only [h, h1, h2, ↓reduceIte, List.mem_append, List.mem_singleton, not_false_eq_true, true_or, true_and, ne_eq,
          false_and, or_false]
        exact Iff.rfl
  · simp [h]

theorem conn_mem (env : Env) (i : Inst) (c : Conn) (x : Call) :
    x ∈ connCalls env i c ↔ (∃ k e, c.fromEnds[k]? = some e ∧ x ∈ fromCalls env i c k e) ∨
      (∃ k e, c.toEnds[k]? = some e ∧ x ∈ toCalls env i c k e) := by
  unfold connCalls
  simp only [List.mem_append, List.mem_flatMap, Prod.exists, enum_mem]

/-- The calls of an instance. -/
theorem inst_covers (env : Env) (a : Asm) (i : Inst) (cs : List Call) (h : instCalls env a i = some cs) :
    Covers cs (Wanted env a i) := by
  unfold instCalls at h
  have hes := environmentCalls_spec env a i
  cases he : environmentCalls env i with
  | none => rw [he] at h; cases h
  | some es =>
    rw [he] at h
    simp only [Option.some.injEq] at h
    subst h
    obtain ⟨_, hes⟩ := hes.2 es he
    constructor
    · intro c hc
      simp only [List.mem_append, List.mem_cons, List.not_mem_nil, or_false, List.mem_flatMap] at hc
      rcases hc with ((((( rfl | rfl) | hc) | rfl) | ⟨cn, hcn, hc⟩) | hc) | hc
      · exact ⟨_, .entry, makes_fixed _ _ _ _ _ _ _ (by decide +kernel) kind_c⟩
      · exact ⟨_, .header, rfl, rfl, exp_lit _ (by decide +kernel), kind_nil⟩
      · rcases hes with ⟨hC, rfl⟩ | ⟨hM, rfl⟩
        · simp only [List.mem_singleton] at hc
          subst hc
          exact ⟨_, .c hC, makes_fixed _ _ _ _ _ _ _ (by decide +kernel) kind_c⟩
        · simp only [List.mem_cons, List.not_mem_nil, or_false] at hc
          rcases hc with rfl | rfl | rfl
          · exact ⟨_, .mlStart hM, makes_fixed _ _ _ _ _ _ _ (by decide +kernel) kind_ml⟩
          · exact ⟨_, .mlConstants hM, makes_fixed _ _ _ _ _ _ _ (by decide +kernel) kind_ml⟩
          · exact ⟨_, .mlEnd hM, makes_fixed _ _ _ _ _ _ _ (by decide +kernel) kind_ml⟩
      · exact ⟨_, .linker, makes_fixed _ _ _ _ _ _ _ (by decide +kernel) kind_nil⟩
      · rcases (conn_mem env i cn c).1 hc with ⟨k, e, hk, hx⟩ | ⟨k, e, hk, hx⟩
        · obtain ⟨hn, rfl | ⟨hh, rfl⟩⟩ := (from_mem env i cn k e c).1 hx
          · exact ⟨_, .from_ cn k e hcn ⟨hk, hn⟩, rfl, rfl, rfl, kind_c⟩
          · exact ⟨_, .fromHeader cn k e hcn ⟨hk, hn⟩ hh, rfl, rfl, rfl, kind_h⟩
        · obtain ⟨hn, ⟨hp, rfl⟩ | ⟨hp, rfl⟩ | ⟨hp, rfl⟩⟩ := (to_mem env i cn k e c).1 hx
          · exact ⟨_, .to_ cn k e hcn ⟨hk, hn⟩ hp, rfl, rfl, rfl, kind_c⟩
          · exact ⟨_, .toHeader cn k e hcn ⟨hk, hn⟩ hp.1 hp.2, rfl, rfl, rfl, kind_h⟩
          · exact ⟨_, .toCakeML cn k e hcn ⟨hk, hn⟩ hp.1 hp.2, rfl, rfl, rfl, kind_ml⟩
      · unfold templateCalls at hc
        simp only [List.mem_append, List.mem_map] at hc
        rcases hc with ⟨t, ht, rfl⟩ | ⟨t, ht, rfl⟩
        · exact ⟨_, .userSource t ht, rfl, rfl, rfl, kind_c⟩
        · exact ⟨_, .userHeader t ht, rfl, rfl, rfl, kind_h⟩
      · unfold optionalCalls at hc
        simp only [List.mem_append] at hc
        rcases hc with ((hc | hc) | hc) | hc
        · split at hc
          · rename_i hs
            simp only [List.mem_cons, List.not_mem_nil, or_false] at hc
            rcases hc with rfl | rfl
            · exact ⟨_, .single hs, makes_fixed _ _ _ _ _ _ _ (by decide +kernel) kind_c⟩
            · exact ⟨_, .singleHeader hs, makes_fixed _ _ _ _ _ _ _ (by decide +kernel) kind_c⟩
          · cases hc
        · split at hc
          · rename_i hs
            simp only [List.mem_singleton] at hc
            subst hc
            exact ⟨_, .debug hs, makes_fixed _ _ _ _ _ _ _ (by decide +kernel) kind_c⟩
          · cases hc
        · split at hc
          · rename_i hs
            simp only [List.mem_singleton] at hc
            subst hc
            exact ⟨_, .simple hs, makes_fixed _ _ _ _ _ _ _ (by decide +kernel) kind_c⟩
          · cases hc
        · split at hc
          · rename_i hs
            simp only [List.mem_singleton] at hc
            subst hc
            exact ⟨_, .rump hs, makes_fixed _ _ _ _ _ _ _ (by decide +kernel) kind_c⟩
          · cases hc
    · intro f hf
      simp only [List.mem_append, List.mem_cons, List.not_mem_nil, or_false, List.mem_flatMap]
      cases hf with
      | entry => exact ⟨_, .inl (.inl (.inl (.inl (.inl (.inl rfl))))), makes_fixed _ _ _ _ _ _ _ (by decide +kernel) kind_c⟩
      | header => exact ⟨_, .inl (.inl (.inl (.inl (.inl (.inr rfl))))), rfl, rfl, exp_lit _ (by decide +kernel), kind_nil⟩
      | linker => exact ⟨_, .inl (.inl (.inl (.inr rfl))), makes_fixed _ _ _ _ _ _ _ (by decide +kernel) kind_nil⟩
      | c hC =>
        rcases hes with ⟨_, rfl⟩ | ⟨hM, _⟩
        · exact ⟨_, .inl (.inl (.inl (.inl (.inr (List.mem_singleton.2 rfl))))),
            makes_fixed _ _ _ _ _ _ _ (by decide +kernel) kind_c⟩
        · exact (not_both i hC hM).elim
      | mlStart hM =>
        rcases hes with ⟨hC, _⟩ | ⟨_, rfl⟩
        · exact (not_both i hC hM).elim
        · exact ⟨_, .inl (.inl (.inl (.inl (.inr (by simp only [List.mem_cons]; exact .inl rfl))))),
            makes_fixed _ _ _ _ _ _ _ (by decide +kernel) kind_ml⟩
      | mlConstants hM =>
        rcases hes with ⟨hC, _⟩ | ⟨_, rfl⟩
        · exact (not_both i hC hM).elim
        · exact ⟨_, .inl (.inl (.inl (.inl (.inr (by simp only [List.mem_cons]; exact .inr (.inl rfl)))))),
            makes_fixed _ _ _ _ _ _ _ (by decide +kernel) kind_ml⟩
      | mlEnd hM =>
        rcases hes with ⟨hC, _⟩ | ⟨_, rfl⟩
        · exact (not_both i hC hM).elim
        · exact ⟨_, .inl (.inl (.inl (.inl (.inr (by simp only [List.mem_cons]; exact .inr (.inr (.inl rfl))))))),
            makes_fixed _ _ _ _ _ _ _ (by decide +kernel) kind_ml⟩
      | from_ cn k e hcn he =>
        exact ⟨_, .inl (.inl (.inr ⟨cn, hcn, (conn_mem env i cn _).2
          (.inl ⟨k, e, he.1, (from_mem env i cn k e _).2 ⟨he.2, .inl rfl⟩⟩)⟩)), rfl, rfl, rfl, kind_c⟩
      | fromHeader cn k e hcn he hh =>
        exact ⟨_, .inl (.inl (.inr ⟨cn, hcn, (conn_mem env i cn _).2
          (.inl ⟨k, e, he.1, (from_mem env i cn k e _).2 ⟨he.2, .inr ⟨hh, rfl⟩⟩⟩)⟩)), rfl, rfl, rfl, kind_h⟩
      | to_ cn k e hcn he hh =>
        exact ⟨_, .inl (.inl (.inr ⟨cn, hcn, (conn_mem env i cn _).2
          (.inr ⟨k, e, he.1, (to_mem env i cn k e _).2 ⟨he.2, .inl ⟨hh, rfl⟩⟩⟩)⟩)), rfl, rfl, rfl, kind_c⟩
      | toHeader cn k e hcn he hm hh =>
        exact ⟨_, .inl (.inl (.inr ⟨cn, hcn, (conn_mem env i cn _).2
          (.inr ⟨k, e, he.1, (to_mem env i cn k e _).2 ⟨he.2, .inr (.inl ⟨⟨hm, hh⟩, rfl⟩)⟩⟩)⟩)), rfl, rfl, rfl, kind_h⟩
      | toCakeML cn k e hcn he hm hh =>
        exact ⟨_, .inl (.inl (.inr ⟨cn, hcn, (conn_mem env i cn _).2
          (.inr ⟨k, e, he.1, (to_mem env i cn k e _).2 ⟨he.2, .inr (.inr ⟨⟨hm, hh⟩, rfl⟩)⟩⟩)⟩)), rfl, rfl, rfl, kind_ml⟩
      | userSource t ht =>
        exact ⟨_, .inl (.inr (List.mem_append_left _ (List.mem_map.2 ⟨t, ht, rfl⟩))), rfl, rfl, rfl, kind_c⟩
      | userHeader t ht =>
        exact ⟨_, .inl (.inr (List.mem_append_right _ (List.mem_map.2 ⟨t, ht, rfl⟩))), rfl, rfl, rfl, kind_h⟩
      | single hs =>
        refine ⟨_, .inr ?_, makes_fixed env i _ _ cSource none _ (by decide +kernel) kind_c⟩
        unfold optionalCalls
        simp only [hs, ↓reduceIte, List.mem_append, List.mem_cons, true_or]
      | singleHeader hs =>
        refine ⟨_, .inr ?_, makes_fixed env i _ _ cSource (some "seL4SingleThreadedComponent.template.h".toList) _
          (by decide +kernel) kind_c⟩
        unfold optionalCalls
        simp only [hs, ↓reduceIte, List.mem_append, List.mem_cons, true_or, or_true]
      | debug hs =>
        refine ⟨_, .inr ?_, makes_fixed env i _ _ cSource none _ (by decide +kernel) kind_c⟩
        unfold optionalCalls
        simp only [hs, ↓reduceIte, List.mem_append, List.mem_cons, true_or, or_true]
      | simple hs =>
        refine ⟨_, .inr ?_, makes_fixed env i _ _ cSource none _ (by decide +kernel) kind_c⟩
        unfold optionalCalls
        simp only [hs, ↓reduceIte, List.mem_append, List.mem_cons, true_or, or_true]
      | rump hs =>
        refine ⟨_, .inr ?_, makes_fixed env i _ _ cSource none _ (by decide +kernel) kind_c⟩
        unfold optionalCalls
        simp only [hs, ↓reduceIte, List.mem_append, List.mem_cons, true_or, or_true]

theorem inst_none (env : Env) (a : Asm) (i : Inst) : instCalls env a i = none ↔ ¬ IsC i ∧ ¬ IsCakeML i := by
  unfold instCalls
  rw [← (environmentCalls_spec env a i).1]
  cases environmentCalls env i <;> simp

/-- The headers that are included. -/
theorem inst_includes (env : Env) (a : Asm) (i : Inst) (cs : List Call) (h : instCalls env a i = some cs) :
    Includes cs (Header env a i) := by
  unfold instCalls at h
  have hes := environmentCalls_spec env a i
  cases he : environmentCalls env i with
  | none => rw [he] at h; cases h
  | some es =>
    rw [he] at h
    simp only [Option.some.injEq] at h
    subst h
    obtain ⟨hinc, _⟩ := hes.2 es he
    intro x
    simp only [List.filterMap_append, hinc, List.append_nil, List.mem_append]
    have e1 : List.filterMap (fun c : Call => c.include_) [fixed env i "camkes.c" "component.common.c" cSource none,
        ⟨inDir env i ("include/".toList ++ "camkes-component-".toList ++ i.name ++ ".h".toList), componentItem i,
          ["component.template.h".toList], [], none⟩] = [] := rfl
    have e2 : List.filterMap (fun c : Call => c.include_) [fixed env i "linker.lds" "linker.lds" [] none] = [] := rfl
    rw [e1, e2]
    simp only [List.not_mem_nil, false_or]
    constructor
    · rintro ((hx | hx) | hx)
      · obtain ⟨c, hc, hcx⟩ := List.mem_filterMap.1 hx
        obtain ⟨cn, hcn, hc⟩ := List.mem_flatMap.1 hc
        rcases (conn_mem env i cn c).1 hc with ⟨k, e, hk, hy⟩ | ⟨k, e, hk, hy⟩
        · obtain ⟨hn, rfl | ⟨hh, rfl⟩⟩ := (from_mem env i cn k e c).1 hy
          · cases hcx
          · cases hcx; exact .from_ cn k e hcn ⟨hk, hn⟩ hh
        · obtain ⟨hn, ⟨hp, rfl⟩ | ⟨hp, rfl⟩ | ⟨hp, rfl⟩⟩ := (to_mem env i cn k e c).1 hy
          · cases hcx
          · cases hcx; exact .to_ cn k e hcn ⟨hk, hn⟩ hp.1 hp.2
          · cases hcx
      · obtain ⟨c, hc, hcx⟩ := List.mem_filterMap.1 hx
        rcases List.mem_append.1 hc with hc | hc
        · obtain ⟨t, _, rfl⟩ := List.mem_map.1 hc; cases hcx
        · obtain ⟨t, ht, rfl⟩ := List.mem_map.1 hc; cases hcx; exact .user t ht
      · obtain ⟨c, hc, hcx⟩ := List.mem_filterMap.1 hx
        unfold optionalCalls at hc
        simp only [List.mem_append] at hc
        rcases hc with ((hc | hc) | hc) | hc
        · split at hc
          · rename_i hs
            simp only [List.mem_cons, List.not_mem_nil, or_false] at hc
            rcases hc with rfl | rfl
            · cases hcx
            · cases hcx; exact .single hs
          · cases hc
        · split at hc
          · cases List.mem_singleton.1 hc; cases hcx
          · cases hc
        · split at hc
          · cases List.mem_singleton.1 hc; cases hcx
          · cases hc
        · split at hc
          · cases List.mem_singleton.1 hc; cases hcx
          · cases hc
    · intro hx
      cases hx with
      | from_ c k e hc he hh =>
        exact .inl (.inl (List.mem_filterMap.2 ⟨_, List.mem_flatMap.2 ⟨c, hc, (conn_mem env i c _).2
          (.inl ⟨k, e, he.1, (from_mem env i c k e _).2 ⟨he.2, .inr ⟨hh, rfl⟩⟩⟩)⟩, rfl⟩))
      | to_ c k e hc he hm hh =>
        exact .inl (.inl (List.mem_filterMap.2 ⟨_, List.mem_flatMap.2 ⟨c, hc, (conn_mem env i c _).2
          (.inr ⟨k, e, he.1, (to_mem env i c k e _).2 ⟨he.2, .inr (.inl ⟨⟨hm, hh⟩, rfl⟩)⟩⟩)⟩, rfl⟩))
      | user t ht =>
        exact .inl (.inr (List.mem_filterMap.2 ⟨_, List.mem_append_right _ (List.mem_map.2 ⟨t, ht, rfl⟩), rfl⟩))
      | single hs =>
        refine .inr (List.mem_filterMap.2 ⟨fixed env i "include/seL4SingleThreadedComponent.template.h"
          "seL4SingleThreadedComponent.template.h" cSource (some "seL4SingleThreadedComponent.template.h".toList), ?_, rfl⟩)
        unfold optionalCalls
        simp only [hs, ↓reduceIte, List.mem_append, List.mem_cons, true_or, or_true]

/-! ### `CAmkESGen` -/

/-- The state after the files. -/
def after (s : State) (fs : List File) : State :=
  { items := s.items ++ fs.map (·.item)
    outfiles := s.outfiles ++ fs.map (·.path)
    templates := s.templates ++ fs.map (·.template)
    sources := s.sources ++ (fs.filter fun f => f.kind = .c).map (·.path)
    cakeml := s.cakeml ++ (fs.filter fun f => f.kind = .cakeml).map (·.path)
    files := s.files ++ fs.map (·.path) }

theorem gen_ok (s : State) (c : Call) (f : File) (hm : Makes c f) (hp : Clean f.path) (hi : Clean f.item)
    (ht : Clean f.template) : camkesGen s c = some (after s [f]) := by
  obtain ⟨h1, h2, h3, ⟨b, h4⟩, _⟩ := hm
  unfold camkesGen
  rw [h3, expand_clean _ ht]
  simp only [List.singleton_append, h4, h1, h2, append_clean _ _ hp, append_clean _ _ hi, append_clean _ _ ht]
  cases hk : f.kind <;> simp [after, hk]

theorem after_append (s : State) (fs gs : List File) : after (after s fs) gs = after s (fs ++ gs) := by
  simp [after, List.append_assoc]

theorem run_ok : ∀ (cs : List Call) (fs : List File) (s : State), List.Forall₂ Makes cs fs →
    (∀ f ∈ fs, Clean f.path ∧ Clean f.item ∧ Clean f.template) → runCalls s cs = some (after s fs) := by
  intro cs
  induction cs with
  | nil =>
    intro fs s h _
    cases h
    simp [runCalls, after]
  | cons c cs ih =>
    intro fs s h hc
    cases h with
    | @cons _ f _ fs hm hr =>
      have h0 := hc f (List.mem_cons_self ..)
      simp only [runCalls, gen_ok s c f hm h0.1 h0.2.1 h0.2.2]
      rw [ih fs _ hr (fun g hg => hc g (List.mem_cons_of_mem _ hg)), after_append]
      rfl

theorem no_digit_semi (k : Nat) : ';' ∉ Nat.toDigits 10 k := by
  intro h
  have := Nat.isDigit_of_mem_toDigits (by decide) (by decide) h
  exact absurd this (by decide)

theorem clean_append_right (x y : Text) (hx : ';' ∉ x) (hy : Clean y) : Clean (x ++ y) :=
  ⟨by simp [hy.1], by simp [hx, hy.2]⟩

theorem clean_append_left (x y : Text) (hx : Clean x) (hy : ';' ∉ y) : Clean (x ++ y) :=
  ⟨by simp [hx.1], by simp [hx.2, hy]⟩

theorem no_append (x y : Text) (hx : ';' ∉ x) (hy : ';' ∉ y) : ';' ∉ x ++ y := by simp [hx, hy]

theorem base_no (t : Text) (h : ';' ∉ t) : ';' ∉ baseName t := by
  induction t with
  | nil => simp [baseName]
  | cons c t ih =>
    have h' : ';' ∉ t := fun e => h (List.mem_cons_of_mem _ e)
    simp only [baseName]
    split
    · exact ih h'
    · split
      · exact h'
      · exact h

theorem place_clean (env : Env) (i : Inst) (x : Text) (hd : ';' ∉ env.dir) (hi : ';' ∉ i.name) (hx : ';' ∉ x) :
    Clean (place env i x) := by
  unfold place
  exact clean_append_left _ _ (clean_append_right _ _ (no_append _ _ (no_append _ _ hd (by decide +kernel)) hi)
    (by decide +kernel)) hx

theorem stem_no (iface type : Text) (k : Nat) (h1 : ';' ∉ iface) (h2 : ';' ∉ type) : ';' ∉ stem iface type k := by
  unfold stem
  exact no_append _ _ (no_append _ _ (no_append _ _ (no_append _ _ h1 (by decide +kernel)) h2) (by decide +kernel))
    (no_digit_semi k)

theorem ofInst_clean (i : Inst) (h : ';' ∉ i.name) : Clean (ofInst i) :=
  clean_append_left _ _ (by decide +kernel) h

theorem ofEnd_clean (c : Conn) (d : String) (k : Nat) (h : ';' ∉ c.name) (hd : ';' ∉ d.toList) : Clean (ofEnd c d k) := by
  unfold ofEnd
  refine clean_append_left _ _ (clean_append_left _ _ (clean_append_left _ _ (clean_append_left _ _
    (clean_append_left _ _ (by decide +kernel) h) (by decide +kernel)) hd) (by decide +kernel)) (no_digit_semi k)

theorem wanted_clean (env : Env) (a : Asm) (hn : Named env a) (i : Inst) (hi : i ∈ a.insts) (f : File)
    (hf : Wanted env a i f) : Clean f.path ∧ Clean f.item := by
  have hin := hn.inst i hi
  have P := fun x hx => place_clean env i x hn.dir hin hx
  have I := ofInst_clean i hin
  have hfrom : ∀ (c : Conn) (k : Nat) (e : CEnd), c ∈ a.conns → FromEnd i c k e → ';' ∉ stem e.iface c.type k :=
    fun c k e hc he => stem_no _ _ _ (hn.fromEnd c hc e (List.mem_of_getElem? he.1)) (hn.conn c hc).2
  have hto : ∀ (c : Conn) (k : Nat) (e : CEnd), c ∈ a.conns → ToEnd i c k e → ';' ∉ stem e.iface c.type k :=
    fun c k e hc he => stem_no _ _ _ (hn.toEnd c hc e (List.mem_of_getElem? he.1)) (hn.conn c hc).2
  have F : ';' ∉ "from".toList := by decide +kernel
  have T : ';' ∉ "to".toList := by decide +kernel
  have C : ';' ∉ ".c".toList := by decide +kernel
  have H : ';' ∉ ".h".toList := by decide +kernel
  have N : ';' ∉ "include/".toList := by decide +kernel
  cases hf with
  | entry => exact ⟨P _ (by decide +kernel), I⟩
  | header => exact ⟨P _ (no_append _ _ (no_append _ _ (no_append _ _ N (by decide +kernel)) hin) H), I⟩
  | linker => exact ⟨P _ (by decide +kernel), I⟩
  | c => exact ⟨P _ (by decide +kernel), I⟩
  | mlStart => exact ⟨P _ (by decide +kernel), I⟩
  | mlConstants => exact ⟨P _ (by decide +kernel), I⟩
  | mlEnd => exact ⟨P _ (by decide +kernel), I⟩
  | from_ c k e hc he => exact ⟨P _ (no_append _ _ (hfrom c k e hc he) C), ofEnd_clean _ _ _ (hn.conn c hc).1 F⟩
  | fromHeader c k e hc he =>
    exact ⟨P _ (no_append _ _ (no_append _ _ N (hfrom c k e hc he)) H), ofEnd_clean _ _ _ (hn.conn c hc).1 F⟩
  | to_ c k e hc he => exact ⟨P _ (no_append _ _ (hto c k e hc he) C), ofEnd_clean _ _ _ (hn.conn c hc).1 T⟩
  | toHeader c k e hc he =>
    exact ⟨P _ (no_append _ _ (no_append _ _ N (hto c k e hc he)) H), ofEnd_clean _ _ _ (hn.conn c hc).1 T⟩
  | toCakeML c k e hc he => exact ⟨P _ (by decide +kernel), ofEnd_clean _ _ _ (hn.conn c hc).1 T⟩
  | userSource t ht => exact ⟨P _ (base_no t (hn.sources i hi t ht).2), I⟩
  | userHeader t ht => exact ⟨P _ (no_append _ _ N (base_no t (hn.headers i hi t ht).2)), I⟩
  | single => exact ⟨P _ (by decide +kernel), I⟩
  | singleHeader => exact ⟨P _ (by decide +kernel), I⟩
  | debug => exact ⟨P _ (by decide +kernel), I⟩
  | simple => exact ⟨P _ (by decide +kernel), I⟩
  | rump => exact ⟨P _ (by decide +kernel), I⟩

theorem forall2_exists {α β : Type} (R : α → β → Prop) (p : β → Prop) : ∀ l : List α, (∀ x ∈ l, ∃ y, p y ∧ R x y) →
    ∃ m, List.Forall₂ R l m ∧ ∀ y ∈ m, p y := by
  intro l
  induction l with
  | nil => intro _; exact ⟨[], .nil, by simp⟩
  | cons x l ih =>
    intro h
    obtain ⟨y, hy, hr⟩ := h x (List.mem_cons_self ..)
    obtain ⟨m, hm, hp⟩ := ih (fun z hz => h z (List.mem_cons_of_mem _ hz))
    refine ⟨y :: m, .cons hr hm, ?_⟩
    intro z hz
    rcases List.mem_cons.1 hz with rfl | hz
    · exact hy
    · exact hp z hz

theorem forall2_mem {α β : Type} {R : α → β → Prop} : ∀ {l : List α} {m : List β}, List.Forall₂ R l m →
    ∀ x ∈ l, ∃ y ∈ m, R x y := by
  intro l m h
  induction h with
  | nil => intro x hx; cases hx
  | cons hr _ ih =>
    intro x hx
    rcases List.mem_cons.1 hx with rfl | hx
    · exact ⟨_, List.mem_cons_self .., hr⟩
    · obtain ⟨y, hy, hr⟩ := ih x hx
      exact ⟨y, List.mem_cons_of_mem _ hy, hr⟩

theorem makes_unique (c : Call) (f g : File) (hf : Makes c f) (hg : Makes c g) (tf : Clean f.template) (tg : Clean g.template) :
    f = g := by
  obtain ⟨f1, f2, f3, ⟨b, f4⟩, _⟩ := hf
  obtain ⟨g1, g2, g3, ⟨b', g4⟩, _⟩ := hg
  have h3 : f.template = g.template := by
    have := f3.symm.trans g3
    rw [expand_clean _ tf, expand_clean _ tg] at this
    exact List.singleton_inj.1 this
  have h4 : f.kind = g.kind := by
    have := f4.symm.trans g4
    simp only [Option.some.injEq, Flags.mk.injEq] at this
    revert this
    cases f.kind <;> cases g.kind <;> simp
  cases f; cases g
  simp only [File.mk.injEq]
  exact ⟨f1.symm.trans g1, f2.symm.trans g2, h3, h4⟩

/-- The files of an instance, in their order. -/
theorem inst_files (env : Env) (a : Asm) (hn : Named env a) (ht : HasTemplates env a) (i : Inst) (hi : i ∈ a.insts)
    (hh : i.hardware = false) (cs : List Call) (h : instCalls env a i = some cs) :
    ∃ fs, List.Forall₂ Makes cs fs ∧ (∀ f, f ∈ fs ↔ Wanted env a i f) ∧ ∀ s, runCalls s cs = some (after s fs) := by
  obtain ⟨h1, h2⟩ := inst_covers env a i cs h
  obtain ⟨fs, hfs, hw⟩ := forall2_exists Makes (Wanted env a i) cs h1
  have hmem : ∀ f, f ∈ fs ↔ Wanted env a i f := by
    intro f
    refine ⟨hw f, fun hf => ?_⟩
    obtain ⟨c, hc, hm⟩ := h2 f hf
    obtain ⟨g, hg, hm'⟩ := forall2_mem hfs c hc
    rw [makes_unique c f g hm hm' (ht i hi hh f hf) (ht i hi hh g (hw g hg))]
    exact hg
  refine ⟨fs, hfs, hmem, fun s => run_ok cs fs s hfs ?_⟩
  intro f hf
  have hwf := hw f hf
  exact ⟨(wanted_clean env a hn i hi f hwf).1, (wanted_clean env a hn i hi f hwf).2, ht i hi hh f hwf⟩

/-! ### The build -/

/-- What belongs to an instance. -/
def Row (env : Env) (a : Asm) (r : Inst × List File × Build) : Prop :=
  ∃ cs, instCalls env a r.1 = some cs ∧ List.Forall₂ Makes cs r.2.1 ∧ (∀ f, f ∈ r.2.1 ↔ Wanted env a r.1 f) ∧
    r.2.2 = ⟨r.1.name, (r.2.1.filter fun f => f.kind = .c).map (·.path),
      (r.2.1.filter fun f => f.kind = .cakeml).map (·.path), r.2.1.map (·.path), camkesH r.1 cs⟩

theorem loop_spec (env : Env) (a : Asm) (hn : Named env a) (ht : HasTemplates env a) :
    ∀ (is : List Inst) (s : State), (∀ i ∈ is, i ∈ a.insts) →
    (instLoop env a s is = none ↔ ∃ i ∈ is, i.hardware = false ∧ ¬ IsC i ∧ ¬ IsCakeML i) ∧
    ∀ s' bs, instLoop env a s is = some (s', bs) → ∃ rows : List (Inst × List File × Build),
      rows.map (·.1) = is.filter (fun i => i.hardware = false) ∧ (∀ r ∈ rows, Row env a r) ∧
      s'.items = s.items ++ (rows.flatMap (·.2.1)).map (·.item) ∧
      s'.outfiles = s.outfiles ++ (rows.flatMap (·.2.1)).map (·.path) ∧
      s'.templates = s.templates ++ (rows.flatMap (·.2.1)).map (·.template) ∧
      bs = rows.map (·.2.2) := by
  intro is
  induction is with
  | nil =>
    intro s _
    refine ⟨by simp [instLoop], ?_⟩
    intro s' bs h
    simp only [instLoop, Option.some.injEq, Prod.mk.injEq] at h
    obtain ⟨rfl, rfl⟩ := h
    exact ⟨[], rfl, by simp, by simp, by simp, by simp, rfl⟩
  | cons i is ih =>
    intro s hsub
    have hsub' : ∀ j ∈ is, j ∈ a.insts := fun j hj => hsub j (List.mem_cons_of_mem _ hj)
    simp only [instLoop]
    cases hh : i.hardware with
    | true =>
      simp only [↓reduceIte]
      obtain ⟨h1, h2⟩ := ih s hsub'
      refine ⟨by rw [h1]; simp [hh], ?_⟩
      intro s' bs h
      obtain ⟨rows, hr, hrest⟩ := h2 s' bs h
      exact ⟨rows, by simp [hr, hh], hrest⟩
    | false =>
      simp only [Bool.false_eq_true, ↓reduceIte]
      cases hc : instCalls env a i with
      | none =>
        have := (inst_none env a i).1 hc
        refine ⟨⟨fun _ => ⟨i, List.mem_cons_self .., hh, this⟩, fun _ => rfl⟩, fun s' bs h => by cases h⟩
      | some cs =>
        obtain ⟨fs, hfs, hmem, hrun⟩ := inst_files env a hn ht i (hsub i (List.mem_cons_self ..)) hh cs hc
        simp only [hrun]
        have hok : ¬ (¬ IsC i ∧ ¬ IsCakeML i) := by rw [← inst_none env a i, hc]; simp
        obtain ⟨h1, h2⟩ := ih (after { s with sources := [], cakeml := [], files := [] } fs) hsub'
        constructor
        · constructor
          · intro h
            have : instLoop env a (after { s with sources := [], cakeml := [], files := [] } fs) is = none := by
              revert h
              cases instLoop env a (after { s with sources := [], cakeml := [], files := [] } fs) is with
              | none => intro _; rfl
              | some x => intro h; cases h
            obtain ⟨j, hj, hp⟩ := h1.1 this
            exact ⟨j, List.mem_cons_of_mem _ hj, hp⟩
          · rintro ⟨j, hj, hjh, hp⟩
            rcases List.mem_cons.1 hj with rfl | hj
            · exact absurd hp hok
            · rw [h1.2 ⟨j, hj, hjh, hp⟩]
        · intro s' bs h
          cases hl : instLoop env a (after { s with sources := [], cakeml := [], files := [] } fs) is with
          | none => rw [hl] at h; cases h
          | some x =>
            obtain ⟨s2, bs2⟩ := x
            rw [hl] at h
            simp only [Option.some.injEq, Prod.mk.injEq] at h
            obtain ⟨rfl, rfl⟩ := h
            obtain ⟨rows, hr, hrow, e1, e2, e3, e4⟩ := h2 s2 bs2 hl
            refine ⟨(i, fs, ⟨i.name, (after { s with sources := [], cakeml := [], files := [] } fs).sources,
              (after { s with sources := [], cakeml := [], files := [] } fs).cakeml,
              (after { s with sources := [], cakeml := [], files := [] } fs).files, camkesH i cs⟩) :: rows, ?_, ?_, ?_, ?_, ?_, ?_⟩
            · simp [hr, hh]
            · intro r hr'
              rcases List.mem_cons.1 hr' with rfl | hr'
              · exact ⟨cs, hc, hfs, hmem, by simp [after]⟩
              · exact hrow r hr'
            · simp [e1, after]
            · simp [e2, after]
            · simp [e3, after]
            · simp [e4]

theorem graph_makes (env : Env) : Makes (graphCall env) (graph env) :=
  ⟨rfl, rfl, exp_lit _ (by decide +kernel), kind_nil⟩

theorem graph_gen (env : Env) (hd : ';' ∉ env.dir) (s : State) : camkesGen s (graphCall env) = some (after s [graph env]) :=
  gen_ok s _ _ (graph_makes env) (clean_append_right _ _ hd (by decide +kernel)) (show Clean "assembly/".toList by decide +kernel)
    (show Clean "graph.dot".toList by decide +kernel)

theorem generate_rows (env : Env) (a : Asm) (hn : Named env a) (ht : HasTemplates env a) :
    (generate env a = none ↔ ∃ i ∈ a.insts, i.hardware = false ∧ ¬ IsC i ∧ ¬ IsCakeML i) ∧
    ∀ s bs, generate env a = some (s, bs) → ∃ rows : List (Inst × List File × Build),
      rows.map (·.1) = software a ∧ (∀ r ∈ rows, Row env a r) ∧
      s.items = (graph env :: rows.flatMap (·.2.1)).map (·.item) ∧
      s.outfiles = (graph env :: rows.flatMap (·.2.1)).map (·.path) ∧
      s.templates = (graph env :: rows.flatMap (·.2.1)).map (·.template) ∧
      bs = rows.map (·.2.2) := by
  unfold generate
  simp only [graph_gen env hn.dir]
  obtain ⟨h1, h2⟩ := loop_spec env a hn ht a.insts (after ⟨[], [], [], [], [], []⟩ [graph env]) (fun _ h => h)
  refine ⟨h1, fun s bs h => ?_⟩
  obtain ⟨rows, r1, r2, e1, e2, e3, e4⟩ := h2 s bs h
  exact ⟨rows, r1, r2, by rw [e1]; simp [after], by rw [e2]; simp [after], by rw [e3]; simp [after], e4⟩

/-- **C112.** Generation fails exactly if the code of an instance of software is neither C nor CakeML. -/
theorem generates_iff (env : Env) (a : Asm) (hn : Named env a) (ht : HasTemplates env a) :
    (∃ r, generate env a = some r) ↔ ∀ i ∈ software a, IsC i ∨ IsCakeML i := by
  have h := (generate_rows env a hn ht).1
  rw [← Option.isSome_iff_exists, ← Option.ne_none_iff_isSome, ne_eq, h]
  simp only [software, List.mem_filter, decide_eq_true_eq, not_exists, not_and, not_not, and_imp]
  refine forall_congr' fun i => forall_congr' fun _ => forall_congr' fun _ => ?_
  by_cases h1 : IsC i <;> simp [h1]

theorem zip_map3 (fs : List File) :
    (fs.map (·.item)).zip ((fs.map (·.path)).zip (fs.map (·.template))) = fs.map File.triple := by
  induction fs with
  | nil => rfl
  | cons f fs ih => simp [ih, File.triple]

/-- **C112.** The runner is told to make exactly the files that the instances of software need, and the graph:
each with its own item and its own template. -/
theorem files_exact (env : Env) (a : Asm) (hn : Named env a) (ht : HasTemplates env a) (s : State) (bs : List Build)
    (h : generate env a = some (s, bs)) :
    s.items.length = s.outfiles.length ∧ s.outfiles.length = s.templates.length ∧
    ∀ t, t ∈ triples s ↔ t = (graph env).triple ∨ ∃ i ∈ software a, ∃ f, Wanted env a i f ∧ f.triple = t := by
  obtain ⟨rows, r1, r2, e1, e2, e3, _⟩ := (generate_rows env a hn ht).2 s bs h
  refine ⟨by rw [e1, e2]; simp, by rw [e2, e3]; simp, fun t => ?_⟩
  unfold triples
  rw [e1, e2, e3, zip_map3, List.map_cons, List.mem_cons]
  refine or_congr Iff.rfl ?_
  rw [← r1]
  constructor
  · intro ht
    obtain ⟨f, hf, rfl⟩ := List.mem_map.1 ht
    obtain ⟨r, hr, hfr⟩ := List.mem_flatMap.1 hf
    obtain ⟨cs, _, _, hm, _⟩ := r2 r hr
    exact ⟨r.1, List.mem_map.2 ⟨r, hr, rfl⟩, f, (hm f).1 hfr, rfl⟩
  · rintro ⟨i, hi, f, hf, rfl⟩
    obtain ⟨r, hr, rfl⟩ := List.mem_map.1 hi
    obtain ⟨cs, _, _, hm, _⟩ := r2 r hr
    exact List.mem_map.2 ⟨f, List.mem_flatMap.2 ⟨r, hr, (hm f).2 hf⟩, rfl⟩

/-- **C112.** Every instance of software, and no other, is built, from the generated sources that it needs, and
its `camkes.h` includes the headers that it needs. -/
theorem built (env : Env) (a : Asm) (hn : Named env a) (ht : HasTemplates env a) (s : State) (bs : List Build)
    (h : generate env a = some (s, bs)) : List.Forall₂ (BuiltFor env a) (software a) bs := by
  obtain ⟨rows, r1, r2, _, _, _, e4⟩ := (generate_rows env a hn ht).2 s bs h
  rw [← r1, e4, List.forall₂_map_left_iff, List.forall₂_map_right_iff, List.forall₂_same]
  intro r hr
  obtain ⟨cs, hc, _, hm, hb⟩ := r2 r hr
  rw [hb]
  refine ⟨rfl, ?_, ?_, ?_, cs.filterMap Call.include_, inst_includes env a r.1 cs hc, rfl⟩
  · intro p
    simp only [List.mem_map, List.mem_filter, hm, decide_eq_true_eq, and_assoc]
  · intro p
    simp only [List.mem_map, List.mem_filter, hm, decide_eq_true_eq, and_assoc]
  · intro p
    simp only [List.mem_map, hm]

/-! ### Without the assumption about templates -/

theorem gen_parallel (s s' : State) (c : Call) (f : File) (hm : Makes c f) (hp : Clean f.path) (hi : Clean f.item)
    (h : camkesGen s c = some s') :
    s'.items.length = s.items.length + 1 ∧ s'.outfiles.length = s.outfiles.length + 1 ∧
      s'.templates.length = s.templates.length + 1 := by
  obtain ⟨h1, h2, h3, _, h5⟩ := hm
  unfold camkesGen at h
  cases hl : c.template ++ c.flags with
  | nil => rw [hl] at h; cases h
  | cons t rest =>
    rw [hl] at h
    have hct : Clean t := by
      have : t ∈ c.template ++ c.flags := by rw [hl]; exact List.mem_cons_self ..
      rcases List.mem_append.1 this with hh | hh
      · rw [h3] at hh; exact expand_all _ t hh
      · exact h5 t hh
    simp only at h
    cases hf : parseFlags rest with
    | none => rw [hf] at h; cases h
    | some g =>
      rw [hf] at h
      simp only [Option.some.injEq] at h
      subst h
      simp only [h1, h2, append_clean _ _ hp, append_clean _ _ hi, append_clean _ _ hct]
      simp

theorem run_parallel : ∀ (cs : List Call) (s s' : State),
    (∀ c ∈ cs, ∃ f, Makes c f ∧ Clean f.path ∧ Clean f.item) → runCalls s cs = some s' →
    s'.items.length = s.items.length + cs.length ∧ s'.outfiles.length = s.outfiles.length + cs.length ∧
      s'.templates.length = s.templates.length + cs.length := by
  intro cs
  induction cs with
  | nil => intro s s' _ h; simp only [runCalls, Option.some.injEq] at h; subst h; simp
  | cons c cs ih =>
    intro s s' hc h
    obtain ⟨f, hm, hp, hi⟩ := hc c (List.mem_cons_self ..)
    simp only [runCalls] at h
    cases hg : camkesGen s c with
    | none => rw [hg] at h; cases h
    | some s1 =>
      rw [hg] at h
      have h1 := gen_parallel s s1 c f hm hp hi hg
      have h2 := ih s1 s' (fun d hd => hc d (List.mem_cons_of_mem _ hd)) h
      simp only [List.length_cons]
      omega

theorem loop_parallel (env : Env) (a : Asm) (hn : Named env a) :
    ∀ (is : List Inst) (s s' : State) (bs : List Build), (∀ i ∈ is, i ∈ a.insts) → instLoop env a s is = some (s', bs) →
    s.items.length = s.outfiles.length → s.outfiles.length = s.templates.length →
    s'.items.length = s'.outfiles.length ∧ s'.outfiles.length = s'.templates.length := by
  intro is
  induction is with
  | nil =>
    intro s s' bs _ h h1 h2
    simp only [instLoop, Option.some.injEq, Prod.mk.injEq] at h
    obtain ⟨rfl, rfl⟩ := h
    exact ⟨h1, h2⟩
  | cons i is ih =>
    intro s s' bs hsub h h1 h2
    have hsub' : ∀ j ∈ is, j ∈ a.insts := fun j hj => hsub j (List.mem_cons_of_mem _ hj)
    simp only [instLoop] at h
    split at h
    · exact ih s s' bs hsub' h h1 h2
    · cases hc : instCalls env a i with
      | none => rw [hc] at h; cases h
      | some cs =>
        rw [hc] at h
        simp only at h
        have hcov := (inst_covers env a i cs hc).1
        cases hr : runCalls { s with sources := [], cakeml := [], files := [] } cs with
        | none => rw [hr] at h; cases h
        | some s1 =>
          rw [hr] at h
          simp only at h
          have hp := run_parallel cs _ s1 (fun c hcm => by
            obtain ⟨f, hw, hm⟩ := hcov c hcm
            have := wanted_clean env a hn i (hsub i (List.mem_cons_self ..)) f hw
            exact ⟨f, hm, this.1, this.2⟩) hr
          simp only at hp
          cases hl : instLoop env a s1 is with
          | none => rw [hl] at h; cases h
          | some x =>
            obtain ⟨s2, bs2⟩ := x
            rw [hl] at h
            simp only [Option.some.injEq, Prod.mk.injEq] at h
            obtain ⟨rfl, _⟩ := h
            exact ih s1 s2 bs2 hsub' hl (by omega) (by omega)

/-- **C112.** Whatever the templates of the connectors are, the three lists that are given to the runner have the
same length: no file is rendered with the item or the template of another. -/
theorem parallel (env : Env) (a : Asm) (hn : Named env a) (s : State) (bs : List Build) (h : generate env a = some (s, bs)) :
    s.items.length = s.outfiles.length ∧ s.outfiles.length = s.templates.length := by
  unfold generate at h
  simp only [graph_gen env hn.dir] at h
  exact loop_parallel env a hn a.insts _ s bs (fun _ h => h) h (by simp [after]) (by simp [after])

/-! ### What the runner does with the items -/

/-- **C112.** The item of an end stands for that end, and is rendered for the address space of that end. -/
theorem end_resolves (num : Text → Option Int) (hnum : ∀ k : Nat, num (Nat.toDigits 10 k) = some (k : Int)) (a : Asm)
    (hnd : (a.conns.map (·.name)).Nodup) (c : Conn) (hc : c ∈ a.conns) (hs : '/' ∉ c.name) (k : Nat) (e : CEnd) :
    (c.fromEnds[k]? = some e →
      Runner.resolve num (forRunner a) (ofEnd c "from" k) = .ok (.end_ e.obj, some e.obj.addressSpace)) ∧
    (c.toEnds[k]? = some e →
      Runner.resolve num (forRunner a) (ofEnd c "to" k) = .ok (.end_ e.obj, some e.obj.addressSpace)) := by
  have hfirst : Runner.Spec.IsFirst (fun x => x.name = c.name) (forRunner a).connections
      ⟨c.name, c.fromEnds.map (·.obj), c.toEnds.map (·.obj)⟩ := by
    obtain ⟨l1, l2, hl⟩ := List.append_of_mem hc
    refine ⟨l1.map fun c => ⟨c.name, c.fromEnds.map (·.obj), c.toEnds.map (·.obj)⟩,
      l2.map fun c => ⟨c.name, c.fromEnds.map (·.obj), c.toEnds.map (·.obj)⟩, by simp [forRunner, hl], rfl, ?_⟩
    intro y hy
    obtain ⟨d, hd, rfl⟩ := List.mem_map.1 hy
    rw [hl] at hnd
    simp only [List.map_append, List.map_cons, List.nodup_append, List.mem_map, List.mem_cons] at hnd
    exact hnd.2.2 d.name ⟨d, hd, rfl⟩ c.name (.inl rfl)
  have hplain : Runner.Spec.Plain (Nat.toDigits 10 k) := by
    intro h
    exact absurd (Nat.isDigit_of_mem_toDigits (by decide) (by decide) h) (by decide)
  have hat : ∀ l : List CEnd, l[k]? = some e → Runner.Spec.At (l.map (·.obj)) (k : Int) e.obj := by
    intro l hl
    obtain ⟨hlt, hle⟩ := List.getElem?_eq_some_iff.1 hl
    refine ⟨(l.take k).map (·.obj), (l.drop (k + 1)).map (·.obj), ?_, .inl ?_⟩
    · have : l = l.take k ++ e :: l.drop (k + 1) := by
        rw [← hle, ← List.drop_eq_getElem_cons hlt, List.take_append_drop]
      conv_lhs => rw [this]
      simp
    · simp [Nat.min_eq_left (Nat.le_of_lt hlt)]
  constructor
  · intro hk
    rw [Runner.resolve_iff]
    have := Runner.Spec.Names.from_ (num := num) (asm := forRunner a) c.name (Nat.toDigits 10 k) []
      ⟨c.name, c.fromEnds.map (·.obj), c.toEnds.map (·.obj)⟩ k e.obj hs hplain (.inl rfl) hfirst (hnum k) (hat _ hk)
    have e1 : ofEnd c "from" k = "connector/".toList ++ c.name ++ "/from/".toList ++ Nat.toDigits 10 k ++ [] := by
      have : "/from/".toList = "/".toList ++ "from".toList ++ "/".toList := by decide +kernel
      rw [this]; unfold ofEnd; simp only [List.append_assoc, List.append_nil]
    rw [e1]; exact this
  · intro hk
    rw [Runner.resolve_iff]
    have := Runner.Spec.Names.to_ (num := num) (asm := forRunner a) c.name (Nat.toDigits 10 k) []
      ⟨c.name, c.fromEnds.map (·.obj), c.toEnds.map (·.obj)⟩ k e.obj hs hplain (.inl rfl) hfirst (hnum k) (hat _ hk)
    have e1 : ofEnd c "to" k = "connector/".toList ++ c.name ++ "/to/".toList ++ Nat.toDigits 10 k ++ [] := by
      have : "/to/".toList = "/".toList ++ "to".toList ++ "/".toList := by decide +kernel
      rw [this]; unfold ofEnd; simp only [List.append_assoc, List.append_nil]
    rw [e1]; exact this

/-- **C112.** The item of an instance stands for that instance. -/
theorem inst_resolves (num : Text → Option Int) (a : Asm) (hnd : (a.insts.map (·.name)).Nodup) (i : Inst)
    (hi : i ∈ a.insts) (hs : '/' ∉ i.name) :
    Runner.resolve num (forRunner a) (ofInst i) = .ok (.inst ⟨i.name, i.space⟩, some i.space) := by
  rw [Runner.resolve_iff]
  have hfirst : Runner.Spec.IsFirst (fun x => x.name = i.name) (forRunner a).instances ⟨i.name, i.space⟩ := by
    obtain ⟨l1, l2, hl⟩ := List.append_of_mem hi
    refine ⟨l1.map fun i => ⟨i.name, i.space⟩, l2.map fun i => ⟨i.name, i.space⟩, by simp [forRunner, hl], rfl, ?_⟩
    intro y hy
    obtain ⟨d, hd, rfl⟩ := List.mem_map.1 hy
    rw [hl] at hnd
    simp only [List.map_append, List.map_cons, List.nodup_append, List.mem_map, List.mem_cons] at hnd
    exact hnd.2.2 d.name ⟨d, hd, rfl⟩ i.name (.inl rfl)
  have := Runner.Spec.Names.component (num := num) (asm := forRunner a) i.name [] ⟨i.name, i.space⟩ hs (.inl rfl) hfirst
  rw [List.append_nil] at this
  exact this

/-- **C112.** Every end of a connection at an instance of C code has a source: it is rendered from that end, with the
template of its side of the connector, and it is compiled into that instance. -/
theorem end_source (env : Env) (a : Asm) (hn : Named env a) (ht : HasTemplates env a) (s : State) (bs : List Build)
    (h : generate env a = some (s, bs)) (num : Text → Option Int) (hnum : ∀ k : Nat, num (Nat.toDigits 10 k) = some (k : Int))
    (hnd : (a.conns.map (·.name)).Nodup) (hs : ∀ c ∈ a.conns, '/' ∉ c.name) (m : Nat) (i : Inst) (hi : (software a)[m]? = some i)
    (hC : IsC i) (c : Conn) (hc : c ∈ a.conns) (k : Nat) (e : CEnd) :
    ∃ b, bs[m]? = some b ∧ b.inst = i.name ∧
      (FromEnd i c k e → ∃ path item, (item, path, (env.connector c.type).from_) ∈ triples s ∧ path ∈ b.sources ∧
        Runner.resolve num (forRunner a) item = .ok (.end_ e.obj, some e.obj.addressSpace)) ∧
      (ToEnd i c k e → ∃ path item, (item, path, (env.connector c.type).to_) ∈ triples s ∧ path ∈ b.sources ∧
        Runner.resolve num (forRunner a) item = .ok (.end_ e.obj, some e.obj.addressSpace)) := by
  have hb := built env a hn ht s bs h
  have hlen := hb.length_eq
  obtain ⟨hlt, hle⟩ := List.getElem?_eq_some_iff.1 hi
  have hlt' : m < bs.length := by omega
  refine ⟨bs[m], List.getElem?_eq_getElem hlt', ?_⟩
  have hbm : BuiltFor env a i bs[m] := by
    have := (List.forall₂_iff_get.1 hb).2 m hlt hlt'
    simpa [hle] using this
  have hmem : i ∈ software a := List.mem_of_getElem? hi
  have hex := (files_exact env a hn ht s bs h).2.2
  refine ⟨hbm.1, fun he => ?_, fun he => ?_⟩
  · have hw := Wanted.from_ (env := env) c k e hc he
    exact ⟨_, _, (hex _).2 (.inr ⟨i, hmem, _, hw, rfl⟩), (hbm.2.1 _).2 ⟨_, hw, rfl, rfl⟩,
      (end_resolves num hnum a hnd c hc (hs c hc) k e).1 he.1⟩
  · have hw := Wanted.to_ (env := env) c k e hc he (.inl fun hm => not_both i hC hm)
    exact ⟨_, _, (hex _).2 (.inr ⟨i, hmem, _, hw, rfl⟩), (hbm.2.1 _).2 ⟨_, hw, rfl, rfl⟩,
      (end_resolves num hnum a hnd c hc (hs c hc) k e).2 he.1⟩

/-! ### No file is made twice -/

theorem sep (a b : Char) (u v x y : Text) (h : u ++ a :: x = v ++ b :: y) (h1 : a ∉ v) (h2 : b ∉ u) (h3 : a ≠ b) : False := by
  rcases List.append_eq_append_iff.1 h with ⟨w, e1, e2⟩ | ⟨w, e1, e2⟩
  · cases w with
    | nil => simp only [List.nil_append, List.cons.injEq] at e2; exact h3 e2.1
    | cons z w =>
      simp only [List.cons_append, List.cons.injEq] at e2
      exact h1 (by rw [e1, e2.1]; simp)
  · cases w with
    | nil => simp only [List.nil_append, List.cons.injEq] at e2; exact h3 e2.1.symm
    | cons z w =>
      simp only [List.cons_append, List.cons.injEq] at e2
      exact h2 (by rw [e1, e2.1]; simp)

theorem cut_last (b : Char) (x x' d d' : Text) (h : x ++ b :: d = x' ++ b :: d') (h1 : b ∉ d) (h2 : b ∉ d') :
    x = x' ∧ d = d' := by
  rcases List.append_eq_append_iff.1 h with ⟨w, e1, e2⟩ | ⟨w, e1, e2⟩
  · cases w with
    | nil => simp only [List.nil_append, List.cons.injEq, true_and] at e2; exact ⟨by simp [e1], e2⟩
    | cons z w =>
      simp only [List.cons_append, List.cons.injEq] at e2
      exact absurd (by rw [e2.2]; simp) h1
  · cases w with
    | nil => simp only [List.nil_append, List.cons.injEq, true_and] at e2; exact ⟨by simp [e1], e2.symm⟩
    | cons z w =>
      simp only [List.cons_append, List.cons.injEq] at e2
      exact absurd (by rw [e2.2]; simp) h2

theorem cut_first (b : Char) (x x' d d' : Text) (h : x ++ b :: d = x' ++ b :: d') (h1 : b ∉ x) (h2 : b ∉ x') :
    x = x' ∧ d = d' := by
  rcases List.append_eq_append_iff.1 h with ⟨w, e1, e2⟩ | ⟨w, e1, e2⟩
  · cases w with
    | nil => simp only [List.nil_append, List.cons.injEq, true_and] at e2; exact ⟨by simp [e1], e2⟩
    | cons z w =>
      simp only [List.cons_append, List.cons.injEq] at e2
      exact absurd (by rw [e1, e2.1]; simp) h2
  · cases w with
    | nil => simp only [List.nil_append, List.cons.injEq, true_and] at e2; exact ⟨by simp [e1], e2.symm⟩
    | cons z w =>
      simp only [List.cons_append, List.cons.injEq] at e2
      exact absurd (by rw [e1, e2.1]; simp) h1

theorem under : "_".toList = ['_'] := by decide +kernel
theorem slash_ : "/".toList = ['/'] := by decide +kernel

theorem no_digit (k : Nat) (b : Char) (hb : b.isDigit = false) : b ∉ Nat.toDigits 10 k := by
  intro h
  rw [Nat.isDigit_of_mem_toDigits (by decide) (by decide) h] at hb
  cases hb

theorem stem_inj (f t f' t' : Text) (k k' : Nat) (h : stem f t k = stem f' t' k') (h1 : '_' ∉ t) (h2 : '_' ∉ t') :
    f = f' ∧ t = t' ∧ k = k' := by
  unfold stem at h
  rw [under] at h
  have e : ∀ (f t d : Text), f ++ ['_'] ++ t ++ ['_'] ++ d = (f ++ '_' :: t) ++ '_' :: d := by intro f t d; simp
  rw [e, e] at h
  obtain ⟨e1, e2⟩ := cut_last '_' _ _ _ _ h (no_digit k '_' (by decide)) (no_digit k' '_' (by decide))
  obtain ⟨e3, e4⟩ := cut_last '_' _ _ _ _ e1 h1 h2
  refine ⟨e3, e4, ?_⟩
  have := congrArg (Nat.ofDigitChars 10 · 0) e2
  simpa [Nat.ofDigitChars_ten_toDigits] using this

theorem place_inj (env : Env) (i : Inst) (x y : Text) (h : place env i x = place env i y) : x = y :=
  List.append_cancel_left h

/-- The path is a file of an end with this interface, type and number. -/
def PathOf (env : Env) (i : Inst) (f t : Text) (k : Nat) (p : Text) : Prop :=
  p = place env i (stem f t k ++ ".c".toList) ∨ p = place env i ("include/".toList ++ stem f t k ++ ".h".toList)

theorem c_ne_h (x y : Text) : x ++ ".c".toList ≠ y ++ ".h".toList := by
  intro h
  have e1 : ".c".toList = ['.', 'c'] := by decide +kernel
  have e2 : ".h".toList = ['.', 'h'] := by decide +kernel
  rw [e1, e2] at h
  have := congrArg List.getLast? h
  simp at this

theorem pathOf_inj (env : Env) (i : Inst) (f t f' t' : Text) (k k' : Nat) (p : Text) (h : PathOf env i f t k p)
    (h' : PathOf env i f' t' k' p) (h1 : '_' ∉ t) (h2 : '_' ∉ t') : f = f' ∧ t = t' ∧ k = k' := by
  rcases h with rfl | rfl <;> rcases h' with h' | h'
  · exact stem_inj _ _ _ _ _ _ (List.append_cancel_right (place_inj _ _ _ _ h')) h1 h2
  · exact absurd (place_inj _ _ _ _ h') (c_ne_h _ _)
  · exact absurd (place_inj _ _ _ _ h').symm (c_ne_h _ _)
  · exact stem_inj _ _ _ _ _ _ (List.append_cancel_left (List.append_cancel_right (place_inj _ _ _ _ h'))) h1 h2

theorem from_paths (env : Env) (i : Inst) (c : Conn) (k : Nat) (e : CEnd) :
    ((fromCalls env i c k e).map (·.out)).Nodup ∧
    ∀ p ∈ (fromCalls env i c k e).map (·.out), e.inst = i.name ∧ PathOf env i e.iface c.type k p := by
  constructor
  · unfold fromCalls sourceCall headerCall
    split
    · split
      · simp
      · simp only [List.singleton_append, List.map_cons, List.map_nil, List.nodup_cons, List.mem_singleton,
          List.not_mem_nil, not_false_eq_true, List.nodup_nil, and_true]
        intro h
        exact c_ne_h _ _ (place_inj env i _ _ h)
    · simp
  · intro p hp
    obtain ⟨x, hx, rfl⟩ := List.mem_map.1 hp
    obtain ⟨hn, rfl | ⟨_, rfl⟩⟩ := (from_mem env i c k e x).1 hx
    · exact ⟨hn, .inl rfl⟩
    · exact ⟨hn, .inr rfl⟩

theorem to_paths (env : Env) (i : Inst) (c : Conn) (k : Nat) (e : CEnd) (hm : (env.connector c.type).cakemlTo = []) :
    ((toCalls env i c k e).map (·.out)).Nodup ∧
    ∀ p ∈ (toCalls env i c k e).map (·.out), e.inst = i.name ∧ PathOf env i e.iface c.type k p := by
  constructor
  · unfold toCalls sourceCall headerCall
    split
    · split
      · simp
      · split
        · simp
        · simp only [List.singleton_append, List.map_cons, List.map_nil, List.nodup_cons, List.mem_singleton,
            List.not_mem_nil, not_false_eq_true, List.nodup_nil, and_true]
          intro h
          exact c_ne_h _ _ (place_inj env i _ _ h)
    · simp
  · intro p hp
    obtain ⟨x, hx, rfl⟩ := List.mem_map.1 hp
    obtain ⟨hn, ⟨_, rfl⟩ | ⟨_, rfl⟩ | ⟨h, _⟩⟩ := (to_mem env i c k e x).1 hx
    · exact ⟨hn, .inl rfl⟩
    · exact ⟨hn, .inr rfl⟩
    · exact absurd hm h.2

theorem enum_pairwise {α : Type} : ∀ (l : List α) (n : Nat), List.Pairwise (fun x y => x.1 ≠ y.1) (enumFrom n l) := by
  intro l
  induction l with
  | nil => intro n; exact .nil
  | cons x l ih =>
    intro n
    refine .cons ?_ (ih (n + 1))
    intro y hy
    have := (enumFrom_mem l (n + 1) y).1 hy
    simp only
    omega

theorem flat_nodup {α : Type} (l : List α) (g : α → List Text) (h1 : ∀ x ∈ l, (g x).Nodup)
    (h2 : List.Pairwise (fun x y => ∀ p ∈ g x, p ∉ g y) l) : (l.flatMap g).Nodup := by
  induction l with
  | nil => simp
  | cons x l ih =>
    cases h2 with
    | cons hx hl =>
      rw [List.flatMap_cons, List.nodup_append]
      refine ⟨h1 x (List.mem_cons_self ..), ih (fun y hy => h1 y (List.mem_cons_of_mem _ hy)) hl, ?_⟩
      intro p hp q hq
      rintro rfl
      obtain ⟨y, hy, hpy⟩ := List.mem_flatMap.1 hq
      exact hx y hy p hp hpy

theorem conn_paths (env : Env) (a : Asm) (ha : Apart env a) (i : Inst) (c : Conn) (hc : c ∈ a.conns) :
    ((connCalls env i c).map (·.out)).Nodup ∧
    ∀ p ∈ (connCalls env i c).map (·.out), ∃ k e, (c.fromEnds[k]? = some e ∨ c.toEnds[k]? = some e) ∧ e.inst = i.name ∧
      PathOf env i e.iface c.type k p := by
  have hu := ha.underscore c hc
  have hm := ha.cakeml c hc
  constructor
  · unfold connCalls
    rw [List.map_append, List.map_flatMap, List.map_flatMap, List.nodup_append]
    refine ⟨?_, ?_, ?_⟩
    · apply flat_nodup
      · intro x _; exact (from_paths env i c x.1 x.2).1
      · refine (enum_pairwise c.fromEnds 0).imp ?_
        intro x y hxy p hp hq
        have h1 := (from_paths env i c x.1 x.2).2 p hp
        have h2 := (from_paths env i c y.1 y.2).2 p hq
        exact hxy (pathOf_inj env i _ _ _ _ _ _ p h1.2 h2.2 hu hu).2.2
    · apply flat_nodup
      · intro x _; exact (to_paths env i c x.1 x.2 hm).1
      · refine (enum_pairwise c.toEnds 0).imp ?_
        intro x y hxy p hp hq
        have h1 := (to_paths env i c x.1 x.2 hm).2 p hp
        have h2 := (to_paths env i c y.1 y.2 hm).2 p hq
        exact hxy (pathOf_inj env i _ _ _ _ _ _ p h1.2 h2.2 hu hu).2.2
    · intro p hp q hq
      rintro rfl
      obtain ⟨⟨k, e⟩, hx, hp⟩ := List.mem_flatMap.1 hp
      obtain ⟨⟨k', e'⟩, hy, hq⟩ := List.mem_flatMap.1 hq
      have h1 := (from_paths env i c k e).2 p hp
      have h2 := (to_paths env i c k' e' hm).2 p hq
      obtain ⟨e1, _, e3⟩ := pathOf_inj env i _ _ _ _ _ _ p h1.2 h2.2 hu hu
      subst e3
      exact ha.sides c hc c hc rfl k e e' ((enum_mem _ _ _).1 hx) ((enum_mem _ _ _).1 hy) (h1.1.trans h2.1.symm) e1
  · intro p hp
    obtain ⟨x, hx, rfl⟩ := List.mem_map.1 hp
    rcases (conn_mem env i c x).1 hx with ⟨k, e, hk, hx⟩ | ⟨k, e, hk, hx⟩
    · have := (from_paths env i c k e).2 x.out (List.mem_map.2 ⟨x, hx, rfl⟩)
      exact ⟨k, e, .inl hk, this⟩
    · have := (to_paths env i c k e hm).2 x.out (List.mem_map.2 ⟨x, hx, rfl⟩)
      exact ⟨k, e, .inr hk, this⟩

theorem conns_paths (env : Env) (a : Asm) (ha : Apart env a) (i : Inst) :
    ((a.conns.flatMap (connCalls env i)).map (·.out)).Nodup := by
  rw [List.map_flatMap]
  apply flat_nodup
  · intro c hc; exact (conn_paths env a ha i c hc).1
  · rw [List.pairwise_iff_getElem]
    intro m m' hm hm' hlt p hp hq
    have hc := List.getElem_mem hm
    have hc' := List.getElem_mem hm'
    obtain ⟨k, e, hs, hi, hpo⟩ := (conn_paths env a ha i _ hc).2 p hp
    obtain ⟨k', e', hs', hi', hpo'⟩ := (conn_paths env a ha i _ hc').2 p hq
    obtain ⟨e1, e2, e3⟩ := pathOf_inj env i _ _ _ _ _ _ p hpo hpo' (ha.underscore _ hc) (ha.underscore _ hc')
    subst e3
    have g := List.getElem?_eq_getElem hm
    have g' := List.getElem?_eq_getElem hm'
    have hii := hi.trans hi'.symm
    rcases hs with hs | hs <;> rcases hs' with hs' | hs'
    · have := ha.fromOnce m m' _ _ g g' e2 k e e' hs hs' hii e1
      omega
    · exact ha.sides _ hc _ hc' e2 k e e' hs hs' hii e1
    · exact ha.sides _ hc' _ hc e2.symm k e' e hs' hs hii.symm e1.symm
    · have := ha.toOnce m m' _ _ g g' e2 k e e' hs hs' hii e1
      omega

/-- The names of the files that are not made for an end. -/
def otherNames (n : Text) : List Text :=
  ["camkes.c".toList, "include/".toList ++ "camkes-component-".toList ++ n ++ ".h".toList, "camkes.environment.c".toList,
   "camkesStartScript.sml".toList, "camkesConstants.sml".toList, "camkesEndScript.sml".toList, "linker.lds".toList,
   "seL4SingleThreadedComponent.template.c".toList, "include/seL4SingleThreadedComponent.template.h".toList,
   "camkes.debug.c".toList, "camkes.simple.c".toList, "camkes.rumprun.c".toList]

theorem otherNames_nodup (n : Text) : (otherNames n).Nodup := by
  apply List.Nodup.of_map (List.take 20)
  have : (otherNames n).map (List.take 20) = (otherNames []).map (List.take 20) := by
    unfold otherNames
    simp only [List.map_cons, List.map_nil]
    have : ∀ x y : Text, ("include/".toList ++ "camkes-component-".toList ++ x ++ y).take 20
        = ("include/".toList ++ "camkes-component-".toList).take 20 := by
      intro x y
      rw [List.append_assoc]
      exact List.take_append_of_le_length (by decide +kernel)
    rw [this, this]
  rw [this]
  decide +kernel

theorem otherNames_not_end (n f t : Text) (k : Nat) (h1 : '-' ∉ f) (h2 : '/' ∉ f) :
    stem f t k ++ ".c".toList ∉ otherNames n ∧ "include/".toList ++ stem f t k ++ ".h".toList ∉ otherNames n := by
  have hs : '_' ∈ stem f t k := by unfold stem; rw [under]; simp
  have hno : ∀ x ∈ otherNames [], '_' ∉ x := by decide +kernel
  have hcase : ∀ x ∈ otherNames n, x ∈ otherNames [] ∨ x = "include/".toList ++ "camkes-component-".toList ++ n ++ ".h".toList := by
    intro x hx
    unfold otherNames at hx ⊢
    simp only [List.mem_cons, List.not_mem_nil, or_false] at hx ⊢
    rcases hx with h | h | h | h | h | h | h | h | h | h | h | h <;> simp only [h, true_or, or_true]
  have e1 : stem f t k = f ++ '_' :: (t ++ "_".toList ++ Nat.toDigits 10 k) := by
    unfold stem; rw [under]; simp
  have e2 : "include/".toList = "include".toList ++ ['/'] := by decide +kernel
  have e3 : "camkes-component-".toList = "camkes".toList ++ '-' :: "component-".toList := by decide +kernel
  constructor
  · intro h
    rcases hcase _ h with h | h
    · exact hno _ h (List.mem_append_left _ hs)
    · rw [e1, e2] at h
      simp only [List.append_assoc, List.cons_append, List.nil_append] at h
      exact sep '/' '_' _ _ _ _ h.symm h2 (by decide +kernel) (by decide)
  · intro h
    rcases hcase _ h with h | h
    · exact hno _ h (List.mem_append_left _ (List.mem_append_right _ hs))
    · rw [e1, e3] at h
      simp only [List.append_assoc] at h
      have h := List.append_cancel_left h
      simp only [List.cons_append] at h
      exact sep '-' '_' _ _ _ _ h.symm h1 (by decide +kernel) (by decide)

theorem others_sublist (env : Env) (i : Inst) (es : List Call) (he : environmentCalls env i = some es) :
    List.Sublist ((([fixed env i "camkes.c" "component.common.c" cSource none,
        ⟨inDir env i ("include/".toList ++ "camkes-component-".toList ++ i.name ++ ".h".toList), componentItem i,
          ["component.template.h".toList], [], none⟩] ++
      es ++ [fixed env i "linker.lds" "linker.lds" [] none]) ++ optionalCalls env i).map (·.out))
      ((otherNames i.name).map (place env i)) := by
  have hes := ((environmentCalls_spec env ⟨[], []⟩ i).2 es he).2
  have e : (otherNames i.name).map (place env i) =
      [place env i "camkes.c".toList,
        place env i ("include/".toList ++ "camkes-component-".toList ++ i.name ++ ".h".toList)] ++
      [place env i "camkes.environment.c".toList, place env i "camkesStartScript.sml".toList,
        place env i "camkesConstants.sml".toList, place env i "camkesEndScript.sml".toList] ++
      [place env i "linker.lds".toList] ++
      (([place env i "seL4SingleThreadedComponent.template.c".toList,
        place env i "include/seL4SingleThreadedComponent.template.h".toList] ++
      [place env i "camkes.debug.c".toList]) ++ [place env i "camkes.simple.c".toList] ++
      [place env i "camkes.rumprun.c".toList]) := rfl
  rw [e]
  simp only [List.map_append]
  refine List.Sublist.append (List.Sublist.append (List.Sublist.append (List.Sublist.refl _) ?_) (List.Sublist.refl _)) ?_
  · rcases hes with ⟨_, rfl⟩ | ⟨_, rfl⟩
    · exact .cons_cons _ (List.nil_sublist _)
    · exact .cons _ (List.Sublist.refl _)
  · unfold optionalCalls
    simp only [List.map_append]
    refine List.Sublist.append (List.Sublist.append (List.Sublist.append ?_ ?_) ?_) ?_
    · cases i.singleThreaded
      · exact List.nil_sublist _
      · exact List.Sublist.refl _
    · cases i.debug
      · exact List.nil_sublist _
      · exact List.Sublist.refl _
    · cases i.simple
      · exact List.nil_sublist _
      · exact List.Sublist.refl _
    · cases i.rump
      · exact List.nil_sublist _
      · exact List.Sublist.refl _

theorem inst_paths (env : Env) (a : Asm) (ha : Apart env a) (i : Inst) (hi : i ∈ a.insts) (cs : List Call)
    (h : instCalls env a i = some cs) : (cs.map (·.out)).Nodup ∧ ∀ p ∈ cs.map (·.out), ∃ x, p = place env i x := by
  unfold instCalls at h
  cases he : environmentCalls env i with
  | none => rw [he] at h; cases h
  | some es =>
    rw [he] at h
    simp only [Option.some.injEq] at h
    subst h
    have ht : templateCalls env i = [] := by
      unfold templateCalls; rw [ha.sources i hi, ha.headers i hi]; rfl
    rw [ht, List.append_nil]
    have hsub := others_sublist env i es he
    have hnd : ((otherNames i.name).map (place env i)).Nodup :=
      (otherNames_nodup i.name).map (fun x y hxy => place_inj env i x y hxy)
    have hend : ∀ p ∈ (a.conns.flatMap (connCalls env i)).map (·.out), p ∉ (otherNames i.name).map (place env i) ∧
        ∃ x, p = place env i x := by
      intro p hp
      rw [List.map_flatMap] at hp
      obtain ⟨c, hc, hp⟩ := List.mem_flatMap.1 hp
      obtain ⟨k, e, hs, _, hpo⟩ := (conn_paths env a ha i c hc).2 p hp
      have hy : '-' ∉ e.iface ∧ '/' ∉ e.iface := by
        rcases hs with hs | hs
        · exact (ha.hyphen c hc).1 e (List.mem_of_getElem? hs)
        · exact (ha.hyphen c hc).2 e (List.mem_of_getElem? hs)
      have hno := otherNames_not_end i.name e.iface c.type k hy.1 hy.2
      constructor
      · intro hm
        obtain ⟨x, hx, hxp⟩ := List.mem_map.1 hm
        rcases hpo with rfl | rfl
        · exact hno.1 (by rw [← place_inj _ _ _ _ hxp]; exact hx)
        · exact hno.2 (by rw [← place_inj _ _ _ _ hxp]; exact hx)
      · rcases hpo with rfl | rfl <;> exact ⟨_, rfl⟩
    generalize hX : ([fixed env i "camkes.c" "component.common.c" cSource none,
        ⟨inDir env i ("include/".toList ++ "camkes-component-".toList ++ i.name ++ ".h".toList), componentItem i,
          ["component.template.h".toList], [], none⟩] ++
      es ++ [fixed env i "linker.lds" "linker.lds" [] none] : List Call) = X at hsub ⊢
    have hK := conns_paths env a ha i
    generalize a.conns.flatMap (connCalls env i) = K at hend hK ⊢
    have hXO := hnd.sublist hsub
    rw [List.map_append, List.nodup_append] at hXO
    have hother : ∀ p, p ∈ X.map (·.out) ∨ p ∈ (optionalCalls env i).map (·.out) → p ∈ (otherNames i.name).map (place env i) := by
      intro p hp
      apply hsub.subset
      rw [List.map_append, List.mem_append]
      exact hp
    constructor
    · rw [List.map_append, List.map_append, List.nodup_append, List.nodup_append]
      refine ⟨⟨hXO.1, hK, ?_⟩, hXO.2.1, ?_⟩
      · intro p hp q hq
        rintro rfl
        exact (hend p hq).1 (hother p (.inl hp))
      · intro p hp q hq
        rintro rfl
        rcases List.mem_append.1 hp with hp | hp
        · exact hXO.2.2 p hp p hq rfl
        · exact (hend p hp).1 (hother p (.inr hq))
    · intro p hp
      rw [List.map_append, List.map_append, List.mem_append, List.mem_append] at hp
      have hpl : ∀ q, q ∈ (otherNames i.name).map (place env i) → ∃ x, q = place env i x := by
        intro q hq
        obtain ⟨x, _, rfl⟩ := List.mem_map.1 hq
        exact ⟨x, rfl⟩
      rcases hp with (hp | hp) | hp
      · exact hpl p (hother p (.inl hp))
      · exact (hend p hp).2
      · exact hpl p (hother p (.inr hp))

theorem places_apart (env : Env) (i j : Inst) (x y : Text) (h : place env i x = place env j y) (hi : '/' ∉ i.name)
    (hj : '/' ∉ j.name) : i.name = j.name := by
  unfold place at h
  rw [slash_] at h
  simp only [List.append_assoc, List.cons_append, List.nil_append] at h
  have h := List.append_cancel_left h
  simp only [List.cons.injEq, true_and] at h
  exact (cut_first '/' _ _ _ _ h hi hj).1

theorem forall2_map_eq {α β γ : Type} (R : α → β → Prop) (f : α → γ) (g : β → γ) (hR : ∀ x y, R x y → f x = g y) :
    ∀ {l : List α} {m : List β}, List.Forall₂ R l m → l.map f = m.map g := by
  intro l m h
  induction h with
  | nil => rfl
  | cons hr _ ih => simp [hR _ _ hr, ih]

/-- **C112** (partial: names with underscores, templates of the user and CakeML are excluded, see
`Spec.Apart`). No two generated files have the same path: nothing that is generated is overwritten. -/
theorem distinct_partial (env : Env) (a : Asm) (hn : Named env a) (ht : HasTemplates env a) (ha : Apart env a) (s : State)
    (bs : List Build) (h : generate env a = some (s, bs)) : s.outfiles.Nodup := by
  obtain ⟨rows, r1, r2, _, e2, _, _⟩ := (generate_rows env a hn ht).2 s bs h
  have hsub : ∀ r ∈ rows, r.1 ∈ a.insts := by
    intro r hr
    have : r.1 ∈ software a := by rw [← r1]; exact List.mem_map.2 ⟨r, hr, rfl⟩
    exact (List.mem_filter.1 this).1
  have hpaths : ∀ r ∈ rows, (r.2.1.map (·.path)).Nodup ∧ ∀ p ∈ r.2.1.map (·.path), ∃ x, p = place env r.1 x := by
    intro r hr
    obtain ⟨cs, hc, hf, _, _⟩ := r2 r hr
    have := inst_paths env a ha r.1 (hsub r hr) cs hc
    rw [forall2_map_eq Makes (fun c => c.out) (fun f => f.path) (fun c f hm => hm.1) hf] at this
    exact this
  rw [e2, List.map_cons, List.nodup_cons]
  constructor
  · intro hm
    rw [List.map_flatMap] at hm
    obtain ⟨r, hr, hp⟩ := List.mem_flatMap.1 hm
    obtain ⟨x, hx⟩ := (hpaths r hr).2 _ hp
    have hx : env.dir ++ "/graph.dot".toList = env.dir ++ "/".toList ++ r.1.name ++ "/".toList ++ x := hx
    simp only [List.append_assoc] at hx
    have hx := List.append_cancel_left hx
    have e : "/graph.dot".toList = '/' :: "graph.dot".toList := by decide +kernel
    rw [e, slash_] at hx
    simp only [List.cons_append, List.nil_append, List.cons.injEq, true_and] at hx
    have : '/' ∈ "graph.dot".toList := by rw [hx]; simp
    exact absurd this (by decide +kernel)
  · rw [List.map_flatMap]
    apply flat_nodup
    · intro r hr; exact (hpaths r hr).1
    · have hnd : ((rows.map (·.1)).map (·.name)).Nodup := by
        rw [r1]
        exact ha.insts.sublist (List.Sublist.map _ List.filter_sublist)
      rw [List.map_map, List.Nodup, List.pairwise_map] at hnd
      refine hnd.imp_of_mem ?_
      intro r r' hr hr' hne p hp hq
      obtain ⟨x, hx⟩ := (hpaths r hr).2 p hp
      obtain ⟨y, hy⟩ := (hpaths r' hr').2 p hq
      exact hne (places_apart env r.1 r'.1 x y (hx.symm.trans hy) (ha.slash _ (hsub r hr)) (ha.slash _ (hsub r' hr')))

/-! ### The declarations of connectors -/

theorem fold_property (g : Connector → Text) (hg : ∀ o d, g (declare o d) = appendProperty (g o) (g d)) :
    ∀ (ds : List Connector) (o : Connector), (∀ d ∈ ds, g d = []) → g (ds.foldl declare o) = g o := by
  intro ds
  induction ds with
  | nil => intro o _; rfl
  | cons d ds ih =>
    intro o h
    rw [List.foldl_cons, ih _ (fun x hx => h x (List.mem_cons_of_mem _ hx)), hg, h d (List.mem_cons_self ..)]
    simp [appendProperty]

theorem declared_property (g : Connector → Text) (hg : ∀ o d, g (declare o d) = appendProperty (g o) (g d))
    (h0 : g ⟨[], [], [], [], []⟩ = []) (ds1 ds2 : List Connector) (d : Connector) (h1 : ∀ x ∈ ds1, g x = [])
    (h2 : ∀ x ∈ ds2, g x = []) : g (declared (ds1 ++ d :: ds2)) = g d := by
  unfold declared
  rw [List.foldl_append, List.foldl_cons, fold_property g hg ds2 _ h2, hg, fold_property g hg ds1 _ h1, h0]
  unfold appendProperty
  split
  · rename_i h; exact h.symm
  · simp

/-- **C112.** A connector may be declared in parts, in any order: each of its templates is the one that is given in the
only declaration that gives it. -/
theorem declared_once (ds1 ds2 : List Connector) (d : Connector) :
    ((∀ x ∈ ds1 ++ ds2, x.from_ = []) → (declared (ds1 ++ d :: ds2)).from_ = d.from_) ∧
    ((∀ x ∈ ds1 ++ ds2, x.to_ = []) → (declared (ds1 ++ d :: ds2)).to_ = d.to_) ∧
    ((∀ x ∈ ds1 ++ ds2, x.cakemlTo = []) → (declared (ds1 ++ d :: ds2)).cakemlTo = d.cakemlTo) ∧
    ((∀ x ∈ ds1 ++ ds2, x.fromHeader = []) → (declared (ds1 ++ d :: ds2)).fromHeader = d.fromHeader) ∧
    ((∀ x ∈ ds1 ++ ds2, x.toHeader = []) → (declared (ds1 ++ d :: ds2)).toHeader = d.toHeader) := by
  refine ⟨fun h => ?_, fun h => ?_, fun h => ?_, fun h => ?_, fun h => ?_⟩
  · exact declared_property (·.from_) (fun _ _ => rfl) rfl ds1 ds2 d (fun x hx => h x (List.mem_append_left _ hx))
      (fun x hx => h x (List.mem_append_right _ hx))
  · exact declared_property (·.to_) (fun _ _ => rfl) rfl ds1 ds2 d (fun x hx => h x (List.mem_append_left _ hx))
      (fun x hx => h x (List.mem_append_right _ hx))
  · exact declared_property (·.cakemlTo) (fun _ _ => rfl) rfl ds1 ds2 d (fun x hx => h x (List.mem_append_left _ hx))
      (fun x hx => h x (List.mem_append_right _ hx))
  · exact declared_property (·.fromHeader) (fun _ _ => rfl) rfl ds1 ds2 d (fun x hx => h x (List.mem_append_left _ hx))
      (fun x hx => h x (List.mem_append_right _ hx))
  · exact declared_property (·.toHeader) (fun _ _ => rfl) rfl ds1 ds2 d (fun x hx => h x (List.mem_append_left _ hx))
      (fun x hx => h x (List.mem_append_right _ hx))

theorem semis_two : ∀ (x cur y : Text), ';' ∉ x → ';' ∉ y → semis cur (x ++ ';' :: y) = [cur ++ x, y] := by
  intro x
  induction x with
  | nil =>
    intro cur y _ hy
    simp only [List.nil_append, semis, ↓reduceIte, semis_clean y [] hy, List.append_nil]
  | cons c x ih =>
    intro cur y hx hy
    have hc : c ≠ ';' := fun e => hx (by simp [e])
    simp only [List.cons_append, semis, hc, ↓reduceIte]
    rw [ih _ y (fun hm => hx (List.mem_cons_of_mem _ hm)) hy]
    simp

theorem two_templates (s : State) (c : Call) (x y : Text) (hx : Clean x) (hy : Clean y) (ho : NoOption y)
    (h : c.template = expand [x ++ ";".toList ++ y]) : camkesGen s c = none := by
  have e : expand [x ++ ";".toList ++ y] = [x, y] := by
    have hs : ";".toList = [';'] := by decide +kernel
    have ex : x.isEmpty = false := by cases x with | nil => exact absurd rfl hx.1 | cons => rfl
    have ey : y.isEmpty = false := by cases y with | nil => exact absurd rfl hy.1 | cons => rfl
    rw [hs]
    simp only [expand, List.flatMap_cons, List.flatMap_nil, List.append_nil, List.append_assoc, List.singleton_append,
      semis_two x [] y hx.2 hy.2, List.nil_append, List.filter_cons, ex, ey]
    rfl
  have hp : parseFlags (y :: c.flags) = none := by
    cases c.flags <;> (unfold parseFlags; rw [if_neg ho.1, if_neg ho.2.1, if_neg ho.2.2])
  unfold camkesGen
  rw [h, e]
  simp only [List.cons_append, List.nil_append, hp]

theorem run_none : ∀ (cs : List Call) (s : State) (c : Call), c ∈ cs → (∀ s, camkesGen s c = none) → runCalls s cs = none := by
  intro cs
  induction cs with
  | nil => intro s c h; cases h
  | cons d cs ih =>
    intro s c h hn
    simp only [runCalls]
    rcases List.mem_cons.1 h with rfl | h
    · rw [hn]
    · cases camkesGen s d with
      | none => rfl
      | some s' => exact ih s' c h hn

theorem loop_none (env : Env) (a : Asm) (c : Call) (i : Inst) (hh : i.hardware = false) (hn : ∀ s, camkesGen s c = none)
    (hc : ∀ cs, instCalls env a i = some cs → c ∈ cs) : ∀ (is : List Inst) (s : State), i ∈ is → instLoop env a s is = none := by
  intro is
  induction is with
  | nil => intro s h; cases h
  | cons j is ih =>
    intro s h
    simp only [instLoop]
    rcases List.mem_cons.1 h with rfl | h
    · rw [hh]
      simp only [Bool.false_eq_true, ↓reduceIte]
      cases hcs : instCalls env a i with
      | none => rfl
      | some cs => simp only [run_none cs _ c (hc cs hcs) hn]
    · split
      · exact ih s h
      · cases instCalls env a j with
        | none => rfl
        | some cs =>
          simp only
          cases runCalls { s with sources := [], cakeml := [], files := [] } cs with
          | none => rfl
          | some s' => simp only [ih s' h]

/-- **C112.** If a connector has been declared twice with a template for the same side, an assembly that uses that side
in an instance of software is refused. -/
theorem declared_twice_refused (env : Env) (a : Asm) (i : Inst) (hi : i ∈ software a) (c : Conn) (hc : c ∈ a.conns)
    (k : Nat) (e : CEnd) (he : FromEnd i c k e) (d1 d2 : Connector) (h1 : Clean d1.from_) (h2 : Clean d2.from_)
    (ho : NoOption d2.from_) (hd : env.connector c.type = declared [d1, d2]) : generate env a = none := by
  have hf : (env.connector c.type).from_ = d1.from_ ++ ";".toList ++ d2.from_ := by
    rw [hd]
    simp [declared, declare, appendProperty, h1.1, h2.1]
  have hi' := List.mem_filter.1 hi
  have hh : i.hardware = false := by simpa using hi'.2
  unfold generate
  cases camkesGen ⟨[], [], [], [], [], []⟩ (graphCall env) with
  | none => rfl
  | some s =>
    refine loop_none env a ⟨place env i (stem e.iface c.type k ++ ".c".toList), ofEnd c "from" k,
          expand [(env.connector c.type).from_], cSource, none⟩ i hh (fun s => ?_) (fun cs hcs => ?_) a.insts s hi'.1
    · exact two_templates s _ _ _ h1 h2 ho (by simp only [hf])
    · unfold instCalls at hcs
      cases hes : environmentCalls env i with
      | none => rw [hes] at hcs; cases hcs
      | some es =>
        rw [hes] at hcs
        simp only [Option.some.injEq] at hcs
        subst hcs
        simp only [List.mem_append, List.mem_flatMap]
        exact .inl (.inl (.inr ⟨c, hc, (conn_mem env i c _).2
          (.inl ⟨k, e, he.1, (from_mem env i c k e _).2 ⟨he.2, .inl rfl⟩⟩)⟩))

/-! ### Demonstrations -/

/-- A connector with both templates and a header. -/
def demoRpc : Connector := ⟨"rpc-from.c".toList, "rpc-to.c".toList, [], [], "rpc-to.h".toList⟩

/-- A connector of another type. -/
def demoEvent : Connector := ⟨"event-from.c".toList, "event-to.c".toList, "event-to.cakeml".toList, [], []⟩

/-- The targets. -/
def demoEnv : Env :=
  ⟨fun t => if t = "rpc".toList then demoRpc else if t = "event".toList then demoEvent else ⟨[], [], [], [], []⟩,
   fun t => if t = "Server".toList then ["src/extra.template.c".toList] else [], fun _ => [], "/b".toList⟩

def demoClient : Inst := ⟨"client".toList, "Client".toList, "one".toList, false, none, false, true, false, false⟩
def demoServer : Inst := ⟨"server".toList, "Server".toList, "two".toList, false, some "C".toList, true, false, false, false⟩
def demoTimer : Inst := ⟨"timer".toList, "Timer".toList, "timer".toList, true, none, false, false, false, false⟩

def demoAsm : Asm :=
  ⟨[demoClient, demoServer, demoTimer],
   [⟨"call".toList, "rpc".toList, [⟨"client".toList, "out".toList, ⟨0, "one".toList⟩⟩],
      [⟨"server".toList, "in".toList, ⟨1, "two".toList⟩⟩]⟩,
    ⟨"tick".toList, "event".toList, [⟨"timer".toList, "irq".toList, ⟨2, "timer".toList⟩⟩],
      [⟨"server".toList, "tick".toList, ⟨3, "two".toList⟩⟩]⟩]⟩

/-- The build of the demonstration: the files of the server and its `camkes.h`. -/
theorem demo_generate : (generate demoEnv demoAsm).map (fun r => (r.2.map fun b => String.ofList b.inst, r.2.map fun b => b.sources.map String.ofList,
      r.2.map fun b => String.ofList b.header)) =
    some (["client", "server"],
      [["/b/client/camkes.c", "/b/client/camkes.environment.c", "/b/client/out_rpc_0.c", "/b/client/camkes.debug.c"],
       ["/b/server/camkes.c", "/b/server/camkes.environment.c", "/b/server/in_rpc_0.c", "/b/server/tick_event_0.c",
        "/b/server/extra.template.c", "/b/server/seL4SingleThreadedComponent.template.c",
        "/b/server/include/seL4SingleThreadedComponent.template.h"]],
      ["#pragma once\n\n#include \"camkes-component-client.h\"\n",
       "#pragma once\n\n#include \"camkes-component-server.h\"\n#include \"in_rpc_0.h\"\n#include \"seL4SingleThreadedComponent.template.h\"\n"]) := by
  decide +kernel

theorem demo_named : Named demoEnv demoAsm := by
  constructor <;> decide +kernel

/-- Every template of a connector of the demonstration is one text, or none. -/
def DemoConns (env : Env) : Prop := ∀ c ∈ demoAsm.conns,
    Clean (env.connector c.type).from_ ∧ Clean (env.connector c.type).to_ ∧
    ((env.connector c.type).fromHeader ≠ [] → Clean (env.connector c.type).fromHeader) ∧
    ((env.connector c.type).toHeader ≠ [] → Clean (env.connector c.type).toHeader) ∧
    ((env.connector c.type).cakemlTo ≠ [] → Clean (env.connector c.type).cakemlTo)

theorem demo_templates (env : Env) (he : DemoConns env) (hs : ∀ t, ∀ x ∈ env.templateSources t, Clean x)
    (hh : ∀ t, ∀ x ∈ env.templateHeaders t, Clean x) : HasTemplates env demoAsm := by
  intro i _ _ f hf
  cases hf with
  | from_ c k e hc => exact (he c hc).1
  | to_ c k e hc => exact (he c hc).2.1
  | fromHeader c k e hc _ h => exact (he c hc).2.2.1 h
  | toHeader c k e hc _ _ h => exact (he c hc).2.2.2.1 h
  | toCakeML c k e hc _ _ h => exact (he c hc).2.2.2.2 h
  | userSource t ht => exact hs _ t ht
  | userHeader t ht => exact hh _ t ht
  | entry => exact show Clean "component.common.c".toList by decide +kernel
  | header => exact show Clean "component.template.h".toList by decide +kernel
  | linker => exact show Clean "linker.lds".toList by decide +kernel
  | c => exact show Clean "component.environment.c".toList by decide +kernel
  | mlStart => exact show Clean "component.environment.start.cakeml".toList by decide +kernel
  | mlConstants => exact show Clean "camkesConstants.sml".toList by decide +kernel
  | mlEnd => exact show Clean "component.environment.end.cakeml".toList by decide +kernel
  | single => exact show Clean "seL4SingleThreadedComponent.template.c".toList by decide +kernel
  | singleHeader => exact show Clean "seL4SingleThreadedComponent.template.h".toList by decide +kernel
  | debug => exact show Clean "component.debug.c".toList by decide +kernel
  | simple => exact show Clean "component.simple.c".toList by decide +kernel
  | rump => exact show Clean "component.rumprun.c".toList by decide +kernel

/-- The demonstration meets the hypotheses of `files_exact`, `built` and `generates_iff`. -/
theorem demo_checked : Named demoEnv demoAsm ∧ HasTemplates demoEnv demoAsm ∧ ∃ r, generate demoEnv demoAsm = some r := by
  refine ⟨demo_named, demo_templates demoEnv (by unfold DemoConns; decide +kernel) ?_ ?_, ?_⟩
  · intro t x hx
    unfold demoEnv at hx
    simp only at hx
    split at hx
    · rw [List.mem_singleton.1 hx]; decide +kernel
    · cases hx
  · intro t x hx; cases hx
  · cases h : generate demoEnv demoAsm with
    | none =>
      have hd := demo_generate
      rw [h] at hd
      cases hd
    | some r => exact ⟨r, rfl⟩

/-- The same targets without templates of the user and without CakeML. -/
def demoPlain : Env :=
  { demoEnv with
    connector := fun t => { demoEnv.connector t with cakemlTo := [] }
    templateSources := fun _ => [] }

/-- The demonstration meets the hypotheses of `distinct_partial`. -/
theorem demo_apart : Apart demoPlain demoAsm where
  insts := by decide +kernel
  slash := by decide +kernel
  underscore := by decide +kernel
  hyphen := by decide +kernel
  sources := fun _ _ => rfl
  headers := fun _ _ => rfl
  cakeml := fun _ _ => rfl
  sides := by
    intro c hc c' hc' ht k e e' he he' hi hf
    have h1 := List.mem_of_getElem? he
    have h2 := List.mem_of_getElem? he'
    have key : ∀ c ∈ demoAsm.conns, ∀ c' ∈ demoAsm.conns, ∀ e ∈ c.fromEnds, ∀ e' ∈ c'.toEnds, e.inst = e'.inst →
        e.iface = e'.iface → False := by decide +kernel
    exact key c hc c' hc' e h1 e' h2 hi hf
  fromOnce := by
    intro m m' c c' hm hm' ht k e e' _ _ _ _
    have key : ∀ m < 2, ∀ m' < 2, (demoAsm.conns[m]?.map (·.type)) = (demoAsm.conns[m']?.map (·.type)) → m = m' := by
      decide +kernel
    have l1 := (List.getElem?_eq_some_iff.1 hm).1
    have l2 := (List.getElem?_eq_some_iff.1 hm').1
    exact key m l1 m' l2 (by rw [hm, hm']; simp [ht])
  toOnce := by
    intro m m' c c' hm hm' ht k e e' _ _ _ _
    have key : ∀ m < 2, ∀ m' < 2, (demoAsm.conns[m]?.map (·.type)) = (demoAsm.conns[m']?.map (·.type)) → m = m' := by
      decide +kernel
    have l1 := (List.getElem?_eq_some_iff.1 hm).1
    have l2 := (List.getElem?_eq_some_iff.1 hm').1
    exact key m l1 m' l2 (by rw [hm, hm']; simp [ht])

/-- It meets the other hypotheses, too. -/
theorem demo_plain_checked : Named demoPlain demoAsm ∧ HasTemplates demoPlain demoAsm ∧
    (generate demoPlain demoAsm).isSome = true :=
  ⟨by constructor <;> decide +kernel,
   demo_templates demoPlain (by unfold DemoConns; decide +kernel) (fun _ x hx => by cases hx) (fun _ x hx => by cases hx),
   by decide +kernel⟩

/-- The output files of a build, as strings. -/
def outfilesOf (env : Env) (a : Asm) : Option (List String) := (generate env a).map fun r => r.1.outfiles.map String.ofList

/-- Two connector types, one with an underscore. -/
def underscoreEnv : Env := ⟨fun _ => ⟨"f.c".toList, "t.c".toList, [], [], []⟩, fun _ => [], fun _ => [], "/b".toList⟩

/-- **Disagreement with C112.** The interface `a` in a connection of type `b_c` and the interface `a_b` in one of type
`c` get the same file: one of them is overwritten, and the instance is compiled with the code of only one of its ends. -/
theorem underscores_collide :
    outfilesOf underscoreEnv ⟨[⟨"x".toList, "X".toList, "x".toList, false, none, false, false, false, false⟩],
      [⟨"one".toList, "b_c".toList, [⟨"x".toList, "a".toList, ⟨0, "x".toList⟩⟩], []⟩,
       ⟨"two".toList, "c".toList, [⟨"x".toList, "a_b".toList, ⟨1, "x".toList⟩⟩], []⟩]⟩ =
    some ["/b/graph.dot", "/b/x/camkes.c", "/b/x/include/camkes-component-x.h", "/b/x/camkes.environment.c",
      "/b/x/linker.lds", "/b/x/a_b_c_0.c", "/b/x/a_b_c_0.c"] := by decide +kernel

/-- **Disagreement with C112.** An instance of CakeML code with two ends that have CakeML templates gets
`connectorScript.sml` twice. -/
theorem cakeml_collides :
    outfilesOf demoEnv ⟨[⟨"x".toList, "X".toList, "x".toList, false, some "CakeML".toList, false, false, false, false⟩],
      [⟨"one".toList, "event".toList, [], [⟨"x".toList, "a".toList, ⟨0, "x".toList⟩⟩]⟩,
       ⟨"two".toList, "event".toList, [], [⟨"x".toList, "b".toList, ⟨1, "x".toList⟩⟩]⟩]⟩ =
    some ["/b/graph.dot", "/b/x/camkes.c", "/b/x/include/camkes-component-x.h", "/b/x/camkesStartScript.sml",
      "/b/x/camkesConstants.sml", "/b/x/camkesEndScript.sml", "/b/x/linker.lds", "/b/x/connectorScript.sml",
      "/b/x/connectorScript.sml"] := by decide +kernel

/-- **Disagreement with C112.** Two templates of the user with the same file name in different directories are written
to the same file. -/
theorem user_templates_collide :
    outfilesOf ⟨fun _ => ⟨[], [], [], [], []⟩, fun _ => ["p/t.c".toList, "q/t.c".toList], fun _ => [], "/b".toList⟩
      ⟨[⟨"x".toList, "X".toList, "x".toList, false, none, false, false, false, false⟩], []⟩ =
    some ["/b/graph.dot", "/b/x/camkes.c", "/b/x/include/camkes-component-x.h", "/b/x/camkes.environment.c",
      "/b/x/linker.lds", "/b/x/t.c", "/b/x/t.c"] := by decide +kernel

/-- **Disagreement with C112.** A connector that has no template for a side is accepted: the file of the end is to be
made from a template called `SOURCE`, and it is not compiled. -/
theorem no_template_accepted :
    (generate ⟨fun _ => ⟨[], "t.c".toList, [], [], []⟩, fun _ => [], fun _ => [], "/b".toList⟩
      ⟨[⟨"x".toList, "X".toList, "x".toList, false, none, false, false, false, false⟩],
       [⟨"one".toList, "c".toList, [⟨"x".toList, "a".toList, ⟨0, "x".toList⟩⟩], []⟩]⟩).map
      (fun r => (r.1.templates.map String.ofList, r.1.outfiles.map String.ofList, r.2.map fun b => b.sources.map String.ofList)) =
    some (["graph.dot", "component.common.c", "component.template.h", "component.environment.c", "linker.lds", "SOURCE"],
      ["/b/graph.dot", "/b/x/camkes.c", "/b/x/include/camkes-component-x.h", "/b/x/camkes.environment.c",
        "/b/x/linker.lds", "/b/x/a_c_0.c"],
      [["/b/x/camkes.c", "/b/x/camkes.environment.c"]]) := by decide +kernel

/-- An environment that is not known is refused. -/
theorem demo_refused : generate demoEnv ⟨[{ demoClient with environment := some "rust".toList }], []⟩ = none := by
  decide +kernel

/-- A connector that was declared twice is refused. -/
theorem demo_declared_twice :
    generate ⟨fun _ => declared [⟨"f.c".toList, [], [], [], []⟩, ⟨"f.c".toList, [], [], [], []⟩], fun _ => [], fun _ => [],
      "/b".toList⟩
      ⟨[⟨"x".toList, "X".toList, "x".toList, false, none, false, false, false, false⟩],
       [⟨"one".toList, "c".toList, [⟨"x".toList, "a".toList, ⟨0, "x".toList⟩⟩], []⟩]⟩ = none := by decide +kernel

end Verif.GenFiles
