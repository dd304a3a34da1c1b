import Verif.ArgLint.Spec

/-!
# C144: the check of leading assertions
-/

namespace Verif.ArgLint

theorem body_leading (py3 : Bool) (args : List Text) : ∀ (before : List Expr) (t : Expr) (after : List Stmt) (m : List Msg),
    checkBody py3 args (before.map Stmt.assert ++ .assert t :: after) = some m → ∃ k, checkTest py3 args t = some k ∧ ∀ x ∈ k, x ∈ m
  | [], t, after, m, h => by
    rw [List.map_nil, List.nil_append, checkBody] at h
    split at h
    · cases h
    · rename_i k hk
      refine ⟨k, hk, ?_⟩
      obtain ⟨r, _, rfl⟩ := Option.map_eq_some_iff.mp h
      exact fun x hx => List.mem_append_left _ hx
  | b :: before, t, after, m, h => by
    rw [List.map_cons, List.cons_append, checkBody] at h
    split at h
    · cases h
    · obtain ⟨r, hr, rfl⟩ := Option.map_eq_some_iff.mp h
      obtain ⟨k, hk, hm⟩ := body_leading py3 args before t after r hr
      exact ⟨k, hk, fun x hx => List.mem_append_right _ (hm x hx)⟩

theorem lint_member (py3 : Bool) : ∀ (fs : List Func) (m : List Msg), lint py3 fs = some m → ∀ f ∈ fs, ∃ k, checkFunc py3 f = some k ∧ ∀ x ∈ k, x ∈ m
  | [], _, _, f, hf => by cases hf
  | g :: fs, m, h, f, hf => by
    rw [lint] at h
    split at h
    · cases h
    · rename_i k hk
      obtain ⟨r, hr, rfl⟩ := Option.map_eq_some_iff.mp h
      rcases List.mem_cons.mp hf with rfl | hf
      · exact ⟨k, hk, fun x hx => List.mem_append_left _ hx⟩
      · obtain ⟨k', hk', hm⟩ := lint_member py3 fs r hr f hf
        exact ⟨k', hk', fun x hx => List.mem_append_right _ (hm x hx)⟩

theorem call_right {args : List Text} {l : List Expr} (h : checkCall false args l = some []) :
    ∃ e c, l = [e, c] ∧ ((∃ x, nameOf false e = some x ∧ x ∈ args) ∨ ∃ a v, e = .attr v a ∧ nameOf false v = some "self".toList) := by
  unfold checkCall at h
  split at h
  · rename_i e c
    refine ⟨e, c, rfl, ?_⟩
    split at h
    · rename_i v f
      split at h
      · rename_i id hid
        refine .inr ⟨f, v, rfl, ?_⟩
        by_cases hs : id = "self".toList
        · rw [hid, hs]
        · rw [if_pos hs] at h; cases h
      · cases h
    · split at h
      · rename_i id hid
        refine .inl ⟨id, hid, ?_⟩
        by_cases hs : id ∈ args
        · exact hs
        · rw [if_pos hs] at h; cases h
      · cases h
  · cases h

theorem name_back {e : Expr} {x : Text} (h : nameOf false e = some x) (hx : x ≠ "None".toList) : e = .name x := by
  cases e with
  | name id => rw [nameOf] at h; cases h; rfl
  | none => rw [nameOf] at h; cases h; exact absurd rfl hx
  | _ => cases h

theorem find_leading {f : Func} {t : Expr} (ht : Leading f t) (py3 : Bool) (fs : List Func) (hf : f ∈ fs) (h : clean py3 fs = true) :
    checkTest py3 f.args t = some [] := by
  unfold clean at h
  rw [decide_eq_true_eq] at h
  obtain ⟨k, hk, hm⟩ := lint_member py3 fs [] h f hf
  unfold checkFunc at hk
  split at hk
  · cases hk
  · obtain ⟨before, after, hb⟩ := ht
    rw [hb] at hk
    obtain ⟨j, hj, hm'⟩ := body_leading py3 f.args before t after k hk
    have : j = [] := List.eq_nil_iff_forall_not_mem.mpr fun x hx => absurd (hm x (hm' x hx)) List.not_mem_nil
    rw [hj, this]

/-- C144: with Python 2, if the check of a file says nothing, every type check at the beginning of a function has two arguments and is about
an argument of that function or an attribute of `self`; and so is the comparison with `None` before it. -/
theorem sound_partial (fs : List Func) (h : clean false fs = true) (f : Func) (hf : f ∈ fs) (hargs : "None".toList ∉ f.args)
    (t : Expr) (ht : Leading f t) (l : List Expr) (hl : TypeCheck t l) :
    (∃ e c, l = [e, c] ∧ Subject f e) ∧ ∀ x s more, t = .or (.isTest (.name x) .none) s more → x ∈ f.args := by
  have hc := find_leading ht false fs hf h
  have hsub : ∀ {l}, checkCall false f.args l = some [] → ∃ e c, l = [e, c] ∧ Subject f e := by
    intro l hcall
    obtain ⟨e, c, rfl, hs⟩ := call_right hcall
    refine ⟨e, c, rfl, ?_⟩
    rcases hs with ⟨x, hx, hm⟩ | ⟨a, v, rfl, hv⟩
    · exact .inl ⟨x, name_back hx (fun he => hargs (he ▸ hm)), hm⟩
    · exact .inr ⟨a, by rw [name_back hv (by decide)]⟩
  rcases hl with rfl | ⟨x, more, rfl⟩
  · refine ⟨hsub ?_, fun _ _ _ h => by cases h⟩
    simpa [checkTest, bareCall, nameOf] using hc
  · rw [checkTest] at hc
    simp only [nameOf, orCall, if_true] at hc
    obtain ⟨m, hm, hc⟩ := Option.map_eq_some_iff.mp hc
    rw [List.append_eq_nil_iff, List.append_eq_nil_iff] at hc
    obtain ⟨⟨h1, _⟩, rfl⟩ := hc
    refine ⟨hsub hm, ?_⟩
    intro y s more' he
    cases he
    by_cases hx : x ∈ f.args
    · exact hx
    · rw [if_pos hx] at h1; cases h1

theorem body_clean (py3 : Bool) (args : List Text) : ∀ (body : List Stmt),
    (∀ (before : List Expr) (t : Expr) (after : List Stmt), body = before.map Stmt.assert ++ .assert t :: after → checkTest py3 args t = some []) → checkBody py3 args body = some []
  | [], _ => by rw [checkBody]; exact fun _ _ h => by cases h
  | .other :: rest, _ => by rw [checkBody]; exact fun _ _ h => by cases h
  | .assert t :: rest, h => by
    rw [checkBody, h [] t rest rfl]
    have := body_clean py3 args rest fun before u after he => h (t :: before) u after (by rw [he]; rfl)
    simp [this]

/-- C144: with Python 2, nothing is said about a file whose leading assertions are such type checks. -/
theorem no_false_alarm_partial (fs : List Func)
    (h : ∀ f ∈ fs, ∀ t, Leading f t → t = .other ∨ ∃ e c, Subject f e ∧
      (t = .call (.name "isinstance".toList) [e, c] ∨
        ∃ x more, x ∈ f.args ∧ t = .or (.isTest (.name x) .none) (.call (.name "isinstance".toList) [e, c]) more)) :
    clean false fs = true := by
  unfold clean
  rw [decide_eq_true_eq]
  induction fs with
  | nil => rfl
  | cons f fs ih =>
    have hcall : ∀ e c, Subject f e → checkCall false f.args [e, c] = some [] := by
      intro e c hs
      rcases hs with ⟨x, rfl, hx⟩ | ⟨a, rfl⟩
      · simp [checkCall, nameOf, hx]
      · simp [checkCall, nameOf]
    have hf : checkFunc false f = some [] := by
      unfold checkFunc
      rw [if_neg (by simp)]
      refine body_clean false f.args f.body ?_
      intro before t after hb
      rcases h f List.mem_cons_self t ⟨before, after, hb⟩ with rfl | ⟨e, c, hs, rfl | ⟨x, more, hx, rfl⟩⟩
      · rfl
      · simp only [checkTest, bareCall, nameOf, if_true]
        exact hcall e c hs
      · simp only [checkTest, nameOf, orCall, if_true]
        rw [show checkCall false f.args [e, c] = some [] from hcall e c hs]
        simp [hx]
    rw [lint, hf, ih fun g hg => h g (List.mem_cons_of_mem _ hg)]
    rfl

/-! ### Where it fails -/

theorem lint_none (py3 : Bool) : ∀ (fs : List Func) (f : Func), f ∈ fs → checkFunc py3 f = none → lint py3 fs = none
  | g :: fs, f, hf, h => by
    rw [lint]
    rcases List.mem_cons.mp hf with rfl | hf
    · rw [h]
    · rw [lint_none py3 fs f hf h]
      cases checkFunc py3 g <;> rfl

/-- **Disagreement with C144.** With Python 3, which the tool needs, the check of a file is an exception as soon as any function in it has an
argument, whatever its assertions are. -/
theorem python3_fails (fs : List Func) (f : Func) (hf : f ∈ fs) (ha : f.args ≠ []) : lint true fs = none ∧ clean true fs = false := by
  have : lint true fs = none := lint_none true fs f hf (by unfold checkFunc; rw [if_pos ⟨rfl, ha⟩])
  refine ⟨this, ?_⟩
  unfold clean
  rw [this]
  rfl

/-- **Disagreement with C144.** With Python 2, too, the check is an exception if a comparison with `None` is followed by a call of a method. -/
theorem method_fails (fs : List Func) (f : Func) (hf : f ∈ fs) (x field : Text) (v : Expr) (l more : List Expr) (rest : List Stmt)
    (hb : f.body = .assert (.or (.isTest (.name x) .none) (.call (.attr v field) l) more) :: rest) : lint false fs = none := by
  refine lint_none false fs f hf ?_
  unfold checkFunc
  rw [if_neg (by simp), hb, checkBody]
  simp [checkTest, nameOf, orCall]

/-! ### A concrete case -/

/-- `def f(self, x): assert x is None or isinstance(x, int)`. -/
def demoFunc (y : String) : Func :=
  ⟨["self".toList, "x".toList], [.assert (.or (.isTest (.name "x".toList) .none)
    (.call (.name "isinstance".toList) [.name y.toList, .name "int".toList]) []), .other]⟩

theorem demo_lint : (lint false [demoFunc "x"], lint false [demoFunc "y"], lint true [demoFunc "x"]) =
    (some [], some [.notArgument "y".toList], none) := by decide +kernel

theorem demo_clean : clean false [demoFunc "x"] = true ∧ Leading (demoFunc "x") (.or (.isTest (.name "x".toList) .none)
    (.call (.name "isinstance".toList) [.name "x".toList, .name "int".toList]) []) :=
  ⟨by decide +kernel, [], [.other], rfl⟩

end Verif.ArgLint
