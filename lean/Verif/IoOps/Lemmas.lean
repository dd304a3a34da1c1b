import Verif.IoOps.Spec
import Mathlib.Tactic.SplitIfs

/-!
# Lemmas on the set-up of the I/O operations
-/

namespace Verif.IoOps

theorem getObj_cons (a : Nat) (x : Obj) (h : List (Nat × Obj)) (c : Nat) :
    getObj ((a, x) :: h) c = if a = c then some x else getObj h c := rfl

theorem getObj_setObj (h : List (Nat × Obj)) (c : Nat) (y : Obj) : ∀ d,
    getObj (setObj h c y) d = if d = c ∧ getObj h c ≠ none then some y else getObj h d := by
  induction h with
  | nil => intro d; simp [getObj, setObj]
  | cons ax h ih =>
    obtain ⟨a, x⟩ := ax
    intro d
    unfold setObj
    by_cases hac : a = c
    · simp only [hac, if_true, getObj_cons]
      by_cases hd : c = d
      · simp [hd]
      · have : ¬ d = c := fun h => hd h.symm
        simp [hd, this]
    · simp only [hac, if_false, getObj_cons, ih d]
      by_cases hd : d = c
      · subst hd
        simp [hac]
      · simp [hd]

/-- What the run of the set-up does when there is memory, in debug builds. -/
theorem ioOps_debug (e : Env) (w : World) (a : Nat) (o : Ops) (ha : a ≠ 0) (hs : e.stdErr = 0) (hd : e.debug = true)
    (h1 : e.memory w.allocs = true) (h2 : e.memory (w.allocs + 1) = true) :
    ioOps e w a o = .ret 0
      ⟨(w.next + 1, .ifaces a) :: (w.next, .mapper []) :: w.heap, w.next + 2, w.allocs + 2, true, some .stdMalloc⟩
      ⟨.stdMalloc, w.next, .trackedMap, .unmap, .portIn, .portOut, .dmaAlloc, .dmaFree, .dmaPin, .dmaUnpin, .dmaCacheOp,
        if e.dtb = 0 then 0 else e.dtb + e.header, .fdtGet, 0xDEADBEEF, .irqRegister, .irqUnregister, w.next + 1,
        .ifRegister, .ifUnregister, .ifFind⟩ := by
  simp [ioOps, ha, mallocOps, hs, hd, ioMapper, calloc, h1, interfaceOps, h2, irqOps, ioFdt, dmaManager, portOps]

theorem ioOps_release (e : Env) (w : World) (a : Nat) (o : Ops) (ha : a ≠ 0) (hs : e.stdErr = 0) (hd : e.debug = false)
    (h1 : e.memory w.allocs = true) :
    ioOps e w a o = .ret 0
      ⟨(w.next, .ifaces a) :: w.heap, w.next + 1, w.allocs + 1, w.inited, w.static⟩
      ⟨.stdMalloc, 0, .plainMap, .unmap, .portIn, .portOut, .dmaAlloc, .dmaFree, .dmaPin, .dmaUnpin, .dmaCacheOp,
        if e.dtb = 0 then 0 else e.dtb + e.header, .fdtGet, 0xDEADBEEF, .irqRegister, .irqUnregister, w.next,
        .ifRegister, .ifUnregister, .ifFind⟩ := by
  simp [ioOps, ha, mallocOps, hs, hd, ioMapper, calloc, h1, interfaceOps, irqOps, ioFdt, dmaManager, portOps]

/-- The other cases of the set-up. -/
theorem ioOps_std (e : Env) (w : World) (a : Nat) (o : Ops) (ha : a ≠ 0) (hs : e.stdErr ≠ 0) :
    ioOps e w a o = .ret e.stdErr w o := by
  simp [ioOps, ha, mallocOps, hs]

theorem ioOps_nomem_debug1 (e : Env) (w : World) (a : Nat) (o : Ops) (ha : a ≠ 0) (hs : e.stdErr = 0) (hd : e.debug = true)
    (h1 : e.memory w.allocs = false) :
    ioOps e w a o = .ret 1 { w with allocs := w.allocs + 1, inited := true, static := some .stdMalloc }
      { o with malloc := .stdMalloc } := by
  simp [ioOps, ha, mallocOps, hs, hd, ioMapper, calloc, h1, failed]

theorem ioOps_nomem_debug2 (e : Env) (w : World) (a : Nat) (o : Ops) (ha : a ≠ 0) (hs : e.stdErr = 0) (hd : e.debug = true)
    (h1 : e.memory w.allocs = true) (h2 : e.memory (w.allocs + 1) = false) :
    ∃ o', ioOps e w a o = .ret 1
      ⟨(w.next, .mapper []) :: w.heap, w.next + 1, w.allocs + 2, true, some .stdMalloc⟩ o' := by
  simp [ioOps, ha, mallocOps, hs, hd, ioMapper, calloc, h1, interfaceOps, h2, irqOps, ioFdt, dmaManager, portOps, failed,
    enomem]

theorem ioOps_nomem_release (e : Env) (w : World) (a : Nat) (o : Ops) (ha : a ≠ 0) (hs : e.stdErr = 0) (hd : e.debug = false)
    (h1 : e.memory w.allocs = false) :
    ∃ o', ioOps e w a o = .ret 1 { w with allocs := w.allocs + 1 } o' := by
  simp [ioOps, ha, mallocOps, hs, hd, ioMapper, calloc, h1, interfaceOps, irqOps, ioFdt, dmaManager, portOps, failed,
    enomem]

theorem run_snoc (e : Env) (x : Ev) : ∀ (xs : List Ev) (s : Sys), run e s (xs ++ [x]) =
    (run e s xs).bind fun r => (step e r.1 x).map fun q => (q.1, r.2 ++ [q.2])
  | [], s => by
    simp only [List.nil_append, run]
    cases hx : step e s x <;> simp [hx]
  | y :: xs, s => by
    simp only [List.cons_append, run]
    cases hy : step e s y with
    | none => simp
    | some r =>
      simp only [run_snoc e x xs r.1]
      cases run e r.1 xs with
      | none => simp
      | some r2 =>
        simp only [Option.bind_some, Option.map_some]
        cases hx : step e r2.1 x <;> simp

theorem llRemove_none (l : List Nat) (p : Nat) : IoMap.llRemove l p = none ↔ l.count p = 0 := by
  induction l with
  | nil => simp [IoMap.llRemove]
  | cons x l ih =>
    unfold IoMap.llRemove
    by_cases h : x = p
    · subst h; simp
    · simp [h, ih, List.count_cons]

theorem llRemove_some (p : Nat) : ∀ (l l' : List Nat), IoMap.llRemove l p = some l' →
    ∀ q, l'.count q = if q = p then l.count q - 1 else l.count q
  | [], _, h => by simp [IoMap.llRemove] at h
  | x :: l, l', h => by
    intro q
    unfold IoMap.llRemove at h
    by_cases hx : x = p
    · simp only [hx, if_true, Option.some.injEq] at h
      subst h
      subst hx
      by_cases hq : q = x
      · subst hq; simp
      · have : ¬ x = q := fun h => hq h.symm
        simp [hq, this, List.count_cons]
    · simp only [hx, if_false, Option.map_eq_some_iff] at h
      obtain ⟨r, hr, rfl⟩ := h
      have ih := llRemove_some p l r hr q
      by_cases hq : q = p
      · subst hq
        simp only [if_true] at ih ⊢
        simp [List.count_cons, hx, ih]
      · simp only [hq, if_false] at ih ⊢
        simp [List.count_cons, ih]

/-- What holds after a history, the last event first, in debug builds with enough memory. -/
structure Inv (s : Sys) (h : List Ev) : Prop where
  bound : ∀ c x, getObj s.w.heap c = some x → c < s.w.next
  static : ∀ a, Ev.setup a ∈ h → s.w.static = some .stdMalloc
  form : ∀ a, Ev.setup a ∈ h → (s.ops a).mapFn = .trackedMap ∧ (s.ops a).unmapFn = .unmap ∧
    ∃ l, getObj s.w.heap (s.ops a).mapCookie = some (.mapper l) ∧ ∀ p, l.count p = owed a p h
  apart : ∀ a b, Ev.setup a ∈ h → Ev.setup b ∈ h → a ≠ b → (s.ops a).mapCookie ≠ (s.ops b).mapCookie

theorem inv_setup (e : Env) (hm : Plenty e) (hd : e.debug = true) (s : Sys) (h : List Ev) (hi : Inv s h) (a : Nat) (ha : a ≠ 0) :
    ∃ s', step e s (.setup a) = some (s', false) ∧ Inv s' (.setup a :: h) := by
  have hstep := ioOps_debug e s.w a (s.ops a) ha hm.1 hd (hm.2 _) (hm.2 _)
  refine ⟨_, by simp only [step, hstep]; rfl, ?_⟩
  have old : ∀ c x, getObj s.w.heap c = some x → s.w.next ≠ c ∧ s.w.next + 1 ≠ c := by
    intro c x hc
    have := hi.bound c x hc
    omega
  constructor
  · intro c x hc
    simp only [getObj_cons] at hc ⊢
    split_ifs at hc
    · omega
    · omega
    · have := hi.bound c x hc
      omega
  · intro b _; rfl
  · intro b hb
    by_cases hba : b = a
    · subst hba
      refine ⟨by simp, by simp, [], ?_, ?_⟩
      · simp [getObj_cons]
      · intro p; simp [owed]
    · have hb' : Ev.setup b ∈ h := by
        rcases List.mem_cons.mp hb with hb | hb
        · exact absurd (by injection hb) hba
        · exact hb
      obtain ⟨f1, f2, l, hl, hc⟩ := hi.form b hb'
      have ho := old _ _ hl
      refine ⟨by simp [hba, f1], by simp [hba, f2], l, ?_, ?_⟩
      · simp [hba, getObj_cons, ho.1, ho.2, hl]
      · intro p
        have : ¬ a = b := fun h => hba h.symm
        simp [owed, this, hc p]
  · intro b c hb hc hbc
    have back : ∀ b, b ≠ a → Ev.setup b ∈ Ev.setup a :: h → Ev.setup b ∈ h := by
      intro b hba hb
      rcases List.mem_cons.mp hb with hb | hb
      · exact absurd (by injection hb) hba
      · exact hb
    by_cases hba : b = a
    · subst hba
      have hcb : ¬ c = b := fun h => hbc h.symm
      obtain ⟨_, _, l, hl, _⟩ := hi.form c (back c hcb hc)
      simp only [if_true, hcb, if_false]
      exact (old _ _ hl).1
    · by_cases hca : c = a
      · subst hca
        obtain ⟨_, _, l, hl, _⟩ := hi.form b (back b hba hb)
        simp only [if_true, hba, if_false]
        exact fun h => (old _ _ hl).1 h.symm
      · simp only [hba, hca, if_false]
        exact hi.apart b c (back b hba hb) (back c hca hc) hbc

theorem mem_of_cons_map {b a p : Nat} {h : List Ev} (hb : Ev.setup b ∈ Ev.map a p :: h) : Ev.setup b ∈ h := by
  rcases List.mem_cons.mp hb with hb | hb
  · cases hb
  · exact hb

theorem mem_of_cons_unmap {b a p : Nat} {h : List Ev} (hb : Ev.setup b ∈ Ev.unmap a p :: h) : Ev.setup b ∈ h := by
  rcases List.mem_cons.mp hb with hb | hb
  · cases hb
  · exact hb

/-- Writing the list of one structure keeps the others. -/
theorem inv_write (s : Sys) (h : List Ev) (hi : Inv s h) (x : Ev) (hx : ∀ b, Ev.setup b ∈ x :: h → Ev.setup b ∈ h) (a : Nat)
    (ha : Ev.setup a ∈ h) (l' : List Nat) (n : Nat) (h1 : ∀ p, l'.count p = owed a p (x :: h))
    (h2 : ∀ b p, b ≠ a → owed b p (x :: h) = owed b p h) :
    Inv ⟨{ s.w with heap := setObj s.w.heap (s.ops a).mapCookie (.mapper l'), allocs := n }, s.ops⟩ (x :: h) := by
  obtain ⟨_, _, l, hl, _⟩ := hi.form a ha
  have hne : getObj s.w.heap (s.ops a).mapCookie ≠ none := by rw [hl]; simp
  constructor
  · intro c y hc
    simp only [getObj_setObj] at hc
    split_ifs at hc with hcc
    · rw [hcc.1]; exact hi.bound _ _ hl
    · exact hi.bound _ _ hc
  · intro b hb; exact hi.static b (hx b hb)
  · intro b hb
    obtain ⟨f1, f2, lb, hlb, hcb⟩ := hi.form b (hx b hb)
    by_cases hba : b = a
    · subst hba
      exact ⟨f1, f2, l', by simp [getObj_setObj, hne], h1⟩
    · have := hi.apart b a (hx b hb) ha hba
      refine ⟨f1, f2, lb, by simp [getObj_setObj, this, hlb], ?_⟩
      intro p; rw [h2 b p hba]; exact hcb p
  · intro b c hb hc hbc; exact hi.apart b c (hx b hb) (hx c hc) hbc

/-- A step that changes neither the objects nor what is owed. -/
theorem inv_same (s : Sys) (h : List Ev) (hi : Inv s h) (x : Ev) (hx : ∀ b, Ev.setup b ∈ x :: h → Ev.setup b ∈ h)
    (h2 : ∀ b p, Ev.setup b ∈ h → owed b p (x :: h) = owed b p h) : Inv s (x :: h) := by
  constructor
  · exact hi.bound
  · intro b hb; exact hi.static b (hx b hb)
  · intro b hb
    obtain ⟨f1, f2, lb, hlb, hcb⟩ := hi.form b (hx b hb)
    exact ⟨f1, f2, lb, hlb, fun p => by rw [h2 b p (hx b hb)]; exact hcb p⟩
  · intro b c hb hc hbc; exact hi.apart b c (hx b hb) (hx c hc) hbc

theorem inv_map (e : Env) (hm : Plenty e) (s : Sys) (h : List Ev) (hi : Inv s h) (a p : Nat) (ha : Ev.setup a ∈ h) :
    ∃ s', step e s (.map a p) = some (s', false) ∧ Inv s' (.map a p :: h) := by
  obtain ⟨f1, f2, l, hl, hc⟩ := hi.form a ha
  have hx : ∀ b, Ev.setup b ∈ Ev.map a p :: h → Ev.setup b ∈ h := fun b => mem_of_cons_map
  by_cases hp : p = 0
  · refine ⟨s, by simp [step, callMap, f1, hl, hp], inv_same s h hi _ hx ?_⟩
    intro b q _
    simp [owed, hp]
  · refine ⟨_, by simp [step, callMap, f1, hl, hp, hi.static a ha, hm.2]; rfl, inv_write s h hi _ hx a ha (p :: l) _ ?_ ?_⟩
    · intro q
      simp only [owed, List.count_cons, hc q, hp]
      by_cases hq : p = q
      · simp [hq]; omega
      · simp [hq]
    · intro b q hb
      have : ¬ a = b := fun h => hb h.symm
      simp [owed, this]

theorem inv_unmap (e : Env) (hd : e.debug = true) (s : Sys) (h : List Ev) (hi : Inv s h) (a p : Nat) (ha : Ev.setup a ∈ h) :
    ∃ s', step e s (.unmap a p) = some (s', decide (owed a p h = 0)) ∧ Inv s' (.unmap a p :: h) := by
  obtain ⟨f1, f2, l, hl, hc⟩ := hi.form a ha
  have hx : ∀ b, Ev.setup b ∈ Ev.unmap a p :: h → Ev.setup b ∈ h := fun b => mem_of_cons_unmap
  cases hr : IoMap.llRemove l p with
  | none =>
    have h0 : owed a p h = 0 := by rw [← hc p]; exact (llRemove_none l p).mp hr
    refine ⟨s, by simp [step, callUnmap, f2, hd, hl, hr, h0], inv_same s h hi _ hx ?_⟩
    intro b q _
    simp only [owed]
    split_ifs with hbq
    · rw [← hbq.1, ← hbq.2, h0]
    · rfl
  | some l' =>
    have h0 : owed a p h ≠ 0 := by
      rw [← hc p]
      intro h0
      rw [(llRemove_none l p).mpr h0] at hr
      cases hr
    refine ⟨_, by simp [step, callUnmap, f2, hd, hl, hr, h0]; rfl, inv_write s h hi _ hx a ha l' _ ?_ ?_⟩
    · intro q
      rw [llRemove_some p l l' hr q]
      simp only [owed, hc q, true_and]
      by_cases hq : q = p
      · simp [hq]
      · have : ¬ p = q := fun h => hq h.symm
        simp [hq, this]
    · intro b q hb
      have : ¬ a = b := fun h => hb h.symm
      simp [owed, this]

theorem inv_run (e : Env) (hm : Plenty e) (hd : e.debug = true) (junk : Nat → Ops) (base : Nat) : ∀ h, UsesSetUp h →
    ∃ s bs, run e (start junk base) h.reverse = some (s, bs) ∧ Inv s h
  | [], _ => by
    refine ⟨start junk base, [], by simp [run], ?_⟩
    constructor
    · intro c x hc; simp [start, getObj] at hc
    · intro a ha; cases ha
    · intro a ha; cases ha
    · intro a b ha; cases ha
  | x :: h, hu => by
    have hu' : UsesSetUp h := by
      cases x with
      | setup a => exact hu.2
      | map a p => exact hu.2
      | unmap a p => exact hu.2
    obtain ⟨s, bs, hr, hi⟩ := inv_run e hm hd junk base h hu'
    have : ∃ s' b, step e s x = some (s', b) ∧ Inv s' (x :: h) := by
      cases x with
      | setup a => obtain ⟨s', h1, h2⟩ := inv_setup e hm hd s h hi a hu.1; exact ⟨s', _, h1, h2⟩
      | map a p => obtain ⟨s', h1, h2⟩ := inv_map e hm s h hi a p hu.1; exact ⟨s', _, h1, h2⟩
      | unmap a p => obtain ⟨s', h1, h2⟩ := inv_unmap e hd s h hi a p hu.1; exact ⟨s', _, h1, h2⟩
    obtain ⟨s', b, h1, h2⟩ := this
    exact ⟨s', bs ++ [b], by rw [List.reverse_cons, run_snoc, hr]; simp [h1], h2⟩

end Verif.IoOps
