import Verif.Threads.Spec
import Mathlib.Tactic.ByContra
import Mathlib.Tactic.Tauto

namespace Verif.Threads
open Spec

/-! ### The names of settings -/

theorem text_suffix (p q : Prop') (h : p.text <:+ q.text) : p = q ∨ (p = .priority ∧ q = .maxPriority) := by
  have key : ∀ p q : Prop', p.text.isSuffixOf q.text = true → p = q ∨ (p = .priority ∧ q = .maxPriority) := by
    intro p q
    cases p <;> cases q <;> decide
  exact key p q (by simpa using h)

/-- The prefix of a setting. -/
def pre : Scope → Str
  | .control => "_".toList
  | .iface i => i ++ "_".toList
  | .all => []

theorem settingName_eq (s : Scope) (p : Prop') : settingName s p = pre s ++ p.text := by
  cases s <;> rfl

theorem pre_inj {s s' : Scope} (h : PlainScope s) (h' : PlainScope s') (e : pre s = pre s') : s = s' := by
  cases s with
  | control =>
    cases s' with
    | control => rfl
    | iface i =>
      simp only [pre] at e
      have : i = [] := by
        have := congrArg List.length e
        simp at this
        exact this
      exact absurd this h'.1
    | all => simp [pre] at e
  | iface i =>
    cases s' with
    | control =>
      simp only [pre] at e
      have : i = [] := by
        have := congrArg List.length e
        simp at this
        exact this
      exact absurd this h.1
    | iface j =>
      simp only [pre] at e
      rw [List.append_cancel_right e]
    | all => simp [pre] at e
  | all =>
    cases s' with
    | control => simp [pre] at e
    | iface i => simp [pre] at e
    | all => rfl

theorem pre_max {s s' : Scope} (h : PlainScope s) : pre s ≠ pre s' ++ "max_".toList := by
  intro e
  cases s with
  | control =>
    have := congrArg List.length e
    simp [pre] at this
  | all => simp [pre] at e
  | iface i =>
    have e2 : i = pre s' ++ "max".toList := by
      have : i ++ "_".toList = (pre s' ++ "max".toList) ++ "_".toList := by
        simpa [pre] using e
      exact List.append_cancel_right this
    cases s' with
    | all => exact h.2.1 e2
    | control => exact h.2.2 ⟨[], by rw [e2]; rfl⟩
    | iface j => exact h.2.2 ⟨j, by rw [e2]; simp [pre]⟩

theorem settingName_inj {s s' : Scope} {p p' : Prop'} (h : PlainScope s) (h' : PlainScope s')
    (e : settingName s p = settingName s' p') : (s, p) = (s', p') := by
  rw [settingName_eq, settingName_eq] at e
  have h1 : p.text <:+ pre s' ++ p'.text := e ▸ List.suffix_append _ _
  have h2 : p'.text <:+ pre s' ++ p'.text := List.suffix_append _ _
  have hmax : Prop'.maxPriority.text = "max_".toList ++ Prop'.priority.text := by decide
  rcases List.suffix_or_suffix_of_suffix h1 h2 with h3 | h3
  · rcases text_suffix _ _ h3 with rfl | ⟨rfl, rfl⟩
    · rw [pre_inj h h' (List.append_cancel_right e)]
    · exfalso
      rw [hmax, ← List.append_assoc] at e
      exact pre_max h (List.append_cancel_right e)
  · rcases text_suffix _ _ h3 with rfl | ⟨rfl, rfl⟩
    · rw [pre_inj h h' (List.append_cancel_right e)]
    · exfalso
      rw [hmax, ← List.append_assoc] at e
      exact pre_max h' (List.append_cancel_right e).symm

theorem find_congr {α : Type} {f g : α → Bool} : ∀ {l : List α}, (∀ x ∈ l, f x = g x) → l.find? f = l.find? g
  | [], _ => rfl
  | x :: l, h => by
    rw [List.find?_cons, List.find?_cons, h x (List.mem_cons_self ..),
      find_congr (l := l) fun y hy => h y (List.mem_cons_of_mem _ hy)]

theorem written_eq (ws : List Wish) (hw : ∀ w ∈ ws, PlainScope w.1.1) {s : Scope} (hs : PlainScope s) (p : Prop') :
    written ws (pre s ++ p.text) = wanted ws s p := by
  simp only [written, wanted]
  congr 1
  apply find_congr
  intro w hm
  rw [← settingName_eq]
  have : (settingName w.1.1 w.1.2 = settingName s p) ↔ (w.1 = (s, p)) :=
    ⟨fun e => settingName_inj (hw w hm) hs e, fun e => by rw [e]⟩
  simp only [this]

theorem written_fault (ws : List Wish) (p : Prop') (hp : p = .period ∨ p = .budget ∨ p = .data ∨ p = .sizeBits) :
    written ws ("fault".toList ++ p.text) = none := by
  simp only [written, Option.map_eq_none_iff, List.find?_eq_none, decide_eq_true_eq]
  intro w _ e
  rw [settingName_eq] at e
  have h1 : w.1.2.text <:+ "fault".toList ++ p.text := e ▸ List.suffix_append _ _
  have h2 : p.text <:+ "fault".toList ++ p.text := List.suffix_append _ _
  have hp' : w.1.2 = p := by
    rcases List.suffix_or_suffix_of_suffix h1 h2 with h3 | h3
    · rcases text_suffix _ _ h3 with h | ⟨_, h⟩
      · exact h
      · rw [h] at hp; simp at hp
    · rcases text_suffix _ _ h3 with h | ⟨h, _⟩
      · exact h.symm
      · rw [h] at hp; simp at hp
  rw [hp'] at e
  have e2 := List.append_cancel_right e
  cases hs : w.1.1 with
  | control => rw [hs] at e2; simp [pre] at e2
  | all => rw [hs] at e2; simp [pre] at e2
  | iface i =>
    rw [hs] at e2
    have := congrArg List.getLast? e2
    simp [pre] at this

theorem property_eq (ws : List Wish) (hw : ∀ w ∈ ws, PlainScope w.1.1) {s : Scope} (hs : PlainScope s) (p : Prop')
    (d : Nat) : property (written ws) (pre s) p.text d = value ws s p d := by
  have h0 := written_eq ws hw (s := .all) trivial p
  simp only [pre, List.nil_append] at h0
  simp only [property, value, written_eq ws hw hs, h0]
  cases wanted ws s p <;> cases wanted ws .all p <;> rfl

theorem property_fault (ws : List Wish) (hw : ∀ w ∈ ws, PlainScope w.1.1) (p : Prop')
    (hp : p = .period ∨ p = .budget ∨ p = .data ∨ p = .sizeBits) (d : Nat) :
    property (written ws) "fault".toList p.text d = value ws .all p d := by
  have h0 := written_eq ws hw (s := .all) trivial p
  simp only [pre, List.nil_append] at h0
  simp only [property, value, written_fault ws p hp, h0]
  cases wanted ws .all p <;> rfl

/-! ### The threads -/

/-- The kind of a thread, from its place. -/
def kindOf (t : Thread) : Kind :=
  match t.iface with
  | some i => .iface i t.index
  | none => .control

theorem endThreads_kinds (inst : Str) (conf : Conf) (o : Options) (n : Nat) (es : List End) :
    (es.flatMap (endThreads inst conf o n)).map kindOf =
      ((es.filter fun e => decide (e.inst = inst)).map fun e => (e.iface, n)).flatMap
        fun e => (List.range e.2).map (.iface e.1) := by
  induction es with
  | nil => rfl
  | cons e es ih =>
    rw [List.flatMap_cons, List.map_append, ih, List.filter_cons]
    by_cases h : e.inst = inst
    · simp [h, endThreads, kindOf, Function.comp_def]
    · simp [h, endThreads]

/-- The interface threads. -/
def middle (conns : List Conn) (inst : Str) (conf : Conf) (o : Options) : List Thread :=
  conns.flatMap fun c =>
    c.fromEnds.flatMap (endThreads inst conf o c.fromThreads) ++
    c.toEnds.flatMap (endThreads inst conf o c.toThreads)

theorem middle_kinds (conns : List Conn) (inst : Str) (conf : Conf) (o : Options) :
    (middle conns inst conf o).map kindOf =
      (ends conns inst).flatMap fun e => (List.range e.2).map (.iface e.1) := by
  induction conns with
  | nil => rfl
  | cons c cs ih =>
    simp only [middle, ends, List.flatMap_cons, List.map_append, List.flatMap_append] at *
    rw [endThreads_kinds, endThreads_kinds, ih]

theorem middle_iface (conns : List Conn) (inst : Str) (conf : Conf) (o : Options) :
    ∀ t ∈ middle conns inst conf o, ∃ i, t.iface = some i ∧
      t.stackSize = (conf (i ++ "_stack_size".toList)).getD o.stackSize ∧
      t.name = ifaceName (sanitize inst) i t.index := by
  intro t ht
  simp only [middle, List.mem_flatMap, List.mem_append] at ht
  obtain ⟨c, _, ⟨e, _, h⟩ | ⟨e, _, h⟩⟩ := ht <;>
  · simp only [endThreads] at h
    split at h
    · obtain ⟨x, _, rfl⟩ := List.mem_map.1 h
      exact ⟨_, rfl, rfl, rfl⟩
    · simp at h

theorem threads_eq (conns : List Conn) (inst : Str) (conf : Conf) (o : Options) :
    threads conns inst conf o =
      ⟨sanitize inst ++ "_0_control".toList, none, 0, (conf "_stack_size".toList).getD o.stackSize⟩ ::
        (middle conns inst conf o ++
          if o.faultHandlers then [⟨sanitize inst ++ "_0_fault_handler".toList, none, 0, o.stackSize⟩]
          else []) := by
  rw [threads, middle]
  rfl

/-- The interfaces of an instance all have plain names. -/
def PlainConns (conns : List Conn) (inst : Str) : Prop := ∀ e ∈ ends conns inst, Plain e.1

theorem scProperties_eq (o : Options) (ws : List Wish) (hw : ∀ w ∈ ws, PlainScope w.1.1) {s : Scope}
    (hs : PlainScope s) :
    scProperties o (written ws) (pre s) = ⟨value ws s .period o.period, value ws s .budget o.budget,
      value ws s .data o.data, value ws s .sizeBits o.sizeBits⟩ := by
  simp only [scProperties]
  rw [show ("period".toList : Str) = Prop'.period.text from rfl, property_eq ws hw hs,
    show ("budget".toList : Str) = Prop'.budget.text from rfl, property_eq ws hw hs,
    show ("data".toList : Str) = Prop'.data.text from rfl, property_eq ws hw hs,
    show ("size_bits".toList : Str) = Prop'.sizeBits.text from rfl, property_eq ws hw hs]

theorem scProperties_fault (o : Options) (ws : List Wish) (hw : ∀ w ∈ ws, PlainScope w.1.1) :
    scProperties o (written ws) "fault".toList = ⟨value ws .all .period o.period, value ws .all .budget o.budget,
      value ws .all .data o.data, value ws .all .sizeBits o.sizeBits⟩ := by
  simp only [scProperties]
  rw [show ("period".toList : Str) = Prop'.period.text from rfl, property_fault ws hw _ (by simp),
    show ("budget".toList : Str) = Prop'.budget.text from rfl, property_fault ws hw _ (by simp),
    show ("data".toList : Str) = Prop'.data.text from rfl, property_fault ws hw _ (by simp),
    show ("size_bits".toList : Str) = Prop'.sizeBits.text from rfl, property_fault ws hw _ (by simp)]

theorem tcbProperties_eq (o : Options) (ws : List Wish) (hw : ∀ w ∈ ws, PlainScope w.1.1) {s : Scope}
    (hs : PlainScope s) (sc : Option Sc) (f : Bool) :
    tcbProperties o (written ws) (pre s) sc f =
      ⟨value ws s .priority o.prio, value ws s .maxPriority o.maxPrio, value ws s .affinity o.affinity,
        wanted ws s .domain, sc, f⟩ := by
  simp only [tcbProperties]
  rw [show ("priority".toList : Str) = Prop'.priority.text from rfl, property_eq ws hw hs,
    show ("max_priority".toList : Str) = Prop'.maxPriority.text from rfl, property_eq ws hw hs,
    show ("affinity".toList : Str) = Prop'.affinity.text from rfl, property_eq ws hw hs,
    show ("domain".toList : Str) = Prop'.domain.text from rfl, written_eq ws hw hs]

theorem iface_tcb (o : Options) (ws : List Wish) (hw : ∀ w ∈ ws, PlainScope w.1.1) (passive : Str → Bool)
    (t : Thread) (i : Str) (ht : t.iface = some i) (hi : Plain i) (last : Bool) (hl : (o.faultHandlers && last) = false) :
    threadTcb o (written ws) passive t false last = Spec.thread o ws passive (.iface i t.index) := by
  have hp : ifacePrefix t = pre (.iface i) := by simp [ifacePrefix, ht, pre]
  have hf : (o.faultHandlers && !last) = o.faultHandlers := by
    cases h : o.faultHandlers <;> cases hl' : last <;> simp_all
  simp only [threadTcb, Bool.false_eq_true, if_false, hl, hp, hf, tcbProperties_eq o ws hw (s := .iface i) hi, Spec.thread,
    reduceCtorEq, scopeOf, threadSc, scheduling, isPassive, ht, Option.any_some, decide_not,
    decide_false, Bool.not_false, Bool.and_true, scProperties_eq o ws hw (s := .iface i) hi]
  congr 1
  by_cases h : passive i = true <;> cases o.realtime <;> simp [h]

theorem control_tcb (o : Options) (ws : List Wish) (hw : ∀ w ∈ ws, PlainScope w.1.1) (passive : Str → Bool)
    (t : Thread) (ht : t.iface = none) (last : Bool) (hl : (o.faultHandlers && last) = false) :
    threadTcb o (written ws) passive t true last = Spec.thread o ws passive .control := by
  have hf : (o.faultHandlers && !last) = o.faultHandlers := by
    cases h : o.faultHandlers <;> cases hl' : last <;> simp_all
  simp only [threadTcb, if_true, hf, Spec.thread,
    reduceCtorEq, scopeOf, threadSc, scheduling, isPassive, ht, Option.any_none, decide_not, if_false,
    decide_false, Bool.not_false, Bool.and_true]
  rw [show ("_".toList : Str) = pre .control from rfl, tcbProperties_eq o ws hw (s := .control) trivial,
    scProperties_eq o ws hw (s := .control) trivial]
  congr 1
  cases o.realtime <;> rfl

theorem fault_tcb (o : Options) (ws : List Wish) (hw : ∀ w ∈ ws, PlainScope w.1.1) (passive : Str → Bool)
    (t : Thread) (ht : t.iface = none) (ho : o.faultHandlers = true) :
    threadTcb o (written ws) passive t false true = Spec.thread o ws passive .faultHandler := by
  have ha : written ws "affinity".toList = wanted ws .all .affinity :=
    written_eq ws hw (s := .all) trivial .affinity
  simp only [threadTcb, Bool.false_eq_true, if_false, ho, Bool.and_self, if_true, Spec.thread, scopeOf,
    threadSc, ht, Option.any_none, scheduling, isPassive, scProperties_fault o ws hw, ha, value]
  congr 1
  · cases wanted ws .all .affinity <;> rfl
  · cases o.realtime <;> rfl

theorem restTcbs_append (o : Options) (conf : Conf) (passive : Str → Bool) (l : Thread) :
    ∀ ts, restTcbs o conf passive (ts ++ [l]) =
      ts.map (fun t => threadTcb o conf passive t false false) ++ [threadTcb o conf passive l false true]
  | [] => rfl
  | [t] => rfl
  | t :: u :: ts => by
    simpa [restTcbs] using restTcbs_append o conf passive l (u :: ts)

theorem restTcbs_nofault (o : Options) (conf : Conf) (passive : Str → Bool) (ho : o.faultHandlers = false) :
    ∀ ts, restTcbs o conf passive ts = ts.map fun t => threadTcb o conf passive t false false
  | [] => rfl
  | [t] => by simp [restTcbs, threadTcb, threadSc, ho]
  | t :: u :: ts => by
    simpa [restTcbs] using restTcbs_nofault o conf passive ho (u :: ts)

/-- **C83 (settings).** The threads of an instance are exactly the control thread, the threads that the
connectors give to its connected interfaces, and the fault handler if there is one; and every one of them
has the priority, maximum priority, affinity, domain and scheduling context that the user wished for it: the
value for that thread, or else the value for all threads of the instance, or else the default. Missing
are interfaces called `max` or `..._max` (below). -/
theorem settings_partial (conns : List Conn) (inst : Str) (o : Options) (ws : List Wish) (passive : Str → Bool)
    (hw : ∀ w ∈ ws, PlainScope w.1.1) (hc : PlainConns conns inst) :
    tcbs o (written ws) passive (threads conns inst (written ws) o) =
      (kinds conns inst o).map (Spec.thread o ws passive) := by
  rw [threads_eq, tcbs, kinds, ← middle_kinds conns inst (written ws) o]
  have hmid : ∀ t ∈ middle conns inst (written ws) o, ∃ i, t.iface = some i ∧ Plain i := by
    intro t ht
    obtain ⟨i, hi, _⟩ := middle_iface conns inst (written ws) o t ht
    refine ⟨i, hi, ?_⟩
    have : kindOf t ∈ (middle conns inst (written ws) o).map kindOf := List.mem_map_of_mem ht
    rw [middle_kinds] at this
    obtain ⟨e, he, h⟩ := List.mem_flatMap.1 this
    obtain ⟨x, _, h⟩ := List.mem_map.1 h
    simp only [kindOf, hi, Kind.iface.injEq] at h
    exact h.1 ▸ hc e he
  have hmap : (middle conns inst (written ws) o).map (fun t => threadTcb o (written ws) passive t false false) =
      ((middle conns inst (written ws) o).map kindOf).map (Spec.thread o ws passive) := by
    rw [List.map_map]
    apply List.map_congr_left
    intro t ht
    obtain ⟨i, hi, hp⟩ := hmid t ht
    rw [iface_tcb o ws hw passive t i hi hp false (by simp)]
    simp [kindOf, hi]
  cases ho : o.faultHandlers with
  | false =>
    simp only [Bool.false_eq_true, if_false, List.append_nil, List.map_cons]
    rw [restTcbs_nofault o _ _ ho, hmap, control_tcb o ws hw passive _ rfl _ (by simp [ho])]
  | true =>
    simp only [if_true, List.cons_append, List.map_cons, List.map_append, List.map_nil]
    rw [restTcbs_append, hmap, fault_tcb o ws hw passive _ rfl ho,
      control_tcb o ws hw passive _ rfl _ (by cases (middle conns inst (written ws) o) <;> simp)]

/-- **C83 (stack sizes).** Every thread has the stack size that was wished for it, or the default. -/
theorem stack_size_partial (conns : List Conn) (inst : Str) (o : Options) (ws : List Wish)
    (hw : ∀ w ∈ ws, PlainScope w.1.1) (hc : PlainConns conns inst) :
    (threads conns inst (written ws) o).map (·.stackSize) = (kinds conns inst o).map (stack o ws) := by
  rw [threads_eq, kinds, ← middle_kinds conns inst (written ws) o]
  have hctl : written ws "_stack_size".toList = wanted ws .control .stackSize :=
    written_eq ws hw (s := .control) trivial .stackSize
  have hmap : (middle conns inst (written ws) o).map (·.stackSize) =
      ((middle conns inst (written ws) o).map kindOf).map (stack o ws) := by
    rw [List.map_map]
    apply List.map_congr_left
    intro t ht
    obtain ⟨i, hi, hs, _⟩ := middle_iface conns inst (written ws) o t ht
    have hp : Plain i := by
      have : kindOf t ∈ (middle conns inst (written ws) o).map kindOf := List.mem_map_of_mem ht
      rw [middle_kinds] at this
      obtain ⟨e, he, h⟩ := List.mem_flatMap.1 this
      obtain ⟨x, _, h⟩ := List.mem_map.1 h
      simp only [kindOf, hi, Kind.iface.injEq] at h
      exact h.1 ▸ hc e he
    have hw' := written_eq ws hw (s := .iface i) hp .stackSize
    simp only [pre, List.append_assoc] at hw'
    have e : (i ++ "_stack_size".toList : Str) = i ++ ("_".toList ++ Prop'.stackSize.text) := rfl
    simp only [Function.comp, kindOf, hi, stack, scopeOf, hs, e, hw']
  cases o.faultHandlers with
  | false => simp only [List.map_cons, List.map_append, hmap, hctl, stack, scopeOf, Bool.false_eq_true, if_false,
      List.append_nil]
  | true => simp only [List.map_cons, List.map_append, hmap, hctl, stack, scopeOf, if_true, List.map_nil,
      List.cons_append]

/-! ### Names -/

theorem digits_no_underscore (x : Nat) : '_' ∉ List.replicate (4 - (Nat.toDigits 10 x).length) '0' ++ Nat.toDigits 10 x := by
  intro h
  rcases List.mem_append.1 h with h | h
  · simp [List.mem_replicate] at h
  · have := Nat.isDigit_of_mem_toDigits (by decide) (by decide) h
    revert this
    decide

theorem split_last {a b u v : Str} (hu : '_' ∉ u) (hv : '_' ∉ v) (h : a ++ '_' :: u = b ++ '_' :: v) :
    a = b ∧ u = v := by
  have hl : u.length = v.length := by
    have hr := congrArg List.reverse h
    simp only [List.reverse_append, List.reverse_cons, List.append_assoc, List.singleton_append] at hr
    have key : ∀ (x y s t : Str), '_' ∉ x → '_' ∉ y → x ++ '_' :: s = y ++ '_' :: t → x.length = y.length := by
      intro x
      induction x with
      | nil =>
        intro y s t _ hy e
        cases y with
        | nil => rfl
        | cons c y =>
          simp only [List.nil_append, List.cons_append, List.cons.injEq] at e
          exact absurd (e.1 ▸ List.mem_cons_self ..) hy
      | cons c x ih =>
        intro y s t hx hy e
        cases y with
        | nil =>
          simp only [List.nil_append, List.cons_append, List.cons.injEq] at e
          exact absurd (e.1 ▸ List.mem_cons_self ..) hx
        | cons d y =>
          simp only [List.cons_append, List.cons.injEq] at e
          simp [ih y s t (fun h => hx (List.mem_cons_of_mem _ h)) (fun h => hy (List.mem_cons_of_mem _ h)) e.2]
    have := key u.reverse v.reverse _ _ (by simpa using hu) (by simpa using hv) hr
    simpa using this
  have := List.append_inj' h (by simp [hl])
  exact ⟨this.1, by simpa using this.2⟩

theorem padded_inj {x y : Nat}
    (h : List.replicate (4 - (Nat.toDigits 10 x).length) '0' ++ Nat.toDigits 10 x =
      List.replicate (4 - (Nat.toDigits 10 y).length) '0' ++ Nat.toDigits 10 y) : x = y := by
  have := congrArg (Nat.ofDigitChars 10 · 0) h
  simpa [Nat.ofDigitChars_append, Nat.ofDigitChars_replicate_zero, Nat.ofDigitChars_toDigits] using this

theorem ifaceName_inj {inst i j : Str} {x y : Nat} (h : ifaceName inst i x = ifaceName inst j y) : i = j ∧ x = y := by
  simp only [ifaceName, List.append_assoc, List.cons_append] at h
  have h2 := split_last (a := inst ++ '_' :: i) (b := inst ++ '_' :: j) (digits_no_underscore x) (digits_no_underscore y)
    (by simpa using h)
  refine ⟨?_, padded_inj h2.2⟩
  have := List.append_cancel_left h2.1
  simpa using this

theorem ifaceName_ne {inst i : Str} {x : Nat} {w : Str} (hw : '_' ∉ w) (hl : ∃ c ∈ w, c.isDigit = false) (z : Str) :
    ifaceName inst i x ≠ z ++ '_' :: w := by
  intro h
  simp only [ifaceName, List.append_assoc, List.cons_append] at h
  have h2 := split_last (a := inst ++ '_' :: i) (b := z) (digits_no_underscore x) hw (by simpa using h)
  obtain ⟨c, hc, hd⟩ := hl
  rw [← h2.2] at hc
  rcases List.mem_append.1 hc with h | h
  · obtain ⟨_, rfl⟩ := List.mem_replicate.1 h
    simp at hd
  · rw [Nat.isDigit_of_mem_toDigits (by decide) (by decide) h] at hd
    simp at hd

theorem kinds_nodup : ∀ (es : List (Str × Nat)), (es.map Prod.fst).Nodup →
    (es.flatMap fun e => (List.range e.2).map (Kind.iface e.1)).Nodup
  | [], _ => by simp
  | e :: es, h => by
    simp only [List.map_cons, List.nodup_cons] at h
    rw [List.flatMap_cons, List.nodup_append]
    refine ⟨?_, kinds_nodup es h.2, ?_⟩
    · rw [List.Nodup, List.pairwise_map]
      exact List.Pairwise.imp (fun {x y} hne e => hne (by simpa using e)) List.nodup_range
    · rintro a ha b hb rfl
      obtain ⟨x, _, rfl⟩ := List.mem_map.1 ha
      obtain ⟨e', he', hx⟩ := List.mem_flatMap.1 hb
      obtain ⟨y, _, hy⟩ := List.mem_map.1 hx
      simp only [Kind.iface.injEq] at hy
      exact h.1 (hy.1 ▸ List.mem_map_of_mem he')

/-- **C84 (names).** The threads of an instance have different names, hence each its own TCB, stack and IPC
buffer, if no interface is connected twice (which is checked, C06). -/
theorem names_distinct (conns : List Conn) (inst : Str) (conf : Conf) (o : Options)
    (h : ((ends conns inst).map Prod.fst).Nodup) : ((threads conns inst conf o).map (·.name)).Nodup := by
  rw [threads_eq]
  have hk : ((middle conns inst conf o).map kindOf).Nodup := by
    rw [middle_kinds]
    exact kinds_nodup _ h
  have hm : ((middle conns inst conf o).map (·.name)).Nodup := by
    have hinj : ∀ t ∈ middle conns inst conf o, ∀ u ∈ middle conns inst conf o, t.name = u.name →
        kindOf t = kindOf u := by
      intro t ht u hu e
      obtain ⟨i, hi, _, hn⟩ := middle_iface conns inst conf o t ht
      obtain ⟨j, hj, _, hn'⟩ := middle_iface conns inst conf o u hu
      rw [hn, hn'] at e
      have := ifaceName_inj e
      simp [kindOf, hi, hj, this.1, this.2]
    rw [List.Nodup, List.pairwise_map] at hk ⊢
    exact List.Pairwise.imp_of_mem (fun {t u} ht hu hne e => hne (hinj t ht u hu e)) hk
  have hc : ∀ t ∈ middle conns inst conf o, t.name ≠ sanitize inst ++ "_0_control".toList := by
    intro t ht
    obtain ⟨i, _, _, hn⟩ := middle_iface conns inst conf o t ht
    rw [hn, show sanitize inst ++ "_0_control".toList = (sanitize inst ++ "_0".toList) ++ '_' :: "control".toList by simp]
    exact ifaceName_ne (by decide) ⟨'c', by decide, by decide⟩ _
  have hf : ∀ t ∈ middle conns inst conf o, t.name ≠ sanitize inst ++ "_0_fault_handler".toList := by
    intro t ht
    obtain ⟨i, _, _, hn⟩ := middle_iface conns inst conf o t ht
    rw [hn, show sanitize inst ++ "_0_fault_handler".toList =
      (sanitize inst ++ "_0_fault".toList) ++ '_' :: "handler".toList by simp]
    exact ifaceName_ne (by decide) ⟨'h', by decide, by decide⟩ _
  have hcf : sanitize inst ++ "_0_control".toList ≠ sanitize inst ++ "_0_fault_handler".toList := by
    intro e
    have := List.append_cancel_left e
    revert this
    decide
  simp only [List.map_cons, List.map_append, List.nodup_cons, List.mem_append, List.nodup_append]
  cases o.faultHandlers with
  | false =>
    simp only [Bool.false_eq_true, if_false, List.map_nil, List.not_mem_nil, or_false, List.nodup_nil,
      false_implies, implies_true, and_true]
    refine ⟨?_, hm⟩
    intro hx
    obtain ⟨t, ht, e⟩ := List.mem_map.1 hx
    exact hc t ht e
  | true =>
    simp only [if_true, List.map_cons, List.map_nil, List.mem_singleton]
    refine ⟨?_, hm, by simp, ?_⟩
    · rintro (hx | hx)
      · obtain ⟨t, ht, e⟩ := List.mem_map.1 hx
        exact hc t ht e
      · exact hcf hx
    · rintro a ha b rfl e
      obtain ⟨t, ht, e'⟩ := List.mem_map.1 ha
      exact hf t ht (e'.trans e)

theorem split_first {a b u v : Str} (ha : '_' ∉ a) (hb : '_' ∉ b) (h : a ++ '_' :: u = b ++ '_' :: v) : a = b := by
  have hr := congrArg List.reverse h
  simp only [List.reverse_append, List.reverse_cons, List.append_assoc, List.singleton_append] at hr
  have := split_last (a := u.reverse) (b := v.reverse) (u := a.reverse) (v := b.reverse) (by simpa) (by simpa) hr
  simpa using this.2

/-- Letters and digits only. -/
def Spec.Alnum (l : Str) : Prop := ∀ ch ∈ l, ('A' ≤ ch ∧ ch ≤ 'Z') ∨ ('a' ≤ ch ∧ ch ≤ 'z') ∨ ('0' ≤ ch ∧ ch ≤ '9')

theorem sanitize_alnum {l : Str} (h : Alnum l) : sanitize l = l := by
  rw [sanitize]
  conv => rhs; rw [← List.map_id l]
  apply List.map_congr_left
  intro ch hc
  rw [if_pos (h ch hc)]
  rfl

theorem thread_name_prefix (conns : List Conn) (inst : Str) (conf : Conf) (o : Options) (t : Thread)
    (ht : t ∈ threads conns inst conf o) : ∃ u, t.name = sanitize inst ++ '_' :: u := by
  rw [threads_eq] at ht
  rcases List.mem_cons.1 ht with rfl | ht
  · exact ⟨"0_control".toList, rfl⟩
  · rcases List.mem_append.1 ht with ht | ht
    · obtain ⟨i, _, _, hn⟩ := middle_iface conns inst conf o t ht
      rw [hn, ifaceName, List.append_assoc]
      exact ⟨_, rfl⟩
    · split at ht
      · rw [List.mem_singleton.1 ht]
        exact ⟨"0_fault_handler".toList, rfl⟩
      · simp at ht

/-- **C84 (names of different instances).** Threads of different instances have different names, whatever their
interfaces are called, if the instances' names are letters and digits only. Missing are other names
(`names_shared`). -/
theorem names_across_partial (conns conns' : List Conn) (a b : Str) (conf conf' : Conf) (o o' : Options) (hne : a ≠ b)
    (ha : Alnum a) (hb : Alnum b) (t u : Thread) (ht : t ∈ threads conns a conf o)
    (hu : u ∈ threads conns' b conf' o') : t.name ≠ u.name := by
  intro e
  obtain ⟨x, hx⟩ := thread_name_prefix conns a conf o t ht
  obtain ⟨y, hy⟩ := thread_name_prefix conns' b conf' o' u hu
  rw [hx, hy, sanitize_alnum ha, sanitize_alnum hb] at e
  have hu : ¬ (('A' ≤ '_' ∧ '_' ≤ 'Z') ∨ ('a' ≤ '_' ∧ '_' ≤ 'z') ∨ ('0' ≤ '_' ∧ '_' ≤ '9')) := by decide
  exact hne (split_first (fun h => hu (ha _ h)) (fun h => hu (hb _ h)) e)

/-- **C84 (TLS).** Every thread but the control thread has a TLS region of its own. -/
theorem tls_own (ts : List Thread) (j k : Nat) (hj : 0 < j) (hk : 0 < k) (hj' : j < ts.length)
    (h : tlsSlot j = tlsSlot k) : j = k ∧ tlsSlot j < tlsRegions ts := by
  simp only [tlsSlot, tlsRegions] at *
  omega

/-! ### Stacks -/

theorem stackCaps_at (p size k : Nat) : (stackCaps p size)[k]? =
    if k = 0 then some none else if k ≤ size / p then some (some ⟨true, true, false⟩)
    else if k = size / p + 1 then some none else none := by
  simp only [stackCaps]
  cases k with
  | zero => simp
  | succ k =>
    simp only [Nat.add_eq_zero_iff, Nat.one_ne_zero, and_false, if_false, List.cons_append, List.nil_append,
      List.getElem?_cons_succ]
    rw [List.getElem?_append]
    simp only [List.length_replicate]
    split
    · rw [if_pos (by omega), List.getElem?_replicate, if_pos (by assumption)]
    · rw [if_neg (by omega)]
      by_cases h : k = size / p
      · simp [h]
      · rw [if_neg (by omega)]
        rw [List.getElem?_eq_none]
        simp only [List.length_singleton]
        omega

theorem byteAt_stack (p size off : Nat) : byteAt p (stackCaps p size) off =
    if off / p = 0 then .unmapped else if off / p ≤ size / p then .mapped ⟨true, true, false⟩
    else if off / p = size / p + 1 then .unmapped else .unspecified := by
  rw [byteAt, stackCaps_at]
  by_cases h0 : off / p = 0
  · simp only [h0, if_true]
  · by_cases h1 : off / p ≤ size / p
    · simp only [h0, h1, if_true, if_false]
    · by_cases h2 : off / p = size / p + 1
      · rw [if_neg h0, if_neg h1, if_pos h2, if_neg h0, if_neg h1, if_pos h2]
      · simp only [h0, h1, h2, if_false]

/-- **C84 (stacks).** A thread gets its stack as the manual describes it, exactly if its size is a whole
number of pages. Missing is that other sizes are rounded up. -/
theorem stack_partial (p size : Nat) (hp : 0 < p) :
    StackOk p size (stackBytes p size) (stackCaps p size) (stackPointer p size) ↔ p ∣ size := by
  constructor
  · rintro ⟨r, hr, _, _, hsp, _⟩
    simp only [stackPointer] at hsp
    have : size = r := by omega
    exact this ▸ hr
  · intro h
    obtain ⟨k, rfl⟩ := h
    have hdiv : p * k / p = k := Nat.mul_div_cancel_left k hp
    refine ⟨p * k, Nat.dvd_mul_right .., Nat.le_refl _, by omega, by simp [stackPointer]; omega, ?_, ?_, ?_, ?_⟩
    · have : (p * k + p - 1) / p = k := by
        rw [Nat.div_eq_iff hp]
        constructor
        · rw [Nat.mul_comm]; omega
        · rw [Nat.mul_comm k p]; omega
      rw [stackBytes, this, Nat.mul_comm k p]
      omega
    · intro off h1 h2
      rw [byteAt_stack, hdiv]
      have h3 : 0 < off / p := Nat.div_pos h1 hp
      have h4 : off / p ≤ k := by
        rw [← Nat.lt_succ_iff, Nat.div_lt_iff_lt_mul hp]
        rw [Nat.succ_mul, Nat.mul_comm]; omega
      rw [if_neg (by omega), if_pos h4]
    · intro off h1
      rw [byteAt_stack, if_pos (Nat.div_eq_of_lt h1)]
    · intro off h1 h2
      have h3 : off / p = k + 1 := by
        rw [Nat.div_eq_iff hp]
        have : (k + 1) * p = p * k + p := by rw [Nat.add_mul, Nat.mul_comm]; omega
        constructor <;> omega
      rw [byteAt_stack, hdiv, h3, if_neg (by omega), if_neg (by omega), if_pos rfl]

/-- **Disagreement with C84.** A size that is not a whole number of pages is rounded down, but the stack
pointer is not: the first byte that the thread pushes is in the guard page. -/
theorem odd_stack_faults (p size : Nat) (hp : 0 < p) (h : ¬ p ∣ size) :
    byteAt p (stackCaps p size) (stackPointer p size - 1) = .unmapped := by
  have hm : 0 < size % p := Nat.pos_of_ne_zero fun h0 => h (Nat.dvd_of_mod_eq_zero h0)
  have hd := Nat.div_add_mod size p
  have hlt := Nat.mod_lt size hp
  have h3 : (stackPointer p size - 1) / p = size / p + 1 := by
    rw [Nat.div_eq_iff hp, stackPointer]
    have : (size / p + 1) * p = p * (size / p) + p := by rw [Nat.add_mul, Nat.mul_comm, Nat.one_mul]
    rw [this]
    generalize hz : p * (size / p) = z at *
    constructor <;> omega
  rw [byteAt_stack, h3, if_neg (Nat.succ_ne_zero _), if_neg (Nat.not_succ_le_self _), if_pos rfl]

/-- A stack of 5000 bytes. -/
example : byteAt 4096 (stackCaps 4096 5000) (stackPointer 4096 5000 - 1) = .unmapped :=
  odd_stack_faults _ _ (by decide) (by decide)

/-- **C84 (IPC buffers).** The IPC buffer is one page between two guard pages. -/
theorem ipc_page (p : Nat) (hp : 0 < p) : ipcBytes p = ipcAddress p + p + p ∧ ∀ off, off < ipcBytes p →
    byteAt p ipcCaps off =
      if ipcAddress p ≤ off ∧ off < ipcAddress p + p then .mapped ⟨true, true, false⟩ else .unmapped := by
  refine ⟨by simp only [ipcBytes, ipcAddress]; omega, ?_⟩
  intro off h
  have e : ipcAddress p = p := rfl
  rw [e]
  simp only [ipcBytes] at h
  have hq : off / p < 3 := by
    rw [Nat.div_lt_iff_lt_mul hp]
    omega
  have hd := Nat.div_add_mod off p
  have hlt := Nat.mod_lt off hp
  rw [byteAt]
  generalize hk : off / p = k at *
  match k, hq with
  | 0, _ => rw [if_neg (by omega)]; rfl
  | 1, _ => rw [if_pos (by omega)]; rfl
  | 2, _ => rw [if_neg (by omega)]; rfl

/-! ### Disagreements -/

/-- Options for the examples. -/
def demoOptions : Options := ⟨16384, 254, 254, 0, 10000, 10000, 0, 8, true, true⟩

/-- A server `s` with the interface `i`, and one with the interface `max`. -/
def demoConns (i : Str) : List Conn := [⟨0, 2, [⟨"c".toList, "u".toList⟩], [⟨"s".toList, i⟩]⟩]

/-- **Disagreement with C83.** The maximum priority for all threads is also the priority of an interface that
is called `max`, although nobody wished for that. -/
theorem max_confused : (tcbs demoOptions (written [((.all, .maxPriority), 100)]) (fun _ => false)
      (threads (demoConns "max".toList) "s".toList (written [((.all, .maxPriority), 100)]) demoOptions)).map (·.prio) =
        [254, 100, 100, 255] ∧
    (kinds (demoConns "max".toList) "s".toList demoOptions).map
      (fun k => (Spec.thread demoOptions [((.all, .maxPriority), 100)] (fun _ => false) k).prio) =
        [254, 254, 254, 255] := by
  constructor <;> decide

/-- **Disagreement with C83.** The maximum priority of interface `x` and the priority of interface `x_max` are
the same setting. -/
theorem suffix_confused (x : Str) : settingName (.iface x) .maxPriority =
    settingName (.iface (x ++ "_max".toList)) .priority := by
  have h : "_".toList ++ "max_priority".toList = "_max".toList ++ ("_".toList ++ "priority".toList) := by decide
  calc x ++ "_".toList ++ "max_priority".toList = x ++ ("_".toList ++ "max_priority".toList) := List.append_assoc ..
    _ = x ++ ("_max".toList ++ ("_".toList ++ "priority".toList)) := congrArg (x ++ ·) h
    _ = x ++ "_max".toList ++ ("_".toList ++ "priority".toList) := (List.append_assoc ..).symm
    _ = x ++ "_max".toList ++ "_".toList ++ "priority".toList := (List.append_assoc ..).symm

/-- **Disagreement with C84.** Threads of different instances, which may share an address space, have the same
names: interface `b_c` of `a` and interface `c` of `a_b`; and instances `a.b` and `a_b`. -/
theorem names_shared : ifaceName (sanitize "a".toList) "b_c".toList 0 = ifaceName (sanitize "a_b".toList) "c".toList 0 ∧
    sanitize "a.b".toList = sanitize "a_b".toList := by
  constructor <;> decide

/-! ### Examples -/

/-- Wishes for all three scopes. -/
def demoWishes : List Wish :=
  [((.all, .priority), 50), ((.iface "i".toList, .priority), 60), ((.control, .domain), 1), ((.control, .stackSize), 8192)]

example : PlainConns (demoConns "i".toList) "s".toList := by
  intro e he
  have : e = ("i".toList, 2) := by
    have : ends (demoConns "i".toList) "s".toList = [("i".toList, 2)] := by decide
    rw [this] at he
    simpa using he
  subst this
  exact ⟨by decide, by decide, by decide⟩

example : kinds (demoConns "i".toList) "s".toList demoOptions =
    [.control, .iface "i".toList 0, .iface "i".toList 1, .faultHandler] := by decide

example : (kinds (demoConns "i".toList) "s".toList demoOptions).map (fun k => (Spec.thread demoOptions demoWishes (fun _ => false) k).prio) =
    [50, 60, 60, 255] := by decide

example : ((ends (demoConns "i".toList) "s".toList).map Prod.fst).Nodup := by decide

example : Alnum "s".toList ∧ Alnum "c".toList := by
  simp only [Alnum]
  decide

end Verif.Threads
