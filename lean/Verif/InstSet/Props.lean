import Verif.InstSet.Spec

/-!
# C140: settings of cores, heap and capability space take effect or are refused
-/

namespace Verif.InstSet

/-! ### Affinity -/

/-- C140: if the build goes through and the settings are for the whole instance, every thread runs on a core of the machine,
the same for all of them, and this is the core that the component is told. -/
theorem affinity_partial (value : Text → Option Int) (nodes : Nat) (k : Config) (me : Text) (dflt : Int) (t : Thread)
    (h : affinityAccepted value nodes k me = true) (hs : ¬ Single k me) (hu : Unsigned value k me)
    (hd : 0 ≤ dflt ∧ dflt < nodes) :
    affinityOf k me dflt t = instanceAffinity k me dflt ∧ Core value nodes (affinityOf k me dflt t) := by
  have hpre : ∀ pre, pre ≠ [] → k me (pre ++ "affinity".toList) = none := by
    intro pre hp
    cases hk : k me (pre ++ "affinity".toList) with
    | none => rfl
    | some v => exact absurd ⟨pre, hp, v, hk⟩ hs
  have hta : ∀ pre, pre ≠ [] → threadAffinity k me pre dflt = instanceAffinity k me dflt := by
    intro pre hp
    unfold threadAffinity instanceAffinity
    rw [hpre pre hp]
    cases k me "affinity".toList <;> rfl
  have heq : affinityOf k me dflt t = instanceAffinity k me dflt := by
    cases t with
    | control => exact hta _ (by decide)
    | fault => rfl
    | iface n => exact hta _ (by intro hn; exact absurd (congrArg List.length hn) (by simp))
  refine ⟨heq, ?_⟩
  rw [heq]
  unfold instanceAffinity
  unfold affinityAccepted at h
  cases hk : k me "affinity".toList with
  | none => exact ⟨dflt.toNat, by show some dflt = _; congr 1; omega, by omega⟩
  | some v =>
    rw [hk] at h
    cases hv : shown value v with
    | none => simp [hv] at h
    | some a =>
      have h0 := hu v a hk hv
      simp only [hv, Bool.not_eq_true', decide_eq_false_iff_not] at h
      exact ⟨a.toNat, by rw [Option.getD_some, hv]; congr 1; omega, by omega⟩

/-- C140: a core that the machine does not have is refused. -/
theorem affinity_refused (value : Text → Option Int) (nodes : Nat) (k : Config) (me : Text) (v : Val) (a : Int)
    (hk : k me "affinity".toList = some v) (hv : shown value v = some a) (h : (nodes : Int) ≤ a) :
    affinityAccepted value nodes k me = false := by
  unfold affinityAccepted
  rw [hk]
  simp only [hv, Bool.not_eq_false', decide_eq_true_eq]
  omega

/-- C140: what is not for a whole instance is for the thread that it names. -/
theorem affinity_single (k : Config) (me : Text) (dflt : Int) (v : Val) :
    (k me "_affinity".toList = some v → affinityOf k me dflt .control = v) ∧
    (∀ n, k me (n ++ "_affinity".toList) = some v → affinityOf k me dflt (.iface n) = v) := by
  constructor
  · intro h
    show threadAffinity k me "_".toList dflt = v
    unfold threadAffinity
    rw [show "_".toList ++ "affinity".toList = "_affinity".toList from by decide, h]
  · intro n h
    show threadAffinity k me (n ++ "_".toList) dflt = v
    unfold threadAffinity
    rw [List.append_assoc, show "_".toList ++ "affinity".toList = "_affinity".toList from by decide, h]

/-- **Disagreement with C140.** The affinity of a single thread is not checked: the build goes through with any core for the
control thread, and the component is told another one. -/
theorem single_not_checked (value : Text → Option Int) (nodes : Nat) (k : Config) (me : Text) (dflt a : Int)
    (hg : k me "affinity".toList = none) (hc : k me "_affinity".toList = some (.num a)) (ha : (nodes : Int) ≤ a) (hd : dflt < nodes) :
    affinityAccepted value nodes k me = true ∧ ¬ Core value nodes (affinityOf k me dflt .control) ∧
    instanceAffinity k me dflt ≠ affinityOf k me dflt .control := by
  rw [(affinity_single k me dflt (.num a)).1 hc]
  refine ⟨?_, ?_, ?_⟩
  · unfold affinityAccepted; rw [hg]
  · rintro ⟨n, hn, hlt⟩
    simp only [shown, Option.some.injEq] at hn
    omega
  · unfold instanceAffinity
    rw [hg]
    intro h
    simp only [Option.getD_none, Val.num.injEq] at h
    omega

/-- **Disagreement with C140.** Neither the default nor a negative number is checked. -/
theorem default_not_checked (value : Text → Option Int) (nodes : Nat) (k : Config) (me : Text) (dflt : Int) (t : Thread)
    (hs : ∀ x, k me x = none) (hd : dflt < 0 ∨ (nodes : Int) ≤ dflt) :
    affinityAccepted value nodes k me = true ∧ ¬ Core value nodes (affinityOf k me dflt t) := by
  have h : affinityOf k me dflt t = .num dflt := by
    cases t <;> simp [affinityOf, threadAffinity, hs]
  rw [h]
  refine ⟨by unfold affinityAccepted; rw [hs], ?_⟩
  rintro ⟨n, hn, hlt⟩
  simp only [shown, Option.some.injEq] at hn
  omega

theorem negative_accepted (value : Text → Option Int) (nodes : Nat) (k : Config) (me : Text) (a : Int)
    (hk : k me "affinity".toList = some (.num a)) (h : a < 0) : affinityAccepted value nodes k me = true := by
  unfold affinityAccepted
  rw [hk]
  simp only [shown, Bool.not_eq_true', decide_eq_false_iff_not]
  omega

/-! ### Heap -/

/-- C140: the allocator is told the size of the array that it is given, which is the one that was asked for, or else the default;
and a heap that cannot be given is refused. -/
theorem heap_size (configured : Option Int) (k : Config) (me : Text) :
    (∀ d, configured = some d → ∀ v, k me "heap_size".toList = some v → heapOf configured k me = .array v v) ∧
    (∀ d, configured = some d → k me "heap_size".toList = none → heapOf configured k me = .array (.num d) (.num d)) ∧
    (configured = none → (heapOf configured k me = .refused ↔ ∃ v, k me "heap_size".toList = some v)) ∧
    (configured = none → k me "heap_size".toList = none → heapOf configured k me = .library) := by
  refine ⟨?_, ?_, ?_, ?_⟩
  · rintro d rfl v hv
    unfold heapOf
    rw [hv]
    rfl
  · rintro d rfl hv
    unfold heapOf
    rw [hv]
    rfl
  · rintro rfl
    unfold heapOf
    cases k me "heap_size".toList with
    | none => exact ⟨fun h => (nomatch h), fun ⟨_, h⟩ => (nomatch h)⟩
    | some v => exact ⟨fun _ => ⟨v, rfl⟩, fun _ => rfl⟩
  · rintro rfl hv
    unfold heapOf
    rw [hv]
    rfl

/-! ### CNode -/

theorem setSize_asked {parse : Text → Option Int} {k : Config} {space : Text} {n : Int} (h : Asked parse k space n) (s : Size) :
    setSize parse k space s = some (.bits n) := by
  unfold setSize
  rcases h with ⟨h, hn⟩ | ⟨t, h, ht, hp⟩
  · rw [h]; simp [truthy, hn]
  · rw [h]; simp [truthy, ht, hp]

theorem setSizes_asked {parse : Text → Option Int} {k : Config} {space : Text} {n : Int} (h : Asked parse k space n) :
    ∀ (is : List Text) (s : Size), is ≠ [] → setSizes parse k space is s = some (.bits n)
  | [], _, hne => absurd rfl hne
  | [_], s, _ => by
    unfold setSizes
    rw [setSize_asked h s]
    rfl
  | _ :: j :: is, s, _ => by
    unfold setSizes
    rw [setSize_asked h s]
    exact setSizes_asked h (j :: is) _ (by simp)

/-- C140: a size that is asked for an address space is the size of its CNode, however many instances share it, and is what
each of them is told. -/
theorem cnode_size_partial {parse : Text → Option Int} {k : Config} {space : Text} {n : Int} (h : Asked parse k space n)
    (is : List Text) (hne : is ≠ []) : ∃ s, setSizes parse k space is .auto = some s ∧ s = .bits n ∧
      ∀ me ∈ is, toldSize k me s = some (.num n) :=
  ⟨_, setSizes_asked h is .auto hne, rfl, fun _ _ => rfl⟩

theorem setSizes_silent (parse : Text → Option Int) (k : Config) (space : Text) (h : k space "cnode_size_bits".toList = none) :
    ∀ (is : List Text) (s : Size), setSizes parse k space is s = some s
  | [], _ => rfl
  | _ :: is, s => by
    have : setSize parse k space s = some s := by unfold setSize; rw [h]
    unfold setSizes
    rw [this]
    exact setSizes_silent parse k space h is s

/-- **Disagreement with C140.** An instance in a group that asks for a size under its own name does not get it, but is told that it
has. -/
theorem member_misled (parse : Text → Option Int) (k : Config) (group me : Text) (is : List Text) (v : Val)
    (hg : k group "cnode_size_bits".toList = none) (hm : k me "cnode_size_bits".toList = some v) :
    setSizes parse k group is .auto = some .auto ∧ toldSize k me .auto = some v :=
  ⟨setSizes_silent parse k group hg is .auto, hm⟩

/-- **Disagreement with C140.** An instance that asks for the size 0 gets a CNode of any size, and is told 0. -/
theorem zero_misled (parse : Text → Option Int) (k : Config) (me : Text) (h : k me "cnode_size_bits".toList = some (.num 0)) :
    setSizes parse k me [me] .auto = some .auto ∧ toldSize k me .auto = some (.num 0) := by
  have : setSize parse k me .auto = some .auto := by unfold setSize; rw [h]; rfl
  refine ⟨?_, h⟩
  unfold setSizes
  rw [this]
  rfl

/-! ### Events -/

/-- C140: emitting an event that is connected signals each consumer once, and one that is not connected does nothing. -/
theorem emits (toEnds : List Nat) : emit (some (notificationEmit toEnds)) = toEnds ∧ emit none = [] := ⟨rfl, rfl⟩

/-! ### A concrete case -/

/-- Two instances in a group: the group asks for a CNode and the first for a core. -/
def demo : Config := fun i a =>
  if i = "g".toList ∧ a = "cnode_size_bits".toList then some (.str "0xc".toList)
  else if i = "a".toList ∧ a = "affinity".toList then some (.num 2)
  else if i = "b".toList ∧ a = "_affinity".toList then some (.num 9) else none

theorem demo_asked : Asked (fun s => if s = "0xc".toList then some 12 else none) demo "g".toList 12 :=
  .inr ⟨"0xc".toList, by decide +kernel, by decide, by decide +kernel⟩

theorem demo_values : (affinityAccepted (fun _ => none) 4 demo "a".toList, affinityOf demo "a".toList 0 (.iface "p".toList),
      affinityAccepted (fun _ => none) 4 demo "b".toList, affinityOf demo "b".toList 0 .control, instanceAffinity demo "b".toList 0,
      heapOf none demo "a".toList) =
    (true, .num 2, true, .num 9, .num 0, .library) := by decide +kernel

theorem demo_not_single : ¬ Single demo "a".toList := by
  rintro ⟨pre, hp, v, hv⟩
  unfold demo at hv
  rw [if_neg (by rintro ⟨h, _⟩; exact absurd h (by decide))] at hv
  split at hv
  · next h =>
    have := congrArg List.length h.2
    rw [List.length_append] at this
    cases pre with
    | nil => exact hp rfl
    | cons c cs => simp at this
  · rw [if_neg (by rintro ⟨h, _⟩; exact absurd h (by decide))] at hv
    cases hv

end Verif.InstSet
