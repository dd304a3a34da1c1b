import Verif.IoOps.Lemmas

/-!
# C132: a component's I/O operations are set up completely or not at all, each on its own
-/

namespace Verif.IoOps

/-- **C132**, success. A set-up that returns 0 has filled in every operation, and the device tree that drivers get is the one behind
the header, or none if the component has none. -/
theorem success_is_complete (e : Env) (w w' : World) (a : Nat) (o o' : Ops) (h : ioOps e w a o = .ret 0 w' o') :
    Complete o' ∧ fdtGet o'.fdtCookie = (if e.dtb = 0 then 0 else e.dtb + e.header) ∧
      o'.mapFn = (if e.debug then .trackedMap else .plainMap) := by
  by_cases ha : a = 0
  · simp [ioOps, ha] at h
  by_cases hs : e.stdErr = 0
  · cases hd : e.debug <;> cases h1 : e.memory w.allocs
    · obtain ⟨o2, h2⟩ := ioOps_nomem_release e w a o ha hs hd h1
      rw [h2] at h; simp at h
    · rw [ioOps_release e w a o ha hs hd h1] at h
      simp only [Res.ret.injEq] at h
      obtain ⟨_, _, rfl⟩ := h
      simp only [Complete, fdtGet]
      split_ifs <;> simp_all
    · rw [ioOps_nomem_debug1 e w a o ha hs hd h1] at h
      simp at h
    · cases h2 : e.memory (w.allocs + 1)
      · obtain ⟨o2, h3⟩ := ioOps_nomem_debug2 e w a o ha hs hd h1 h2
        rw [h3] at h; simp at h
      · rw [ioOps_debug e w a o ha hs hd h1 h2] at h
        simp only [Res.ret.injEq] at h
        obtain ⟨_, _, rfl⟩ := h
        simp only [Complete, fdtGet]
        split_ifs <;> simp_all
  · rw [ioOps_std e w a o ha hs] at h
    simp only [Res.ret.injEq] at h
    exact absurd h.1 hs

/-- **C132**, when it succeeds. The set-up returns 0 exactly if it gets an address and the memory for its records: two objects in debug builds, one
otherwise. In all other cases it returns something that is not 0. -/
theorem success_iff (e : Env) (w : World) (a : Nat) (o : Ops) :
    ∃ code w' o', ioOps e w a o = .ret code w' o' ∧
      (code = 0 ↔ a ≠ 0 ∧ e.stdErr = 0 ∧ e.memory w.allocs = true ∧ (e.debug = true → e.memory (w.allocs + 1) = true)) := by
  by_cases ha : a = 0
  · exact ⟨-1, w, o, by simp [ioOps, ha], by simp [ha]⟩
  by_cases hs : e.stdErr = 0
  · cases hd : e.debug <;> cases h1 : e.memory w.allocs
    · obtain ⟨o2, h2⟩ := ioOps_nomem_release e w a o ha hs hd h1
      exact ⟨_, _, _, h2, by simp⟩
    · exact ⟨_, _, _, ioOps_release e w a o ha hs hd h1, by simp [ha, hs]⟩
    · exact ⟨_, _, _, ioOps_nomem_debug1 e w a o ha hs hd h1, by simp⟩
    · cases h2 : e.memory (w.allocs + 1)
      · obtain ⟨o2, h3⟩ := ioOps_nomem_debug2 e w a o ha hs hd h1 h2
        exact ⟨_, _, _, h3, by simp⟩
      · exact ⟨_, _, _, ioOps_debug e w a o ha hs hd h1 h2, by simp [ha, hs]⟩
  · exact ⟨_, _, _, ioOps_std e w a o ha hs, by simp [hs]⟩

/-- **C132**, apart. A set-up that returns 0 gives records of its own: in debug builds an empty list of mappings, and always a registry of
interfaces, both at addresses that nothing had before. What was there before stays as it is. -/
theorem records_are_new (e : Env) (w w' : World) (a : Nat) (o o' : Ops) (hw : ∀ c x, getObj w.heap c = some x → c < w.next)
    (h : ioOps e w a o = .ret 0 w' o') :
    getObj w.heap o'.ifCookie = none ∧ getObj w'.heap o'.ifCookie = some (.ifaces a) ∧
      (e.debug = true → getObj w.heap o'.mapCookie = none ∧ getObj w'.heap o'.mapCookie = some (.mapper []) ∧
        o'.mapCookie ≠ o'.ifCookie) ∧
      (∀ c x, getObj w.heap c = some x → getObj w'.heap c = some x) := by
  have fresh : ∀ c, w.next ≤ c → getObj w.heap c = none := by
    intro c hc
    cases hg : getObj w.heap c with
    | none => rfl
    | some x => have := hw c x hg; omega
  obtain ⟨code, w2, o2, h2, hiff⟩ := success_iff e w a o
  rw [h] at h2
  simp only [Res.ret.injEq] at h2
  obtain ⟨ha, hs, h1, hdm⟩ := hiff.mp h2.1.symm
  cases hd : e.debug
  · rw [ioOps_release e w a o ha hs hd h1] at h
    simp only [Res.ret.injEq, true_and] at h
    obtain ⟨rfl, rfl⟩ := h
    refine ⟨fresh _ (Nat.le_refl _), by simp [getObj_cons], by simp, ?_⟩
    intro c x hc
    have := hw c x hc
    have : ¬ w.next = c := by omega
    simp [getObj_cons, this, hc]
  · rw [ioOps_debug e w a o ha hs hd h1 (hdm hd)] at h
    simp only [Res.ret.injEq, true_and] at h
    obtain ⟨rfl, rfl⟩ := h
    refine ⟨fresh _ (by simp), by simp [getObj_cons], fun _ => ⟨fresh _ (Nat.le_refl _), by simp [getObj_cons], by simp⟩, ?_⟩
    intro c x hc
    have := hw c x hc
    have h3 : ¬ w.next = c := by omega
    have h4 : ¬ w.next + 1 = c := by omega
    simp [getObj_cons, h3, h4, hc]

/-- **C132**, unmapping, in debug builds, if there is always memory: in every history that uses only structures that were set up, an error is logged for an
unmapping exactly if no mapping of this address through this structure is left to be unmapped. -/
theorem unmap_error_iff_partial (e : Env) (hm : Plenty e) (hd : e.debug = true) (junk : Nat → Ops) (base : Nat) (h : List Ev) (a p : Nat)
    (hu : UsesSetUp (.unmap a p :: h)) :
    ∃ s bs, run e (start junk base) (h.reverse ++ [.unmap a p]) = some (s, bs ++ [decide (owed a p h = 0)]) := by
  obtain ⟨s, bs, hr, hi⟩ := inv_run e hm hd junk base h hu.2
  obtain ⟨s', h1, _⟩ := inv_unmap e hd s h hi a p hu.1
  exact ⟨s', bs, by rw [run_snoc, hr]; simp [h1]⟩

/-- Setting up and mapping never log an error, and such histories always run. -/
theorem others_silent (e : Env) (hm : Plenty e) (hd : e.debug = true) (junk : Nat → Ops) (base : Nat) (h : List Ev) (x : Ev)
    (hx : ∀ a p, x ≠ .unmap a p) (hu : UsesSetUp (x :: h)) :
    ∃ s bs, run e (start junk base) (h.reverse ++ [x]) = some (s, bs ++ [false]) := by
  cases x with
  | unmap a p => exact absurd rfl (hx a p)
  | setup a =>
    obtain ⟨s, bs, hr, hi⟩ := inv_run e hm hd junk base h hu.2
    obtain ⟨s', h1, _⟩ := inv_setup e hm hd s h hi a hu.1
    exact ⟨s', bs, by rw [run_snoc, hr]; simp [h1]⟩
  | map a p =>
    obtain ⟨s, bs, hr, hi⟩ := inv_run e hm hd junk base h hu.2
    obtain ⟨s', h1, _⟩ := inv_map e hm s h hi a p hu.1
    exact ⟨s', bs, by rw [run_snoc, hr]; simp [h1]⟩

/-- Mapping gives the driver what was found, whether or not the record of it can be made. -/
theorem map_answer (e : Env) (w w' : World) (o : Ops) (p q : Nat) (h : callMap e w o p = some (w', q)) : q = p := by
  unfold callMap at h
  split at h
  · simp only [Option.some.injEq, Prod.mk.injEq] at h; exact h.2.symm
  · split at h
    · split_ifs at h <;> simp only [Option.some.injEq, Prod.mk.injEq] at h <;> exact h.2.symm
    · cases h
  · cases h

/-- In other builds no error is ever logged. -/
theorem release_silent (e : Env) (hd : e.debug = false) : ∀ (h : List Ev) (s s' : Sys) (bs : List Bool),
    run e s h = some (s', bs) → ∀ b ∈ bs, b = false
  | [], _, _, _, h => by
    simp only [run, Option.some.injEq, Prod.mk.injEq] at h
    rw [← h.2]; simp
  | x :: h, s, s', bs, hr => by
    simp only [run] at hr
    cases hx : step e s x with
    | none => rw [hx] at hr; cases hr
    | some r =>
      rw [hx] at hr
      simp only [Option.map_eq_some_iff] at hr
      obtain ⟨r2, h2, h3⟩ := hr
      simp only [Prod.mk.injEq] at h3
      have ih := release_silent e hd h r.1 r2.1 r2.2 h2
      rw [← h3.2]
      intro b hb
      rcases List.mem_cons.mp hb with rfl | hb
      · cases x with
        | setup a =>
          simp only [step] at hx
          split at hx
          · cases hx
          · simp only [Option.some.injEq] at hx; rw [← hx]
        | map a p =>
          simp only [step, Option.map_eq_some_iff] at hx
          obtain ⟨_, _, hx⟩ := hx
          rw [← hx]
        | unmap a p =>
          simp only [step, Option.map_eq_some_iff] at hx
          obtain ⟨r3, h4, hx⟩ := hx
          unfold callUnmap at h4
          rw [hd] at h4
          by_cases hf : (s.ops a).unmapFn = .unmap
          · simp [hf] at h4
            rw [← hx, ← h4]
          · simp [hf] at h4
      · exact ih b hb

/-! ## Cases -/

/-- Memory full of zeros and a build with as much memory as one likes. -/
def zeros : Ops :=
  ⟨.stale 0, 0, .stale 0, .stale 0, .stale 0, .stale 0, .stale 0, .stale 0, .stale 0, .stale 0, .stale 0, 0, .stale 0, 0, .stale 0,
    .stale 0, 0, .stale 0, .stale 0, .stale 0⟩

def debugBuild : Env := ⟨true, 0x500000, 32, 0, fun _ => true⟩

theorem demo_plenty : Plenty debugBuild := ⟨rfl, fun _ => rfl⟩

/-- Two structures, at 0x1000 and 0x2000. -/
def demoHistory : List Ev :=
  [.unmap 0x2000 7, .unmap 0x1000 7, .map 0x2000 8, .map 0x1000 7, .setup 0x2000, .map 0x1000 7, .setup 0x1000]

theorem demo_uses : UsesSetUp (.unmap 0x1000 7 :: demoHistory) := by simp [UsesSetUp, demoHistory]

/-- The unmapping through the other structure is the only error. -/
theorem demo_run : (run debugBuild (start (fun _ => zeros) 0x9000) (demoHistory.reverse ++ [.unmap 0x1000 7, .unmap 0x1000 7])).map
    (·.2) = some [false, false, false, false, false, false, true, false, true] := by decide +kernel

theorem demo_owed : owed 0x1000 7 demoHistory = 1 ∧ owed 0x2000 7 demoHistory = 0 ∧ owed 0x2000 8 demoHistory = 1 := by decide

theorem demo_setup : ∃ w o, ioOps debugBuild ⟨[], 0x9000, 0, false, none⟩ 0x1000 zeros = .ret 0 w o ∧ Complete o ∧
    fdtGet o.fdtCookie = 0x500020 := by
  refine ⟨_, _, ioOps_debug debugBuild _ 0x1000 zeros (by decide) rfl rfl rfl rfl, ?_, ?_⟩
  · simp [Complete]
  · decide

/-! ## Where the code does not do what users expect -/

/-- **Disagreement with C132.** If there is no memory for the registry of the interfaces, in a debug build the record of the mappings stays allocated, though the
set-up fails: whoever tries again gets a second one. -/
theorem failure_leaves_record (e : Env) (w : World) (a : Nat) (o : Ops) (ha : a ≠ 0) (hs : e.stdErr = 0) (hd : e.debug = true)
    (h1 : e.memory w.allocs = true) (h2 : e.memory (w.allocs + 1) = false) :
    ∃ code w' o', ioOps e w a o = .ret code w' o' ∧ code ≠ 0 ∧ w'.heap = (w.next, .mapper []) :: w.heap := by
  obtain ⟨o', h⟩ := ioOps_nomem_debug2 e w a o ha hs hd h1 h2
  exact ⟨1, _, o', h, by decide, rfl⟩

/-- **Disagreement with C132.** The code for lack of memory does not reach the caller: it is 1 then, not the negative code of the function that failed. -/
theorem code_is_lost (e : Env) (w : World) (a : Nat) (o : Ops) (ha : a ≠ 0) (hs : e.stdErr = 0) (h : e.memory w.allocs = false) :
    ∃ w' o', ioOps e w a o = .ret 1 w' o' ∧
      (e.debug = false → (interfaceOps e w a { o with malloc := .stdMalloc }).1 = enomem) := by
  cases hd : e.debug
  · obtain ⟨o', h2⟩ := ioOps_nomem_release e w a o ha hs hd h
    exact ⟨_, o', h2, fun _ => by simp [interfaceOps, calloc, h]⟩
  · exact ⟨_, _, ioOps_nomem_debug1 e w a o ha hs hd h, by simp⟩

/-- **Disagreement with C132.** If there is no memory for the record of a mapping, the driver gets its mapping, and the unmapping is logged as an error. -/
theorem unrecorded_mapping : (run { debugBuild with memory := fun n => n < 2 } (start (fun _ => zeros) 0x9000)
    [.setup 0x1000, .map 0x1000 7, .unmap 0x1000 7]).map (·.2) = some [false, false, true] := by decide +kernel

/-- The mapper on its own needs the operations of the memory: if they cannot be had, a debug build that has not set them up before ends. -/
theorem mapper_alone (e : Env) (w : World) (o : Ops) :
    ioMapper e w o = .died ↔ e.debug = true ∧ w.inited = false ∧ e.stdErr ≠ 0 := by
  have key : ∀ (w : World) (f : Option Fn), (match calloc e w f (.mapper []) with
      | none => Res.ret (-1) (failed w) o
      | some (w, c) => .ret 0 w { o with mapCookie := c, mapFn := .trackedMap, unmapFn := .unmap }) ≠ .died := by
    intro w f
    split <;> simp
  unfold ioMapper
  cases e.debug
  · simp
  · by_cases hc : w.inited = false ∧ e.stdErr ≠ 0
    · simp [hc]
    · have hc' : ¬ (¬ w.inited = true ∧ e.stdErr ≠ 0) := by simpa using hc
      rw [if_neg (by simp), if_neg hc']
      exact ⟨fun h => absurd h (key _ _), fun h => absurd h.2 hc⟩

/-- The registry of the interfaces points into the caller's structure: it has to be kept as long as the registry is used. -/
theorem registry_points_to_caller : ∃ w o, ioOps debugBuild ⟨[], 0x9000, 0, false, none⟩ 0x1000 zeros = .ret 0 w o ∧
    getObj w.heap o.ifCookie = some (.ifaces 0x1000) := by
  refine ⟨_, _, ioOps_debug debugBuild _ 0x1000 zeros (by decide) rfl rfl rfl rfl, ?_⟩
  decide

end Verif.IoOps
