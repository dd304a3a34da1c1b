import Verif.FaultCaps.Gdb

/-!
# C127: the handler of a fault is told which thread it was
-/

namespace Verif.FaultCaps
open Verif.Context

theorem wired_same {s s' : St} {space : Nat} {inst n : Text} {handled : Option Nat} (h : ∀ x, Frame s s' space x)
    (hw : Wired s space inst handled n) : Wired s' space inst handled n := by
  obtain ⟨o, t, a1, a2, ⟨r, a3⟩, a4, a5⟩ := hw
  exact ⟨o, t, (h 0).objects _ a1, (h 0).caps _ _ _ _ a2, ⟨r, (h 0).cnodes _ _ _ a3⟩, (h 0).tcb _ a4,
    fun ep he => reaches_frame (h (o + 1)) (by omega) (a5 ep he)⟩

theorem shown_eq {s : St} {space : Nat} {inst : Text} (hs : Sound s.core) {names : List Text} {n : Text} {t : Nat} (hn : n ∈ names)
    (ht : s.core.capStore space inst (capKey (n ++ tTcb)) = some t) : shown s space inst names t = some n := by
  unfold shown
  cases hf : names.find? (fun n => s.core.capStore space inst (capKey (n ++ tTcb)) = some t) with
  | none =>
    exact absurd (decide_eq_true ht) (List.find?_eq_none.mp hf n hn)
  | some m =>
    have hm := List.find?_some hf
    simp only [decide_eq_true_eq] at hm
    have := (hs.inj _ _ _ _ _ _ hm ht).2
    rw [List.append_cancel_right (key_inj this)]

/-- A component with its own fault handler, whatever was allocated before: the allocations succeed; the fault handler can
receive from an endpoint; a fault of any thread but the last one, the handler's own, reaches this endpoint with a badge
for which the handler shows the name of that thread, and which is the number of the slot of its TCB. -/
theorem own_handler (s : St) (space : Nat) (inst : Text) (names : List Text) (hs : Sound s.core) (hd : names.Nodup)
    (hp : ∀ n ∈ names, Plain n ∧ notHandler n) (hf : Fresh s.core space inst names) :
    ∃ s' h ep, component s space inst true names = .ok (s', some h) ∧ Sound s'.core ∧
      Named s' ep (fullName inst tFaultEp) ∧ Receives s' space h ep ∧
      (∀ n ∈ names.dropLast, ∃ o t, Named s' o (fullName inst (n ++ tTcb)) ∧ s'.tcb o = true ∧ HasCap s' space t o ∧ Reaches s' space o ep t ∧
        shown s' space inst names t = some n) ∧
      (∀ n ∈ names, ∃ o t, Named s' o (fullName inst (n ++ tTcb)) ∧ s'.tcb o = true ∧ HasCap s' space t o) ∧
      (∀ x, (∀ n ∈ names.dropLast, ¬ Named s' x (fullName inst (n ++ tTcb))) → s'.fault x = s.fault x) := by
  unfold component
  simp only [if_true]
  obtain ⟨a1, a2, a3⟩ := allocObj_spec s.core inst tFaultEp hs.objInv
  obtain ⟨b1, b2⟩ := allocObj_capStore s.core inst tFaultEp
  have hs1 := sound_obj hs inst tFaultEp
  generalize allocObj s.core inst tFaultEp = r at a1 a2 a3 b1 b2 hs1 ⊢
  obtain ⟨core, ep⟩ := r
  simp only at a1 a2 a3 b1 b2 hs1 ⊢
  have hf1 : Fresh core space inst names := by
    refine ⟨fun n hn => ?_, ?_⟩
    · rw [b1]; exact hf.1 n hn
    · rw [b1]; exact hf.2
  obtain ⟨s2, i1, i2, i3, i4, i5, i6, _, _, i9, i10, _⟩ := threadLoop_spec space inst (some ep) names { s with core := core } hs1 hd hp hf1
    (fun ep' he => by cases he; exact ⟨_, a2⟩)
  simp only [i1]
  obtain ⟨c1, c2, c3⟩ := allocObj_spec s2.core inst tFaultEp i2.objInv
  obtain ⟨d1, d2⟩ := allocObj_capStore s2.core inst tFaultEp
  have hs3 := sound_obj i2 inst tFaultEp
  generalize allocObj s2.core inst tFaultEp = r at c1 c2 c3 d1 d2 hs3 ⊢
  obtain ⟨core3, ep3⟩ := r
  simp only at c1 c2 c3 d1 d2 hs3 ⊢
  have hepeq : ep3 = ep := obj_unique hs3 c2 (c3 _ (i3 _ a2))
  subst hepeq
  rw [allocCap_new core3 space inst tHandler ep3 faultRights (by rw [d1]; exact i6)]
  have hs4 := sound_cap hs3 space inst tHandler ep3 faultRights ⟨_, c2⟩
  have hframe : ∀ x, Frame s2 { s2 with core := withCap core3 space inst tHandler ep3 faultRights } space x := by
    intro x
    refine ⟨c3, ?_, fun _ _ _ => rfl, ?_, fun _ h => h, fun _ _ => rfl⟩
    · intro sp i c hc
      exact withCap_old core3 space inst tHandler ep3 faultRights sp i c (by rw [d2]; exact hc)
    · intro sp l k x hx
      simp only
      split
      · rename_i e; obtain ⟨rfl, rfl, rfl⟩ := e; rw [i6] at hx; cases hx
      · rw [d1]; exact hx
  refine ⟨_, _, ep3, rfl, hs4, c2, ⟨faultRights, withCap_new core3 space inst tHandler ep3 faultRights, rfl⟩, ?_, ?_, ?_⟩
  · intro n hn
    obtain ⟨o, t, e1, e2, e3, e4, e5⟩ := wired_same hframe (i4 n hn)
    exact ⟨o, t, e1, e4, e3, e5 _ rfl, shown_eq hs4 (List.dropLast_subset _ hn) e2⟩
  · intro n hn
    obtain ⟨o, t, e1, e2, e3, e4, e5⟩ := wired_same hframe (i5 n hn)
    exact ⟨o, t, e1, e4, e3⟩
  · intro x hx
    exact i10 x (fun n hn h => hx n hn (c3 _ h))

/-- A component without its own fault handler: its threads have TCBs that it holds, and no fault endpoint is set. -/
theorem no_handler (s : St) (space : Nat) (inst : Text) (names : List Text) (hs : Sound s.core) (hd : names.Nodup)
    (hp : ∀ n ∈ names, Plain n ∧ notHandler n) (hf : Fresh s.core space inst names) :
    ∃ s', component s space inst false names = .ok (s', none) ∧ Sound s'.core ∧ s'.fault = s.fault ∧
      (∀ n ∈ names, ∃ o t, Named s' o (fullName inst (n ++ tTcb)) ∧ s'.tcb o = true ∧ HasCap s' space t o) := by
  obtain ⟨s', i1, i2, i3, i4, i5, i6, _, _, i9, i10, i11⟩ := threadLoop_spec space inst none names s hs hd hp hf (fun ep he => by cases he)
  refine ⟨s', by simp [component, i1], i2, i11 rfl, ?_⟩
  intro n hn
  obtain ⟨o, t, e1, e2, e3, e4, e5⟩ := i5 n hn
  exact ⟨o, t, e1, e4, e3⟩

/-! ## The names of the threads -/

theorem plain_append {a b : Text} (hb : Plain b) : Plain (a ++ b) := by
  obtain ⟨x, c, rfl, hc⟩ := hb
  exact ⟨a ++ x, c, by simp, hc⟩

theorem toDigits_ne_nil (b n : Nat) : Nat.toDigits b n ≠ [] := by
  intro h
  have := congrArg List.length h
  have := @Nat.length_toDigits_pos b n
  simp at *

theorem digits_plain (n : Nat) : Plain (Nat.toDigits 10 n) := by
  have hne := toDigits_ne_nil 10 n
  obtain ⟨a, c, e⟩ : ∃ a c, Nat.toDigits 10 n = a ++ [c] := ⟨_, _, (List.dropLast_append_getLast hne).symm⟩
  refine ⟨a, c, e, ?_⟩
  rintro rfl
  have hm : 'b' ∈ Nat.toDigits 10 n := by rw [e]; simp
  have := Nat.isDigit_of_mem_toDigits (by decide) (by decide) hm
  simp [Char.isDigit] at this

/-- A name with a digit is not that of the handler's capability. -/
theorem digit_notHandler {n : Text} (c : Char) (hc : c.isDigit = true) (hm : c ∈ n) : notHandler n := by
  rintro rfl
  simp only [List.mem_cons, List.not_mem_nil, or_false] at hm
  rcases hm with rfl | rfl | rfl | rfl | rfl | rfl | rfl | rfl | rfl | rfl | rfl | rfl | rfl | rfl <;> revert hc <;> decide

/-- The name of the thread of the fault handler, macros.py:316. -/
def handlerName (inst : Text) : Text := Threads.sanitize inst ++ "_0_fault_handler".toList

/-- The names that the tool gives to threads are as the theorems ask. -/
theorem tool_names (conns : List Threads.Conn) (inst : Text) (conf : Threads.Conf) (o : Threads.Options) :
    ∀ n ∈ (Threads.threads conns inst conf o).map (·.name), Plain n ∧ notHandler n := by
  have hi : ∀ (e : Threads.End) (k : Nat), ∀ t ∈ Threads.endThreads inst conf o k e, Plain t.name ∧ notHandler t.name := by
    intro e k t ht
    unfold Threads.endThreads at ht
    split at ht
    · obtain ⟨x, _, rfl⟩ := List.mem_map.mp ht
      simp only [Threads.ifaceName]
      obtain ⟨c, l, hcl⟩ := List.exists_cons_of_ne_nil (toDigits_ne_nil 10 x)
      constructor
      · have := plain_append (a := Threads.sanitize inst ++ '_' :: e.iface ++ '_' :: List.replicate (4 - (Nat.toDigits 10 x).length) '0') (digits_plain x)
        simpa using this
      · have hc : c ∈ Nat.toDigits 10 x := by rw [hcl]; simp
        exact digit_notHandler c (Nat.isDigit_of_mem_toDigits (by decide) (by decide) hc) (by simp [hc])
    · cases ht
  intro n hn
  obtain ⟨t, ht, rfl⟩ := List.mem_map.mp hn
  unfold Threads.threads at ht
  simp only [List.cons_append, List.mem_cons, List.mem_append, List.mem_flatMap] at ht
  rcases ht with rfl | ⟨c, _, ⟨e, _, h⟩ | ⟨e, _, h⟩⟩ | ht
  · exact ⟨plain_append ⟨"_0_contro".toList, 'l', rfl, by decide⟩, digit_notHandler '0' (by decide) (List.mem_append_right _ (by decide))⟩
  · exact hi e _ t h
  · exact hi e _ t h
  · split at ht
    · simp only [List.mem_singleton] at ht
      subst ht
      exact ⟨plain_append ⟨"_0_fault_handle".toList, 'r', rfl, by decide⟩, digit_notHandler '0' (by decide) (List.mem_append_right _ (by decide))⟩
    · cases ht

/-- The claim for the threads that the tool makes: with a fault handler, a fault of any other thread of the component
reaches the endpoint that the fault handler receives from, and is shown with the name of that thread. -/
theorem faults_named (conns : List Threads.Conn) (inst : Text) (conf : Threads.Conf) (o : Threads.Options) (ho : o.faultHandlers = true)
    (s : St) (space : Nat) (hs : Sound s.core) (hd : ((Threads.threads conns inst conf o).map (·.name)).Nodup)
    (hf : Fresh s.core space inst ((Threads.threads conns inst conf o).map (·.name))) :
    ∃ s' h ep, component s space inst true ((Threads.threads conns inst conf o).map (·.name)) = .ok (s', some h) ∧
      Receives s' space h ep ∧
      ∀ t ∈ Threads.threads conns inst conf o, t.name ≠ handlerName inst →
        ∃ tcb slot, Named s' tcb (fullName inst (t.name ++ tTcb)) ∧ HasCap s' space slot tcb ∧ Reaches s' space tcb ep slot ∧
          shown s' space inst ((Threads.threads conns inst conf o).map (·.name)) slot = some t.name := by
  obtain ⟨s', h, ep, e1, e2, e3, e4, e5, _⟩ := own_handler s space inst _ hs hd (tool_names conns inst conf o) hf
  refine ⟨s', h, ep, e1, e4, ?_⟩
  intro t ht hne
  have hm : t.name ∈ ((Threads.threads conns inst conf o).map (·.name)).dropLast := by
    obtain ⟨init, hinit⟩ : ∃ init, (Threads.threads conns inst conf o).map (·.name) = init ++ [handlerName inst] := by
      unfold Threads.threads
      simp only [ho, if_true, List.map_append, List.map_cons, List.map_nil]
      exact ⟨_, rfl⟩
    rw [hinit, List.dropLast_concat]
    have : t.name ∈ init ++ [handlerName inst] := by rw [← hinit]; exact List.mem_map.mpr ⟨t, ht, rfl⟩
    rcases List.mem_append.mp this with h | h
    · exact h
    · exact absurd (List.mem_singleton.mp h) hne
  obtain ⟨x, y, f1, f2, f3, f4, f5⟩ := e5 _ hm
  exact ⟨x, y, f1, f3, f4, f5⟩

/-- Threads with different names are different, and their faults have different badges. -/
theorem badges_apart {s : St} {space ep a b : Nat} {o p : Nat} (h1 : HasCap s space a o) (h2 : HasCap s space b p)
    (_ : Reaches s space o ep a) (_ : Reaches s space p ep b) (hne : o ≠ p) : a ≠ b := by
  rintro rfl
  obtain ⟨r, h1⟩ := h1
  obtain ⟨q, h2⟩ := h2
  rw [h1] at h2
  cases h2
  exact hne rfl

/-! ## The debugger -/

/-- A component that is debugged, whatever was allocated before: the allocations succeed, and a fault of any thread whose
TCB the component holds reaches the endpoint of the connection with a badge that is the number of a slot in which the
component has a capability to that TCB; this is what the debugger passes to the component to have its registers read. The
exception is the thread whose object is called `<instance>_tcb_GDB_delegate`, which is left as it was. -/
theorem debugger_told (s : St) (space : Nat) (inst conn : Text) (hs : Sound s.core) (hu : Unconnected s.core space conn) :
    ∃ s' ep, gdbFrom s space inst conn = .ok s' ∧ Sound s'.core ∧ Named s' ep (fullName conn tEpFault) ∧ s'.tcb = s.tcb ∧
      (∀ (sp i : Nat) c, (s.core.cnodes sp)[i]? = some c → (s'.core.cnodes sp)[i]? = some c) ∧
      (∀ p ∈ s.core.objects, p ∈ s'.core.objects) ∧
      (∀ o t n, HasCap s space t o → s.tcb o = true → Named s o n → n ≠ inst ++ t_tcb_Delegate →
        ∃ b, Reaches s' space o ep b ∧ HasCap s' space b o) ∧
      (∀ o n, Named s o n → n = inst ++ t_tcb_Delegate → s'.fault o = s.fault o) ∧
      (∀ o, (∀ t, ¬ HasCap s space t o) → s'.fault o = s.fault o) ∧
      (∀ sp l k, (∀ m, ¬ (sp = space ∧ l = conn ∧ k = capKey (m ++ t_FaultEp))) → s'.core.capStore sp l k = s.core.capStore sp l k) ∧
      (∀ sp i, i < (s.core.cnodes sp).length → s'.badge sp i = s.badge sp i) := by
  unfold gdbFrom
  obtain ⟨a1, a2, a3⟩ := allocObj_spec s.core conn tEpFault hs.objInv
  obtain ⟨b1, b2⟩ := allocObj_capStore s.core conn tEpFault
  have hs1 := sound_obj hs conn tEpFault
  generalize allocObj s.core conn tEpFault = r at a1 a2 a3 b1 b2 hs1 ⊢
  obtain ⟨core, ep⟩ := r
  simp only at a1 a2 a3 b1 b2 hs1 ⊢
  have hinv : GInv space inst conn ep { s with core := core } [] { s with core := core } := by
    refine ⟨hs1, rfl, rfl, fun _ _ _ h => h, fun _ _ _ => rfl, ?_, by simp, fun _ _ => rfl, fun _ _ _ _ => rfl⟩
    intro m x hx
    simp only [b1, hu m] at hx
    cases hx
  have hmem := mem_threadCaps (s := { s with core := core }) hs1 space
  obtain ⟨s', e1, e2⟩ := gdbLoop_spec space inst conn ep { s with core := core } ⟨_, a2⟩ (threadCaps { s with core := core } space) [] _ hinv
    (fun x hx => ((hmem x).mp (by simpa using hx)).2.2)
  simp only [List.nil_append] at e2
  refine ⟨s', ep, e1, e2.sound, ?_, e2.tcb, ?_, ?_, ?_, ?_, ?_, ?_, ?_⟩
  · unfold Named; rw [e2.objects]; exact a2
  · intro sp i c hc
    exact e2.cnodes sp i c (by simp only [b2]; exact hc)
  · intro p hp; rw [e2.objects]; exact a3 p hp
  · rintro o t n ⟨r, hc⟩ ht hn hne
    have hin : (t, o, n) ∈ threadCaps { s with core := core } space := (hmem _).mpr ⟨⟨r, by simp only [b2]; exact hc⟩, ht, a3 _ hn⟩
    obtain ⟨x, hx⟩ := e2.did t o n hin hne
    obtain ⟨c1, c2, t', o', c3, c4, c5⟩ := e2.stored n x hx
    obtain ⟨⟨r', d1⟩, _, d2⟩ := (hmem _).mp c3
    have : o' = o := obj_unique hs1 d2 (a3 _ hn)
    subst this
    exact ⟨t', ⟨x, faultRights, c5, c2, rfl, .inr rfl, c4⟩, r', e2.cnodes _ _ _ d1⟩
  · intro o n hn he
    refine e2.rest o ?_
    intro t m hm
    have hq : n = m := name_unique hs1 (a3 _ hn) ((hmem _).mp hm).2.2
    rw [← hq]
    exact he
  · intro o ho
    refine e2.rest o ?_
    intro t m hm
    obtain ⟨⟨r, h1⟩, _⟩ := (hmem _).mp hm
    exact absurd ⟨r, by simpa only [b2] using h1⟩ (ho t)
  · intro sp l k hk
    rw [e2.keys sp l k hk]
    simp only [b1]
  · intro sp i hi
    refine e2.badge sp i ?_
    simp only [b2]; exact hi

/-- The debugger receives from the endpoint of the connection. -/
theorem debugger_receives (s : St) (space : Nat) (conn : Text) (ep : Nat) (hs : Sound s.core) (hn : Named s ep (fullName conn tEpFault))
    (hf : s.core.capStore space conn (capKey tEpFault) = none) :
    ∃ s' slot, gdbTo s space conn = .ok (s', slot) ∧ Receives s' space slot ep ∧ s'.fault = s.fault ∧ s'.badge = s.badge ∧
      ∀ (sp i : Nat) c, (s.core.cnodes sp)[i]? = some c → (s'.core.cnodes sp)[i]? = some c := by
  unfold gdbTo
  obtain ⟨a1, a2, a3⟩ := allocObj_spec s.core conn tEpFault hs.objInv
  obtain ⟨b1, b2⟩ := allocObj_capStore s.core conn tEpFault
  generalize allocObj s.core conn tEpFault = r at a1 a2 a3 b1 b2 ⊢
  obtain ⟨core, o⟩ := r
  simp only at a1 a2 a3 b1 b2 ⊢
  have : o = ep := congrArg Prod.snd (List.inj_on_of_nodup_map a1.names a2 (a3 _ hn) rfl)
  subst this
  rw [allocCap_new core space conn tEpFault o faultRights (by rw [b1]; exact hf)]
  refine ⟨_, _, rfl, ⟨faultRights, withCap_new core space conn tEpFault o faultRights, rfl⟩, rfl, rfl, ?_⟩
  intro sp i c hc
  exact withCap_old core space conn tEpFault o faultRights sp i c (by rw [b2]; exact hc)

/-- No thread that the tool makes has the name that the template looks for. -/
theorem never_delegate (inst n : Text) : fullName inst (n ++ tTcb) ≠ inst ++ t_tcb_Delegate := by
  intro e
  have := congrArg List.getLast? e
  simp only [fullName, ← List.append_assoc] at this
  rw [List.getLast?_append, List.getLast?_append] at this
  simp [tTcb, t_tcb_Delegate] at this

/-- A component and then its connection to the debugger: all faults of its threads go to the debugger, whether or not it
has a fault handler of its own, and the badge tells which thread it was.
**Disagreement with C127.** This includes the thread that serves the debugger's own requests: the exception is for an
object whose name no thread has, so that a fault of this thread, which is how it finds that memory cannot be read, goes to
the debugger, which waits for its answer. -/
theorem all_threads_debugged (s : St) (space : Nat) (inst conn : Text) (handlers : Bool) (names : List Text) (hs : Sound s.core)
    (hd : names.Nodup) (hp : ∀ n ∈ names, Plain n ∧ notHandler n) (hf : Fresh s.core space inst names) :
    ∃ s1 h, component s space inst handlers names = .ok (s1, h) ∧
      (Unconnected s1.core space conn → ∃ s2 ep, gdbFrom s1 space inst conn = .ok s2 ∧ Named s2 ep (fullName conn tEpFault) ∧
        ∀ n ∈ names, ∃ o b, Named s2 o (fullName inst (n ++ tTcb)) ∧ Reaches s2 space o ep b ∧ HasCap s2 space b o) := by
  obtain ⟨s1, h, e1, e2, e3⟩ : ∃ s1 h, component s space inst handlers names = .ok (s1, h) ∧ Sound s1.core ∧
      ∀ n ∈ names, ∃ o t, Named s1 o (fullName inst (n ++ tTcb)) ∧ s1.tcb o = true ∧ HasCap s1 space t o := by
    cases handlers with
    | true =>
      obtain ⟨s', h, ep, e1, e2, _, _, _, e3, _⟩ := own_handler s space inst names hs hd hp hf
      exact ⟨s', some h, e1, e2, e3⟩
    | false =>
      obtain ⟨s', e1, e2, _, e3⟩ := no_handler s space inst names hs hd hp hf
      exact ⟨s', none, e1, e2, e3⟩
  refine ⟨s1, h, e1, ?_⟩
  intro hu
  obtain ⟨s2, ep, f1, f2, f3, f4, f5, f6, f7, _⟩ := debugger_told s1 space inst conn e2 hu
  refine ⟨s2, ep, f1, f3, ?_⟩
  intro n hn
  obtain ⟨o, t, g1, g2, g3⟩ := e3 n hn
  obtain ⟨b, k1, k2⟩ := f7 o t _ g3 g2 g1 (never_delegate inst n)
  exact ⟨o, b, f6 _ g1, k1, k2⟩

/-! ## Memory that cannot be read -/

/-- The connection for memory faults: the faults of the threads with `GDB_delegate` in the name of their TCB go to the
endpoint of the connection, and those of the other threads stay as they are. The badge is the number of the slot of one of
those threads. -/
theorem memory_faults (s : St) (space : Nat) (conn : Text) (hs : Sound s.core) (hf : s.core.capStore space conn (capKey tMemFault) = none) :
    ∃ s' mem ep, memFrom s space conn = .ok s' ∧ Sound s'.core ∧ Named s' ep (fullName conn tMemFault) ∧
      (s'.core.cnodes space)[mem]? = some (some ⟨ep, faultRights⟩) ∧ (s.core.cnodes space).length ≤ mem ∧
      memTo s' space conn = .ok (s', mem) ∧
      (∀ (sp i : Nat) c, (s.core.cnodes sp)[i]? = some c → (s'.core.cnodes sp)[i]? = some c) ∧
      (∀ o t n, HasCap s space t o → s.tcb o = true → Named s o n → tDelegate <:+: n →
        s'.fault o = some mem ∧ ∃ b p m, s'.badge space mem = some b ∧ HasCap s' space b p ∧ s'.tcb p = true ∧ Named s' p m ∧ tDelegate <:+: m) ∧
      (∀ o n, Named s o n → ¬ tDelegate <:+: n → s'.fault o = s.fault o) ∧ (∀ p ∈ s.core.objects, p ∈ s'.core.objects) ∧ s'.tcb = s.tcb ∧
      (∀ sp i, i < (s.core.cnodes sp).length → s'.badge sp i = s.badge sp i) := by
  unfold memFrom
  have hmt : ∃ core mem ep, memTo s space conn = .ok ({ s with core := core }, mem) ∧ Sound core ∧ (fullName conn tMemFault, ep) ∈ core.objects ∧
      (core.cnodes space)[mem]? = some (some ⟨ep, faultRights⟩) ∧ mem = (s.core.cnodes space).length ∧
      (∀ (sp i : Nat) c, (s.core.cnodes sp)[i]? = some c → (core.cnodes sp)[i]? = some c) ∧ (∀ p ∈ s.core.objects, p ∈ core.objects) ∧
      core.capStore space conn (capKey tMemFault) = some mem ∧ core.objStore conn (fullName conn tMemFault ++ ['_', 'o', 'b', 'j']) = some ep := by
    unfold memTo
    obtain ⟨a1, a2, a3⟩ := allocObj_spec s.core conn tMemFault hs.objInv
    obtain ⟨b1, b2⟩ := allocObj_capStore s.core conn tMemFault
    have hst : (allocObj s.core conn tMemFault).1.objStore conn (fullName conn tMemFault ++ ['_', 'o', 'b', 'j']) = some (allocObj s.core conn tMemFault).2 := by
      unfold allocObj
      simp only
      cases hq : s.core.objStore conn (fullName conn tMemFault ++ ['_', 'o', 'b', 'j']) with
      | some o => simp only; exact hq
      | none => simp
    have hs1 := sound_obj hs conn tMemFault
    generalize allocObj s.core conn tMemFault = r at a1 a2 a3 b1 b2 hs1 hst ⊢
    obtain ⟨core, ep⟩ := r
    simp only at a1 a2 a3 b1 b2 hs1 hst ⊢
    rw [allocCap_new core space conn tMemFault ep faultRights (by rw [b1]; exact hf)]
    refine ⟨withCap core space conn tMemFault ep faultRights, (core.cnodes space).length, ep, rfl, sound_cap hs1 space conn tMemFault ep faultRights ⟨_, a2⟩,
      a2, withCap_new core space conn tMemFault ep faultRights, by rw [b2], ?_, a3, by simp, hst⟩
    · intro sp i c hc
      exact withCap_old core space conn tMemFault ep faultRights sp i c (by rw [b2]; exact hc)
  obtain ⟨core, mem, ep, h1, h2, h3, h4, h5, h6, h7, h8, h9⟩ := hmt
  rw [h1]
  simp only
  obtain ⟨l1, l2, l3, l4, l5, l6⟩ := memLoop_spec space mem (threadCaps { s with core := core } space) { s with core := core }
  have hmem := mem_threadCaps (s := { s with core := core }) h2 space
  generalize (threadCaps { s with core := core } space).foldl (memThread space mem) { s with core := core } = s' at l1 l2 l3 l4 l5 l6 ⊢
  simp only at l1 l2 l3 l4 l5 l6
  have hold : ∀ t o n, HasCap s space t o → s.tcb o = true → Named s o n → (t, o, n) ∈ threadCaps { s with core := core } space := by
    rintro t o n ⟨r, a⟩ b c
    exact (hmem _).mpr ⟨⟨r, h6 _ _ _ a⟩, b, h7 _ c⟩
  refine ⟨s', mem, ep, rfl, by rw [l1]; exact h2, ?_, ?_, by omega, ?_, ?_, ?_, ?_, ?_, ?_, ?_⟩
  · unfold Named; rw [l1]; exact h3
  · rw [l1]; exact h4
  · unfold memTo
    have ha : allocObj s'.core conn tMemFault = (s'.core, ep) := by
      unfold allocObj
      simp only [l1, h9]
    rw [ha]
    simp only
    rw [allocCap_old s'.core space conn tMemFault ep faultRights mem ep (by rw [l1]; exact h8) (by rw [l1]; exact h4)]
  · intro sp i c hc; rw [l1]; exact h6 sp i c hc
  · intro o t n hc ht hn hd
    have hin := hold t o n hc ht hn
    refine ⟨l3 o ⟨t, n, hin, hd⟩, ?_⟩
    obtain ⟨b, p, m, k1, k2, k3⟩ := l6 ⟨t, o, n, hin, hd⟩
    obtain ⟨⟨r, q1⟩, q2, q3⟩ := (hmem _).mp k1
    exact ⟨b, p, m, k3, ⟨r, by rw [l1]; exact q1⟩, by rw [l2]; exact q2, by unfold Named; rw [l1]; exact q3, k2⟩
  · intro o n hn hd
    refine l4 o ?_
    intro t m hm
    have hq : m = n := name_unique h2 ((hmem _).mp hm).2.2 (h7 _ hn)
    rw [hq]
    exact hd
  · rw [l1]; exact h7
  · exact l2
  · intro sp i hi
    refine l5 sp i ?_
    rintro ⟨rfl, rfl⟩
    omega

/-- What is proved of the claim for memory faults: if one thread of the component has `GDB_delegate` in its name, its faults
reach the handler with the number of the slot of its TCB. -/
theorem memory_told_partial (s : St) (space : Nat) (conn : Text) (hs : Sound s.core)
    (hf : s.core.capStore space conn (capKey tMemFault) = none) (o t : Nat) (n : Text) (hc : HasCap s space t o) (ht : s.tcb o = true)
    (hn : Named s o n) (hd : tDelegate <:+: n) :
    ∃ s' mem ep, memFrom s space conn = .ok s' ∧ memTo s' space conn = .ok (s', mem) ∧ Receives s' space mem ep ∧
      ((∀ p m, s'.tcb p = true → Named s' p m → tDelegate <:+: m → p = o) → ∃ b, Reaches s' space o ep b ∧ HasCap s' space b o) := by
  obtain ⟨s', mem, ep, e1, e2, e3, e4, e5, e6, e7, e8, e9, e10, e11, e12⟩ := memory_faults s space conn hs hf
  refine ⟨s', mem, ep, e1, e6, ⟨faultRights, e4, rfl⟩, ?_⟩
  intro hone
  obtain ⟨f1, b, p, m, f2, f3, f4, f5, f6⟩ := e8 o t n hc ht hn hd
  have := hone p m f4 f5 f6
  subst this
  exact ⟨b, ⟨mem, faultRights, f1, e4, rfl, .inr rfl, f2⟩, f3⟩

/-- **Disagreement with C127.** Two threads of a component with `GDB_delegate` in their names share one capability, and so
its badge: at least one of them is reported as the other. -/
theorem memory_confused (s : St) (space : Nat) (conn : Text) (hs : Sound s.core)
    (hf : s.core.capStore space conn (capKey tMemFault) = none) (o p t u : Nat) (n m : Text)
    (ho : HasCap s space t o ∧ s.tcb o = true ∧ Named s o n ∧ tDelegate <:+: n)
    (hp : HasCap s space u p ∧ s.tcb p = true ∧ Named s p m ∧ tDelegate <:+: m) (hne : o ≠ p) :
    ∃ s', memFrom s space conn = .ok s' ∧
      ¬ ∃ ep a b, Reaches s' space o ep a ∧ HasCap s' space a o ∧ Reaches s' space p ep b ∧ HasCap s' space b p := by
  obtain ⟨s', mem, ep, e1, e2, e3, e4, e5, e6, e7, e8, e9, e10, e11, e12⟩ := memory_faults s space conn hs hf
  refine ⟨s', e1, ?_⟩
  rintro ⟨q, a, b, ⟨f, r, a1, a2, a3, a4, a5⟩, ⟨r1, c1⟩, ⟨g, r2, b1, b2, b3, b4, b5⟩, ⟨r3, c2⟩⟩
  rw [(e8 o t n ho.1 ho.2.1 ho.2.2.1 ho.2.2.2).1] at a1
  rw [(e8 p u m hp.1 hp.2.1 hp.2.2.1 hp.2.2.2).1] at b1
  cases a1
  cases b1
  rw [a5] at b5
  cases b5
  rw [c1] at c2
  cases c2
  exact hne rfl

/-- The name of the thread that serves the debugger's requests, with the interface of
libsel4camkes/include/camkes/gdb/adl.h:27. -/
def delegateName (inst : Text) : Text := Threads.ifaceName (Threads.sanitize inst) ['d', 'e', 'l', 'e', 'g', 'a', 't', 'e'] 0

/-- The template for memory faults does not find this thread. -/
theorem delegate_not_found (inst : Text) (hg : 'G' ∉ inst) : ¬ tDelegate <:+: fullName inst (delegateName inst ++ tTcb) := by
  intro h
  have hm : 'G' ∈ fullName inst (delegateName inst ++ tTcb) := h.subset (by decide)
  have hsan : 'G' ∉ Threads.sanitize inst := by
    intro hx
    obtain ⟨c, hc, e⟩ := List.mem_map.mp hx
    split at e
    · subst e; exact hg hc
    · revert e; decide
  have hrest : 'G' ∉ '_' :: (['d', 'e', 'l', 'e', 'g', 'a', 't', 'e'] ++ '_' ::
      (List.replicate (4 - (Nat.toDigits 10 0).length) '0' ++ Nat.toDigits 10 0) ++ tTcb) := by decide
  simp only [fullName, delegateName, Threads.ifaceName, List.mem_append, List.mem_cons] at hm hrest
  tauto

/-- **Disagreement with C127.** A component with the interfaces for the debugger and the connections of adl.h, whose name
has no `G`: a fault of the thread that serves the debugger's requests reaches the debugger, which waits for this thread, and
not the handler of memory faults. -/
theorem delegate_faults_to_debugger (s : St) (space : Nat) (inst conn mconn : Text) (hg : 'G' ∉ inst) (handlers : Bool) (names : List Text)
    (hs : Sound s.core) (hd : names.Nodup) (hp : ∀ n ∈ names, Plain n ∧ notHandler n) (hf : Fresh s.core space inst names)
    (hn : delegateName inst ∈ names) :
    ∃ s1 h, component s space inst handlers names = .ok (s1, h) ∧
      (Unconnected s1.core space conn → s1.core.capStore space mconn (capKey tMemFault) = none →
        ∃ s2 s3 ep o b, gdbFrom s1 space inst conn = .ok s2 ∧ memFrom s2 space mconn = .ok s3 ∧
          Named s3 ep (fullName conn tEpFault) ∧ Named s3 o (fullName inst (delegateName inst ++ tTcb)) ∧ Reaches s3 space o ep b) := by
  obtain ⟨s1, h, e1, e2, e3⟩ : ∃ s1 h, component s space inst handlers names = .ok (s1, h) ∧ Sound s1.core ∧
      ∀ n ∈ names, ∃ o t, Named s1 o (fullName inst (n ++ tTcb)) ∧ s1.tcb o = true ∧ HasCap s1 space t o := by
    cases handlers with
    | true =>
      obtain ⟨s', h, ep, e1, e2, _, _, _, e3, _⟩ := own_handler s space inst names hs hd hp hf
      exact ⟨s', some h, e1, e2, e3⟩
    | false =>
      obtain ⟨s', e1, e2, _, e3⟩ := no_handler s space inst names hs hd hp hf
      exact ⟨s', none, e1, e2, e3⟩
  refine ⟨s1, h, e1, ?_⟩
  intro hu hm
  obtain ⟨s2, ep, f1, f2, f3, f4, f5, f6, f7, _, _, f8, f9⟩ := debugger_told s1 space inst conn e2 hu
  obtain ⟨o, t, g1, g2, g3⟩ := e3 _ hn
  obtain ⟨b, ⟨f, r, k1, k2, k3, k4, k5⟩, k6⟩ := f7 o t _ g3 g2 g1 (never_delegate inst _)
  have hm2 : s2.core.capStore space mconn (capKey tMemFault) = none := by
    rw [f8]
    · exact hm
    · rintro m ⟨_, _, e⟩
      have := congrArg List.getLast? (key_inj e)
      rw [List.getLast?_append] at this
      simp [tMemFault, t_FaultEp] at this
  obtain ⟨s3, mem, mep, m1, m2, m3, m4, m5, m6, m7, m8, m9, m10, m11, m12⟩ := memory_faults s2 space mconn f2 hm2
  refine ⟨s2, s3, ep, o, b, f1, m1, m10 _ f3, m10 _ (f6 _ g1), f, r, ?_, m7 _ _ _ k2, k3, k4, ?_⟩
  · rw [m9 o _ (f6 _ g1) (delegate_not_found inst hg)]; exact k1
  · rw [m12 space f (List.getElem?_eq_some_iff.mp k2).1]; exact k5

/-- **Disagreement with C127.** The debugger copies the words of the message into an array of four: a message with more
words is written beyond it. -/
theorem message_overrun (length : Nat) : (∀ i ∈ copied length, i < argsLength) ↔ length ≤ 4 := by
  unfold copied argsLength
  constructor
  · intro h
    by_contra hc
    have := h 4 (List.mem_range.mpr (by omega))
    omega
  · intro h i hi
    have := List.mem_range.mp hi
    omega

/-! ## The hypotheses are met -/

/-- The state at the start. -/
def start : St := ⟨Context.start, fun _ _ => none, fun _ => false, fun _ => none⟩

def demoConns : List Threads.Conn :=
  [⟨1, 1, [⟨"debug".toList, "delegate".toList⟩], [⟨"app".toList, "delegate".toList⟩]⟩,
   ⟨1, 1, [⟨"app".toList, "fault".toList⟩], [⟨"debug".toList, "client_fault".toList⟩]⟩]
def demoOptions : Threads.Options := ⟨4096, 254, 254, 0, 10, 10, 0, 8, true, false⟩
def demoNames : List Text := (Threads.threads demoConns "app".toList (fun _ => none) demoOptions).map (·.name)

/-- A component with the interfaces of the debugger, from the start. -/
theorem demo_hypotheses : Sound start.core ∧ demoNames.Nodup ∧ Fresh start.core 0 "app".toList demoNames ∧
    delegateName "app".toList ∈ demoNames ∧ 'G' ∉ "app".toList ∧ demoNames.length = 4 := by
  refine ⟨sound_start, by decide +kernel, ⟨fun _ _ => ⟨rfl, rfl⟩, rfl⟩, by decide +kernel, by decide +kernel, by decide +kernel⟩

/-- The three templates, one after the other: the slots that the threads' faults go to, with their badges. -/
def demoRun : Except String (List (Option Nat × Option Nat)) :=
  match component start 0 "app".toList true demoNames with
  | .error e => .error e
  | .ok (s, _) =>
    match gdbFrom s 0 "app".toList "debug0".toList with
    | .error e => .error e
    | .ok s =>
      match memFrom s 0 "debug0_mem".toList with
      | .error e => .error e
      | .ok s => .ok ((threadCaps s 0).map fun t => (s.fault t.2.1, (s.fault t.2.1).bind (s.badge 0)))

/-- TCBs are in the slots 0, 2, 4 and 6; the faults of all go through capabilities with these badges. -/
theorem demo_run : demoRun.toOption = some [(some 8, some 0), (some 9, some 2), (some 10, some 4), (some 11, some 6)] := by
  decide +kernel

/-- An instance called `GDB`: the handler of memory faults finds the thread. -/
theorem demo_found : tDelegate <:+: fullName "GDB".toList (delegateName "GDB".toList ++ tTcb) := by decide +kernel

end Verif.FaultCaps
