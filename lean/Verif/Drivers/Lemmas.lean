import Verif.Drivers.Spec

namespace Verif.Drivers

/-- A linked list. -/
inductive Chain (next : Nat → Option Nat) : Option Nat → List Nat → Prop
  | nil : Chain next none []
  | cons {n : Nat} {l : List Nat} : Chain next (next n) l → Chain next (some n) (n :: l)

theorem Chain.congr {next next' : Nat → Option Nat} {x : Option Nat} {l : List Nat} (h : Chain next x l) (he : ∀ i ∈ l, next' i = next i) : Chain next' x l := by
  induction h with
  | nil => exact .nil
  | @cons n l _ ih =>
    refine .cons ?_
    rw [he n List.mem_cons_self]
    exact ih fun i hi => he i (List.mem_cons_of_mem _ hi)

theorem Chain.head {next : Nat → Option Nat} {x : Option Nat} {l : List Nat} (h : Chain next x l) : x = l.head? := by
  cases h <;> rfl

/-- Joining a node to the end of a list. -/
theorem Chain.snoc {next : Nat → Option Nat} {x : Option Nat} {l : List Nat} (h : Chain next x l) (n : Nat) (hn : n ∉ l) (hd : l.Nodup) (m : Nat) (hm : l.getLast? = some m) :
    Chain (fun i => if i = n then none else if i = m then some n else next i) x (l ++ [n]) := by
  induction h with
  | nil => cases hm
  | @cons a l hc ih =>
    rw [List.nodup_cons] at hd
    have han : a ≠ n := fun h => hn (h ▸ List.mem_cons_self)
    cases hl : l with
    | nil =>
      subst hl
      simp at hm
      subst hm
      refine .cons ?_
      simp only [if_neg han, if_true]
      refine .cons ?_
      simp only [if_true]
      exact .nil
    | cons b l' =>
      have hm' : l.getLast? = some m := by rw [hl] at hm ⊢; rw [List.getLast?_cons_cons] at hm; exact hm
      have ham : a ≠ m := fun h => hd.1 (h ▸ List.mem_of_getLast? hm')
      refine .cons ?_
      simp only [if_neg han, if_neg ham]
      rw [← hl]
      exact ih (fun h => hn (List.mem_cons_of_mem _ h)) hd.2 hm'

theorem walk_ok (h : Heap) : ∀ (l : List Nat) (n : Nat) (fuel : Nat), Chain h.next (some n) l → l.length ≤ fuel → (∀ i ∈ l, h.live i = true) →
    ∃ m, walk h fuel n = .ok m ∧ l.getLast? = some m := by
  intro l
  induction l with
  | nil => intro n fuel hc; cases hc
  | cons a l ih =>
    intro n fuel hc hf hl
    cases hc with
    | cons hc =>
    cases fuel with
    | zero => simp at hf
    | succ fuel =>
      rw [walk, if_pos (hl a List.mem_cons_self)]
      cases hx : h.next a with
      | none =>
        rw [hx] at hc
        cases hc
        exact ⟨a, rfl, rfl⟩
      | some b =>
        rw [hx] at hc
        obtain ⟨m, h1, h2⟩ := ih b fuel hc (by simp at hf; omega) fun i hi => hl i (List.mem_cons_of_mem _ hi)
        refine ⟨m, h1, ?_⟩
        cases hll : l with
        | nil => rw [hll] at h2; cases h2
        | cons c l' => rw [hll] at h2; rw [List.getLast?_cons_cons]; exact h2

/-- The list in the heap: its nodes and what they hold. -/
structure Holds (h : Heap) (head : Option Nat) (ts : List Token) (ids : List Nat) : Prop where
  chain : Chain h.next head ids
  live : ∀ i ∈ ids, h.live i = true
  nodup : ids.Nodup
  below : ∀ i ∈ ids, i < h.top
  data : ids.map h.data = ts

theorem nodup_lt_length {l : List Nat} {n : Nat} (hd : l.Nodup) (hb : ∀ i ∈ l, i < n) : l.length ≤ n := by
  have := (List.subperm_of_subset hd (fun i hi => List.mem_range.mpr (hb i hi)) : l.Subperm (List.range n)).length_le
  simpa using this

theorem append_ok {h : Heap} {head : Option Nat} {ts : List Token} {ids : List Nat} (hh : Holds h head ts ids) (t : Token) :
    ∃ h' head', append h head t = .ok (h', head') ∧ Holds h' head' (ts ++ [t]) (ids ++ [h.top]) := by
  have hnin : h.top ∉ ids := fun hm => absurd (hh.below _ hm) (by omega)
  unfold append
  simp only
  cases hd : head with
  | none =>
    have hc := hh.chain
    rw [hd] at hc
    cases hc
    have hdat := hh.data
    simp at hdat
    subst hdat
    refine ⟨_, _, rfl, ⟨?_, ?_, by simp, ?_, by simp⟩⟩
    · exact .cons (by simp only [if_true]; exact .nil)
    · simp
    · simp
  | some m =>
    rw [hd] at hh
    let h1 : Heap := ⟨fun i => if i = h.top then t else h.data i, fun i => if i = h.top then none else h.next i, fun i => if i = h.top then true else h.live i, h.top + 1⟩
    have hne : ∀ i ∈ ids, i ≠ h.top := fun i hi he => hnin (he ▸ hi)
    have hc1 : Chain h1.next (some m) ids := hh.chain.congr fun i hi => by simp [h1, hne i hi]
    obtain ⟨l, hw, hl⟩ := walk_ok h1 ids m (h.top + 1) hc1 (by have := nodup_lt_length hh.nodup hh.below; omega) (fun i hi => by simp [h1, hne i hi]; exact hh.live i hi)
    have hlm : l ∈ ids := List.mem_of_getLast? hl
    change ∃ h' head', (match walk h1 (h.top + 1) m with | .ok l => Res.ok (h1.setNext l (some h.top), some m) | .fault => .fault | .abort => .abort | .more => .more) = _ ∧ _
    rw [hw]
    refine ⟨_, _, rfl, ⟨?_, ?_, ?_, ?_, ?_⟩⟩
    · refine ((hh.chain.snoc h.top hnin hh.nodup l hl)).congr ?_
      intro i _
      simp only [Heap.setNext, h1]
      by_cases hil : i = l
      · subst hil; simp [hne i hlm]
      · simp [hil]
    · intro i hi
      simp only [Heap.setNext, h1]
      rcases List.mem_append.mp hi with hi | hi
      · simp [hne i hi, hh.live i hi]
      · simp at hi; simp [hi]
    · rw [List.nodup_append]
      exact ⟨hh.nodup, by simp, by intro a ha b hb; simp at hb; subst hb; exact hne a ha⟩
    · intro i hi
      simp only [Heap.setNext, h1]
      rcases List.mem_append.mp hi with hi | hi
      · have := hh.below i hi; omega
      · simp at hi; omega
    · rw [List.map_append, ← hh.data]
      congr 1
      · refine List.map_congr_left fun i hi => ?_
        simp [Heap.setNext, h1, hne i hi]
      · simp [Heap.setNext, h1]

/-! ## Finding drivers -/

theorem matchStrings_find (e : Env) (p : Nat) (m : Mod) (ss : List String) :
    matchStrings e p ss = ((ss.map fun s => (m, s)).find? fun x => decide (e.check p x.2 ≤ 0)).map fun x => decide (e.check p x.2 = 0) := by
  induction ss with
  | nil => rfl
  | cons s ss ih =>
    rw [matchStrings, List.map_cons, List.find?_cons]
    by_cases h0 : e.check p s = 0
    · simp [h0]
    · by_cases h1 : e.check p s < 0
      · have : e.check p s ≤ 0 := by omega
        simp [h0, h1, this]
      · have : ¬ e.check p s ≤ 0 := by omega
        simp only [h0, h1, if_false, this, decide_false]
        exact ih

theorem matchMods_chosen (e : Env) (p : Nat) : (matchMods e p e.mods).map (·.id) = chosen e p := by
  unfold chosen
  induction e.mods with
  | nil => rfl
  | cons m ms ih =>
    rw [matchMods, List.flatMap_cons, List.find?_append, matchStrings_find e p m]
    cases hf : (m.strings.map fun s => (m, s)).find? fun x => decide (e.check p x.2 ≤ 0) with
    | none => simp only [Option.map_none, Option.none_or]; exact ih
    | some x =>
      have hm : x.1 = m := by
        have := List.mem_of_find?_eq_some hf
        obtain ⟨s, _, rfl⟩ := List.mem_map.mp this
        rfl
      simp only [Option.map_some, Option.some_or]
      by_cases h0 : e.check p x.2 = 0
      · simp [h0, hm]
      · simp [h0]

/-- What the first loop does: the first round of all devices. -/
theorem findAll_ok (e : Env) (hm : Enough e) : ∀ (paths : List Nat) (s : State) (ts : List Token) (ids : List Nat), Holds s.heap s.head ts ids →
    ∃ s' ids', findAll e s paths = .ok s' ∧ Holds s'.heap s'.head (ts ++ (round e (devices e paths) s.trace).1) ids' ∧ s'.trace = (round e (devices e paths) s.trace).2 := by
  intro paths
  induction paths with
  | nil => intro s ts ids h; exact ⟨s, ids, rfl, by simpa [devices, round] using h, rfl⟩
  | cons p ps ih =>
    intro s ts ids h
    rw [findAll]
    by_cases hk : e.known p = true
    · rw [if_pos hk, find]
      have hch := matchMods_chosen e p
      cases hmm : matchMods e p e.mods with
      | none =>
        rw [hmm] at hch
        have hdev : devices e (p :: ps) = devices e ps := by simp [devices, List.filterMap_cons, hk, ← hch]
        rw [hdev]
        exact ih s ts ids h
      | some m =>
        rw [hmm] at hch
        have hdev : devices e (p :: ps) = ⟨p, m.id⟩ :: devices e ps := by simp [devices, List.filterMap_cons, hk, ← hch]
        rw [hdev]
        simp only [round]
        by_cases hr : e.ret s.trace ⟨p, m.id⟩ = e.DEFER
        · simp only [hr, if_true]
          rw [defer, if_pos (hm _).1, if_pos (hm _).2]
          obtain ⟨h', head', h1, h2⟩ := append_ok h ⟨p, m.id⟩
          simp only [h1]
          obtain ⟨s', ids', g1, g2, g3⟩ := ih ⟨h', head', ⟨⟨p, m.id⟩, e.DEFER⟩ :: s.trace⟩ (ts ++ [⟨p, m.id⟩]) _ h2
          refine ⟨s', ids', g1, ?_, g3⟩
          rw [List.append_assoc] at g2
          exact g2
        · simp only [hr, if_false]
          exact ih { s with trace := ⟨⟨p, m.id⟩, e.ret s.trace ⟨p, m.id⟩⟩ :: s.trace } ts ids h
    · rw [if_neg hk]
      have hdev : devices e (p :: ps) = devices e ps := by simp [devices, List.filterMap_cons, hk]
      rw [hdev]
      exact ih s ts ids h

/-! ## The rounds -/

theorem Chain.tail_none {next : Nat → Option Nat} {x : Option Nat} {l : List Nat} (h : Chain next x l) {m : Nat} (hm : l.getLast? = some m) : next m = none := by
  induction h with
  | nil => cases hm
  | @cons a l hc ih =>
    cases hl : l with
    | nil =>
      subst hl
      simp at hm
      subst hm
      have := hc.head
      simpa using this
    | cons b l' =>
      rw [hl, List.getLast?_cons_cons, ← hl] at hm
      exact ih hm

/-- The first update of the inner loop. -/
def link (tail : Option Nat) (h : Heap) (n : Nat) : Heap :=
  match tail with
  | some m => h.setNext m (some n)
  | none => h

theorem inner_succ (e : Env) (fuel : Nat) (h : Heap) (n : Nat) (set tail : Option Nat) (tr : Trace) :
    inner e (fuel + 1) h (some n) set tail tr = if h.live n then
        if e.ret tr (h.data n) = e.DEFER then
          inner e fuel ((link tail h n).setNext n none)
            ((link tail h n).next n) (if set = none then some n else set) (some n) (⟨h.data n, e.ret tr (h.data n)⟩ :: tr)
        else inner e fuel { h with live := fun i => if i = n then false else h.live i } (h.next n) set tail (⟨h.data n, e.ret tr (h.data n)⟩ :: tr)
      else .fault := rfl

theorem inner_ok (e : Env) : ∀ (cs : List Nat) (fuel : Nat) (h : Heap) (cur set tail : Option Nat) (ds : List Nat) (tr : Trace),
    cs.length ≤ fuel → Chain h.next cur cs → Chain h.next set ds → tail = ds.getLast? → (cs ++ ds).Nodup → (∀ i ∈ cs ++ ds, h.live i = true) →
    ∃ h' set' ids, inner e fuel h cur set tail tr = .ok (h', set', (round e (cs.map h.data) tr).2) ∧ ids.Sublist cs ∧
      Chain h'.next set' (ds ++ ids) ∧ ids.map h.data = (round e (cs.map h.data) tr).1 ∧ (∀ i ∈ ds ++ ids, h'.live i = true) ∧
      h'.data = h.data ∧ h'.top = h.top ∧ (∀ i ∈ cs, i ∉ ids → h'.live i = false) ∧ (∀ i, i ∉ cs → h'.live i = h.live i) := by
  intro cs
  induction cs with
  | nil =>
    intro fuel h cur set tail ds tr _ hc hds _ _ hl
    cases hc
    refine ⟨h, set, [], by rw [inner]; rfl, .refl _, by simpa using hds, rfl, by simpa using hl, rfl, rfl, by simp, by simp⟩
  | cons n cs ih =>
    intro fuel h cur set tail ds tr hf hc hds ht hn hl
    cases hc with
    | cons hc =>
    cases fuel with
    | zero => simp at hf
    | succ fuel =>
    rw [inner_succ, if_pos (hl n (by simp))]
    have hn' := hn
    rw [List.cons_append, List.nodup_cons, List.mem_append, not_or] at hn
    obtain ⟨⟨hncs, hnds⟩, hnd⟩ := hn
    have hdisj : ∀ i ∈ cs, i ∉ ds := fun i hi hd => (List.nodup_append.mp hnd).2.2 i hi i hd rfl
    by_cases hr : e.ret tr (h.data n) = e.DEFER
    · rw [if_pos hr]
      -- the heap after the two updates
      have key : ∀ h2 : Heap, h2 = (link tail h n) →
          h2.next n = h.next n ∧ h2.data = h.data ∧ h2.live = h.live ∧ h2.top = h.top ∧ Chain (h2.setNext n none).next (h.next n) cs ∧
          Chain (h2.setNext n none).next (if set = none then some n else set) (ds ++ [n]) := by
        intro h2 he
        cases hds0 : ds with
        | nil =>
          subst hds0
          simp at ht
          subst ht
          subst he
          cases hds
          refine ⟨rfl, rfl, rfl, rfl, hc.congr fun i hi => ?_, ?_⟩
          · have : i ≠ n := fun hh => hncs (hh ▸ hi)
            simp [Heap.setNext, this]
          · simp only [if_true, List.nil_append]
            exact .cons (by simp [Heap.setNext]; exact .nil)
        | cons d ds' =>
          have hex : ∃ m, ds.getLast? = some m := by
            rw [hds0]; exact ⟨_, List.getLast?_eq_getLast_of_ne_nil (by simp)⟩
          obtain ⟨m, hm⟩ := hex
          rw [hm] at ht
          subst ht
          subst he
          have hmds := List.mem_of_getLast? hm
          have hnm : n ≠ m := fun hh => hnds (hh ▸ hmds)
          refine ⟨by simp [link, Heap.setNext, hnm], rfl, rfl, rfl, hc.congr fun i hi => ?_, ?_⟩
          · have h1 : i ≠ n := fun hh => hncs (hh ▸ hi)
            have h2 : i ≠ m := fun hh => hdisj i hi (hh ▸ hmds)
            simp [link, Heap.setNext, h1, h2]
          · have hset : set ≠ none := by
              rw [hds.head, hds0]; simp
            rw [if_neg hset, ← hds0]
            exact (hds.snoc n hnds (List.nodup_append.mp hnd).2.1 m hm).congr fun i _ => by
              simp [link, Heap.setNext]
      obtain ⟨k1, k2, k3, k4, k5, k6⟩ := key _ rfl
      generalize (link tail h n) = h2 at k1 k2 k3 k4 k5 k6 ⊢
      rw [k1]
      obtain ⟨h', set', ids, g1, g2, g3, g4, g5, g6, g7, g8, g9⟩ := ih fuel (h2.setNext n none) (h.next n) (if set = none then some n else set) (some n) (ds ++ [n]) (⟨h.data n, e.ret tr (h.data n)⟩ :: tr)
        (by simp at hf; omega) k5 k6 (by simp) (by
          rw [List.nodup_append] at hnd ⊢
          refine ⟨hnd.1, ?_, ?_⟩
          · rw [List.nodup_append]
            exact ⟨hnd.2.1, by simp, by intro a ha b hb; simp at hb; subst hb; intro hh; exact hnds (hh ▸ ha)⟩
          · intro a ha b hb
            rcases List.mem_append.mp hb with hb | hb
            · exact hnd.2.2 a ha b hb
            · simp at hb; subst hb; intro hh; exact hncs (hh ▸ ha)) (by
          intro i hi
          show h2.live i = true
          rw [k3]
          apply hl
          simp only [List.mem_append, List.mem_cons, List.not_mem_nil, or_false] at hi ⊢
          tauto)
      have hd2 : (h2.setNext n none).data = h.data := k2
      rw [hd2] at g1 g4 g6
      refine ⟨h', set', n :: ids, ?_, g2.cons_cons n, ?_, ?_, ?_, g6, by rw [g7]; exact k4, ?_, ?_⟩
      · rw [g1]; rfl
      · rw [List.append_assoc] at g3; exact g3
      · rw [List.map_cons, List.map_cons, round]
        simp only [hr, if_true]
        rw [g4, hr]
      · intro i hi
        apply g5
        simp only [List.mem_append, List.mem_cons, List.not_mem_nil, or_false] at hi ⊢
        tauto
      · intro i hi hni
        rw [List.mem_cons, not_or] at hni
        rcases List.mem_cons.mp hi with rfl | hi
        · exact absurd rfl hni.1
        · exact g8 i hi hni.2
      · intro i hi
        rw [List.mem_cons, not_or] at hi
        rw [g9 i hi.2]
        show h2.live i = _
        rw [k3]
    · rw [if_neg hr]
      obtain ⟨h', set', ids, g1, g2, g3, g4, g5, g6, g7, g8, g9⟩ := ih fuel { h with live := fun i => if i = n then false else h.live i } (h.next n) set tail ds (⟨h.data n, e.ret tr (h.data n)⟩ :: tr)
        (by simp at hf; omega) hc hds ht hnd (by
          intro i hi
          have : i ≠ n := by
            rintro rfl
            rcases List.mem_append.mp hi with h | h
            · exact hncs h
            · exact hnds h
          simp only [this, if_false]
          apply hl
          rw [List.cons_append]
          exact List.mem_cons_of_mem _ hi)
      refine ⟨h', set', ids, ?_, g2.cons n, g3, ?_, g5, g6, g7, ?_, ?_⟩
      · rw [g1]; rfl
      · rw [g4, List.map_cons, round]
        simp only [hr, if_false]
      · intro i hi hni
        rcases List.mem_cons.mp hi with rfl | hi
        · rw [g9 i hncs]; simp
        · exact g8 i hi hni
      · intro i hi
        rw [List.mem_cons, not_or] at hi
        rw [g9 i hi.2]
        simp [hi.1]

theorem round_length (e : Env) : ∀ (ts : List Token) (tr : Trace), (round e ts tr).1.length ≤ ts.length := by
  intro ts
  induction ts with
  | nil => intro tr; simp [round]
  | cons t ts ih =>
    intro tr
    have := ih (⟨t, e.ret tr t⟩ :: tr)
    simp only [round]
    split <;> simp only [List.length_cons] <;> omega

theorem outer_exact (e : Env) (fuel : Nat) : ∀ (k : Nat) (h : Heap) (head : Option Nat) (ts : List Token) (ids : List Nat) (tr : Trace),
    Holds h head ts ids → ts.length ≤ fuel →
    (∀ tr', rounds e k ts tr = some tr' → ∃ h', outer e fuel k h head tr = .ok (h', tr') ∧ (∀ i ∈ ids, h'.live i = false)) ∧
    (rounds e k ts tr = none → outer e fuel k h head tr = .more) := by
  intro k
  induction k with
  | zero =>
    intro h head ts ids tr hh _
    have hdat := hh.data
    have hc := hh.chain
    cases ids with
    | nil =>
      cases hc
      simp at hdat
      subst hdat
      refine ⟨fun tr' ht => ?_, fun ht => (by cases ht)⟩
      cases ht
      exact ⟨h, rfl, by simp⟩
    | cons n ids =>
      cases hc
      subst hdat
      exact ⟨fun tr' ht => (by cases ht), fun _ => rfl⟩
  | succ k ih =>
    intro h head ts ids tr hh hf
    have hdat := hh.data
    have hc := hh.chain
    cases ids with
    | nil =>
      cases hc
      simp at hdat
      subst hdat
      refine ⟨fun tr' ht => ?_, fun ht => (by cases ht)⟩
      cases ht
      exact ⟨h, rfl, by simp⟩
    | cons n ids =>
      cases hc with
      | cons hc =>
      have hr : rounds e (k + 1) ts tr = rounds e k (round e ts tr).1 (round e ts tr).2 := by
        rw [← hdat]; rfl
      rw [hr, outer]
      obtain ⟨h', set', ids', g1, g2, g3, g4, g5, g6, g7, g8, g9⟩ := inner_ok e (n :: ids) fuel h (some n) none none [] tr
        (by rw [← hdat] at hf; simpa using hf) (.cons hc) .nil rfl (by simpa using hh.nodup) (by simpa using hh.live)
      rw [hdat] at g1 g4
      rw [g1]
      simp only
      have hh' : Holds h' set' (round e ts tr).1 ids' := by
        refine ⟨by simpa using g3, by simpa using g5, g2.nodup hh.nodup, ?_, by rw [g6]; exact g4⟩
        intro i hi
        rw [g7]
        exact hh.below i (g2.subset hi)
      obtain ⟨j1, j2⟩ := ih h' set' _ ids' (round e ts tr).2 hh' (by have := round_length e ts tr; omega)
      refine ⟨fun tr' ht => ?_, j2⟩
      obtain ⟨h'', q1, q2⟩ := j1 tr' ht
      refine ⟨h'', q1, fun i hi => ?_⟩
      by_cases hi' : i ∈ ids'
      · exact q2 i hi'
      · have hdead := g8 i hi hi'
        -- a node that is dead stays dead
        exact dead_stays e fuel k h' set' (round e ts tr).2 h'' tr' q1 i hdead
where
  dead_inner (e : Env) : ∀ (fuel : Nat) (h : Heap) (cur set tail : Option Nat) (tr : Trace) (h' : Heap) (set' : Option Nat) (tr' : Trace),
      inner e fuel h cur set tail tr = .ok (h', set', tr') → ∀ i, h.live i = false → h'.live i = false := by
    intro fuel
    induction fuel with
    | zero =>
      intro h cur set tail tr h' set' tr' hi i hd
      cases cur with
      | none => rw [inner] at hi; cases hi; exact hd
      | some n => rw [inner] at hi; cases hi
    | succ fuel ih =>
      intro h cur set tail tr h' set' tr' hi i hd
      cases cur with
      | none => rw [inner] at hi; cases hi; exact hd
      | some n =>
        rw [inner_succ] at hi
        split at hi
        · split at hi
          · refine ih _ _ _ _ _ _ _ _ hi i ?_
            cases tail <;> exact hd
          · refine ih _ _ _ _ _ _ _ _ hi i ?_
            simp only
            split
            · rfl
            · exact hd
        · cases hi
  dead_stays (e : Env) (fuel : Nat) : ∀ (k : Nat) (h : Heap) (head : Option Nat) (tr : Trace) (h' : Heap) (tr' : Trace),
      outer e fuel k h head tr = .ok (h', tr') → ∀ i, h.live i = false → h'.live i = false := by
    intro k
    induction k with
    | zero =>
      intro h head tr h' tr' ho i hd
      cases head with
      | none => rw [outer] at ho; cases ho; exact hd
      | some n => rw [outer] at ho; cases ho
    | succ k ih =>
      intro h head tr h' tr' ho i hd
      cases head with
      | none => rw [outer] at ho; cases ho; exact hd
      | some n =>
        rw [outer] at ho
        cases hi : inner e fuel h (some n) none none tr with
        | ok x =>
          rw [hi] at ho
          obtain ⟨h2, set2, tr2⟩ := x
          exact ih _ _ _ _ _ ho i (dead_inner e _ _ _ _ _ _ _ _ _ hi i hd)
        | fault => rw [hi] at ho; cases ho
        | abort => rw [hi] at ho; cases ho
        | more => rw [hi] at ho; cases ho

end Verif.Drivers
